import Verif.Core.IgesBack

/-!
# C38: writing and reading IGES files

The layout of a written file, what the directory entries point to and what the parameter data contain are stated on the columns of the
file. Reading back recovers every list of curves up to the 18 printed digits. Reading back a surface is an access behind the end of the
parameter data, and numbers that are printed with an exponent but without a decimal point are misread.
-/

namespace SplineLib
set_option linter.unusedSectionVars false
open Str Prn
variable {K : Type} [LinearOrder K] [Field K] [IsStrictOrderedRing K]

/-- All knots, weights and coordinates of the spline. -/
def allNumbers (s : Spl K) : List K := s.ps.knots.flatten ++ (s.ph.weights.getD [] ++ s.ph.cps)

/-- The number of knots, weights and coordinates in the file: three coordinates and a weight for each point. -/
def dataCount (s : Spl K) : ℕ := s.ps.knots.flatten.length + 4 * (npts s).prod

/-- Curves and surfaces with numbers in the range of `double` and sizes for which seven digits are enough to number the lines. -/
structure IgesWritable (filename time1 time2 : List Char) (ss : List (Spl K)) : Prop where
  wf : ∀ s ∈ ss, WFSpl s ∧ (s.ps.knots.length = 1 ∨ s.ps.knots.length = 2)
  range : ∀ s ∈ ss, ∀ x ∈ allNumbers s, DoubleRange x
  names : filename.length + time1.length + time2.length ≤ 10 ^ 6
  total : (ss.map fun s => dataCount s + 12).sum ≤ 9 * 10 ^ 6

theorem bodyNums_length {s : Spl K} (h : WFSpl s) : (bodyNums s).length = dataCount s := by
  unfold bodyNums
  rw [List.length_append, List.length_append, weightList_length h, points3_flatten_length]
  unfold dataCount
  omega

theorem doubleRange_one : DoubleRange (1 : K) := by
  refine Or.inr ⟨?_, ?_⟩
  · rw [abs_one, div_le_one (pow_pos (by norm_num) _)]; exact one_le_pow₀ (by norm_num)
  · rw [abs_one]; exact one_le_pow₀ (by norm_num)

theorem doubleRange_small {n : ℕ} (h : n ≤ 6) : DoubleRange (1 / 10 ^ n : K) := by
  have hp : (0 : K) < 10 ^ n := by positivity
  refine Or.inr ⟨?_, ?_⟩
  · rw [abs_of_pos (by positivity)]
    refine one_div_le_one_div_of_le hp ?_
    calc (10 : K) ^ n ≤ (2 ^ 4) ^ n := pow_le_pow_left₀ (by norm_num) (by norm_num) n
      _ = 2 ^ (4 * n) := (pow_mul _ _ _).symm
      _ ≤ 2 ^ 1074 := pow_le_pow_right₀ (by norm_num) (by omega)
  · rw [abs_of_pos (by positivity)]
    refine le_trans ((div_le_one hp).2 (one_le_pow₀ (by norm_num))) (one_le_pow₀ (by norm_num))

theorem mem_point3 {s : Spl K} (h : WFSpl s) {x : K} (hx : x ∈ (points3 s).flatten) : x = 0 ∨ x ∈ s.ph.cps := by
  obtain ⟨q, hq, hx⟩ := List.mem_flatten.1 hx
  obtain ⟨i, hi, rfl⟩ := List.mem_map.1 hq
  obtain ⟨j, hj, rfl⟩ := List.mem_map.1 hx
  have hi := List.mem_range.1 hi
  by_cases hd : j < s.ph.dim
  · rw [if_pos hd]
    have : s.ph.dim * i + j < s.ph.cps.length := by
      rw [h.cps]
      calc s.ph.dim * i + j < s.ph.dim * i + s.ph.dim := by omega
        _ = s.ph.dim * (i + 1) := by ring
        _ ≤ _ := Nat.mul_le_mul_left _ hi
    right
    rw [List.getD_eq_getElem?_getD, List.getElem?_eq_getElem this]
    exact List.getElem_mem _
  · rw [if_neg hd]; exact Or.inl rfl

/-- Every number in the parameter data is a number of the spline, a weight 1 or a coordinate 0. -/
theorem mem_bodyNums {s : Spl K} (h : WFSpl s) {x : K} (hx : x ∈ bodyNums s) : x = 0 ∨ x = 1 ∨ x ∈ allNumbers s := by
  unfold bodyNums at hx
  unfold allNumbers
  rcases List.mem_append.1 hx with hx | hx
  · exact Or.inr (Or.inr (List.mem_append_left _ hx))
  rcases List.mem_append.1 hx with hx | hx
  · unfold weightList at hx
    cases hw : s.ph.weights with
    | none => rw [hw] at hx; exact Or.inr (Or.inl (List.eq_of_mem_replicate hx))
    | some w => rw [hw] at hx; exact Or.inr (Or.inr (by simp [hx]))
  · rcases mem_point3 h hx with h0 | h0
    · exact Or.inl h0
    · exact Or.inr (Or.inr (by simp [h0]))

section
variable [LawfulGen K]

theorem bodyNums_short {s : Spl K} (h : WFSpl s) (hr : ∀ x ∈ allNumbers s, DoubleRange x) : ∀ x ∈ bodyNums s, ShortExp x := by
  intro x hx
  rcases mem_bodyNums h hx with rfl | rfl | hx
  · exact Or.inl rfl
  · exact shortExp_of_double doubleRange_one
  · exact shortExp_of_double (hr x hx)

theorem headNats_length (s : Spl K) : (headNats s).length ≤ 10 := by
  unfold headNats
  simp only
  split <;> simp

theorem paramText_length {s : Spl K} (h : WFSpl s) (hr : ∀ x ∈ allNumbers s, DoubleRange x) (hk : s.ps.knots.flatten.length < 10 ^ 7) :
    (paramText s).length ≤ 26 * (dataCount s + 10) + 1 := by
  refine (joinFields_length _ 25 ?_).trans ?_
  · intro t ht
    rcases List.mem_append.1 ht with ht | ht
    · obtain ⟨n, hn, rfl⟩ := List.mem_map.1 ht
      exact (natText_le (k := 6) (headNats_lt h hk n hn)).trans (by norm_num)
    · obtain ⟨x, hx, rfl⟩ := List.mem_map.1 ht
      exact generalText_length (bodyNums_short h hr x hx)
  · have : (fieldTexts s).length ≤ dataCount s + 10 := by
      unfold fieldTexts
      rw [List.length_append, List.length_map, List.length_map, bodyNums_length h]
      have := headNats_length s
      omega
    have := Nat.mul_le_mul_left 26 this
    omega

theorem IgesWritable.fits {filename time1 time2 : List Char} {ss : List (Spl K)} (h : IgesWritable filename time1 time2 ss) :
    IgesFits filename time1 time2 ss := by
  have hone : ∀ s ∈ ss, dataCount s + 12 ≤ 9 * 10 ^ 6 := fun s hs =>
    (List.single_le_sum (fun _ _ => Nat.zero_le _) _ (List.mem_map_of_mem hs)).trans h.total
  have hkn : ∀ s ∈ ss, s.ps.knots.flatten.length < 10 ^ 7 := fun s hs => by
    have := hone s hs
    unfold dataCount at this
    omega
  have htext : ∀ s ∈ ss, (paramText s).length ≤ 26 * (dataCount s + 10) + 1 := fun s hs =>
    paramText_length (h.wf s hs).1 (h.range s hs) (hkn s hs)
  have hcount : ∀ s ∈ ss, pCount s ≤ dataCount s + 12 := fun s hs => by
    have := htext s hs
    unfold pCount pieces
    omega
  have htot : ∀ l : List (Spl K), (∀ s ∈ l, s ∈ ss) → pTotal l ≤ (l.map fun s => dataCount s + 12).sum ∧
      12 * l.length ≤ (l.map fun s => dataCount s + 12).sum := by
    intro l
    induction l with
    | nil => intro _; simp [pTotal]
    | cons s l ih =>
      intro hl
      obtain ⟨h1, h2⟩ := ih fun t ht => hl t (by simp [ht])
      have h3 := hcount s (hl s (by simp))
      rw [pTotal_cons, List.map_cons, List.sum_cons, List.length_cons]
      omega
  obtain ⟨ht1, ht2⟩ := htot ss fun s hs => hs
  have ht := h.total
  refine ⟨fun s hs => ⟨(h.wf s hs).1, (h.wf s hs).2, hkn s hs, ?_⟩, h.names, fun s hs => ?_, ⟨?_, ?_, ?_, ?_⟩, by omega, by omega⟩
  · have h1 := htext s hs
    have h2 := hone s hs
    omega
  · refine generalText_length ?_
    rcases expansion_mem s.ph with h0 | h0
    · exact Or.inl h0
    · exact shortExp_of_double (h.range s hs _ (by unfold allNumbers; simp [h0]))
  · exact generalText_length (Or.inl rfl)
  · exact generalText_length (shortExp_of_double doubleRange_one)
  · exact generalText_length (shortExp_of_double (doubleRange_small (by norm_num)))
  · exact generalText_length (shortExp_of_double (doubleRange_small (by norm_num)))
end

/-! ### The layout -/

/-- A text at the right end of a field. -/
def rightJustified (t : List Char) (w : ℕ) : List Char := List.replicate (w - t.length) ' ' ++ t

/-- A section: every line has 80 columns, the letter in column 73 and the number of the line, from 1 on, at the right end of the last
seven columns. -/
def IgesSection (letter : Char) (ls : List (List Char)) : Prop :=
  ∀ i (h : i < ls.length), ls[i].length = 80 ∧ ls[i][72]? = some letter ∧ ls[i].drop 73 = rightJustified (natText (i + 1)) 7 ∧ i + 1 < 10 ^ 7

theorem section_of_numbered {letter : Char} {ls : List (List Char)} (h : Numbered letter 0 ls) (hl : ls.length < 10 ^ 7) :
    IgesSection letter ls := by
  intro i hi
  obtain ⟨t, ht, he⟩ := h i hi
  rw [Nat.zero_add] at he
  have h7 : (padR (natText (i + 1)) 7).length = 7 := padR_length (natText_le (k := 6) (by omega))
  refine ⟨?_, ?_, ?_, by omega⟩
  · rw [he, List.length_append, ht, List.length_cons, h7]
  · rw [he, List.getElem?_append_right (by omega), ht]; rfl
  · rw [he, show t ++ letter :: padR (natText (i + 1)) 7 = (t ++ [letter]) ++ padR (natText (i + 1)) 7 by simp,
      List.drop_append_of_le_length (by simp; omega), List.drop_of_length_le (by simp; omega)]; rfl

/-- The lines of a file in their sections. -/
structure IgesLayout (ss : List (Spl K)) (S G D P T : List (List Char)) : Prop where
  start : IgesSection 'S' S ∧ S.length = 1
  global : IgesSection 'G' G ∧ 0 < G.length
  directory : IgesSection 'D' D ∧ D.length = 2 * ss.length
  parameters : IgesSection 'P' P
  terminate : IgesSection 'T' T
  counts : ∃ r, T = ['S' :: rightJustified (natText S.length) 7 ++ 'G' :: rightJustified (natText G.length) 7 ++
    'D' :: rightJustified (natText D.length) 7 ++ 'P' :: rightJustified (natText P.length) 7 ++ r]

/-- The integers at the beginning of the parameter data: the number of the entity, the number of points minus one and the degree of each
direction, and the flags (planar, closed, polynomial, periodic). -/
def igesHead (s : Spl K) : List ℕ :=
  let polynomial := if s.ph.weights.isSome then 0 else 1
  if s.ps.knots.length = 1 then 126 :: (npts s).map (· - 1) ++ s.ps.degree ++ [0, 0, polynomial, 0]
  else 128 :: (npts s).map (· - 1) ++ s.ps.degree ++ [0, 0, polynomial, 0, 0]

/-- The first three coordinates of the `i`-th control point, 0 where the spline has fewer. -/
def igesPoint (s : Spl K) (i : ℕ) : List K := [0, 1, 2].map fun j => if j < s.ph.dim then s.ph.cps.getD (s.ph.dim * i + j) 0 else 0

/-- The knots, the weights (1 for a spline without weights) and the points. -/
def igesData (s : Spl K) : List K :=
  s.ps.knots.flatten ++ (s.ph.weights.getD (List.replicate (npts s).prod 1) ++ (List.range (npts s).prod).flatMap (igesPoint s))

theorem igesData_eq (s : Spl K) : igesData s = bodyNums s := by
  unfold igesData bodyNums weightList points3
  congr 2
  · cases s.ph.weights <;> rfl

theorem igesHead_eq {s : Spl K} (h : WFSpl s) (hk : s.ps.knots.length = 1 ∨ s.ps.knots.length = 2) : igesHead s = headNats s := by
  have h1 := npts_length h
  have h2 := h.knots.length_eq
  unfold igesHead headNats
  rcases hk with hk | hk
  · obtain ⟨n, hn⟩ := List.length_eq_one_iff.1 (h1.trans hk)
    obtain ⟨p, hp⟩ := List.length_eq_one_iff.1 (h2.symm.trans hk)
    rw [if_pos hk, hn, hp]; rfl
  · obtain ⟨n, m, hn⟩ := List.length_eq_two.1 (h1.trans hk)
    obtain ⟨p, q, hp⟩ := List.length_eq_two.1 (h2.symm.trans hk)
    rw [if_neg (by omega), hn, hp]; rfl

/-- The directory entry and the parameter data of a spline: the entity number in the first field and the number of the first parameter
line in the second field of the first line (fields of eight columns), the number of parameter lines in the fourth field of the second line;
every one of these parameter lines points back to the first line of the entry; their first 64 columns together are the integers and the
numbers of the spline, separated by commas, ended by a semicolon and filled with fewer than 64 blanks. -/
structure IgesEntity [GenPrinter K] (D P : List (List Char)) (k : ℕ) (s : Spl K) : Prop where
  entry : ∃ l l' first count, D[2 * k]? = some l ∧ D[2 * k + 1]? = some l' ∧
    l.take 8 = rightJustified (natText (if s.ps.knots.length = 1 then 126 else 128)) 8 ∧
    l'.take 8 = rightJustified (natText (if s.ps.knots.length = 1 then 126 else 128)) 8 ∧
    (l.drop 8).take 8 = rightJustified (natText first) 8 ∧ (l'.drop 24).take 8 = rightJustified (natText count) 8 ∧
    1 ≤ first ∧ first - 1 + count ≤ P.length ∧
    (∀ q ∈ (P.drop (first - 1)).take count, (q.drop 64).take 8 = rightJustified (natText (2 * k + 1)) 8) ∧
    ∃ n < 64, ((P.drop (first - 1)).take count).flatMap (fun q => q.take 64) =
      joinFields ((igesHead s).map natText ++ (igesData s).map Iges.generalText) ++ List.replicate n ' '

section
variable [LawfulGen K]

theorem layout_lines {c : List Char} {ss : List (Spl K)} (hp : pieces 72 c < 10 ^ 7) (hc : 2 * ss.length + 1 < 10 ^ 7)
    (ht : pTotal ss + 1 < 10 ^ 7) : IgesLayout ss startLines (globalLines c) (secD ss 0 0) (secP ss 0 0)
      (terminateLines 1 (pieces 72 c) (2 * ss.length) (pTotal ss)) := by
  have hg : (globalLines c).length = pieces 72 c := by unfold globalLines; rw [List.length_map, List.length_range]
  refine ⟨⟨section_of_numbered numbered_start (by simp [startLines]), rfl⟩,
    ⟨section_of_numbered (numbered_72 _ _ _ _) (by rw [hg]; exact hp), by rw [hg]; simp [pieces]⟩,
    ⟨section_of_numbered (numbered_secD ss 0 0 (by omega)) (by rw [secD_length]; omega), secD_length ss 0 0⟩,
    section_of_numbered (numbered_secP ss 0 0 (by omega)) (by rw [secP_length]; omega),
    section_of_numbered (numbered_terminate (by norm_num) hp (by omega) (by omega)) (by simp [terminateLines]), ?_⟩
  rw [secD_length, secP_length, hg]
  exact ⟨_, rfl⟩

/-- **C38** The writer accepts every list of curves and surfaces, and the file has the layout of IGES files: the five sections one after
the other, all lines with 80 columns, the section letter in column 73, and consecutive numbers; the last line counts the lines of the
sections. -/
theorem C38_layout {filename time1 time2 : List Char} {ss : List (Spl K)} (h : IgesWritable filename time1 time2 ss) :
    ∃ S G D P T, Iges.writeFile filename time1 time2 ss = .ok ((S ++ G ++ D ++ P ++ T).flatMap fun l => l ++ ['\n']) ∧
      IgesLayout ss S G D P T := by
  have hf := h.fits
  obtain ⟨m, _, hp, hl⟩ := fileLines_eq hf
  refine ⟨_, _, _, _, _, ?_, layout_lines hp hf.count hf.total⟩
  unfold Iges.writeFile
  rw [hl, ok_bind]; rfl

theorem padR_eq (t : List Char) (w : ℕ) : padR t w = rightJustified t w := rfl

theorem padR_succ {t : List Char} {w : ℕ} (h : t.length ≤ w) : ' ' :: padR t w = rightJustified t (w + 1) := by
  unfold padR rightJustified
  rw [show w + 1 - t.length = (w - t.length) + 1 by omega, List.replicate_succ]; rfl

theorem entity_of_split {a b : List (Spl K)} {s : Spl K} (h : IgesOne s) (ht : pTotal (a ++ s :: b) + 1 < 10 ^ 7)
    (hc : 2 * (a ++ s :: b).length + 1 < 10 ^ 7) :
    IgesEntity (secD (a ++ s :: b) 0 0) (secP (a ++ s :: b) 0 0) a.length s := by
  have hlD : (secD a 0 0).length = 2 * a.length := secD_length a 0 0
  have hlP : (secP a 0 0).length = pTotal a := secP_length a 0 0
  rw [pTotal_append, pTotal_cons] at ht
  simp only [List.length_append, List.length_cons] at hc
  have h0 : (padR (natText 0) 8).length = 8 := padR_length (natText8 (by norm_num))
  have h1 : (padR (natText (entityNo s)) 8).length = 8 := padR_length (natText8 (by have := entityNo_lt s; omega))
  have h2 : (padR (natText (pTotal a + 1)) 8).length = 8 := padR_length (natText8 (by omega))
  have h3 : (padR (natText (pCount s)) 8).length = 8 := padR_length (natText8 (by omega))
  have hA := entryA_length (start := pTotal a + 1) (by omega) s
  have hB := entryB_length (count := pCount s) (by omega) s
  have hlines : ((secP (a ++ s :: b) 0 0).drop (pTotal a + 1 - 1)).take (pCount s) = pLines s (2 * a.length + 1) (pTotal a) := by
    rw [secP_append, Nat.add_sub_cancel, List.drop_append_of_le_length (by omega), List.drop_of_length_le (by omega), List.nil_append, secP,
      List.take_append_of_le_length (by simp [pLines]), List.take_of_length_le (by simp [pLines])]
    simp
  refine ⟨entryA (pTotal a + 1) s ++ 'D' :: padR (natText (2 * a.length + 1)) 7,
    entryB (pCount s) s ++ 'D' :: padR (natText (2 * a.length + 2)) 7, pTotal a + 1, pCount s, ?_, ?_, ?_, ?_, ?_, ?_, by omega, ?_, ?_,
    64 * pCount s - (paramText s).length, ?_, ?_⟩
  · rw [secD_append, List.getElem?_append_right (by omega), hlD, Nat.sub_self, secD]
    simp [dLines]
  · rw [secD_append, List.getElem?_append_right (by omega), hlD, show 2 * a.length + 1 - 2 * a.length = 1 by omega, secD]
    simp [dLines]
  · rw [List.take_append_of_le_length (by omega)]
    unfold entryA
    rw [List.take_append_of_le_length (by omega), List.take_of_length_le (by omega)]; rfl
  · rw [List.take_append_of_le_length (by omega)]
    unfold entryB
    rw [List.take_append_of_le_length (by omega), List.take_of_length_le (by omega)]; rfl
  · rw [List.drop_append_of_le_length (by omega), List.take_append_of_le_length (by rw [List.length_drop]; omega)]
    unfold entryA
    rw [List.drop_append_of_le_length (by omega), List.drop_of_length_le (by omega), List.nil_append,
      List.take_append_of_le_length (by omega), List.take_of_length_le (by omega)]; rfl
  · rw [List.drop_append_of_le_length (by omega), List.take_append_of_le_length (by rw [List.length_drop]; omega)]
    unfold entryB
    have h24 : (padR (natText (entityNo s)) 8 ++ (List.replicate 2 (padR (natText 0) 8)).flatten).length = 24 := by simp [h0, h1]
    rw [← List.append_assoc, List.drop_append_of_le_length (by omega), List.drop_of_length_le (by omega), List.nil_append,
      List.take_append_of_le_length (by omega), List.take_of_length_le (by omega)]; rfl
  · rw [secP_length, pTotal_append, pTotal_cons]; omega
  · rw [hlines]
    intro q hq
    obtain ⟨i, _, rfl⟩ := List.mem_map.1 hq
    have h7 : (padR (natText (2 * a.length + 1)) 7).length = 7 := padR_length (natText_le (k := 6) (by omega))
    have hpl := piece_length 64 (paramText s) i
    unfold line64
    rw [List.drop_append_of_le_length (by omega), List.drop_of_length_le (by omega), List.nil_append, ← List.cons_append,
      List.take_append_of_le_length (by rw [List.length_cons]; omega), List.take_of_length_le (by rw [List.length_cons]; omega),
      padR_succ (natText_le (k := 6) (by omega))]
  · have := (pieces_fill (w := 64) (by norm_num) (joinFields_ne (fieldTexts s))).2
    exact this
  · rw [hlines, igesHead_eq h.wf h.kind, igesData_eq]
    have : (pLines s (2 * a.length + 1) (pTotal a)).flatMap (fun q => q.take 64) = ((List.range (pCount s)).map (piece 64 (paramText s))).flatten := by
      unfold pLines
      rw [List.flatMap_map, List.flatMap_def]
      congr 1
      refine List.map_congr_left fun i _ => ?_
      have hpl := piece_length 64 (paramText s) i
      unfold line64
      rw [List.take_append_of_le_length (by omega), List.take_of_length_le (by omega)]
    rw [this]
    exact pieces_flatten (by norm_num) _ _ le_rfl (joinFields_ne _)

/-- **C38** Every directory entry points to the parameter lines of its spline, which point back, and these lines contain exactly the
numbers of the spline. -/
theorem C38_entities {filename time1 time2 : List Char} {ss : List (Spl K)} (h : IgesWritable filename time1 time2 ss) :
    ∃ S G D P T, Iges.writeFile filename time1 time2 ss = .ok ((S ++ G ++ D ++ P ++ T).flatMap fun l => l ++ ['\n']) ∧
      IgesLayout ss S G D P T ∧ ∀ k (hk : k < ss.length), IgesEntity D P k ss[k] := by
  have hf := h.fits
  obtain ⟨m, _, hp, hl⟩ := fileLines_eq hf
  refine ⟨_, _, _, _, _, ?_, layout_lines hp hf.count hf.total, ?_⟩
  · unfold Iges.writeFile
    rw [hl, ok_bind]; rfl
  · intro k hk
    have hsplit : ss = ss.take k ++ ss[k] :: ss.drop (k + 1) := by rw [List.cons_getElem_drop_succ, List.take_append_drop]
    have hlen : (ss.take k).length = k := by rw [List.length_take]; omega
    have := entity_of_split (a := ss.take k) (b := ss.drop (k + 1)) (hf.each _ (List.getElem_mem hk)) (by rw [← hsplit]; exact hf.total)
      (by rw [← hsplit]; exact hf.count)
    rw [← hsplit, hlen] at this
    exact this

/-- **C38** Splines with another number of parametric directions are rejected with an exception. -/
theorem C38_other_dimensions_rejected {filename time1 time2 : List Char} {ss : List (Spl K)}
    (h : ∃ s ∈ ss, s.ps.knots.length ≠ 1 ∧ s.ps.knots.length ≠ 2) :
    Iges.writeFile filename time1 time2 ss = .error (.thrown .runtimeError) := by
  have : ∀ (l : List (Spl K)) (x : K), (∃ s ∈ l, s.ps.knots.length ≠ 1 ∧ s.ps.knots.length ≠ 2) →
      Iges.highestValue l x = .error (.thrown .runtimeError) := by
    intro l
    induction l with
    | nil => intro x h; obtain ⟨s, hs, _⟩ := h; cases hs
    | cons t l ih =>
      intro x h
      unfold Iges.highestValue
      by_cases ht : t.ps.knots.length = 1 ∨ t.ps.knots.length = 2
      · rw [entity_eq ht, ok_bind]
        obtain ⟨s, hs, h1, h2⟩ := h
        rcases List.mem_cons.1 hs with rfl | hs
        · omega
        · exact ih _ ⟨s, hs, h1, h2⟩
      · unfold Iges.entity
        rw [if_neg (by omega), if_neg (by omega)]; rfl
  unfold Iges.writeFile Iges.fileLines Iges.globalSection
  rw [startSection_eq, ok_bind, this ss 0 h]; rfl

/-! ### Reading back -/

/-- Equal up to 17 digits. -/
def NearDigits (x y : K) : Prop := |y - x| ≤ |x| / 10 ^ 17

/-- `r` is the spline `s` as a spline in three dimensions: the same kind, degrees and numbers of points; knots, weights and the first three
coordinates agree up to 17 digits, missing coordinates are 0. -/
structure IgesSame (s r : Spl K) : Prop where
  degree : r.ps.degree = s.ps.degree
  knots : List.Forall₂ (List.Forall₂ NearDigits) s.ps.knots r.ps.knots
  basis : PS.basisTable r.ps.knots r.ps.degree = .ok r.ps.basis
  dim : r.ph.dim = 3
  num : r.ph.num = s.ph.num
  cps : List.Forall₂ NearDigits ((List.range (npts s).prod).flatMap (igesPoint s)) r.ph.cps
  weights : Option.Rel (List.Forall₂ NearDigits) s.ph.weights r.ph.weights

variable [FloorRing K]

theorem near_gd (x : K) : NearDigits x (gd x) := gd_near x

theorem forall₂_near (l : List K) : List.Forall₂ NearDigits l (l.map gd) := by
  rw [List.forall₂_map_right_iff]
  exact List.forall₂_same.2 fun x _ => near_gd x

theorem built_iges {s r : Spl K} (h : WFSpl s)
    (hb : Built r (s.ps.knots.map fun U => U.map gd) s.ps.degree (backPoints3 s) (s.ph.weights.map fun w => w.map gd)) : IgesSame s r := by
  have hc := clampedAll_map gd (h.knots.imp fun U p h => h.clamped)
  have hn := nptsOf_map gd s.ps.knots s.ps.degree
  refine ⟨hb.degree, ?_, ?_, ?_, ?_, ?_, ?_⟩
  · rw [hb.knots, List.forall₂_map_right_iff]
    exact List.forall₂_same.2 fun U _ => forall₂_near U
  · rw [hb.knots, hb.degree, hb.basis]; exact basisTable_eq (clamped_sizes hc)
  · obtain ⟨q, qs, hq⟩ := List.exists_cons_of_ne_nil (backPoints3_ne h)
    rw [hb.dim q (by rw [hq]; simp), backPoints3_dims s q (by rw [hq]; simp)]
  · rw [hb.num, h.num, hn]; rfl
  · rw [hb.cps, ← back_flatten]
    exact forall₂_near _
  · rw [hb.weights]
    cases s.ph.weights with
    | none => exact .none
    | some w => exact .some (forall₂_near w)

theorem noNewline_piece {c : List Char} (h : '\n' ∉ c) (w i : ℕ) : '\n' ∉ piece w c i := by
  unfold piece padL
  intro hm
  rcases List.mem_append.1 hm with hm | hm
  · exact h (List.mem_of_mem_drop (List.mem_of_mem_take hm))
  · exact absurd (List.eq_of_mem_replicate hm) (by decide)

theorem noNewline_nat (n : ℕ) : '\n' ∉ natText n := fun h => absurd (natText_plain n _ h).1 (by decide)

theorem noNewline_padR {t : List Char} (h : '\n' ∉ t) (w : ℕ) : '\n' ∉ padR t w := by
  unfold padR
  intro hm
  rcases List.mem_append.1 hm with hm | hm
  · exact absurd (List.eq_of_mem_replicate hm) (by decide)
  · exact h hm

theorem noNewline_join : ∀ {ts : List (List Char)}, (∀ t ∈ ts, '\n' ∉ t) → '\n' ∉ joinFields ts
  | [], _ => by simp [joinFields]
  | [t], h => by have := h t (by simp); simp [joinFields, this]
  | t :: u :: us, h => by
    have h1 := h t (by simp)
    have h2 := noNewline_join (ts := u :: us) fun v hv => h v (by simp [hv])
    rw [joinFields_cons _ (by simp)]
    simp [h1, h2]

theorem noNewline_general (x : K) : '\n' ∉ Iges.generalText x := fun h => (generalText_chars x _ h).1 rfl

theorem noNewline_param (s : Spl K) : '\n' ∉ paramText s := by
  refine noNewline_join fun t ht => ?_
  rcases List.mem_append.1 ht with ht | ht
  · obtain ⟨n, _, rfl⟩ := List.mem_map.1 ht; exact noNewline_nat n
  · obtain ⟨x, _, rfl⟩ := List.mem_map.1 ht; exact noNewline_general x

theorem noNewline_secP : ∀ (ss : List (Spl K)) (d p : ℕ), ∀ l ∈ secP ss d p, '\n' ∉ l
  | [], _, _, l, hl => by cases hl
  | s :: ss, d, p, l, hl => by
    rw [secP] at hl
    rcases List.mem_append.1 hl with hl | hl
    · obtain ⟨i, _, rfl⟩ := List.mem_map.1 hl
      have h1 := noNewline_piece (noNewline_param s) 64 i
      have h2 := noNewline_padR (noNewline_nat (d + 1)) 7
      have h3 := noNewline_padR (noNewline_nat (p + i + 1)) 7
      simp [line64, h1, h2, h3]
    · exact noNewline_secP ss _ _ l hl

theorem noNewline_secD : ∀ (ss : List (Spl K)) (d p : ℕ), ∀ l ∈ secD ss d p, '\n' ∉ l
  | [], _, _, l, hl => by cases hl
  | s :: ss, d, p, l, hl => by
    rw [secD] at hl
    rcases List.mem_append.1 hl with hl | hl
    · have h0 := noNewline_padR (noNewline_nat 0) 8
      have h1 := noNewline_padR (noNewline_nat (entityNo s)) 8
      have h2 := noNewline_padR (noNewline_nat (p + 1)) 8
      have h3 := noNewline_padR (noNewline_nat (pCount s)) 8
      have h4 := noNewline_padR (noNewline_nat (d + 1)) 7
      have h5 := noNewline_padR (noNewline_nat (d + 2)) 7
      have h6 : '\n' ∉ padR "SPLINE".toList 8 := by decide +kernel
      have h7 : '\n' ∉ (List.replicate 6 (padR (natText 0) 8)).flatten := by simp [h0]
      have h8 : '\n' ∉ (List.replicate 2 (padR (natText 0) 8)).flatten := by simp [h0]
      have h9 : '\n' ∉ " 0 0 0 1".toList := by decide +kernel
      have h10 : '\n' ∉ List.replicate 16 ' ' := by decide +kernel
      simp only [dLines, List.mem_cons, List.not_mem_nil, or_false] at hl
      rcases hl with rfl | rfl
      · simp only [entryA, List.mem_append, List.mem_cons, h1, h2, h7, h9, h4, or_false]; decide
      · simp only [entryB, List.mem_append, List.mem_cons, h0, h1, h3, h8, h6, h10, h5, or_false]; decide
    · exact noNewline_secD ss _ _ l hl

theorem noNewline_hollerith {t : List Char} (h : '\n' ∉ t) : '\n' ∉ Iges.hollerith t := by
  unfold Iges.hollerith
  have := noNewline_nat t.length
  simp [this, h]

theorem noNewline_global {filename time1 time2 : List Char} (h : '\n' ∉ filename ∧ '\n' ∉ time1 ∧ '\n' ∉ time2) (x : K) :
    '\n' ∉ Iges.globalContents filename time1 time2 x := by
  have key : ∀ l : List (List Char), (∀ t ∈ l, '\n' ∉ t) → '\n' ∉ Iges.addTo l [','] ++ [';'] := by
    intro l hl hm
    unfold Iges.addTo at hm
    simp only [List.mem_append, List.mem_flatMap, List.mem_singleton] at hm
    rcases hm with ⟨t, ht, hm | hm⟩ | hm
    · exact hl t ht hm
    · exact absurd hm (by decide)
    · exact absurd hm (by decide)
  have hw : ∀ {t : List Char}, '\n' ∉ t → '\n' ∉ Iges.hollerith t := fun h => noNewline_hollerith h
  unfold Iges.globalContents
  refine key _ ?_
  simp only [List.forall_mem_cons]
  refine ⟨hw (by decide), hw (by decide), hw (by decide +kernel), h.1, hw (by decide +kernel), hw (by decide +kernel), noNewline_nat _,
    noNewline_nat _, noNewline_nat _, noNewline_nat _, noNewline_nat _, hw (by decide +kernel), noNewline_general _, noNewline_nat _,
    hw (by decide +kernel), noNewline_nat _, noNewline_general _, hw (hw h.2.1), noNewline_general _, noNewline_general _,
    hw (by decide +kernel), hw (by decide +kernel), noNewline_nat _, noNewline_nat _, hw (hw h.2.2), by simp⟩

theorem noNewline_lines {c : List Char} (hc : '\n' ∉ c) (ss : List (Spl K)) : ∀ l ∈ igesLines c ss, '\n' ∉ l := by
  intro l hl
  unfold igesLines at hl
  simp only [List.mem_append] at hl
  rcases hl with (((hl | hl) | hl) | hl) | hl
  · simp only [startLines, List.mem_singleton] at hl
    subst hl
    decide +kernel
  · obtain ⟨i, _, rfl⟩ := List.mem_map.1 hl
    have h1 := noNewline_piece hc 72 i
    have h2 := noNewline_padR (noNewline_nat (0 + i + 1)) 7
    simp only [line72, List.mem_append, List.mem_cons, h1, h2, or_false]; decide
  · exact noNewline_secD ss _ _ l hl
  · exact noNewline_secP ss _ _ l hl
  · simp only [terminateLines, List.mem_singleton] at hl
    subst hl
    have h1 := noNewline_padR (noNewline_nat 1) 7
    have h2 := noNewline_padR (noNewline_nat (pieces 72 c)) 7
    have h3 := noNewline_padR (noNewline_nat (2 * ss.length)) 7
    have h4 := noNewline_padR (noNewline_nat (pTotal ss)) 7
    have h5 : '\n' ∉ List.replicate 40 ' ' := by decide +kernel
    simp only [List.mem_append, List.mem_cons, h1, h2, h3, h4, h5, or_false]; decide

/-- Reading a written file is reading its entities one after the other. -/
theorem readFile_written {filename time1 time2 : List Char} {ss : List (Spl K)} (h : IgesWritable filename time1 time2 ss)
    (hn : '\n' ∉ filename ∧ '\n' ∉ time1 ∧ '\n' ∉ time2) :
    ∃ file, Iges.writeFile filename time1 time2 ss = .ok file ∧
      Iges.readFile K file = (buildList (Iges.readEntity K ((secD ss 0 0).map fun l => l.take 72) ((secP ss 0 0).map fun l => l.take 64))
        ss.length).map List.flatten := by
  have hf := h.fits
  obtain ⟨m, _, hp, hl⟩ := fileLines_eq hf
  refine ⟨_, by unfold Iges.writeFile; rw [hl, ok_bind]; rfl, ?_⟩
  unfold Iges.readFile
  rw [getlines_lines _ (noNewline_lines (noNewline_global hn m) ss), readLines_file hp hf.count hf.total, ok_bind]
  dsimp only
  rw [List.length_map, secD_length, show (2 * ss.length + 1) / 2 = ss.length by omega]
  cases buildList (Iges.readEntity K ((secD ss 0 0).map fun l => l.take 72) ((secP ss 0 0).map fun l => l.take 64)) ss.length <;> rfl

theorem split_at {α : Type} (l : List α) {k : ℕ} (hk : k < l.length) : l = l.take k ++ l[k] :: l.drop (k + 1) ∧ (l.take k).length = k := by
  refine ⟨by rw [List.cons_getElem_drop_succ, List.take_append_drop], by rw [List.length_take]; omega⟩

theorem readable_body {s : Spl K} (h : WFSpl s) (hd : ∀ x ∈ allNumbers s, DoubleRange x) (hr : ∀ x ∈ allNumbers s, IgesReadable x) :
    ∀ x ∈ bodyNums s, ShortExp x ∧ IgesReadable x := by
  intro x hx
  refine ⟨bodyNums_short h hd x hx, ?_⟩
  rcases mem_bodyNums h hx with rfl | rfl | hx
  · exact readable_of_ordinary (Or.inl rfl)
  · refine readable_of_ordinary (Or.inr ⟨?_, ?_⟩) <;> rw [abs_one]
    · rw [div_le_one (by positivity)]; norm_num
    · norm_num
  · exact hr x hx

theorem readFile_curves {filename time1 time2 : List Char} {ss : List (Spl K)} (h : IgesWritable filename time1 time2 ss)
    (hn : '\n' ∉ filename ∧ '\n' ∉ time1 ∧ '\n' ∉ time2) (hc : ∀ s ∈ ss, s.ps.knots.length = 1)
    (hr : ∀ s ∈ ss, ∀ x ∈ allNumbers s, IgesReadable x) {R : Spl K → Spl K → Prop}
    (hR : ∀ s ∈ ss, ∃ r, igesBack s = .ok r ∧ R s r) :
    ∃ file, Iges.writeFile filename time1 time2 ss = .ok file ∧ ∃ rs, Iges.readFile K file = .ok rs ∧ List.Forall₂ R ss rs := by
  obtain ⟨file, hw, hread⟩ := readFile_written h hn
  have hf := h.fits
  refine ⟨file, hw, ?_⟩
  have hE : ∀ k (hk : k < ss.length), Iges.readEntity K ((secD ss 0 0).map fun l => l.take 72) ((secP ss 0 0).map fun l => l.take 64) k =
      (igesBack ss[k]).map fun r => [r] := by
    intro k hk
    obtain ⟨hs, hlen⟩ := split_at ss hk
    have hm := List.getElem_mem hk
    have := readEntity_curve (a := ss.take k) (b := ss.drop (k + 1)) (by rw [← hs]; exact hf.total) (hf.each _ hm) (hc _ hm)
      (readable_body (h.wf _ hm).1 (h.range _ hm) (hr _ hm))
    rw [← hs, hlen] at this
    exact this
  have hex : ∃ rs : List (Spl K), List.Forall₂ (fun s r => igesBack s = .ok r ∧ R s r) ss rs := forall₂_choose _ hR
  obtain ⟨rs, hrs⟩ := hex
  have hlen := hrs.length_eq
  have hb : buildList (Iges.readEntity K ((secD ss 0 0).map fun l => l.take 72) ((secP ss 0 0).map fun l => l.take 64)) ss.length =
      .ok ((List.range ss.length).map fun k => (rs[k]?).toList) := by
    refine buildList_eq fun k hk => ?_
    rw [hE k hk]
    have h2 := List.forall₂_iff_get.1 hrs
    have h3 := (h2.2 k hk (by omega)).1
    simp only [List.get_eq_getElem] at h3
    rw [h3, List.getElem?_eq_getElem (by omega)]; rfl
  refine ⟨rs, ?_, hrs.imp fun _ _ h => h.2⟩
  rw [hread, hb]
  show Except.ok _ = _
  congr 1
  rw [hlen]
  clear hb hread hE hrs hlen
  induction rs with
  | nil => rfl
  | cons r rs ih =>
    rw [List.length_cons, List.range_succ_eq_map, List.map_cons, List.map_map, List.flatten_cons]
    simp only [List.getElem?_cons_zero, Option.toList_some, List.singleton_append, List.cons.injEq, true_and]
    exact ih

/-- **C38** Every list of curves is written and read back: degrees, kind and numbers of points are the same, and knots, weights and
coordinates agree up to 17 digits. The result is always a spline in three dimensions. What is missing for the full property: surfaces (see
`C38_surface_over_read`), numbers that are printed like `1e+20` (see `C38_number_read`), and coordinates after the third one. -/
theorem C38_curve_round_trip_partial {filename time1 time2 : List Char} {ss : List (Spl K)} (h : IgesWritable filename time1 time2 ss)
    (hn : '\n' ∉ filename ∧ '\n' ∉ time1 ∧ '\n' ∉ time2) (hc : ∀ s ∈ ss, s.ps.knots.length = 1)
    (hr : ∀ s ∈ ss, ∀ x ∈ allNumbers s, IgesReadable x) :
    ∃ file, Iges.writeFile filename time1 time2 ss = .ok file ∧ ∃ rs, Iges.readFile K file = .ok rs ∧ List.Forall₂ IgesSame ss rs := by
  refine readFile_curves h hn hc hr fun s hs => ?_
  have hwf := (h.wf s hs).1
  have hsz : (npts s).prod < 2 ^ 64 := by
    have := (List.single_le_sum (fun _ _ => Nat.zero_le _) _ (List.mem_map_of_mem (f := fun s => dataCount s + 12) hs)).trans h.total
    unfold dataCount at this
    omega
  obtain ⟨r, h1, h2⟩ := igesBack_ok hwf hsz
  exact ⟨r, h1, built_iges hwf h2⟩

/-- At most 18 significant digits. -/
def Digits18 (x : K) : Prop := ∃ m k : ℤ, |m| < 10 ^ 18 ∧ x = (m : K) * (10 : K) ^ k

theorem points3_flatten_three {s : Spl K} (h : WFSpl s) (hd : s.ph.dim = 3) : (points3 s).flatten = s.ph.cps := by
  have hd3 : ∀ q ∈ points3 s, q.length = 3 := by
    intro q hq
    obtain ⟨k, _, rfl⟩ := List.mem_map.1 hq
    simp [igesPoint3]
  refine List.ext_getElem? fun i => ?_
  have hl := points3_flatten_length s
  have hc := h.cps
  rw [hd] at hc
  by_cases hi : i < 3 * (npts s).prod
  · have h1 : (points3 s).flatten.getD i 0 = s.ph.cps.getD i 0 := by
      have hi' : i = 3 * (i / 3) + i % 3 := (Nat.div_add_mod i 3).symm
      have hm : i % 3 < 3 := Nat.mod_lt _ (by norm_num)
      have hk : i / 3 < (npts s).prod := Nat.div_lt_of_lt_mul hi
      conv_lhs => rw [hi']
      rw [flatten_getD hd3 hm]
      unfold points3
      rw [List.getD_eq_getElem?_getD (l := List.map _ _), List.getElem?_map, List.getElem?_range hk]
      simp only [Option.map_some, Option.getD_some, igesPoint3]
      rw [List.getD_eq_getElem?_getD (l := List.map _ _), List.getElem?_map, List.getElem?_range hm]
      simp only [Option.map_some, Option.getD_some]
      rw [hd, if_pos hm, ← hi']
    rw [List.getElem?_eq_getElem (by omega), List.getElem?_eq_getElem (by omega)]
    rw [List.getD_eq_getElem?_getD, List.getD_eq_getElem?_getD, List.getElem?_eq_getElem (by omega), List.getElem?_eq_getElem (by omega)] at h1
    simpa using h1
  · rw [List.getElem?_eq_none (by omega), List.getElem?_eq_none (by omega)]

/-- **C38** Curves in three dimensions whose numbers have at most 18 significant digits are read back exactly. -/
theorem C38_curve_exact {filename time1 time2 : List Char} {ss : List (Spl K)} (h : IgesWritable filename time1 time2 ss)
    (hn : '\n' ∉ filename ∧ '\n' ∉ time1 ∧ '\n' ∉ time2) (hc : ∀ s ∈ ss, s.ps.knots.length = 1 ∧ s.ph.dim = 3)
    (hr : ∀ s ∈ ss, ∀ x ∈ allNumbers s, IgesReadable x ∧ Digits18 x) :
    ∃ file, Iges.writeFile filename time1 time2 ss = .ok file ∧ Iges.readFile K file = .ok ss := by
  have key := readFile_curves h hn (fun s hs => (hc s hs).1) (fun s hs x hx => (hr s hs x hx).1) (R := fun s r => s = r) fun s hs => by
    have hwf := (h.wf s hs).1
    have hsz : (npts s).prod < 2 ^ 64 := by
      have := (List.single_le_sum (fun _ _ => Nat.zero_le _) _ (List.mem_map_of_mem (f := fun s => dataCount s + 12) hs)).trans h.total
      unfold dataCount at this
      omega
    obtain ⟨r, h1, h2⟩ := igesBack_ok hwf hsz
    refine ⟨r, h1, ?_⟩
    have hid : ∀ {l : List K}, (∀ x ∈ l, Digits18 x) → l.map gd = l := fun {l} hl => by
      conv_rhs => rw [← List.map_id l]
      refine List.map_congr_left fun x hx => ?_
      obtain ⟨m, k, hm, rfl⟩ := hl x hx
      exact gd_exact hm
    have hall := fun x hx => (hr s hs x hx).2
    unfold allNumbers at hall
    have e1 : (s.ps.knots.map fun U => U.map gd) = s.ps.knots := by
      conv_rhs => rw [← List.map_id s.ps.knots]
      exact List.map_congr_left fun U hU => hid fun x hx => hall x (by simp only [List.mem_append, List.mem_flatten]; exact Or.inl ⟨U, hU, hx⟩)
    have e2 : (s.ph.weights.map fun w => w.map gd) = s.ph.weights := by
      cases hw : s.ph.weights with
      | none => rfl
      | some w => rw [Option.map_some, hid fun x hx => hall x (by simp [hw, hx])]
    have e3 : (backPoints3 s).flatten = s.ph.cps := by
      rw [← back_flatten, points3_flatten_three hwf (hc s hs).2]
      exact hid fun x hx => hall x (by simp [hx])
    rw [e1, e2] at h2
    refine Built.ext (backPoints3_ne hwf) ⟨rfl, rfl, ?_, ?_, ?_, e3.symm, rfl⟩ h2
    · have := basisTable_eq (clamped_sizes (hwf.knots.imp fun U p h => h.clamped))
      exact Except.ok.inj (hwf.basis.symm.trans this)
    · intro q hq; rw [backPoints3_dims s q hq]; exact (hc s hs).2
    · rw [hwf.num]; rfl
  obtain ⟨file, h1, rs, h2, h3⟩ := key
  rw [List.forall₂_eq_eq_eq] at h3
  exact ⟨file, h1, by rw [h2, ← h3]⟩

/-- **C38** (negation of the full property) As soon as one of the written splines is a surface, reading the file back accesses parameter
data behind the end. -/
theorem C38_surface_over_read {filename time1 time2 : List Char} {ss : List (Spl K)} (h : IgesWritable filename time1 time2 ss)
    (hn : '\n' ∉ filename ∧ '\n' ∉ time1 ∧ '\n' ∉ time2) (hs : ∃ s ∈ ss, s.ps.knots.length = 2)
    (hr : ∀ s ∈ ss, ∀ x ∈ allNumbers s, IgesReadable x) :
    ∃ file, Iges.writeFile filename time1 time2 ss = .ok file ∧ Iges.readFile K file = .error .ub := by
  obtain ⟨file, hw, hread⟩ := readFile_written h hn
  have hf := h.fits
  refine ⟨file, hw, ?_⟩
  have hE : ∀ k (hk : k < ss.length), ss[k].ps.knots.length = 1 →
      ∃ v, Iges.readEntity K ((secD ss 0 0).map fun l => l.take 72) ((secP ss 0 0).map fun l => l.take 64) k = .ok v := by
    intro k hk h1
    obtain ⟨hs, hlen⟩ := split_at ss hk
    have hm := List.getElem_mem hk
    have := readEntity_curve (a := ss.take k) (b := ss.drop (k + 1)) (by rw [← hs]; exact hf.total) (hf.each _ hm) h1
      (readable_body (h.wf _ hm).1 (h.range _ hm) (hr _ hm))
    rw [← hs, hlen] at this
    have hsz : (npts ss[k]).prod < 2 ^ 64 := by
      have := (List.single_le_sum (fun _ _ => Nat.zero_le _) _ (List.mem_map_of_mem (f := fun s => dataCount s + 12) hm)).trans h.total
      unfold dataCount at this
      omega
    obtain ⟨r, h1, _⟩ := igesBack_ok (h.wf _ hm).1 hsz
    rw [h1] at this
    exact ⟨_, this⟩
  have hE2 : ∀ k (hk : k < ss.length), ss[k].ps.knots.length = 2 →
      Iges.readEntity K ((secD ss 0 0).map fun l => l.take 72) ((secP ss 0 0).map fun l => l.take 64) k = .error .ub := by
    intro k hk h1
    obtain ⟨hs, hlen⟩ := split_at ss hk
    have hm := List.getElem_mem hk
    have := readEntity_surface (a := ss.take k) (b := ss.drop (k + 1)) (by rw [← hs]; exact hf.total) (hf.each _ hm) h1
      (readable_body (h.wf _ hm).1 (h.range _ hm) (hr _ hm))
    rw [← hs, hlen] at this
    exact this
  rw [hread, buildList_error (e := .ub)]
  · rfl
  · intro k hk
    rcases (h.wf _ (List.getElem_mem hk)).2 with h1 | h1
    · exact Or.inl (hE k hk h1)
    · exact Or.inr (hE2 k hk h1)
  · obtain ⟨s, hs, h2⟩ := hs
    obtain ⟨k, hk, rfl⟩ := List.getElem_of_mem hs
    exact ⟨k, hk, hE2 k hk h2⟩

/-- **C38** A surface is read correctly if its parameter data are followed by at least two more numbers, as in files of other programs that
store the ranges of the parameters there. -/
theorem C38_surface_with_ranges {s : Spl K} (h : WFSpl s) (hk : s.ps.knots.length = 2) (hs : dataCount s < 10 ^ 7) {extra : List K}
    (he : 2 ≤ extra.length) :
    ∃ r, Iges.create2D ((igesHead s).map (fun n : ℕ => (n : K)) ++ (igesData s).map gd ++ extra) = .ok r ∧ IgesSame s r := by
  unfold dataCount at hs
  obtain ⟨r, h1, h2⟩ := igesBack_ok h (by omega)
  refine ⟨r, ?_, built_iges h h2⟩
  rw [igesHead_eq h (Or.inr hk), igesData_eq]
  exact (create2D_eq h hk (by omega) he).trans h1

/-- **C38** A number in the file is read as the printed number exactly if it is printed with a decimal point or without exponent. -/
theorem C38_number_read {x : K} (h : DoubleRange x) : stringToDouble K (Iges.generalText x) = .ok (gd x) ↔ IgesReadable x :=
  ⟨fun h1 => by_contra fun h2 => read_general_wrong (shortExp_of_double h) h2 h1, read_general (shortExp_of_double h)⟩

/-- **C38** Numbers from 10⁻⁴ to 10¹⁷, and 0, are read correctly. -/
theorem C38_ordinary_numbers {x : K} (h : x = 0 ∨ (1 / 10 ^ 4 ≤ |x| ∧ |x| ≤ 10 ^ 17)) : IgesReadable x := readable_of_ordinary h
end

/-! ### Examples -/

section
attribute [local instance] genHalfUp

/-- 10²⁰ is printed as `1e+20`, which is misread. -/
example : ¬ IgesReadable (10 ^ 20 : ℚ) := by unfold IgesReadable; decide +kernel

example : Iges.generalText (10 ^ 20 : ℚ) = "1e+20".toList := by decide +kernel
example : Iges.generalText (1 / 8 : ℚ) = "0.125".toList := by decide +kernel

theorem exIges_range : ∀ s ∈ [exCurve, exNurbs, exNurbsSurface], ∀ x ∈ allNumbers s, x = 0 ∨ (1 / 10 ^ 4 ≤ |x| ∧ |x| ≤ 10 ^ 17) := by
  decide +kernel

theorem doubleRange_of_ordinary {x : ℚ} (h : x = 0 ∨ (1 / 10 ^ 4 ≤ |x| ∧ |x| ≤ 10 ^ 17)) : DoubleRange x := by
  rcases h with h | ⟨h1, h2⟩
  · exact Or.inl h
  · refine Or.inr ⟨le_trans ?_ h1, h2.trans ?_⟩
    · exact one_div_le_one_div_of_le (by norm_num) (le_trans (by norm_num) (pow_le_pow_right₀ (by norm_num) (by norm_num : 20 ≤ 1074)))
    · exact le_trans (by norm_num) (pow_le_pow_right₀ (by norm_num) (by norm_num : 60 ≤ 1024))

theorem exIges_wf : ∀ s ∈ [exCurve, exNurbs, exNurbsSurface], WFSpl s := by
  simp only [List.mem_cons, List.not_mem_nil, or_false, forall_eq_or_imp, forall_eq]
  exact ⟨exCurve_wf, exNurbs_wf, exNurbsSurface_wf⟩

theorem exIges : IgesWritable "a.igs".toList "t".toList "t".toList [exCurve, exNurbs, exNurbsSurface] where
  wf s hs := ⟨exIges_wf s hs, by revert s; decide +kernel⟩
  range s hs x hx := doubleRange_of_ordinary (exIges_range s hs x hx)
  names := by decide +kernel
  total := by decide +kernel

example : ∃ file, Iges.writeFile "a.igs".toList "t".toList "t".toList [exCurve, exNurbs, exNurbsSurface] = .ok file ∧
    Iges.readFile ℚ file = .error .ub :=
  C38_surface_over_read exIges (by decide +kernel) ⟨exNurbsSurface, by simp, rfl⟩
    fun s hs x hx => C38_ordinary_numbers (exIges_range s hs x hx)

example : ∃ file, Iges.writeFile "a.igs".toList "t".toList "t".toList [exCurve, exNurbs] = .ok file ∧
    ∃ rs, Iges.readFile ℚ file = .ok rs ∧ List.Forall₂ IgesSame [exCurve, exNurbs] rs :=
  C38_curve_round_trip_partial
    ⟨fun s hs => exIges.wf s (by revert s; simp), fun s hs => exIges.range s (by revert s; simp), exIges.names, by decide +kernel⟩
    (by decide +kernel) (by decide +kernel)
    fun s hs x hx => C38_ordinary_numbers (exIges_range s (by revert hs; simp; tauto) x hx)
end
end SplineLib
