import Verif.Core.IgesLayout
import Verif.Core.Xml

/-!
# The written IGES file (helper lemmas)
-/

namespace SplineLib
set_option linter.unusedSectionVars false
open Str Prn

/-- The lines of a section: 72 columns, the letter and the number of the line in seven columns. -/
def Numbered (letter : Char) (line : ℕ) (ls : List (List Char)) : Prop :=
  ∀ i (h : i < ls.length), ∃ t, t.length = 72 ∧ ls[i] = t ++ letter :: padR (natText (line + i + 1)) 7

theorem Numbered.append {letter : Char} {line : ℕ} {a b : List (List Char)} (ha : Numbered letter line a)
    (hb : Numbered letter (line + a.length) b) : Numbered letter line (a ++ b) := by
  intro i hi
  by_cases h : i < a.length
  · rw [List.getElem_append_left h]; exact ha i h
  · rw [List.getElem_append_right (by omega)]
    obtain ⟨t, ht, he⟩ := hb (i - a.length) (by rw [List.length_append] at hi; omega)
    exact ⟨t, ht, by rw [he, show line + a.length + (i - a.length) + 1 = line + i + 1 by omega]⟩

theorem numbered_nil (letter : Char) (line : ℕ) : Numbered letter line [] := fun i h => absurd h (by simp)

theorem numbered_72 (letter : Char) (c : List Char) (line n : ℕ) : Numbered letter line ((List.range n).map (line72 letter c line)) := by
  intro i hi
  rw [List.getElem_map, List.getElem_range]
  exact ⟨_, piece_length 72 c i, rfl⟩

theorem numbered_64 (c : List Char) {position : ℕ} (hp : position < 10 ^ 7) (line n : ℕ) :
    Numbered 'P' line ((List.range n).map (line64 c position line)) := by
  intro i hi
  rw [List.getElem_map, List.getElem_range]
  refine ⟨piece 64 c i ++ ' ' :: padR (natText position) 7, ?_, by simp [line64]⟩
  rw [List.length_append, piece_length, List.length_cons, padR_length (natText_le (k := 6) hp)]

section
variable {K : Type} [LinearOrder K] [Field K] [IsStrictOrderedRing K]

/-- The contents of a directory entry: two halves. -/
def entryA (start : ℕ) (s : Spl K) : List Char :=
  padR (natText (entityNo s)) 8 ++ (padR (natText start) 8 ++ ((List.replicate 6 (padR (natText 0) 8)).flatten ++ " 0 0 0 1".toList))

def entryB (count : ℕ) (s : Spl K) : List Char :=
  padR (natText (entityNo s)) 8 ++ ((List.replicate 2 (padR (natText 0) 8)).flatten ++ (padR (natText count) 8 ++
    (padR (natText 0) 8 ++ (List.replicate 16 ' ' ++ (padR "SPLINE".toList 8 ++ padR (natText 0) 8)))))

theorem entityNo_lt (s : Spl K) : entityNo s < 10 ^ 3 := by unfold entityNo; split <;> norm_num

theorem natText8 {n : ℕ} (h : n < 10 ^ 7) : (natText n).length ≤ 8 := (natText_le (k := 6) h).trans (by norm_num)

theorem entryA_length {start : ℕ} (h : start < 10 ^ 7) (s : Spl K) : (entryA start s).length = 72 := by
  have h0 : (padR (natText 0) 8).length = 8 := padR_length (natText8 (by norm_num))
  have h1 : (padR (natText (entityNo s)) 8).length = 8 := padR_length (natText8 (by have := entityNo_lt s; omega))
  have h2 : (padR (natText start) 8).length = 8 := padR_length (natText8 h)
  unfold entryA
  simp [h0, h1, h2]

theorem entryB_length {count : ℕ} (h : count < 10 ^ 7) (s : Spl K) : (entryB count s).length = 72 := by
  have h0 : (padR (natText 0) 8).length = 8 := padR_length (natText8 (by norm_num))
  have h1 : (padR (natText (entityNo s)) 8).length = 8 := padR_length (natText8 (by have := entityNo_lt s; omega))
  have h2 : (padR (natText count) 8).length = 8 := padR_length (natText8 h)
  have h3 : (padR "SPLINE".toList 8).length = 8 := padR_length (by decide)
  unfold entryB
  simp only [List.length_append, h0, h1, h2, h3, List.length_flatten, List.map_replicate, List.length_replicate]
  simp

theorem entryContents_eq {start count : ℕ} {s : Spl K} (h : s.ps.knots.length = 1 ∨ s.ps.knots.length = 2) (hs : start < 10 ^ 7)
    (hc : count < 10 ^ 7) : Iges.entryContents start count s = .ok (entryA start s ++ entryB count s) := by
  unfold Iges.entryContents
  rw [entity_eq h, ok_bind, block_right (natText8 (by have := entityNo_lt s; omega)), ok_bind, block_right (natText8 hs), ok_bind,
    block_right (natText8 (by norm_num)), ok_bind, block_right (natText8 hc), ok_bind, block_right (by simp), ok_bind,
    block_right (by decide), ok_bind, pure_ok]
  simp [Iges.addTo, entryA, entryB, padR, List.replicate]

/-- The two lines of a directory entry. -/
def dLines (s : Spl K) (start count dLine : ℕ) : List (List Char) :=
  [entryA start s ++ 'D' :: padR (natText (dLine + 1)) 7, entryB count s ++ 'D' :: padR (natText (dLine + 2)) 7]

theorem numbered_dLines {start count : ℕ} (s : Spl K) (hs : start < 10 ^ 7) (hc : count < 10 ^ 7) (dLine : ℕ) :
    Numbered 'D' dLine (dLines s start count dLine) := by
  intro i hi
  simp only [dLines, List.length_cons, List.length_nil] at hi
  rcases (show i = 0 ∨ i = 1 by omega) with rfl | rfl
  · exact ⟨_, entryA_length hs s, rfl⟩
  · exact ⟨_, entryB_length hc s, rfl⟩

theorem dataEntry_eq {start count dLine : ℕ} {s : Spl K} (h : s.ps.knots.length = 1 ∨ s.ps.knots.length = 2) (hs : start < 10 ^ 7)
    (hc : count < 10 ^ 7) (hd : dLine + 2 < 10 ^ 7) : Iges.dataEntry start count s dLine = .ok (dLines s start count dLine) := by
  have hA := entryA_length hs s
  have hB := entryB_length hc s
  have hl : (entryA start s ++ entryB count s).length = 144 := by rw [List.length_append, hA, hB]
  have hp : pieces 72 (entryA start s ++ entryB count s) = 2 := by unfold pieces; rw [hl]
  unfold Iges.dataEntry
  rw [entryContents_eq h hs hc, ok_bind, lines72_eq (by intro h0; rw [h0] at hl; simp at hl) (by rw [hl]; norm_num) (by rw [hp]; exact hd), hp]
  have e0 : piece 72 (entryA start s ++ entryB count s) 0 = entryA start s := by
    unfold piece padL
    rw [Nat.zero_mul, List.drop_zero, ← hA, List.take_left]; simp
  have e1 : piece 72 (entryA start s ++ entryB count s) 1 = entryB count s := by
    unfold piece padL
    rw [Nat.one_mul, ← hA, List.drop_left, hA, ← hB, List.take_length]; simp
  simp only [List.range_succ, List.range_zero, List.nil_append, List.map_append, List.map_cons, List.map_nil, line72, e0, e1, dLines]
  rfl

variable [GenPrinter K]

/-- The parameter data of a spline. -/
def paramText (s : Spl K) : List Char := joinFields (fieldTexts s)

/-- The number of its lines. -/
def pCount (s : Spl K) : ℕ := pieces 64 (paramText s)

/-- The lines of the parameter section of a spline. -/
def pLines (s : Spl K) (position line : ℕ) : List (List Char) := (List.range (pCount s)).map (line64 (paramText s) position line)

def secD : List (Spl K) → ℕ → ℕ → List (List Char)
  | [], _, _ => []
  | s :: ss, d, p => dLines s (p + 1) (pCount s) d ++ secD ss (d + 2) (p + pCount s)

def secP : List (Spl K) → ℕ → ℕ → List (List Char)
  | [], _, _ => []
  | s :: ss, d, p => pLines s (d + 1) p ++ secP ss (d + 2) (p + pCount s)

/-- The lines of all parameter data. -/
def pTotal (ss : List (Spl K)) : ℕ := (ss.map pCount).sum

theorem secD_length : ∀ (ss : List (Spl K)) (d p : ℕ), (secD ss d p).length = 2 * ss.length
  | [], _, _ => rfl
  | s :: ss, d, p => by rw [secD, List.length_append, secD_length ss, List.length_cons]; simp [dLines]; omega

theorem secP_length : ∀ (ss : List (Spl K)) (d p : ℕ), (secP ss d p).length = pTotal ss
  | [], _, _ => rfl
  | s :: ss, d, p => by rw [secP, List.length_append, secP_length ss]; simp [pLines, pTotal]

theorem secD_append : ∀ (a b : List (Spl K)) (d p : ℕ), secD (a ++ b) d p = secD a d p ++ secD b (d + 2 * a.length) (p + pTotal a)
  | [], b, d, p => by simp [secD, pTotal]
  | s :: a, b, d, p => by
    rw [List.cons_append, secD, secD, secD_append a b, List.append_assoc, List.length_cons]
    congr 3
    · omega
    · simp [pTotal, Nat.add_assoc]

theorem secP_append : ∀ (a b : List (Spl K)) (d p : ℕ), secP (a ++ b) d p = secP a d p ++ secP b (d + 2 * a.length) (p + pTotal a)
  | [], b, d, p => by simp [secP, pTotal]
  | s :: a, b, d, p => by
    rw [List.cons_append, secP, secP, secP_append a b, List.append_assoc, List.length_cons]
    congr 3
    · omega
    · simp [pTotal, Nat.add_assoc]

theorem numbered_secD : ∀ (ss : List (Spl K)) (d p : ℕ), p + pTotal ss + 1 < 10 ^ 7 → Numbered 'D' d (secD ss d p)
  | [], d, p, _ => numbered_nil _ _
  | s :: ss, d, p, h => by
    simp only [pTotal, List.map_cons, List.sum_cons] at h
    refine (numbered_dLines s (by omega) (by omega) d).append ?_
    exact numbered_secD ss (d + 2) (p + pCount s) (by unfold pTotal; omega)

theorem numbered_secP : ∀ (ss : List (Spl K)) (d p : ℕ), d + 2 * ss.length + 1 < 10 ^ 7 → Numbered 'P' p (secP ss d p)
  | [], d, p, _ => numbered_nil _ _
  | s :: ss, d, p, h => by
    simp only [List.length_cons] at h
    refine (numbered_64 _ (by omega) p _).append ?_
    rw [List.length_map, List.length_range]
    exact numbered_secP ss (d + 2) (p + pCount s) (by omega)

/-- What the writer can handle. -/
structure IgesOne (s : Spl K) : Prop where
  wf : WFSpl s
  kind : s.ps.knots.length = 1 ∨ s.ps.knots.length = 2
  knots : s.ps.knots.flatten.length < 10 ^ 7
  short : (paramText s).length < 10 ^ 9

theorem sections_eq : ∀ (ss : List (Spl K)) (d p : ℕ), (∀ s ∈ ss, IgesOne s) → d + 2 * ss.length + 1 < 10 ^ 7 →
    p + pTotal ss + 1 < 10 ^ 7 → Iges.sections ss d p (d + 1) (p + 1) = .ok (secD ss d p, secP ss d p)
  | [], _, _, _, _, _ => rfl
  | s :: ss, d, p, h, hd, hp => by
    have hs := h s (by simp)
    simp only [List.length_cons] at hd
    simp only [pTotal, List.map_cons, List.sum_cons] at hp
    unfold Iges.sections
    have hlen : (pLines s (d + 1) p).length = pCount s := by simp [pLines]
    have hdl : (dLines s (p + 1) (pCount s) d).length = 2 := rfl
    have e1 : Iges.parameterContents s = .ok (paramText s) := parameterContents_eq hs.wf hs.kind (by have := hs.knots; omega)
    have e2 : Iges.parameterLines (paramText s) (d + 1) p = .ok (pLines s (d + 1) p) :=
      parameterLines_eq (joinFields_ne _) (by have := hs.short; omega) (by omega) (by show p + pCount s < _; omega)
    rw [e1, ok_bind, e2, ok_bind, hlen, dataEntry_eq hs.kind (by omega) (by omega) (by omega), ok_bind, hdl,
      show d + 1 + 2 = d + 2 + 1 by omega, show p + 1 + pCount s = p + pCount s + 1 by omega,
      sections_eq ss (d + 2) (p + pCount s) (fun t ht => h t (by simp [ht])) (by omega) (by unfold pTotal; omega), ok_bind]
    rfl

/-! ### The whole file -/

theorem highestValue_eq : ∀ (ss : List (Spl K)) (h : K), (∀ s ∈ ss, s.ps.knots.length = 1 ∨ s.ps.knots.length = 2) →
    ∃ m, Iges.highestValue ss h = .ok m ∧ (m = h ∨ ∃ s ∈ ss, m = s.ph.expansion)
  | [], h, _ => ⟨h, rfl, Or.inl rfl⟩
  | s :: ss, h, hs => by
    unfold Iges.highestValue
    rw [entity_eq (hs s (by simp)), ok_bind]
    obtain ⟨m, h1, h2⟩ := highestValue_eq ss (if h < s.ph.expansion then s.ph.expansion else h) fun t ht => hs t (by simp [ht])
    refine ⟨m, h1, ?_⟩
    rcases h2 with h2 | ⟨t, ht, h2⟩
    · split at h2
      · exact Or.inr ⟨s, by simp, h2⟩
      · exact Or.inl h2
    · exact Or.inr ⟨t, by simp [ht], h2⟩

omit [GenPrinter K] in
theorem expansion_mem (ph : Phys K) : ph.expansion = 0 ∨ ph.expansion ∈ ph.cps := by
  unfold Phys.expansion
  have : ∀ (l : List K) (e : K), (l.foldl (fun e c => if c > e then c else e) e) = e ∨ (l.foldl (fun e c => if c > e then c else e) e) ∈ l := by
    intro l
    induction l with
    | nil => intro e; exact Or.inl rfl
    | cons a l ih =>
      intro e
      rw [List.foldl_cons]
      rcases ih (if a > e then a else e) with h | h
      · rw [h]
        split
        · exact Or.inr (by simp)
        · exact Or.inl rfl
      · exact Or.inr (by simp [h])
  exact this _ _

/-- The bounds of the columns of the file: seven digits for the numbers of the lines. -/
structure IgesFits (filename time1 time2 : List Char) (ss : List (Spl K)) : Prop where
  each : ∀ s ∈ ss, IgesOne s
  names : filename.length + time1.length + time2.length ≤ 10 ^ 6
  highest : ∀ s ∈ ss, (Iges.generalText s.ph.expansion).length ≤ 25
  consts : (Iges.generalText (0 : K)).length ≤ 25 ∧ (Iges.generalText (1 : K)).length ≤ 25 ∧
    (Iges.generalText (1 / 10 ^ 3 : K)).length ≤ 25 ∧ (Iges.generalText (1 / 10 ^ 6 : K)).length ≤ 25
  count : 2 * ss.length + 1 < 10 ^ 7
  total : pTotal ss + 1 < 10 ^ 7

theorem hollerith_length {s : List Char} (h : s.length < 10 ^ 9) : (Iges.hollerith s).length ≤ s.length + 10 := by
  unfold Iges.hollerith
  have := natText_le (k := 8) h
  simp only [List.length_append, List.length_cons]
  omega

theorem addTo_length {l : List (List Char)} {b : ℕ} (h : ∀ t ∈ l, t.length ≤ b) : (Iges.addTo l [',']).length ≤ (b + 1) * l.length := by
  unfold Iges.addTo
  induction l with
  | nil => simp
  | cons a l ih =>
    have h1 := h a (by simp)
    have h2 := ih fun t ht => h t (by simp [ht])
    rw [List.flatMap_cons, List.length_append, List.length_append]
    simp only [List.length_cons, List.length_nil, Nat.mul_add]
    omega

theorem globalContents_length {filename time1 time2 : List Char} (hn : filename.length + time1.length + time2.length ≤ 10 ^ 6) {x : K}
    (hx : (Iges.generalText x).length ≤ 25)
    (hc : (Iges.generalText (0 : K)).length ≤ 25 ∧ (Iges.generalText (1 : K)).length ≤ 25 ∧
      (Iges.generalText (1 / 10 ^ 3 : K)).length ≤ 25 ∧ (Iges.generalText (1 / 10 ^ 6 : K)).length ≤ 25) :
    (Iges.globalContents filename time1 time2 x).length ≤ 2 * 10 ^ 8 := by
  obtain ⟨_, h1, h2, h3⟩ := hc
  have hn1 : filename.length ≤ 10 ^ 6 + 40 := by omega
  have ht : ∀ {t : List Char}, t.length ≤ 10 ^ 6 → (Iges.hollerith (Iges.hollerith t)).length ≤ 10 ^ 6 + 40 := fun {t} h => by
    have t1 := hollerith_length (s := t) (by omega)
    have t2 := hollerith_length (s := Iges.hollerith t) (by omega)
    omega
  have hw : ∀ {t : List Char}, t.length ≤ 20 → (Iges.hollerith t).length ≤ 10 ^ 6 + 40 := fun {t} h =>
    (hollerith_length (by omega)).trans (by omega)
  have hg : ∀ {y : K}, (Iges.generalText y).length ≤ 25 → (Iges.generalText y).length ≤ 10 ^ 6 + 40 := fun h => by omega
  have hk : ∀ {n : ℕ}, n < 10 ^ 5 → (natText n).length ≤ 10 ^ 6 + 40 := fun h => (natText_le (k := 4) h).trans (by norm_num)
  have hT1 := ht (t := time1) (by omega)
  have hT2 := ht (t := time2) (by omega)
  have key := addTo_length (b := 10 ^ 6 + 40) (l := [Iges.hollerith [','], Iges.hollerith [';'], Iges.hollerith "unknown".toList, filename,
    Iges.hollerith "SplineLib".toList,
    Iges.hollerith "pre_release".toList, natText 31, natText 128, natText 24, natText 1024, natText 53, Iges.hollerith "unknown".toList,
    Iges.generalText (1 : K), natText 2, Iges.hollerith "MM".toList, natText 1, Iges.generalText (1 / 10 ^ 3 : K),
    Iges.hollerith (Iges.hollerith time1),
    Iges.generalText (1 / 10 ^ 6 : K), Iges.generalText x, Iges.hollerith "unknown".toList, Iges.hollerith "unknown".toList, natText 11,
    natText 0, Iges.hollerith (Iges.hollerith time2)]) ?_
  · unfold Iges.globalContents
    rw [List.length_append]
    refine (Nat.add_le_add_right key _).trans ?_
    simp only [List.length_cons, List.length_nil]
    norm_num
  · simp only [List.forall_mem_cons]
    refine ⟨hw (by simp), hw (by simp), hw (by simp), hn1, hw (by simp), hw (by simp), hk (by norm_num), hk (by norm_num), hk (by norm_num),
      hk (by norm_num), hk (by norm_num), hw (by simp), hg h1, hk (by norm_num), hw (by simp), hk (by norm_num), hg h2, hT1, hg h3, hg hx,
      hw (by simp), hw (by simp), hk (by norm_num), hk (by norm_num), hT2, by simp⟩

theorem globalContents_ne (filename time1 time2 : List Char) (x : K) : Iges.globalContents filename time1 time2 x ≠ [] := by
  unfold Iges.globalContents; simp

/-- The start section. -/
def startLines : List (List Char) := [padL "IGES file generated by SplineLib".toList 72 ++ 'S' :: padR (natText 1) 7]

/-- The terminate section. -/
def terminateLines (s g d p : ℕ) : List (List Char) :=
  ['S' :: padR (natText s) 7 ++ 'G' :: padR (natText g) 7 ++ 'D' :: padR (natText d) 7 ++ 'P' :: padR (natText p) 7 ++
    (List.replicate 40 ' ' ++ 'T' :: padR (natText 1) 7)]

theorem startSection_eq : Iges.startSection = .ok startLines := by
  unfold Iges.startSection
  rw [block_left (by decide), ok_bind, block_right (natText_le (k := 6) (by norm_num)), ok_bind]; rfl

theorem numbered_start : Numbered 'S' 0 startLines := by
  intro i hi
  obtain rfl : i = 0 := by simpa [startLines] using hi
  exact ⟨_, padL_length (by decide), rfl⟩

theorem terminateSection_eq {s g d p : ℕ} (hs : s < 10 ^ 7) (hg : g < 10 ^ 7) (hd : d < 10 ^ 7) (hp : p < 10 ^ 7) :
    Iges.terminateSection s g d p = .ok (terminateLines s g d p) := by
  unfold Iges.terminateSection
  rw [block_right (natText_le (k := 6) hs), ok_bind, block_right (natText_le (k := 6) hg), ok_bind, block_right (natText_le (k := 6) hd),
    ok_bind, block_right (natText_le (k := 6) hp), ok_bind, block_right (by decide), ok_bind,
    block_right (natText_le (k := 6) (by norm_num)), ok_bind, pure_ok]
  simp [terminateLines, padR]

theorem numbered_terminate {s g d p : ℕ} (hs : s < 10 ^ 7) (hg : g < 10 ^ 7) (hd : d < 10 ^ 7) (hp : p < 10 ^ 7) :
    Numbered 'T' 0 (terminateLines s g d p) := by
  intro i hi
  obtain rfl : i = 0 := by simpa [terminateLines] using hi
  refine ⟨'S' :: padR (natText s) 7 ++ 'G' :: padR (natText g) 7 ++ 'D' :: padR (natText d) 7 ++ 'P' :: padR (natText p) 7 ++
    List.replicate 40 ' ', ?_, by simp [terminateLines]⟩
  have h : ∀ {n : ℕ}, n < 10 ^ 7 → (padR (natText n) 7).length = 7 := fun h => padR_length (natText_le (k := 6) h)
  simp only [List.length_append, List.length_cons, h hs, h hg, h hd, h hp, List.length_replicate]

/-- The global section. -/
def globalLines (c : List Char) : List (List Char) := (List.range (pieces 72 c)).map (line72 'G' c 0)

/-- All lines of the file. -/
def igesLines (c : List Char) (ss : List (Spl K)) : List (List Char) :=
  startLines ++ globalLines c ++ secD ss 0 0 ++ secP ss 0 0 ++ terminateLines 1 (pieces 72 c) (2 * ss.length) (pTotal ss)

theorem fileLines_eq {filename time1 time2 : List Char} {ss : List (Spl K)} (h : IgesFits filename time1 time2 ss) :
    ∃ m, Iges.highestValue ss 0 = .ok m ∧
      pieces 72 (Iges.globalContents filename time1 time2 m) < 10 ^ 7 ∧
      Iges.fileLines filename time1 time2 ss = .ok (igesLines (Iges.globalContents filename time1 time2 m) ss) := by
  obtain ⟨m, h1, h2⟩ := highestValue_eq ss 0 fun s hs => (h.each s hs).kind
  have hm : (Iges.generalText m).length ≤ 25 := by
    rcases h2 with rfl | ⟨s, hs, rfl⟩
    · exact h.consts.1
    · exact h.highest s hs
  have hgl := globalContents_length h.names hm h.consts
  have hne := globalContents_ne filename time1 time2 m
  have hpc : pieces 72 (Iges.globalContents filename time1 time2 m) < 10 ^ 7 := by unfold pieces; omega
  refine ⟨m, h1, hpc, ?_⟩
  have hS := sections_eq ss 0 0 h.each (by have := h.count; omega) (by have := h.total; omega)
  unfold Iges.fileLines
  rw [startSection_eq, ok_bind]
  unfold Iges.globalSection
  rw [h1, ok_bind, lines72_eq hne (by omega) (by omega), ok_bind, show Iges.sections ss 0 0 1 1 = _ from hS, ok_bind]
  dsimp only
  rw [secD_length, secP_length, List.length_map, List.length_range,
    terminateSection_eq (by simp [startLines]) hpc (by have := h.count; omega) (by have := h.total; omega), ok_bind]
  rfl
end
end SplineLib
