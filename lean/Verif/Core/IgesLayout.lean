import Verif.Core.IgesText

/-!
# The lines of an IGES file (helper lemmas)
-/

namespace SplineLib
set_option linter.unusedSectionVars false
open Str Prn

/-! ### Blocks and pieces -/

def padL (s : List Char) (w : ℕ) : List Char := s ++ List.replicate (w - s.length) ' '
def padR (s : List Char) (w : ℕ) : List Char := List.replicate (w - s.length) ' ' ++ s

theorem padL_length {s : List Char} {w : ℕ} (h : s.length ≤ w) : (padL s w).length = w := by simp [padL]; omega
theorem padR_length {s : List Char} {w : ℕ} (h : s.length ≤ w) : (padR s w).length = w := by simp [padR]; omega

theorem block_left {s : List Char} {w : ℕ} (h : s.length ≤ w) : Iges.block s w false = .ok (padL s w) := by
  unfold Iges.block; rw [if_pos h]; rfl

theorem block_right {s : List Char} {w : ℕ} (h : s.length ≤ w) : Iges.block s w true = .ok (padR s w) := by
  unfold Iges.block; rw [if_pos h]; rfl

/-- The `i`-th piece of `w` columns. -/
def piece (w : ℕ) (c : List Char) (i : ℕ) : List Char := padL ((c.drop (i * w)).take w) w

theorem piece_length (w : ℕ) (c : List Char) (i : ℕ) : (piece w c i).length = w := padL_length (by simp)

/-- The number of pieces. -/
def pieces (w : ℕ) (c : List Char) : ℕ := (c.length - 1) / w + 1

theorem pieces_flatten {w : ℕ} (hw : 0 < w) : ∀ (n : ℕ) (c : List Char), c.length ≤ n → c ≠ [] →
    ((List.range (pieces w c)).map (piece w c)).flatten = c ++ List.replicate (w * pieces w c - c.length) ' '
  | 0, c, h, hc => absurd (List.length_eq_zero_iff.1 (by omega)) hc
  | n + 1, c, h, hc => by
    have hpos := List.length_pos_iff.2 hc
    by_cases hle : c.length ≤ w
    · have e : pieces w c = 1 := by
        unfold pieces
        rw [Nat.div_eq_of_lt (by omega)]
      rw [e]
      simp only [List.range_one, List.map_cons, List.map_nil, List.flatten_cons, List.flatten_nil, List.append_nil, mul_one]
      unfold piece padL
      rw [Nat.zero_mul, List.drop_zero, List.take_of_length_le hle]
    · have hd : c.drop w ≠ [] := by
        intro h0
        have := congrArg List.length h0
        rw [List.length_drop, List.length_nil] at this
        omega
      have e : pieces w c = pieces w (c.drop w) + 1 := by
        unfold pieces
        rw [List.length_drop, show c.length - 1 = (c.length - w - 1) + w by omega, Nat.add_div_right _ hw]
      rw [e, List.range_succ_eq_map, List.map_cons, List.map_map, List.flatten_cons]
      have e2 : (piece w c ∘ Nat.succ) = piece w (c.drop w) := by
        funext i
        simp only [Function.comp, piece]
        rw [List.drop_drop, show i.succ * w = w + i * w by rw [Nat.succ_mul, Nat.add_comm]]
      have e3 : piece w c 0 = c.take w := by
        unfold piece padL
        rw [Nat.zero_mul, List.drop_zero, List.length_take, Nat.min_eq_left (by omega)]; simp
      rw [e2, pieces_flatten hw n (c.drop w) (by rw [List.length_drop]; omega) hd, e3, ← List.append_assoc, List.take_append_drop,
        List.length_drop, Nat.mul_add, Nat.mul_one]
      congr 2
      omega

theorem pieces_fill {w : ℕ} (hw : 0 < w) {c : List Char} (hc : c ≠ []) : c.length ≤ w * pieces w c ∧ w * pieces w c - c.length < w := by
  have hpos := List.length_pos_iff.2 hc
  unfold pieces
  have h1 := Nat.div_add_mod (c.length - 1) w
  have h2 := Nat.mod_lt (c.length - 1) hw
  rw [Nat.mul_add, Nat.mul_one]
  omega

theorem natText_le {n k : ℕ} (h : n < 10 ^ (k + 1)) : (natText n).length ≤ k + 1 := natText_length h

/-- A line of the global or directory section. -/
def line72 (letter : Char) (c : List Char) (line i : ℕ) : List Char := piece 72 c i ++ letter :: padR (natText (line + i + 1)) 7

theorem lines72_eq {letter : Char} {c : List Char} {line : ℕ} (hc : c ≠ []) (hl : c.length < 2 ^ 63) (hn : line + pieces 72 c < 10 ^ 7) :
    Iges.lines72 letter c line = .ok ((List.range (pieces 72 c)).map (line72 letter c line)) := by
  have hpos := List.length_pos_iff.2 hc
  unfold Iges.lines72
  rw [show (c.length : ℤ) - 1 = ((c.length - 1 : ℕ) : ℤ) by omega, toSizeT_small (by omega)]
  refine buildList_eq fun i hi => ?_
  unfold pieces at hn
  have hle : i * 72 ≤ c.length := by omega
  unfold substr
  rw [if_pos hle, ok_bind, block_left (by simp), ok_bind, block_right (natText_le (k := 6) (by omega)), ok_bind]; rfl

/-- A line of the parameter section. -/
def line64 (c : List Char) (position line i : ℕ) : List Char :=
  piece 64 c i ++ ' ' :: (padR (natText position) 7 ++ 'P' :: padR (natText (line + i + 1)) 7)

theorem parameterLines_eq {c : List Char} {position line : ℕ} (hc : c ≠ []) (hl : c.length < 2 ^ 63) (hp : position < 10 ^ 7)
    (hn : line + pieces 64 c < 10 ^ 7) :
    Iges.parameterLines c position line = .ok ((List.range (pieces 64 c)).map (line64 c position line)) := by
  have hpos := List.length_pos_iff.2 hc
  unfold Iges.parameterLines
  rw [show (c.length : ℤ) - 1 = ((c.length - 1 : ℕ) : ℤ) by omega, toSizeT_small (by omega)]
  refine buildList_eq fun i hi => ?_
  unfold pieces at hn
  have hle : i * 64 ≤ c.length := by omega
  unfold substr
  rw [if_pos hle, ok_bind, block_left (by simp), ok_bind, block_right (natText_le (k := 6) hp), ok_bind,
    block_right (natText_le (k := 6) (by omega)), ok_bind]; rfl

section
variable {K : Type} [LinearOrder K] [Field K] [IsStrictOrderedRing K]

/-! ### The contents of the parameter section -/

/-- The number of the entity. -/
def entityNo (s : Spl K) : ℕ := if s.ps.knots.length = 1 then 126 else 128

theorem entity_eq {s : Spl K} (h : s.ps.knots.length = 1 ∨ s.ps.knots.length = 2) : Iges.entity s = .ok (entityNo s) := by
  unfold Iges.entity entityNo
  rcases h with h | h <;> simp [h]

/-- The weights; those of a B-spline are 1. -/
def weightList (s : Spl K) : List K :=
  match s.ph.weights with
  | none => List.replicate (npts s).prod 1
  | some w => w

/-- A control point in three coordinates. -/
def igesPoint3 (s : Spl K) (i : ℕ) : List K := (List.range 3).map fun j => if j < s.ph.dim then s.ph.cps.getD (s.ph.dim * i + j) 0 else 0

/-- All control points in three coordinates. -/
def points3 (s : Spl K) : List (List K) := (List.range (npts s).prod).map (igesPoint3 s)

/-- The integers in front. -/
def headNats (s : Spl K) : List ℕ :=
  let r := if s.ph.weights.isSome then 0 else 1
  match npts s, s.ps.degree with
  | [n], [p] => [126, n - 1, p, 0, 0, r, 0]
  | [n, m], [p, q] => [128, n - 1, m - 1, p, q, 0, 0, r, 0, 0]
  | _, _ => []

/-- The other numbers. -/
def bodyNums (s : Spl K) : List K := s.ps.knots.flatten ++ (weightList s ++ (points3 s).flatten)

theorem numCPs_iges {s : Spl K} (h : WFSpl s) : s.ph.numCPs = .ok ((npts s).prod : ℕ) := by
  unfold Phys.numCPs
  rw [if_neg h.dim.ne', h.cps]
  congr 1
  rw [Int.tdiv_eq_ediv_of_nonneg (by positivity)]
  push_cast
  exact Int.mul_ediv_cancel_left _ (by have := h.dim; omega)

theorem lin_first (n : ℕ) (ns : List ℕ) (i : ℕ) : lin (n :: ns) (i :: List.replicate ns.length 0) = i := by
  have : ∀ l : List ℕ, lin l (List.replicate l.length 0) = 0 := by
    intro l
    induction l with
    | nil => rfl
    | cons a l ih => rw [List.length_cons, List.replicate_succ, lin, ih]; simp
  rw [lin, this]; simp

theorem npts_cons {s : Spl K} (h : WFSpl s) (hk : 1 ≤ s.ps.knots.length) : ∃ n ns, npts s = n :: ns ∧ ns.length = s.ps.knots.length - 1 := by
  have hl := npts_length h
  obtain ⟨n, ns, e⟩ := List.exists_cons_of_length_pos (l := npts s) (by omega)
  refine ⟨n, ns, e, ?_⟩
  rw [e, List.length_cons] at hl; omega

theorem zl_first (i m : ℕ) : (i : ℤ) :: List.replicate m 0 = zl (i :: List.replicate m 0) := by
  simp [zl]

theorem getWeight_first {s : Spl K} (h : WFSpl s) (hk : 1 ≤ s.ps.knots.length) {i : ℕ} (hi : i < (npts s).prod) :
    s.ph.getWeight ((i : ℤ) :: List.replicate (s.ps.knots.length - 1) 0) = .ok ((weightList s).getD i 0) := by
  obtain ⟨n, ns, e, hl⟩ := npts_cons h hk
  have hlin : lin (npts s) (i :: List.replicate (s.ps.knots.length - 1) 0) = i := by rw [e, ← hl]; exact lin_first n ns i
  rw [zl_first, pgetWeight h.num fun w hw => by rw [hlin, (h.weights w hw).1]; exact hi]
  unfold pwgt weightList
  rw [hlin]
  cases s.ph.weights with
  | none => simp [List.getD_eq_getElem?_getD, hi]
  | some w => rfl

theorem coordinate_eq {s : Spl K} (h : WFSpl s) (hk : 1 ≤ s.ps.knots.length) {i j : ℕ} (hi : i < (npts s).prod) :
    Iges.coordinate s i j = .ok (if j < s.ph.dim then s.ph.cps.getD (s.ph.dim * i + j) 0 else 0) := by
  obtain ⟨n, ns, e, hl⟩ := npts_cons h hk
  have hlin : lin (npts s) (i :: List.replicate (s.ps.knots.length - 1) 0) = i := by rw [e, ← hl]; exact lin_first n ns i
  unfold Iges.coordinate
  by_cases hj : j < s.ph.dim
  · rw [if_pos hj, if_pos hj]
    unfold Spl.controlPoint
    rw [zl_first, pgetCP h.num (by rw [hlin, h.cps]; exact Nat.mul_le_mul_left _ hi), ok_bind, getI_map_range hj]
    unfold pcpt
    rw [hlin]
  · rw [if_neg hj, if_neg hj]

variable [GenPrinter K]

omit [GenPrinter K] in
theorem weightList_length {s : Spl K} (h : WFSpl s) : (weightList s).length = (npts s).prod := by
  unfold weightList
  cases hw : s.ph.weights with
  | none => simp
  | some w => exact (h.weights w hw).1

omit [GenPrinter K] in
theorem points3_flatten_length (s : Spl K) : (points3 s).flatten.length = 3 * (npts s).prod := by
  rw [flatten_length' (m := 3)]
  · simp [points3]
  · intro q hq
    obtain ⟨k, _, rfl⟩ := List.mem_map.1 hq
    simp [igesPoint3]

theorem weightsText_eq {s : Spl K} (h : WFSpl s) (hk : 1 ≤ s.ps.knots.length) :
    Iges.weightsText s (npts s).prod = .ok ((weightList s).flatMap fun w => Iges.generalText w ++ [',']) := by
  unfold Iges.weightsText
  rw [buildList_eq (g := fun i => Iges.generalText ((weightList s).getD i 0) ++ [','])]
  · rw [ok_bind, pure_ok]
    congr 1
    have e : weightList s = (List.range (npts s).prod).map fun i => (weightList s).getD i 0 := by
      refine List.ext_getElem? fun i => ?_
      by_cases hi : i < (weightList s).length
      · simp [hi, List.getD_eq_getElem?_getD, ← weightList_length h]
      · simp [hi, ← weightList_length h]
    conv_rhs => rw [e, List.flatMap_map]
    rw [← List.flatMap_def]
  · intro i hi
    rw [getWeight_first h hk hi, ok_bind]; rfl

theorem pointsText_iges {s : Spl K} (h : WFSpl s) (hk : 1 ≤ s.ps.knots.length) :
    ∃ t, Iges.pointsText s (npts s).prod = .ok t ∧ t ++ [';'] = joinFields ((points3 s).flatten.map Iges.generalText) := by
  have hpos := npts_prod_pos h
  set N := (npts s).prod with hN
  let g : ℕ → ℕ → List Char := fun i j => Iges.generalText (if j < s.ph.dim then s.ph.cps.getD (s.ph.dim * i + j) 0 else 0 : K)
  refine ⟨(List.range N).flatMap fun i => (List.range 3).flatMap fun j => g i j ++ (if i ≠ N - 1 ∨ j ≠ 2 then [','] else []), ?_, ?_⟩
  · unfold Iges.pointsText
    rw [buildList_eq (g := fun i => (List.range 3).flatMap fun j => g i j ++ (if i ≠ N - 1 ∨ j ≠ 2 then [','] else []))]
    · rw [ok_bind, pure_ok, ← List.flatMap_def]
    · intro i hi
      rw [buildList_eq (g := fun j => g i j ++ (if i ≠ N - 1 ∨ j ≠ 2 then [','] else []))]
      · rw [ok_bind, pure_ok, ← List.flatMap_def]
      · intro j hj
        rw [coordinate_eq h hk hi, ok_bind]; rfl
  · obtain ⟨m, hm⟩ := Nat.exists_eq_add_of_lt hpos
    rw [Nat.zero_add] at hm
    have e1 : (points3 s).flatten.map Iges.generalText = ((List.range m).flatMap fun i => (List.range 3).map (g i)) ++ (List.range 3).map (g m) := by
      unfold points3
      rw [← hN, hm, List.range_succ, List.map_append, List.flatten_append, List.map_append]
      congr 1
      · rw [← List.flatMap_def, List.map_flatMap]
        simp [igesPoint3, g, Function.comp_def]
    rw [e1, joinFields_append _ (by simp), hm, List.range_succ (n := m), List.flatMap_append, List.append_assoc, List.flatMap_singleton]
    congr 1
    · rw [List.flatMap_assoc]
      refine List.flatMap_congr fun i hi => ?_
      have hi' := List.mem_range.1 hi
      have hne : i ≠ m := by omega
      simp [List.range_succ, hne]
    · simp [List.range_succ, joinFields]

/-- The fields of the parameter data. -/
def fieldTexts (s : Spl K) : List (List Char) := (headNats s).map natText ++ (bodyNums s).map Iges.generalText

theorem headText_eq {s : Spl K} (h : WFSpl s) (hk : s.ps.knots.length = 1 ∨ s.ps.knots.length = 2)
    (hsz : (s.ps.knots.flatten).length < 2 ^ 63) : Iges.headText s = ((headNats s).map natText).flatMap fun t => t ++ [','] := by
  have hup : ∀ {U : List K} {p : ℕ}, 2 * p + 2 ≤ U.length → U.length < 2 ^ 63 → Iges.upperIndex U p = U.length - p - 1 - 1 := by
    intro U p h1 h2
    unfold Iges.upperIndex
    rw [show (U.length : ℤ) - p - 2 = ((U.length - p - 1 - 1 : ℕ) : ℤ) by omega, toSizeT_small (by omega)]
  have hkn := h.knots
  rcases hk with hk | hk
  · obtain ⟨U, hU⟩ := List.length_eq_one_iff.1 hk
    rw [hU] at hkn hsz
    obtain ⟨p, ps, hp, hps, e⟩ := List.forall₂_cons_left_iff.1 hkn
    rw [List.forall₂_nil_left_iff] at hps
    subst hps
    have en : npts s = [U.length - p - 1] := by rw [npts_eq, hU, e]; rfl
    unfold Iges.headText headNats
    rw [en, hU, e]
    simp only
    rw [hup hp.size (by simpa using hsz)]
    simp [Iges.addTo]
  · obtain ⟨U, V, hU⟩ := List.length_eq_two.1 hk
    rw [hU] at hkn hsz
    obtain ⟨p, ps, hp, hps, e⟩ := List.forall₂_cons_left_iff.1 hkn
    obtain ⟨q, qs, hq, hqs, e'⟩ := List.forall₂_cons_left_iff.1 hps
    rw [List.forall₂_nil_left_iff] at hqs
    subst hqs
    subst e'
    have en : npts s = [U.length - p - 1, V.length - q - 1] := by rw [npts_eq, hU, e]; rfl
    unfold Iges.headText headNats
    rw [en, hU, e]
    simp only
    simp only [List.flatten_cons, List.flatten_nil, List.append_nil, List.length_append] at hsz
    rw [hup hp.size (by omega), hup hq.size (by omega)]
    simp [Iges.addTo]

theorem points3_ne {s : Spl K} (h : WFSpl s) : (points3 s).flatten ≠ [] := by
  intro h0
  have h1 := points3_flatten_length s
  have := npts_prod_pos h
  rw [h0, List.length_nil] at h1; omega

theorem parameterContents_eq {s : Spl K} (h : WFSpl s) (hk : s.ps.knots.length = 1 ∨ s.ps.knots.length = 2)
    (hsz : (s.ps.knots.flatten).length < 2 ^ 63) : Iges.parameterContents s = .ok (joinFields (fieldTexts s)) := by
  obtain ⟨t, ht, hj⟩ := pointsText_iges h (by omega)
  unfold Iges.parameterContents
  rw [entity_eq hk, ok_bind, numCPs_iges h, ok_bind, Int.toNat_natCast, weightsText_eq h (by omega), ok_bind, ht, ok_bind, pure_ok, hj,
    headText_eq h hk hsz]
  have hne : (points3 s).flatten.map (Iges.generalText (K := K)) ≠ [] := by
    intro h0; exact points3_ne h (List.map_eq_nil_iff.1 h0)
  unfold fieldTexts bodyNums
  have hne2 : (weightList s).map (Iges.generalText (K := K)) ++ (points3 s).flatten.map (Iges.generalText (K := K)) ≠ [] :=
    fun h0 => hne (List.append_eq_nil_iff.1 h0).2
  rw [List.map_append, List.map_append, joinFields_append _ (fun h0 => hne2 (List.append_eq_nil_iff.1 h0).2), joinFields_append _ hne2,
    joinFields_append _ hne]
  have hk2 : (s.ps.knots.flatMap fun U => U.flatMap fun x => Iges.generalText x ++ [',']) =
      (s.ps.knots.flatten.map Iges.generalText).flatMap fun t => t ++ [','] := by
    rw [List.flatMap_map, List.flatten_eq_flatMap, List.flatMap_assoc]; rfl
  rw [hk2, List.flatMap_map (l := weightList s)]
end
end SplineLib
