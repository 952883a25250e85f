import Verif.Core.Elements
import Verif.Core.BoxHandler
import Verif.Spec.Elements
import Verif.Spec.Examples
import Verif.Props.MultiIndex

/-!
# Elements and connectivity

C43: the elements tile the parameter range. C46: `GetNumberOfDifferentKnots`. C47: the connectivity of the isogeometric example maps
the local basis functions of an element to the basis functions that do not vanish there. C48: the element of a parameter coordinate.
-/

namespace SplineLib
set_option linter.unusedSectionVars false
open Elem

variable {K : Type} [Field K] [LinearOrder K] [IsStrictOrderedRing K]

/-- C46: on sorted knots `GetNumberOfDifferentKnots` is the number of different values. -/
theorem C46_number_of_different_knots {U : List K} (h : SortedKnots U) (hne : U ≠ []) : kvNumDifferent U = U.toFinset.card :=
  kvNumDifferent_eq_card h hne

example : kvNumDifferent ([0, 0, 1, 1, 2] : List ℚ) = 3 := by
  rw [C46_number_of_different_knots (by decide +kernel) (by simp)]; decide +kernel

theorem zip_tail_length {α : Type} (l : List α) : (l.zip l.tail).length = l.length - 1 := by
  rw [List.length_zip, List.length_tail]; omega

/-- C43: the element list of a direction are the intervals between consecutive different knots, in order; there is one element
less than there are different knots. -/
theorem C43_elements_tile {U : List K} {p : ℕ} (h : WFKnots U p) (hl : U.length < 2 ^ 64) :
    ∃ es, elementsDir U p = .ok es ∧ Tiles U es ∧ es.length + 1 = kvNumDifferent U := by
  refine ⟨_, elementsDir_eq h hl, ⟨uniq U, uniq_sorted h.sorted, fun x => mem_uniq, rfl⟩, ?_⟩
  have := uniq_length h.sorted h.ne_nil
  have := kvNumDifferent_pos U
  rw [zip_tail_length]; omega

/-- C43: consequences in coordinates: there is an element, the first begins at the first knot, the last ends at the last knot, every
element is non-empty, and each begins where the one before ends. -/
theorem C43_elements_consecutive {U : List K} {p : ℕ} (h : WFKnots U p) (hl : U.length < 2 ^ 64) :
    ∃ es, elementsDir U p = .ok es ∧ es ≠ [] ∧ (∀ e ∈ es, e.1 < e.2) ∧
      (∀ i a b, es[i]? = some a → es[i + 1]? = some b → a.2 = b.1) ∧
      (∀ a, es.head? = some a → a.1 = knot U 0) ∧ (∀ a, es.getLast? = some a → a.2 = lastKnot U) := by
  have h2 := two_le_kvNumDifferent h
  rw [← uniq_length h.sorted h.ne_nil] at h2
  have hzl := zip_tail_length (uniq U)
  have hU0 : 0 < U.length := List.length_pos_iff.2 h.ne_nil
  refine ⟨_, elementsDir_eq h hl, ?_, ?_, ?_, ?_, ?_⟩
  · intro h0; rw [h0] at hzl; simp at hzl; omega
  · intro e he
    obtain ⟨i, hi, rfl⟩ := List.mem_iff_getElem.1 he
    rw [List.getElem_zip, List.getElem_tail]
    exact uniq_getElem_lt h.sorted (by omega) (by rw [hzl] at hi; omega)
  · intro i a b ha hb
    obtain ⟨hi, ha⟩ := List.getElem?_eq_some_iff.1 ha
    obtain ⟨hi', hb⟩ := List.getElem?_eq_some_iff.1 hb
    rw [List.getElem_zip] at ha hb
    rw [← ha, ← hb]; simp
  · intro a ha
    rw [List.head?_eq_getElem?] at ha
    obtain ⟨hi, ha⟩ := List.getElem?_eq_some_iff.1 ha
    rw [List.getElem_zip] at ha
    rw [← ha]
    refine le_antisymm ?_ ?_
    · obtain ⟨j, hj, hje⟩ := List.mem_iff_getElem.1 (mem_uniq.2 (knot_mem hU0))
      rw [← hje]
      rcases Nat.eq_zero_or_pos j with rfl | hj0
      · exact le_refl _
      · exact (uniq_getElem_lt h.sorted hj0 hj).le
    · obtain ⟨j, hj, hje⟩ := mem_iff_knot.1 (mem_uniq.1 (List.getElem_mem (l := uniq U) (n := 0) (by omega)))
      rw [← hje]; exact h.sorted.first_le hj
  · intro a ha
    rw [List.getLast?_eq_getElem?] at ha
    obtain ⟨hi, ha⟩ := List.getElem?_eq_some_iff.1 ha
    rw [List.getElem_zip, List.getElem_tail] at ha
    rw [← ha]
    refine le_antisymm ?_ ?_
    · obtain ⟨j, hj, hje⟩ := mem_iff_knot.1 (mem_uniq.1 (List.getElem_mem (l := uniq U)
        (n := ((uniq U).zip (uniq U).tail).length - 1 + 1) (by omega)))
      rw [← hje]; exact h.sorted.le_last hj
    · obtain ⟨j, hj, hje⟩ := List.mem_iff_getElem.1 (mem_uniq.2 (lastKnot_mem h.ne_nil))
      rw [← hje]
      rcases Nat.lt_or_ge j (((uniq U).zip (uniq U).tail).length - 1 + 1) with h' | h'
      · exact (uniq_getElem_lt h.sorted h' _).le
      · have : j = ((uniq U).zip (uniq U).tail).length - 1 + 1 := by omega
        subst this; exact le_refl _

/-- C43: for a well-formed spline the generator succeeds and has such a list for every direction. -/
theorem C43_all_directions {Us : List (List K)} {ps : List ℕ} (h : List.Forall₂ WFKnots Us ps) (hl : ∀ U ∈ Us, U.length < 2 ^ 64) :
    ∃ els, elements Us ps = .ok els ∧ List.Forall₂ Tiles Us els := by
  refine ⟨_, elements_eq h hl, ?_⟩
  clear hl
  unfold elemsOf
  induction h with
  | nil => exact .nil
  | cons h _ ih => exact .cons ⟨uniq _, uniq_sorted h.sorted, fun x => mem_uniq, rfl⟩ ih

/-! ### Connectivity -/

theorem plus_position {len ix : List ℤ} (hp : PosLen len) (hv : ValidIx len ix) : ((MIH.mk' len).plus (position len ix)).cur = ix := by
  obtain ⟨ns, k, hn, hk, rfl, rfl⟩ := exists_unlin hp hv
  rw [← oneD_eq_position, oneD_zl, lin_unlin hk]
  unfold MIH.plus
  rw [Int.toNat_natCast, mk'_iter_zl hn]

theorem numElements_pos {Us : List (List K)} {ps : List ℕ} (h : List.Forall₂ WFKnots Us ps) : PosLen (numElements (elemsOf Us)) := by
  intro l hl
  unfold numElements elemsOf at hl
  rw [List.map_map] at hl
  obtain ⟨U, hU, rfl⟩ := List.mem_map.1 hl
  obtain ⟨p, hp⟩ : ∃ p, WFKnots U p := by
    clear hl
    induction h with
    | nil => cases hU
    | cons h _ ih =>
      rcases List.mem_cons.1 hU with rfl | hU
      · exact ⟨_, h⟩
      · exact ih hU
  have h2 := two_le_kvNumDifferent hp
  rw [← uniq_length hp.sorted hp.ne_nil] at h2
  simp only [Function.comp, zip_tail_length]
  omega

theorem globalIndices_eq {Us : List (List K)} {ps : List ℕ} (h : List.Forall₂ WFKnots Us ps) : ∀ {e L : List ℤ} {x : List K} {fnz : List ℤ},
    L.length = ps.length → InElement (elemsOf Us) e x → PS.firstNonZero Us ps x = .ok fnz →
    globalIndices Us ps e L = .ok (List.zipWith (· + ·) L fnz) := by
  induction h with
  | nil =>
    intro e L x fnz hL hx hf
    cases L with
    | nil => rfl
    | cons _ _ => simp at hL
  | @cons U p Us ps h _ ih =>
    intro e L x fnz hL hx hf
    cases L with
    | nil => simp at hL
    | cons l L =>
      cases e with
      | nil => cases x <;> simp [elemsOf, InElement] at hx
      | cons e es =>
        cases x with
        | nil => simp [elemsOf, InElement] at hx
        | cons x xs =>
          obtain ⟨⟨n, ab, rfl, hn, hx1, hx2⟩, hxs⟩ := hx
          obtain ⟨hn', rfl⟩ := List.getElem?_eq_some_iff.1 hn
          rw [List.getElem_zip, List.getElem_tail] at hx1 hx2
          rw [zip_tail_length] at hn'
          obtain ⟨k, hk, hk1, hk2⟩ := element_span h.sorted (e := n) (by omega)
          have hin : InSpan U k x := Or.inl ⟨by rw [hk1]; exact hx1, by rw [hk2]; exact hx2⟩
          have h0 : knot U 0 ≤ x := le_trans (h.sorted.first_le (by omega : k < U.length)) (by rw [hk1]; exact hx1)
          have h1 : x ≤ lastKnot U := le_trans (by rw [hk2]; exact hx2.le) (h.sorted.le_last hk)
          obtain ⟨s1, s2, s3, s4⟩ := h.span h0 h1
          have hsk : spanIx U x = k := InSpan.unique h.sorted (by omega) hk s2 hin
          obtain ⟨_, hsh⟩ := indexShift_eq h (by omega) hk hk1 hk2
          rw [PS.firstNonZero, s1, ok_bind] at hf
          obtain ⟨r, hr, hf⟩ := bind_eq_ok.1 hf
          rw [pure_ok] at hf
          injection hf with hf
          subst hf
          rw [globalIndices, hsh, ok_bind, ih (by simpa using hL) hxs hr, ok_bind, pure_ok, List.zipWith_cons_cons, hsk]
          congr 2
          ring

/-- C47: `GetGlobalIndex` of the local basis function `L` of the element `e` is one plus the position of the control point that
belongs to the basis function number `first non-zero + L`, for every coordinate `x` in the element. Element and local basis function
are numbered by the position of their multi-index. -/
theorem C47_global_index {s : Spl K} (h : WFSpl s) (hl : ∀ U ∈ s.ps.knots, U.length < 2 ^ 64) {els : List (List (K × K))}
    (hels : elements s.ps.knots s.ps.degree = .ok els) {e L : List ℤ} {x : List K} {fnz : List ℤ}
    (he : ValidIx (numElements els) e) (hL : ValidIx s.numBasis L) (hx : InElement els e x)
    (hf : PS.firstNonZero s.ps.knots s.ps.degree x = .ok fnz) :
    globalIndex s (position (numElements els) e) (position s.numBasis L) = .ok (position s.ph.num (List.zipWith (· + ·) L fnz) + 1) := by
  rw [elements_eq h.knots hl] at hels
  injection hels with hels
  subst hels
  have hnb : PosLen s.numBasis := by
    intro l hl
    unfold Spl.numBasis at hl
    obtain ⟨p, _, rfl⟩ := List.mem_map.1 hl
    omega
  have hLl : L.length = s.ps.degree.length := by
    have := List.Forall₂.length_eq hL
    rw [this]; unfold Spl.numBasis; simp
  unfold globalIndex
  rw [elements_eq h.knots hl, ok_bind]
  unfold elementIndices
  rw [plus_position (numElements_pos h.knots) he, plus_position hnb hL, globalIndices_eq h.knots hLl hx hf, ok_bind, pure_ok,
    C26_get1D_eq_position]
  rfl

/-! ### The element of a coordinate -/

theorem elementIndicesAt_eq {Us : List (List K)} {ps : List ℕ} (h : List.Forall₂ WFKnots Us ps) : ∀ {e : List ℤ} {x : List K},
    InElement (elemsOf Us) e x → elementIndicesAt Us ps x = .ok e := by
  induction h with
  | nil =>
    intro e x hx
    cases e with
    | nil => rfl
    | cons _ _ => cases x <;> simp [elemsOf, InElement] at hx
  | @cons U p Us ps h _ ih =>
    intro e x hx
    cases e with
    | nil => cases x <;> simp [elemsOf, InElement] at hx
    | cons e es =>
      cases x with
      | nil => simp [elemsOf, InElement] at hx
      | cons x xs =>
        obtain ⟨⟨n, ab, rfl, hn, hx1, hx2⟩, hxs⟩ := hx
        obtain ⟨hn', rfl⟩ := List.getElem?_eq_some_iff.1 hn
        rw [List.getElem_zip, List.getElem_tail] at hx1 hx2
        rw [zip_tail_length] at hn'
        have hD : (uniq U).Pairwise (· < ·) := uniq_sorted h.sorted
        have hDs : SortedKnots (uniq U) := hD.imp fun h => h.le
        have hsep : Separated (uniq U) := fun a ha b hb => h.sep a (mem_uniq.1 ha) b (mem_uniq.1 hb)
        have e1 : knot (uniq U) n = (uniq U)[n] := knot_eq _
        have e2 : knot (uniq U) (n + 1) = (uniq U)[n + 1] := knot_eq _
        have h0 : knot (uniq U) 0 ≤ x := le_trans (hDs.first_le (by omega : n < _)) (by rw [e1]; exact hx1)
        have h1 : x < lastKnot (uniq U) := lt_of_lt_of_le (by rw [e2]; exact hx2) (hDs.le_last (by omega))
        obtain ⟨s1, s2, s3⟩ := span_correct hDs hsep (lt_of_le_of_lt h0 h1) h0 h1.le
        have hin : InSpan (uniq U) n x := Or.inl ⟨by rw [e1]; exact hx1, by rw [e2]; exact hx2⟩
        have hsk : spanIx (uniq U) x = n := InSpan.unique hDs s2 (by omega) s3 hin
        rw [elementIndicesAt, internal_eq h, ok_bind]
        simp only [uniq_internal h]
        rw [s1, ok_bind, ih hxs, ok_bind, pure_ok, hsk]

/-- C48: `GetElementNumberAtParamCoord` is the number of the element in which the coordinate lies. -/
theorem C48_element_number_at {s : Spl K} (h : WFSpl s) (hl : ∀ U ∈ s.ps.knots, U.length < 2 ^ 64) {els : List (List (K × K))}
    (hels : elements s.ps.knots s.ps.degree = .ok els) {e : List ℤ} {x : List K} (hx : InElement els e x) :
    elementNumberAt s x = .ok (position (numElements els) e) := by
  rw [elements_eq h.knots hl] at hels
  injection hels with hels
  subst hels
  unfold elementNumberAt
  rw [elements_eq h.knots hl, ok_bind, elementIndicesAt_eq h.knots hx, ok_bind, pure_ok]
  unfold elementNumber
  rw [C26_get1D_eq_position]
  rfl

/-- C48: `GetElementIndices` and `Get1DElementIndex` are inverse to each other on the elements. -/
theorem C48_element_numbering {s : Spl K} (h : WFSpl s) (hl : ∀ U ∈ s.ps.knots, U.length < 2 ^ 64) {els : List (List (K × K))}
    (hels : elements s.ps.knots s.ps.degree = .ok els) {e : List ℤ} (he : ValidIx (numElements els) e) :
    elementIndices els (elementNumber els e) = e := by
  rw [elements_eq h.knots hl] at hels
  injection hels with hels
  subst hels
  unfold elementNumber elementIndices
  rw [C26_get1D_eq_position]
  exact plus_position (numElements_pos h.knots) he

/-- C48: `Reference2ParameterSpace` maps the reference interval `[-1, 1)` into the element. -/
theorem C48_reference_in_element {els : List (List (K × K))} {e : List ℤ} {t : List K} (hlt : ∀ E ∈ els, ∀ ab ∈ E, ab.1 < ab.2)
    (he : ValidIx (numElements els) e) (ht : List.Forall₂ (fun (_ : List (K × K)) a => -1 ≤ a ∧ a < 1) els t) :
    ∃ x, toParamLoop els e t = .ok x ∧ InElement els e x := by
  induction ht generalizing e with
  | nil =>
    cases e with
    | nil => exact ⟨[], rfl, trivial⟩
    | cons _ _ => cases he
  | @cons E a Es ts hE _ ih =>
    cases he with
    | @cons i n es _ hi hes =>
      obtain ⟨i, rfl⟩ := Int.eq_ofNat_of_zero_le hi.1
      have hil : i < E.length := by have := hi.2; dsimp only at this; exact_mod_cast this
      obtain ⟨xs, h1, h2⟩ := ih (fun F hF => hlt F (by simp [hF])) hes
      have hab := hlt E (by simp) E[i] (List.getElem_mem _)
      have h3 : toParamLoop (E :: Es) ((i : ℤ) :: es) (a :: ts) = .ok (((E[i].2 - E[i].1) * a + (E[i].2 + E[i].1)) / 2 :: xs) := by
        rw [toParamLoop, getI_nat, getN_of_lt hil, ok_bind, h1, ok_bind, pure_ok]
      refine ⟨_, h3, ⟨i, E[i], rfl, by simp [hil], ?_, ?_⟩, h2⟩
      · rw [le_div_iff₀ (by norm_num)]
        nlinarith [mul_nonneg (sub_nonneg.2 hab.le) (by linarith [hE.1] : (0 : K) ≤ a + 1)]
      · rw [div_lt_iff₀ (by norm_num)]
        nlinarith [mul_pos (sub_pos.2 hab) (by linarith [hE.2] : (0 : K) < 1 - a)]

/-! Examples: the hypotheses hold for the example surface. -/
example : elements (K := ℚ) [[0, 0, 0, 1, 1, 3, 3, 3], [0, 0, 1, 1]] [2, 1] = .ok [[(0, 1), (1, 3)], [(0, 1)]] := by decide +kernel
example : WFKnots ([0, 0, 0, 1, 1, 3, 3, 3] : List ℚ) 2 := by rw [wfKnots_iff]; decide +kernel
example : InElement ([[(0, 1), (1, 3)], [(0, 1)]] : List (List (ℚ × ℚ))) [1, 0] [2, 1 / 2] :=
  ⟨⟨1, (1, 3), rfl, rfl, by norm_num, by norm_num⟩, ⟨0, (0, 1), rfl, rfl, by norm_num, by norm_num⟩, trivial⟩
example : indexShift ([0, 0, 0, 1, 1, 3, 3, 3] : List ℚ) 2 1 = .ok 1 := by decide +kernel

end SplineLib
