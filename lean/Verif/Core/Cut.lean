import Verif.Core.Insert

/-!
# Cutting a knot vector at a knot of multiplicity `p+1` (helper lemmas)
-/

namespace SplineLib
set_option linter.unusedSectionVars false
open Finset

section
variable {K : Type} [Field K] [LinearOrder K] [IsStrictOrderedRing K]

/-- The knots with indices `e, ..., e+p`, and only these, are equal to `t`, which lies inside the range. -/
structure Cut (V : List K) (p e : ℕ) (t : K) : Prop where
  wf : WFKnots V p
  lo : p + 1 ≤ e
  hi : e + 2 * p + 2 ≤ V.length
  eq : ∀ j, e ≤ j → j ≤ e + p → knot V j = t
  lt : knot V (e - 1) < t
  gt : t < knot V (e + p + 1)

variable {V : List K} {p e : ℕ} {t : K}

theorem knot_take {V : List K} {n i : ℕ} (h : i < n) : knot (V.take n) i = knot V i := by
  simp [knot, List.getD_eq_getElem?_getD, h]

theorem knot_drop {V : List K} {n i : ℕ} : knot (V.drop n) i = knot V (i + n) := by
  simp [knot, List.getD_eq_getElem?_getD, Nat.add_comm]

theorem Cut.take_length (h : Cut V p e t) : (V.take (e + p + 1)).length = e + p + 1 := by
  have := h.hi; simp; omega

theorem Cut.drop_length (_h : Cut V p e t) : (V.drop e).length = V.length - e := by simp

theorem Cut.left_last (h : Cut V p e t) : lastKnot (V.take (e + p + 1)) = t := by
  unfold lastKnot
  rw [h.take_length, knot_take (by omega), h.eq _ (by omega) (by omega)]

theorem Cut.left_first (_h : Cut V p e t) : knot (V.take (e + p + 1)) 0 = knot V 0 := knot_take (by omega)

theorem Cut.right_first (h : Cut V p e t) : knot (V.drop e) 0 = t := by
  rw [knot_drop, h.eq _ (by omega) (by omega)]

theorem Cut.right_last (h : Cut V p e t) : lastKnot (V.drop e) = lastKnot V := by
  have := h.hi
  unfold lastKnot
  rw [h.drop_length, knot_drop]; congr 1; omega

theorem Cut.first_lt (h : Cut V p e t) : knot V 0 < t := by
  have := h.hi; have := h.lo
  exact lt_of_le_of_lt (h.wf.sorted.mono (by omega) (by omega)) h.lt

theorem Cut.lt_last (h : Cut V p e t) : t < lastKnot V := by
  have := h.hi
  exact lt_of_lt_of_le h.gt (h.wf.sorted.le_last (by omega))

theorem Cut.left_wf (h : Cut V p e t) : WFKnots (V.take (e + p + 1)) p := by
  have hh := h.hi; have hl := h.lo
  refine ⟨h.wf.sorted.sublist (List.take_sublist _ _), by rw [h.take_length]; omega, ?_, ?_, ?_, ?_⟩
  · intro j hj
    rw [knot_take (by omega), knot_take (by omega)]; exact h.wf.first j hj
  · intro j hj
    rw [h.left_last, h.take_length, knot_take (by omega)]
    exact h.eq _ (by omega) (by omega)
  · rw [h.left_last, h.left_first]; exact h.first_lt
  · intro a ha b hb hab
    exact h.wf.sep a (List.mem_of_mem_take ha) b (List.mem_of_mem_take hb) hab

theorem Cut.right_wf (h : Cut V p e t) : WFKnots (V.drop e) p := by
  have hh := h.hi; have hl := h.lo
  refine ⟨h.wf.sorted.sublist (List.drop_sublist _ _), by rw [h.drop_length]; omega, ?_, ?_, ?_, ?_⟩
  · intro j hj
    rw [h.right_first, knot_drop]; exact h.eq _ (by omega) (by omega)
  · intro j hj
    rw [h.right_last, h.drop_length, knot_drop, ← h.wf.last j hj]
    congr 1; omega
  · rw [h.right_last, h.right_first]; exact h.lt_last
  · intro a ha b hb hab
    exact h.wf.sep a (List.mem_of_mem_drop ha) b (List.mem_of_mem_drop hb) hab

/-- The spans of the whole knot vector. -/
theorem Cut.span_left (h : Cut V p e t) {x : K} (h0 : knot V 0 ≤ x) (h1 : x < t) :
    spanIx V x < e ∧ spanIx (V.take (e + p + 1)) x = spanIx V x := by
  have hh := h.hi; have hl := h.lo
  obtain ⟨_, h2, h3, h4⟩ := h.wf.span h0 (h1.le.trans h.lt_last.le)
  have hs : knot V (spanIx V x) ≤ x ∧ x < knot V (spanIx V x + 1) := by
    rcases h2 with h2 | h2
    · exact h2
    · exact absurd h2.2.2 (ne_of_lt (h1.trans h.lt_last))
  have hlt : spanIx V x < e := by
    by_contra hc
    have : knot V e ≤ knot V (spanIx V x) := h.wf.sorted.mono (by omega) (by omega)
    rw [h.eq e le_rfl (by omega)] at this
    exact absurd (lt_of_lt_of_le h1 this) (not_lt.2 hs.1)
  refine ⟨hlt, spanIx_unique h.left_wf (by rw [h.left_first]; exact h0) (by rw [h.left_last]; exact h1.le) (by rw [h.take_length]; omega) ?_⟩
  left
  rw [knot_take (by omega), knot_take (by omega)]; exact hs

theorem Cut.span_right (h : Cut V p e t) {x : K} (h0 : t ≤ x) (h1 : x ≤ lastKnot V) :
    e + p ≤ spanIx V x ∧ spanIx V x = spanIx (V.drop e) x + e := by
  have hh := h.hi; have hl := h.lo
  obtain ⟨_, h2, h3, h4⟩ := h.wf.span (h.first_lt.le.trans h0) h1
  have hge : e + p ≤ spanIx V x := by
    by_contra hc
    rcases h2 with h2 | h2
    · have : knot V (spanIx V x + 1) ≤ knot V (e + p) := h.wf.sorted.mono (by omega) (by omega)
      rw [h.eq (e + p) (by omega) le_rfl] at this
      exact absurd (lt_of_lt_of_le h2.2 this) (not_lt.2 h0)
    · have : knot V (spanIx V x + 1) ≤ knot V (e + p) := h.wf.sorted.mono (by omega) (by omega)
      rw [h.eq (e + p) (by omega) le_rfl, ← h2.2.1, h2.2.2] at this
      exact absurd h.lt_last (not_lt.2 this)
  refine ⟨hge, ?_⟩
  have : spanIx (V.drop e) x = spanIx V x - e := by
    apply spanIx_unique h.right_wf (by rw [h.right_first]; exact h0) (by rw [h.right_last]; exact h1) (by rw [h.drop_length]; omega)
    unfold InSpan at h2 ⊢
    rw [knot_drop, knot_drop, h.right_last, show spanIx V x - e + e = spanIx V x by omega,
      show spanIx V x - e + 1 + e = spanIx V x + 1 by omega]
    exact h2
  omega

/-- Basis functions on the left of the cut. -/
theorem Cut.cox_left (h : Cut V p e t) {x : K} (h0 : knot V 0 ≤ x) (h1 : x < t) {i : ℕ} (hi : i < e) :
    coxDeBoor (V.take (e + p + 1)) p i x = coxDeBoor V p i x := by
  have hh := h.hi; have hl := h.lo
  rw [cox_active h.left_wf (by rw [h.left_first]; exact h0) (by rw [h.left_last]; exact h1.le) (by rw [h.take_length]; omega),
    cox_active h.wf h0 (h1.le.trans h.lt_last.le) (by omega), (h.span_left h0 h1).2]
  apply Nb_congr
  · intro j _ hj
    rw [ku_eq (by rw [h.take_length]; omega), ku_eq (by omega), knot_take (by omega)]
  · intro j _ _; rfl

theorem Cut.cox_left_zero (h : Cut V p e t) {x : K} (h0 : knot V 0 ≤ x) (h1 : x < t) {i : ℕ} (hi : e ≤ i) (hi2 : i + p + 1 < V.length) :
    coxDeBoor V p i x = 0 :=
  coxDeBoor_zero_of h.wf h0 (h1.le.trans h.lt_last.le) hi2 (Or.inr (by have := (h.span_left h0 h1).1; omega))

theorem Cut.cox_right (h : Cut V p e t) {x : K} (h0 : t ≤ x) (h1 : x ≤ lastKnot V) {i : ℕ} (hi : i + e + p + 1 < V.length) :
    coxDeBoor (V.drop e) p i x = coxDeBoor V p (i + e) x := by
  have hh := h.hi; have hl := h.lo
  rw [cox_active h.right_wf (by rw [h.right_first]; exact h0) (by rw [h.right_last]; exact h1) (by rw [h.drop_length]; omega),
    cox_active h.wf (h.first_lt.le.trans h0) h1 (by omega), (h.span_right h0 h1).2, ← Nb_shift]
  apply Nb_congr
  · intro j _ hj
    rw [ku_eq (by rw [h.drop_length]; omega), ku_eq (by omega), knot_drop]
  · intro j _ _
    simp [delta]

theorem Cut.cox_right_zero (h : Cut V p e t) {x : K} (h0 : t ≤ x) (h1 : x ≤ lastKnot V) {i : ℕ} (hi : i < e) :
    coxDeBoor V p i x = 0 := by
  have hh := h.hi
  exact coxDeBoor_zero_of h.wf (h.first_lt.le.trans h0) h1 (by omega) (Or.inl (by have := (h.span_right h0 h1).1; omega))

/-- The sum on the left of the cut. -/
theorem Cut.sum_left (h : Cut V p e t) {x : K} (h0 : knot V 0 ≤ x) (h1 : x ≤ t) {f : ℕ → K} (hf : x = t → f (e - 1) = f e) :
    ∑ i ∈ range (V.length - p - 1), coxDeBoor V p i x * f i = ∑ i ∈ range e, coxDeBoor (V.take (e + p + 1)) p i x * f i := by
  have hh := h.hi; have hl := h.lo
  rcases lt_or_eq_of_le h1 with h1 | h1
  · rw [show V.length - p - 1 = e + (V.length - p - 1 - e) by omega, sum_range_add]
    rw [sum_eq_zero (s := range (V.length - p - 1 - e)), add_zero]
    · apply sum_congr rfl
      intro i hi
      rw [h.cox_left h0 h1 (mem_range.1 hi)]
    · intro i hi
      have := mem_range.1 hi
      rw [h.cox_left_zero h0 h1 (by omega) (by omega), zero_mul]
  · subst h1
    have hr : ∀ i < V.length - p - 1, coxDeBoor V p i x = if i = e then 1 else 0 := by
      intro i hi
      rw [cox_active h.wf h0 h.lt_last.le (by omega)]
      have hsp : spanIx V x = e + p := by
        apply spanIx_unique h.wf h0 h.lt_last.le (by omega)
        left
        exact ⟨(h.eq _ (by omega) (by omega)).le, h.gt⟩
      rw [hsp]
      apply Nb_left (by rw [ku_eq (by omega)]; exact h.gt) p e rfl
      intro j hj1 hj2
      rw [ku_eq (by omega)]; exact h.eq _ (by omega) hj2
    have hlft : ∀ i < e, coxDeBoor (V.take (e + p + 1)) p i x = if i = e - 1 then 1 else 0 := by
      intro i hi
      have := cox_last h.left_wf (i := i) (by rw [h.take_length, h.left_last, knot_take (by omega), show e + p + 1 - p - 2 = e - 1 by omega]; exact h.lt)
        (by rw [h.take_length]; omega)
      rw [h.left_last, h.take_length, show e + p + 1 - p - 2 = e - 1 by omega] at this
      exact this
    rw [sum_eq_single e, sum_eq_single (e - 1), hr e (by omega), hlft (e - 1) (by omega), if_pos rfl, if_pos rfl, hf rfl]
    · intro i hi hne
      rw [hlft i (mem_range.1 hi), if_neg hne, zero_mul]
    · intro hc; exact absurd (mem_range.2 (by omega)) hc
    · intro i hi hne
      rw [hr i (mem_range.1 hi), if_neg hne, zero_mul]
    · intro hc; exact absurd (mem_range.2 (by omega)) hc

/-- The sum on the right of the cut. -/
theorem Cut.sum_right (h : Cut V p e t) {x : K} (h0 : t ≤ x) (h1 : x ≤ lastKnot V) (f : ℕ → K) :
    ∑ i ∈ range (V.length - p - 1), coxDeBoor V p i x * f i =
      ∑ i ∈ range (V.length - e - p - 1), coxDeBoor (V.drop e) p i x * f (i + e) := by
  have hh := h.hi; have hl := h.lo
  rw [show V.length - p - 1 = e + (V.length - e - p - 1) by omega, sum_range_add, sum_eq_zero (s := range e), zero_add]
  · apply sum_congr rfl
    intro i hi
    have := mem_range.1 hi
    rw [h.cox_right h0 h1 (by omega), Nat.add_comm e i]
  · intro i hi
    rw [h.cox_right_zero h0 h1 (mem_range.1 hi), zero_mul]

end
end SplineLib
