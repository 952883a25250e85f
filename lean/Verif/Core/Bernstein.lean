import Verif.Core.EvalProps
import Verif.Spec.Bernstein

/-!
# Bernstein polynomials as basis functions (helper lemmas)
-/

namespace SplineLib
set_option linter.unusedSectionVars false
open Finset
variable {K : Type} [Field K] [LinearOrder K] [IsStrictOrderedRing K]

theorem bern_zero_succ (n : ℕ) (t : K) : bern (n + 1) 0 t = (1 - t) * bern n 0 t := by
  simp [bern, pow_succ']

theorem bern_of_lt {n j : ℕ} (h : n < j) (t : K) : bern n j t = 0 := by
  simp [bern, Nat.choose_eq_zero_of_lt h]

theorem bern_succ (n j : ℕ) (t : K) : bern (n + 1) (j + 1) t = t * bern n j t + (1 - t) * bern n (j + 1) t := by
  unfold bern
  rw [Nat.choose_succ_succ, Nat.cast_add, Nat.add_sub_add_right]
  rcases Nat.lt_or_ge j n with h | h
  · rw [show n - j = (n - (j + 1)) + 1 by omega]
    ring
  · rw [Nat.choose_eq_zero_of_lt (show n < j + 1 by omega)]
    push_cast
    ring

theorem InBezierSpan.span {U : List K} {p k : ℕ} {x : K} (h : InBezierSpan U p k x) : InSpan U k x := h.inside

theorem InBezierSpan.bounds {U : List K} {p k : ℕ} {x : K} (hw : WFKnots U p) (h : InBezierSpan U p k x) : p ≤ k ∧ k + p + 2 ≤ U.length := by
  have hlt := inSpan_lt h.span
  have hb := h.bound
  have hsz := hw.size
  constructor
  · by_contra hc
    rw [hw.first k (by omega), hw.first (k + 1) (by omega)] at hlt
    exact lt_irrefl _ hlt
  · by_contra hc
    have e1 := hw.last (U.length - 1 - k) (by omega)
    have e2 := hw.last (U.length - 1 - (k + 1)) (by omega)
    rw [show U.length - 1 - (U.length - 1 - k) = k by omega] at e1
    rw [show U.length - 1 - (U.length - 1 - (k + 1)) = k + 1 by omega] at e2
    rw [e1, e2] at hlt
    exact lt_irrefl _ hlt

theorem InBezierSpan.dom {U : List K} {p k : ℕ} {x : K} (hw : WFKnots U p) (h : InBezierSpan U p k x) : knot U 0 ≤ x ∧ x ≤ lastKnot U := by
  have hb := h.bound
  have m := ku_mono hw.sorted
  have a0 : knot U 0 ≤ knot U k := by
    have := m (Nat.zero_le k)
    rwa [ku_eq (by omega), ku_eq (by omega)] at this
  have a1 : knot U (k + 1) ≤ lastKnot U := by
    have := m (show k + 1 ≤ U.length - 1 by omega)
    rwa [ku_eq (by omega), ku_eq (by omega)] at this
  rcases h.inside with ⟨h1, h2⟩ | ⟨h1, h2, h3⟩
  · exact ⟨a0.trans h1, (h2.le).trans a1⟩
  · exact ⟨a0.trans h1.le, h3.le⟩

theorem cox_bern {U : List K} {p k : ℕ} {x : K} (hw : WFKnots U p) (h : InBezierSpan U p k x) : ∀ q ≤ p, ∀ j ≤ q,
    coxDeBoor U q (k - q + j) x = bern q j ((x - knot U k) / (knot U (k + 1) - knot U k)) := by
  obtain ⟨hpk, hkl⟩ := h.bounds hw
  have hlt := inSpan_lt h.span
  have hne : knot U (k + 1) - knot U k ≠ 0 := by
    have := sub_pos.2 hlt
    exact this.ne'
  have hl : ∀ i, i ≤ k → k < i + p → knot U i = knot U k := fun i h1 h2 => by
    have := h.left (k - i) (by omega)
    rwa [show k - (k - i) = i by omega] at this
  have hr : ∀ i, k + 1 ≤ i → i < k + 1 + p → knot U i = knot U (k + 1) := fun i h1 h2 => by
    have := h.right (i - (k + 1)) (by omega)
    rwa [show k + 1 + (i - (k + 1)) = i by omega] at this
  have hout : ∀ q i, i + q + 1 < U.length → (i + q < k ∨ k < i) → coxDeBoor U q i x = 0 := by
    intro q i hi ho
    apply cox_zero
    intro j h1 h2 h3
    have := InSpan.unique hw.sorted (by omega) (by omega) h3 h.span
    omega
  have h1t : (knot U (k + 1) - x) / (knot U (k + 1) - knot U k) = 1 - (x - knot U k) / (knot U (k + 1) - knot U k) := by
    field_simp
    ring
  intro q
  induction q with
  | zero =>
    intro _ j hj
    obtain rfl : j = 0 := by omega
    have : InSpan U k x := h.span
    simp [coxDeBoor, bern, this]
  | succ q ih =>
    intro hq j hj
    set t := (x - knot U k) / (knot U (k + 1) - knot U k) with ht
    rw [coxDeBoor]
    cases j with
    | zero =>
      rw [hout q (k - (q + 1) + 0) (by omega) (by omega), mul_zero, zero_add, bern_zero_succ, ← ih (by omega) 0 (by omega),
        hr (k - (q + 1) + 0 + q + 2) (by omega) (by omega), hl (k - (q + 1) + 0 + 1) (by omega) (by omega), h1t, show k - (q + 1) + 0 + 1 = k - q + 0 by omega]
    | succ j =>
      rw [bern_succ, ← ih (by omega) j (by omega), hl (k - (q + 1) + (j + 1)) (by omega) (by omega), hr (k - (q + 1) + (j + 1) + q + 1) (by omega) (by omega), ← ht,
        show k - (q + 1) + (j + 1) = k - q + j by omega]
      congr 1
      rcases Nat.lt_or_ge q (j + 1) with hc | hc
      · rw [bern_of_lt hc, mul_zero, hout q (k - q + j + 1) (by omega) (by omega), mul_zero]
      · rw [← ih (by omega) (j + 1) hc, hl (k - q + j + 1) (by omega) (by omega), hr (k - q + j + q + 2) (by omega) (by omega), h1t, add_assoc (k - q)]

theorem InBezierSpans.dom {Us : List (List K)} {ps : List ℕ} (hw : List.Forall₂ WFKnots Us ps) : ∀ {ks : List ℕ} {xs : List K}, InBezierSpans Us ps ks xs →
    Dom Us xs := by
  induction hw with
  | nil =>
    intro ks xs h
    cases ks <;> cases xs <;> simp [InBezierSpans] at h
    exact .nil
  | cons h1 _ ih =>
    intro ks xs h
    cases ks with
    | nil => cases xs <;> simp [InBezierSpans] at h
    | cons k ks =>
      cases xs with
      | nil => simp [InBezierSpans] at h
      | cons x xs => exact .cons (h.1.dom h1) (ih h.2)

theorem msum_bezier {Us : List (List K)} {ps : List ℕ} (hw : List.Forall₂ WFKnots Us ps) : ∀ {ks : List ℕ} {xs : List K} (F : List ℕ → K),
    InBezierSpans Us ps ks xs → msum (List.zipWith (fun U p => U.length - p - 1) Us ps) (fun I => dprod (basisFns Us ps xs) I * F I) =
      bezierSum ps (localParams Us ks xs) fun J => F (spanIndex ks ps J) := by
  induction hw with
  | nil =>
    intro ks xs F h
    cases ks <;> cases xs <;> simp [InBezierSpans] at h
    simp [bezierSum, msum, spanIndex, bernFns, basisFns, dprod]
  | @cons U p Us ps h1 _ ih =>
    intro ks xs F h
    cases ks with
    | nil => cases xs <;> simp [InBezierSpans] at h
    | cons k ks =>
      cases xs with
      | nil => simp [InBezierSpans] at h
      | cons x xs =>
        obtain ⟨hpk, hkl⟩ := h.1.bounds h1
        simp only [bezierSum, bernFns, localParams, spanIndex, List.map_cons, List.zipWith_cons_cons, basisFns, msum, dprod]
        rw [sum_window (n := U.length - p - 1) (o := k - p) (w := p + 1) (by omega) ?_]
        · apply sum_congr rfl
          intro j hj
          have := ih (fun I => F ((k - p + j) :: I)) h.2
          simp only [mul_assoc, msum_mul_left]
          rw [add_comm j, cox_bern h1 h.1 p le_rfl j (by have := mem_range.1 hj; omega), this]
          rfl
        · intro i hi ho
          have : coxDeBoor U p i x = 0 := by
            apply cox_zero
            intro j h2 h3 h4
            have := InSpan.unique h1.sorted (by omega) (by omega) h4 h.1.span
            omega
          rw [this]
          simp [msum_zero]

theorem tensorSum_bezier {s : Spl K} (h : WFSpl s) {ks : List ℕ} {x : List K} (hx : InBezierSpans s.ps.knots s.ps.degree ks x) (F : List ℕ → K) :
    tensorSum s x F = bezierSum s.ps.degree (localParams s.ps.knots ks x) fun J => F (spanIndex ks s.ps.degree J) :=
  msum_bezier h.knots F hx

end SplineLib
