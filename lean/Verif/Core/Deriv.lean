import Verif.Spec.Derivative
import Verif.Core.EvalProps
import Mathlib.Analysis.Calculus.Deriv.Add
import Mathlib.Analysis.Calculus.Deriv.Mul
import Mathlib.Analysis.Calculus.Deriv.Inv

/-!
# Derivatives of basis functions (helper lemmas)
-/

namespace SplineLib
set_option linter.unusedSectionVars false
open Finset Filter Topology

/-- The algebraic core of the derivative formula: the degree raising step. -/
theorem deriv_step_algebra {u : ℕ → ℝ} (hu : Monotone u) (x : ℝ) (q i : ℕ) (m n0 n1 n2 : ℝ) :
    (x - u i) / (u (i + q + 2) - u i) * (m * (n0 / (u (i + q + 1) - u i) - n1 / (u (i + q + 2) - u (i + 1)))) +
    (u (i + q + 3) - x) / (u (i + q + 3) - u (i + 1)) *
      (m * (n1 / (u (i + q + 2) - u (i + 1)) - n2 / (u (i + q + 3) - u (i + 2)))) =
    m * (((x - u i) / (u (i + q + 1) - u i) * n0 + (u (i + q + 2) - x) / (u (i + q + 2) - u (i + 1)) * n1) / (u (i + q + 2) - u i) -
      ((x - u (i + 1)) / (u (i + q + 2) - u (i + 1)) * n1 + (u (i + q + 3) - x) / (u (i + q + 3) - u (i + 2)) * n2) /
        (u (i + q + 3) - u (i + 1))) := by
  by_cases hB : u (i + q + 2) - u (i + 1) = 0
  · rw [hB]; simp only [div_zero, zero_mul, sub_zero, zero_sub, add_zero, zero_add]; ring
  · have h1 : u (i + 1) ≤ u (i + q + 2) := hu (by omega)
    have h2 : u i ≤ u (i + 1) := hu (by omega)
    have h3 : u (i + q + 2) ≤ u (i + q + 3) := hu (by omega)
    have hB' : 0 < u (i + q + 2) - u (i + 1) := lt_of_le_of_ne (by linarith) (Ne.symm hB)
    have hd1 : u (i + q + 2) - u i ≠ 0 := by intro h; linarith
    have hd2 : u (i + q + 3) - u (i + 1) ≠ 0 := by intro h; linarith
    have e1 : (x - u i) / (u (i + q + 2) - u i) = 1 - (u (i + q + 2) - x) / (u (i + q + 2) - u i) := by
      field_simp; ring
    have e2 : (x - u (i + 1)) / (u (i + q + 3) - u (i + 1)) = 1 - (u (i + q + 3) - x) / (u (i + q + 3) - u (i + 1)) := by
      field_simp; ring
    have g1 : ((x - u i) / (u (i + q + 1) - u i) * n0 + (u (i + q + 2) - x) / (u (i + q + 2) - u (i + 1)) * n1) /
        (u (i + q + 2) - u i) = (x - u i) / (u (i + q + 2) - u i) * (n0 / (u (i + q + 1) - u i)) +
          (u (i + q + 2) - x) / (u (i + q + 2) - u i) * (n1 / (u (i + q + 2) - u (i + 1))) := by ring
    have g2 : ((x - u (i + 1)) / (u (i + q + 2) - u (i + 1)) * n1 + (u (i + q + 3) - x) / (u (i + q + 3) - u (i + 2)) * n2) /
        (u (i + q + 3) - u (i + 1)) = (x - u (i + 1)) / (u (i + q + 3) - u (i + 1)) * (n1 / (u (i + q + 2) - u (i + 1))) +
          (u (i + q + 3) - x) / (u (i + q + 3) - u (i + 1)) * (n2 / (u (i + q + 3) - u (i + 2))) := by ring
    rw [g1, g2, e1, e2]; ring

theorem Nb_hasDerivAt {u : ℕ → ℝ} (hu : Monotone u) (c : ℕ → ℝ) (x : ℝ) : ∀ (p i : ℕ),
    HasDerivAt (fun y => Nb u y c p i) (DNb u x c p 1 i) x := by
  intro p
  induction p with
  | zero => intro i; simpa only [Nb, DNb] using hasDerivAt_const x (c i)
  | succ p ih =>
    intro i
    have hb : HasDerivAt (fun y => Nb u y c (p + 1) i)
        (1 / (u (i + p + 1) - u i) * Nb u x c p i + (x - u i) / (u (i + p + 1) - u i) * DNb u x c p 1 i +
          ((-1) / (u (i + p + 2) - u (i + 1)) * Nb u x c p (i + 1) +
            (u (i + p + 2) - x) / (u (i + p + 2) - u (i + 1)) * DNb u x c p 1 (i + 1))) x := by
      have a1 : HasDerivAt (fun y => (y - u i) / (u (i + p + 1) - u i)) (1 / (u (i + p + 1) - u i)) x :=
        ((hasDerivAt_id x).sub_const (u i)).div_const _
      have a2 : HasDerivAt (fun y => (u (i + p + 2) - y) / (u (i + p + 2) - u (i + 1))) ((-1) / (u (i + p + 2) - u (i + 1))) x :=
        ((hasDerivAt_id x).const_sub (u (i + p + 2))).div_const _
      exact (a1.mul (ih i)).add (a2.mul (ih (i + 1)))
    convert hb using 1
    cases p with
    | zero => simp only [DNb, Nb]; push_cast; ring
    | succ q =>
      have := deriv_step_algebra hu x q i (q + 1 : ℝ) (Nb u x c q i) (Nb u x c q (i + 1)) (Nb u x c q (i + 2))
      have n1 : Nb u x c (q + 1) i = (x - u i) / (u (i + q + 1) - u i) * Nb u x c q i +
          (u (i + q + 2) - x) / (u (i + q + 2) - u (i + 1)) * Nb u x c q (i + 1) := rfl
      have n2 : Nb u x c (q + 1) (i + 1) = (x - u (i + 1)) / (u (i + q + 2) - u (i + 1)) * Nb u x c q (i + 1) +
          (u (i + q + 3) - x) / (u (i + q + 3) - u (i + 2)) * Nb u x c q (i + 2) := by
        simp only [Nb]
        rw [show i + 1 + q + 1 = i + q + 2 by omega, show i + 1 + q + 2 = i + q + 3 by omega, show i + 1 + 1 = i + 2 by omega]
      have d1 : DNb u x c (q + 1) 1 i = (q + 1) * (Nb u x c q i / (u (i + q + 1) - u i) -
          Nb u x c q (i + 1) / (u (i + q + 2) - u (i + 1))) := by
        simp only [DNb]
      have d2 : DNb u x c (q + 1) 1 (i + 1) = (q + 1) * (Nb u x c q (i + 1) / (u (i + q + 2) - u (i + 1)) -
          Nb u x c q (i + 2) / (u (i + q + 3) - u (i + 2))) := by
        simp only [DNb]
        rw [show i + 1 + q + 1 = i + q + 2 by omega, show i + 1 + q + 2 = i + q + 3 by omega, show i + 1 + 1 = i + 2 by omega]
      rw [← n1, ← n2, ← d1, ← d2] at this
      have d3 : DNb u x c (q + 1 + 1) 1 i = ((q : ℝ) + 1 + 1) * (Nb u x c (q + 1) i / (u (i + q + 2) - u i) -
          Nb u x c (q + 1) (i + 1) / (u (i + q + 3) - u (i + 1))) := by
        simp only [DNb]; push_cast; rfl
      rw [d3]
      rw [show i + (q + 1) + 1 = i + q + 2 by omega, show i + (q + 1) + 2 = i + q + 3 by omega]
      linear_combination -this

theorem DNb_hasDerivAt {u : ℕ → ℝ} (hu : Monotone u) (c : ℕ → ℝ) (x : ℝ) : ∀ (k p i : ℕ),
    HasDerivAt (fun y => DNb u y c p k i) (DNb u x c p (k + 1) i) x := by
  intro k
  induction k with
  | zero =>
    intro p i
    have := Nb_hasDerivAt hu c x p i
    cases p <;> simpa only [DNb] using this
  | succ k ih =>
    intro p i
    cases p with
    | zero => simpa only [DNb] using hasDerivAt_const x (0 : ℝ)
    | succ p =>
      have := (((ih p i).div_const (u (i + p + 1) - u i)).sub ((ih p (i + 1)).div_const (u (i + p + 2) - u (i + 1)))).const_mul
        ((p : ℝ) + 1)
      simp only [DNb]
      exact this

/-- The parameters near `x`, on the side from which the derivative is taken, lie in the same span as `x`. -/
theorem spanDeriv_of_local {U : List ℝ} {p : ℕ} (hw : WFKnots U p) {x : ℝ} (h0 : knot U 0 ≤ x) (h1 : x ≤ lastKnot U)
    {f g : ℝ → ℝ} {f' : ℝ} (hg : HasDerivAt g f' x)
    (hf : ∀ y, knot U 0 ≤ y → y ≤ lastKnot U → InSpan U (spanIx U x) y → f y = g y) : SpanDeriv U f f' x := by
  obtain ⟨_, h2, h3, h4⟩ := hw.span h0 h1
  have hfx := hf x h0 h1 h2
  constructor
  · intro j hj hj1 hj2
    have hjs : j = spanIx U x := InSpan.unique hw.sorted (by omega) (by omega) (Or.inl ⟨hj1.le, hj2⟩) h2
    subst hjs
    apply hg.congr_of_eventuallyEq
    filter_upwards [Ioo_mem_nhds hj1 hj2] with y hy
    refine hf y (le_trans (hw.sorted.first_le (by omega)) hy.1.le) (le_trans hy.2.le (hw.sorted.le_last hj)) (Or.inl ⟨hy.1.le, hy.2⟩)
  · intro hl
    rcases h2 with ⟨a, b⟩ | ⟨_, _, c⟩
    · apply (hg.hasDerivWithinAt (s := Set.Ici x)).congr_of_eventuallyEq _ hfx
      filter_upwards [inter_mem_nhdsWithin (Set.Ici x) (Iio_mem_nhds b)] with y hy
      refine hf y (le_trans h0 hy.1) (le_trans (le_of_lt hy.2) (hw.sorted.le_last (by omega))) (Or.inl ⟨le_trans a hy.1, hy.2⟩)
    · exact absurd hl (by rw [c]; exact lt_irrefl _)
  · intro hl
    rcases h2 with ⟨a, b⟩ | ⟨a, b, c⟩
    · exact absurd b (not_lt.2 (le_trans (hw.sorted.le_last (by omega)) hl.ge))
    · apply (hg.hasDerivWithinAt (s := Set.Iic x)).congr_of_eventuallyEq _ hfx
      filter_upwards [inter_mem_nhdsWithin (Set.Iic x) (Ioi_mem_nhds a)] with y hy
      have hy1 : y ≤ x := hy.1
      have hy2 : knot U (spanIx U x) < y := hy.2
      refine hf y (le_trans (hw.sorted.first_le (by omega)) hy2.le) (by rw [← c]; exact hy1) ?_
      rcases lt_or_eq_of_le hy1 with h | h
      · exact Or.inl ⟨hy2.le, by rw [← b]; exact h⟩
      · rw [h]; exact Or.inr ⟨a, b, c⟩

theorem cox_spanDeriv {U : List ℝ} {p : ℕ} (hw : WFKnots U p) {x : ℝ} (h0 : knot U 0 ≤ x) (h1 : x ≤ lastKnot U) {i k : ℕ}
    (hi : i + p + 1 < U.length) : SpanDeriv U (fun y => coxDeBoorDeriv U p k i y) (coxDeBoorDeriv U p (k + 1) i x) x := by
  obtain ⟨_, h2, h3, h4⟩ := hw.span h0 h1
  rw [coxDeriv_eq_DNb hw.sorted (by omega) h2 _ _ _ hi]
  apply spanDeriv_of_local hw h0 h1 (DNb_hasDerivAt (ku_mono hw.sorted) (delta (spanIx U x)) x k p i)
  intro y _ _ hy
  exact coxDeriv_eq_DNb hw.sorted (by omega) hy _ _ _ hi

end SplineLib
