import Verif.Model.Elements
import Verif.Core.Sqrt
import Mathlib.Analysis.SpecialFunctions.Integrals.Basic
import Mathlib.Algebra.Polynomial.Eval.Degree
import Mathlib.Tactic.LinearCombination

/-!
# C44: the Gauss-Legendre rules of the isogeometric example are exact

Over the real numbers with the exact square root.
-/

namespace SplineLib
open Elem Polynomial

/-- The value of a rule for the integrand `f`. -/
def quad (rule : List (ℝ × ℝ)) (f : ℝ → ℝ) : ℝ := (rule.map fun p => p.2 * f p.1).sum

/-- The moments of the rule up to order `m` are those of the interval `[-1, 1]`. -/
def Moments (rule : List (ℝ × ℝ)) (m : ℕ) : Prop :=
  ∀ i ≤ m, quad rule (fun x => x ^ i) = (1 - (-1) ^ (i + 1)) / (i + 1)

theorem quad_sum (rule : List (ℝ × ℝ)) (n : ℕ) (c : ℕ → ℝ) :
    quad rule (fun x => ∑ i ∈ Finset.range n, c i * x ^ i) = ∑ i ∈ Finset.range n, c i * quad rule (fun x => x ^ i) := by
  unfold quad
  induction rule with
  | nil => simp
  | cons p rule ih =>
    simp only [List.map_cons, List.sum_cons]
    rw [ih]
    simp only [mul_add, Finset.sum_add_distrib, Finset.mul_sum]
    congr 1
    exact Finset.sum_congr rfl fun i _ => by ring

theorem exact_of_moments {rule : List (ℝ × ℝ)} {m : ℕ} (h : Moments rule m) {p : ℝ[X]} (hp : p.natDegree ≤ m) :
    quad rule (fun x => p.eval x) = ∫ x in (-1 : ℝ)..1, p.eval x := by
  have e : (fun x => p.eval x) = fun x => ∑ i ∈ Finset.range (m + 1), p.coeff i * x ^ i := by
    funext x; exact eval_eq_sum_range' (by omega) x
  rw [e, quad_sum, intervalIntegral.integral_finset_sum]
  · refine Finset.sum_congr rfl fun i hi => ?_
    rw [h i (by have := Finset.mem_range.1 hi; omega), intervalIntegral.integral_const_mul, integral_pow]
    simp
  · intro i _
    exact Continuous.intervalIntegrable (by fun_prop) _ _

theorem gauss1_moments : Moments gauss1 1 := by
  intro i hi
  interval_cases i <;> norm_num [quad, gauss1]

theorem gauss2_moments : Moments gauss2 3 := by
  have hs : Real.sqrt (1 / 3) * Real.sqrt (1 / 3) = 1 / 3 := Real.mul_self_sqrt (by norm_num)
  intro i hi
  simp only [quad, gauss2, HasSqrt.sqrt]
  generalize Real.sqrt (1 / 3) = a at hs
  simp only [List.map_cons, List.map_nil, List.sum_cons, List.sum_nil]
  interval_cases i <;> norm_num <;> grind

theorem gauss3_moments : Moments gauss3 5 := by
  have hs : Real.sqrt (3 / 5) * Real.sqrt (3 / 5) = 3 / 5 := Real.mul_self_sqrt (by norm_num)
  intro i hi
  simp only [quad, gauss3, HasSqrt.sqrt]
  generalize Real.sqrt (3 / 5) = a at hs
  simp only [List.map_cons, List.map_nil, List.sum_cons, List.sum_nil]
  interval_cases i <;> norm_num <;> grind

theorem sqrt_scaled {c x y : ℝ} (hc : 0 ≤ c) (h : y = c ^ 2 * x) : Real.sqrt y = c * Real.sqrt x := by
  rw [h, Real.sqrt_mul (by positivity), Real.sqrt_sq hc]

theorem gauss4_moments : Moments gauss4 7 := by
  have hs : Real.sqrt (6 / 5) * Real.sqrt (6 / 5) = 6 / 5 := Real.mul_self_sqrt (by norm_num)
  have hle : Real.sqrt (6 / 5) ≤ 3 / 2 := Real.sqrt_le_iff.2 (by norm_num)
  have hr : Real.sqrt 30 = 5 * Real.sqrt (6 / 5) := sqrt_scaled (by norm_num) (by norm_num)
  have ha : Real.sqrt (3 / 7 + 2 / 7 * Real.sqrt (6 / 5)) * Real.sqrt (3 / 7 + 2 / 7 * Real.sqrt (6 / 5)) =
      3 / 7 + 2 / 7 * Real.sqrt (6 / 5) := Real.mul_self_sqrt (by positivity)
  have hb : Real.sqrt (3 / 7 - 2 / 7 * Real.sqrt (6 / 5)) * Real.sqrt (3 / 7 - 2 / 7 * Real.sqrt (6 / 5)) =
      3 / 7 - 2 / 7 * Real.sqrt (6 / 5) := Real.mul_self_sqrt (by linarith)
  intro i hi
  simp only [quad, gauss4, HasSqrt.sqrt, hr]
  generalize Real.sqrt (3 / 7 + 2 / 7 * Real.sqrt (6 / 5)) = a at ha
  generalize Real.sqrt (3 / 7 - 2 / 7 * Real.sqrt (6 / 5)) = b at hb
  generalize Real.sqrt (6 / 5) = s at *
  simp only [List.map_cons, List.map_nil, List.sum_cons, List.sum_nil]
  interval_cases i <;> norm_num <;> grind

theorem gauss5_moments : Moments gauss5 9 := by
  have hs : Real.sqrt (10 / 7) * Real.sqrt (10 / 7) = 10 / 7 := Real.mul_self_sqrt (by norm_num)
  have hle : Real.sqrt (10 / 7) ≤ 3 / 2 := Real.sqrt_le_iff.2 (by norm_num)
  have hr : Real.sqrt 70 = 7 * Real.sqrt (10 / 7) := sqrt_scaled (by norm_num) (by norm_num)
  have ha : Real.sqrt (5 + 2 * Real.sqrt (10 / 7)) * Real.sqrt (5 + 2 * Real.sqrt (10 / 7)) =
      5 + 2 * Real.sqrt (10 / 7) := Real.mul_self_sqrt (by positivity)
  have hb : Real.sqrt (5 - 2 * Real.sqrt (10 / 7)) * Real.sqrt (5 - 2 * Real.sqrt (10 / 7)) =
      5 - 2 * Real.sqrt (10 / 7) := Real.mul_self_sqrt (by linarith)
  intro i hi
  simp only [quad, gauss5, HasSqrt.sqrt, hr]
  generalize Real.sqrt (5 + 2 * Real.sqrt (10 / 7)) = a at ha
  generalize Real.sqrt (5 - 2 * Real.sqrt (10 / 7)) = b at hb
  generalize Real.sqrt (10 / 7) = s at *
  simp only [List.map_cons, List.map_nil, List.sum_cons, List.sum_nil]
  interval_cases i <;> norm_num <;> grind

/-- The rule with `n` points. -/
noncomputable def gaussRule : ℕ → List (ℝ × ℝ)
  | 1 => gauss1
  | 2 => gauss2
  | 3 => gauss3
  | 4 => gauss4
  | 5 => gauss5
  | _ => []

/-- C44: the `n`-point rule has `n` points and integrates every polynomial of degree at most `2n-1` exactly over `[-1, 1]`. -/
theorem C44_gauss_exact {n : ℕ} (h1 : 1 ≤ n) (h5 : n ≤ 5) {p : ℝ[X]} (hp : p.natDegree ≤ 2 * n - 1) :
    (gaussRule n).length = n ∧ quad (gaussRule n) (fun x => p.eval x) = ∫ x in (-1 : ℝ)..1, p.eval x := by
  interval_cases n
  · exact ⟨rfl, exact_of_moments gauss1_moments hp⟩
  · exact ⟨rfl, exact_of_moments gauss2_moments hp⟩
  · exact ⟨rfl, exact_of_moments gauss3_moments hp⟩
  · exact ⟨rfl, exact_of_moments gauss4_moments hp⟩
  · exact ⟨rfl, exact_of_moments gauss5_moments hp⟩

/-- C44: mapped to an element `[a, b]` as in `Reference2ParameterSpace`, with the factor `(b - a) / 2` of the transformation, the rule
integrates every polynomial of degree at most `2n-1` exactly over the element. -/
theorem C44_gauss_exact_on_element {n : ℕ} (h1 : 1 ≤ n) (h5 : n ≤ 5) {p : ℝ[X]} (hp : p.natDegree ≤ 2 * n - 1) {a b : ℝ} (hab : a < b) :
    quad (gaussRule n) (fun t => p.eval (((b - a) * t + (b + a)) / 2)) * ((b - a) / 2) = ∫ x in a..b, p.eval x := by
  have hq := (C44_gauss_exact h1 h5 (p := p.comp (C ((b - a) / 2) * X + C ((b + a) / 2))) ?_).2
  · have e : ∀ t : ℝ, (p.comp (C ((b - a) / 2) * X + C ((b + a) / 2))).eval t = p.eval ((b - a) / 2 * t + (b + a) / 2) := by
      intro t; simp [eval_comp]
    have e2 : ∀ t : ℝ, ((b - a) * t + (b + a)) / 2 = (b - a) / 2 * t + (b + a) / 2 := fun t => by ring
    simp only [e] at hq
    simp only [e2, hq]
    rw [intervalIntegral.integral_comp_mul_add (fun x => p.eval x) (by linarith : (b - a) / 2 ≠ 0)]
    rw [show (b - a) / 2 * -1 + (b + a) / 2 = a by ring, show (b - a) / 2 * 1 + (b + a) / 2 = b by ring, smul_eq_mul,
      mul_comm, ← mul_assoc, mul_inv_cancel₀ (by linarith : (b - a) / 2 ≠ 0), one_mul]
  · refine le_trans natDegree_comp_le ?_
    have : (C ((b - a) / 2) * X + C ((b + a) / 2) : ℝ[X]).natDegree ≤ 1 := by compute_degree
    calc _ ≤ p.natDegree * 1 := Nat.mul_le_mul_left _ this
      _ ≤ _ := by omega

example : quad (gaussRule 2) (fun x => (X ^ 2 : ℝ[X]).eval x) = ∫ x in (-1 : ℝ)..1, (X ^ 2 : ℝ[X]).eval x :=
  (C44_gauss_exact (n := 2) (by norm_num) (by norm_num) (by simp)).2

end SplineLib
