import Verif.Core.EvalProps
import Verif.Spec.Greville
import Mathlib.Algebra.Polynomial.Roots
import Mathlib.Algebra.CharZero.Infinite
import Mathlib.Algebra.BigOperators.Field
import Mathlib.Tactic.FieldSimp
import Mathlib.Tactic.Ring

/-!
# Marsden's identity

`Σ_i N_{i,p}(x) Π_j (1 + z u_{i+j}) = (1 + z x)^p`, and what it says about the coefficients of powers of `z`.
-/

namespace SplineLib
set_option linter.unusedSectionVars false
open Finset
variable {K : Type} [Field K] [LinearOrder K] [IsStrictOrderedRing K]

theorem Nb_marsden {u : ℕ → K} (hu : Monotone u) {x z : K} {k : ℕ} (hk : u k < u (k + 1)) : ∀ (p a : ℕ), k = a + p →
    ∑ j ∈ range (p + 1), Nb u x (delta k) p (a + j) * ∏ l ∈ range p, (1 + z * u (a + j + 1 + l)) = (1 + z * x) ^ p := by
  intro p
  induction p with
  | zero => intro a h; simp [Nb, ← h]
  | succ p ih =>
    intro a h
    have hne : ∀ j, j < p + 1 → u (a + 1 + j + p + 1) - u (a + 1 + j) ≠ 0 := by
      intro j hj
      have h1 : u (a + 1 + j) ≤ u k := hu (by omega)
      have h2 : u (k + 1) ≤ u (a + 1 + j + p + 1) := hu (by omega)
      have : u (a + 1 + j) < u (a + 1 + j + p + 1) := lt_of_le_of_lt h1 (lt_of_lt_of_le hk h2)
      exact sub_ne_zero.2 (ne_of_gt this)
    simp only [Nb, add_mul, sum_add_distrib]
    rw [sum_range_succ' (fun j => (x - u (a + j)) / (u (a + j + p + 1) - u (a + j)) * Nb u x (delta k) p (a + j) * _),
      sum_range_succ (fun j => (u (a + j + p + 2) - x) / (u (a + j + p + 2) - u (a + j + 1)) * Nb u x (delta k) p (a + j + 1) * _)]
    rw [show a + 0 = a from rfl, Nb_delta_zero (p := p) (i := a) (Or.inr (by omega)),
      Nb_delta_zero (p := p) (i := a + (p + 1) + 1) (Or.inl (by omega)), mul_zero, mul_zero, zero_mul, zero_mul, add_zero, add_zero,
      ← sum_add_distrib, pow_succ, ← ih (a + 1) (by omega), sum_mul]
    apply sum_congr rfl
    intro j hj
    have h3 := hne j (mem_range.1 hj)
    rw [prod_range_succ (fun l => 1 + z * u (a + (j + 1) + 1 + l)), prod_range_succ' (fun l => 1 + z * u (a + j + 1 + l))]
    have e : ∏ l ∈ range p, (1 + z * u (a + j + 1 + (l + 1))) = ∏ l ∈ range p, (1 + z * u (a + (j + 1) + 1 + l)) :=
      prod_congr rfl fun l _ => by rw [show a + j + 1 + (l + 1) = a + (j + 1) + 1 + l by ring]
    rw [e, show a + (j + 1) + 1 + p = a + 1 + j + p + 1 by ring, show a + j + p + 2 = a + 1 + j + p + 1 by ring,
      show a + j + 1 + 0 = a + 1 + j by ring, show a + (j + 1) + p + 1 = a + 1 + j + p + 1 by ring,
      show a + (j + 1) = a + 1 + j by ring]
    generalize ∏ l ∈ range p, (1 + z * u (a + 1 + j + 1 + l)) = P
    generalize Nb u x (delta k) p (a + 1 + j) = N
    field_simp
    ring

theorem coeff_linear_prod (l : List K) : ∀ m, ((l.map fun a => 1 + Polynomial.C a * Polynomial.X).prod).coeff m = elemSym l m := by
  induction l with
  | nil => intro m; cases m <;> simp [elemSym, Polynomial.coeff_one]
  | cons a l ih =>
    intro m
    rw [List.map_cons, List.prod_cons, add_mul, one_mul, Polynomial.coeff_add, mul_assoc, Polynomial.coeff_C_mul]
    cases m with
    | zero => simp [ih, elemSym]
    | succ m => rw [Polynomial.coeff_X_mul, ih, ih]; rfl

theorem elemSym_replicate (x : K) : ∀ p m, elemSym (List.replicate p x) m = (p.choose m : K) * x ^ m := by
  intro p
  induction p with
  | zero => intro m; cases m <;> simp [elemSym]
  | succ p ih =>
    intro m
    cases m with
    | zero => simp [elemSym]
    | succ m => rw [List.replicate_succ, elemSym, ih, ih, Nat.choose_succ_succ]; push_cast; ring

theorem elemSym_one : ∀ l : List K, elemSym l 1 = l.sum
  | [] => rfl
  | a :: l => by rw [elemSym, elemSym_one l, elemSym, mul_one, List.sum_cons, add_comm]

theorem prod_range_list (f : ℕ → K) (n : ℕ) : ∏ i ∈ range n, f i = ((List.range n).map f).prod := by
  induction n with
  | zero => rfl
  | succ n ih => rw [prod_range_succ, List.range_succ, List.map_append, List.prod_append, ih]; simp

theorem cox_marsden {U : List K} {p : ℕ} (h : WFKnots U p) {x : K} (h0 : knot U 0 ≤ x) (h1 : x ≤ lastKnot U) (z : K) :
    ∑ i ∈ range (U.length - p - 1), coxDeBoor U p i x * ((innerWindow U p i).map fun a => 1 + z * a).prod = (1 + z * x) ^ p := by
  obtain ⟨_, h2, h3, h4⟩ := h.span h0 h1
  have hlt := inSpan_lt h2
  rw [← ku_eq (by omega), ← ku_eq (by omega)] at hlt
  rw [sum_window (n := U.length - p - 1) (o := spanIx U x - p) (w := p + 1) (by omega),
    ← Nb_marsden (ku_mono h.sorted) hlt (x := x) (z := z) p (spanIx U x - p) (by omega)]
  · apply sum_congr rfl
    intro j hj
    have := mem_range.1 hj
    rw [cox_active h h0 h1 (by omega), add_comm j]
    congr 1
    rw [innerWindow, List.map_map, ← prod_range_list]
    refine prod_congr rfl fun l hl => ?_
    have := mem_range.1 hl
    rw [Function.comp, ku_eq (by omega)]
  · intro i hi hio
    rw [coxDeBoor_zero_of h h0 h1 (by omega) (by omega), zero_mul]

theorem cox_monomial {U : List K} {p : ℕ} (h : WFKnots U p) {x : K} (h0 : knot U 0 ≤ x) (h1 : x ≤ lastKnot U) {m : ℕ} (hm : m ≤ p) :
    ∑ i ∈ range (U.length - p - 1), coxDeBoor U p i x * monomialPoint U p m i = x ^ m := by
  have key : ∑ i ∈ range (U.length - p - 1), Polynomial.C (coxDeBoor U p i x) *
      ((innerWindow U p i).map fun a => 1 + Polynomial.C a * Polynomial.X).prod =
      ((List.replicate p x).map fun a => 1 + Polynomial.C a * Polynomial.X).prod := by
    apply Polynomial.funext
    intro z
    rw [Polynomial.eval_finsetSum]
    have := cox_marsden h h0 h1 z
    simp only [List.map_replicate, List.prod_replicate, Polynomial.eval_mul, Polynomial.eval_C, Polynomial.eval_pow, Polynomial.eval_add,
      Polynomial.eval_one, Polynomial.eval_X, Polynomial.eval_list_prod, List.map_map, Function.comp_def]
    simpa only [mul_comm z] using this
  have := congrArg (fun q => q.coeff m) key
  simp only [Polynomial.finsetSum_coeff, Polynomial.coeff_C_mul, coeff_linear_prod, elemSym_replicate] at this
  have hc : (p.choose m : K) ≠ 0 := Nat.cast_ne_zero.2 (Nat.choose_pos hm).ne'
  simp only [monomialPoint, ← mul_div_assoc]
  rw [← sum_div, this, mul_comm, mul_div_assoc, div_self hc, mul_one]

/-- Tensor products of control points of monomials give monomials. -/
theorem msum_monomial {Us : List (List K)} {ps : List ℕ} (h : List.Forall₂ WFKnots Us ps) : ∀ {xs : List K} {ms : List ℕ}, Dom Us xs →
    List.Forall₂ (· ≤ ·) ms ps →
    (msum (List.zipWith (fun U p => U.length - p - 1) Us ps) fun I => dprod (basisFns Us ps xs) I * dprod (monomialFns Us ps ms) I) = monomialAt xs ms := by
  induction h with
  | nil => intro xs ms hx hm; cases hx; cases hm; simp [msum, dprod, basisFns, monomialFns, monomialAt]
  | cons hU _ ih =>
    intro xs ms hx hm
    cases hx with
    | cons h01 hx =>
    cases hm with
    | cons hmp hm =>
    have := ih hx hm
    simp only [List.zipWith_cons_cons, msum, basisFns, monomialFns, dprod, monomialAt, List.prod_cons] at this ⊢
    rw [← this, ← cox_monomial hU h01.1 h01.2 hmp, sum_mul]
    refine sum_congr rfl fun i _ => ?_
    rw [← msum_mul_left]
    exact congrArg _ (funext fun I => by ring)

end SplineLib
