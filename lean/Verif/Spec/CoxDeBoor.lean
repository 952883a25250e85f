import Verif.Spec.Knots

/-!
# Specification of B-spline basis functions (Cox-de Boor recursion)
-/

namespace SplineLib
variable {K : Type} [Field K] [LinearOrder K]

/-- `x` lies in the `i`-th knot span `[u_i, u_{i+1})`; the last non-empty span is closed on the right. -/
def InSpan (U : List K) (i : ℕ) (x : K) : Prop :=
  (knot U i ≤ x ∧ x < knot U (i + 1)) ∨ (knot U i < x ∧ x = knot U (i + 1) ∧ x = lastKnot U)

instance (U : List K) (i : ℕ) (x : K) : Decidable (InSpan U i x) := by unfold InSpan; infer_instance

/-- The B-spline basis function `N_{i,p}(x)` (NURBS book eq. 2.5). A quotient with zero denominator counts as zero, which
is Lean's convention for division in a field. -/
def coxDeBoor (U : List K) : ℕ → ℕ → K → K
  | 0, i, x => if InSpan U i x then 1 else 0
  | p + 1, i, x =>
    (x - knot U i) / (knot U (i + p + 1) - knot U i) * coxDeBoor U p i x +
    (knot U (i + p + 2) - x) / (knot U (i + p + 2) - knot U (i + 1)) * coxDeBoor U p (i + 1) x

/-- Its `k`-th derivative (NURBS book eq. 2.9). That this really is the derivative is theorem `C08_...`. -/
def coxDeBoorDeriv (U : List K) : ℕ → ℕ → ℕ → K → K
  | p, 0, i, x => coxDeBoor U p i x
  | 0, _ + 1, _, _ => 0
  | p + 1, k + 1, i, x =>
    (p + 1) * (coxDeBoorDeriv U p k i x / (knot U (i + p + 1) - knot U i) -
      coxDeBoorDeriv U p k (i + 1) x / (knot U (i + p + 2) - knot U (i + 1)))

end SplineLib
