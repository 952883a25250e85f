import Verif.Spec.Spline
import Mathlib.Analysis.Calculus.Deriv.Basic
import Mathlib.Topology.Instances.Real.Lemmas

/-!
# Specification of derivatives of piecewise polynomials
-/

namespace SplineLib

/-- `f'` is the derivative of `f` at the parameter `x` of the knot vector `U`: the two-sided derivative if `x` lies strictly inside a
knot span, the right-sided derivative if `x` is before the last knot, the left-sided one at the last knot. -/
structure SpanDeriv (U : List ℝ) (f : ℝ → ℝ) (f' : ℝ) (x : ℝ) : Prop where
  inner : ∀ j, j + 1 < U.length → knot U j < x → x < knot U (j + 1) → HasDerivAt f f' x
  right : x < lastKnot U → HasDerivWithinAt f f' (Set.Ici x) x
  left : x = lastKnot U → HasDerivWithinAt f f' (Set.Iic x) x

end SplineLib
