import Verif.Model.KnotVector

/-!
# Model of the basis function classes (src/baf/*basis_function*.cc)

A `baf::BasisFunction` object is a tree: an object of degree `p > 0` owns two objects of degree `p - 1`.
-/

namespace SplineLib

/-- Basis function objects. `zero` is `ZeroDegBSplBasFnc`, `node` is `BSplineBasisFunction` (basis_function.h:49-52,
b_spline_basis_function.h:41-44). -/
inductive Basis (K : Type)
  | zero (start stop : K) (stopIsLast : Bool)
  | node (degree : Nat) (start stop : K) (stopIsLast : Bool) (leftInv rightInv : K) (left right : Basis K)
  deriving DecidableEq, Repr

namespace Basis
variable {K : Type}

/-- `start_knot_` (basis_function.cc:39-41). -/
def start : Basis K → K
  | zero s _ _ => s
  | node _ s _ _ _ _ _ _ => s

/-- `end_knot_` (basis_function.cc:43-45). -/
def stop : Basis K → K
  | zero _ e _ => e
  | node _ _ e _ _ _ _ _ => e

/-- `end_knot_is_last_knot_`. -/
def stopIsLast : Basis K → Bool
  | zero _ _ b => b
  | node _ _ _ b _ _ _ _ => b

variable [LinearOrder K]

/-- `IsCoordinateInSupport` (basis_function.cc:47-50). -/
def inSupport (b : Basis K) (x : K) : Bool :=
  (decide (b.start ≤ x) && decide (x < b.stop)) || (b.stopIsLast && decide (x = b.stop))

variable [Field K]

/-- `Evaluate` (basis_function.cc:17-19) with the two overrides of `EvaluateOnSupport`
(zero_degree_b_spline_basis_function.cc:20-22, b_spline_basis_function.cc:33-36,54-60). -/
def eval : Basis K → K → K
  | b@(zero _ _ _), x => if b.inSupport x then 1 else 0
  | b@(node _ s e _ li ri l r), x =>
    if b.inSupport x then (x - s) * li * l.eval x + (e - x) * ri * r.eval x else 0

/-- `EvaluateDerivative` (basis_function.cc:21-24) with the two overrides of `EvaluateDerivativeOnSupport`
(zero_degree_b_spline_basis_function.cc:24-27, b_spline_basis_function.cc:38-43). The order is an `int`. -/
def evalDeriv : Basis K → K → Int → K
  | b@(zero _ _ _), x, k => if k = 0 then b.eval x else 0
  | b@(node p _ _ _ li ri l r), x, k =>
    if k = 0 then b.eval x
    else if b.inSupport x then (p : K) * (li * l.evalDeriv x (k - 1) - ri * r.evalDeriv x (k - 1)) else 0

/-- `InverseWithPossiblyZeroDenominator` (b_spline_basis_function.cc:62-64). The denominator of the division is at least
`kEpsilon` in absolute value, so this division never fails. -/
def invOrZero (d : K) : K := if |d| < kEps K then 0 else 1 / d

/-- `BasisFunctionFactory::CreateDynamic(knot_vector, start_of_support, degree)` (basis_function_factory.cc:22-34) with the
constructors of the two classes (basis_function.cc:26-33, b_spline_basis_function.cc:20-31,45-52). Degree and start index
are natural numbers; the `runtime_error` for a negative degree is accounted for at the call sites. -/
def create (U : List K) (i : Nat) : Nat → M (Basis K)
  | 0 => do
    let s ← kvGet U i
    let e ← kvGet U (i + 1)
    let b ← kvIsLast U e
    return zero s e b
  | p + 1 => do
    let s ← kvGet U i
    let e ← kvGet U (i + (p + 1) + 1)
    let b ← kvIsLast U e
    let lk ← kvGet U (i + (p + 1))
    let rk ← kvGet U (i + 1)
    let l ← create U i p
    let r ← create U (i + 1) p
    return node (p + 1) s e b (invOrZero (lk - s)) (invOrZero (e - rk)) l r

end Basis
end SplineLib
