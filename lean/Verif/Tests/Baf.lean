import Verif.Model.Basis
import Verif.Model.Sweep
import Mathlib.Algebra.Order.Field.Rat

/-!
# The unit tests of `test/baf`, run on the model

The expected values are those of the tests, as rational numbers. `DoubleEq` becomes equality where the exact value is a short rational.
-/

namespace SplineLib
namespace Tests

/-- `Evaluate` of the basis function `i` of degree `p` gives the values. -/
def values (U : List ℚ) (p i : ℕ) (l : List (ℚ × ℚ)) : Bool :=
  match Basis.create U i p with
  | .ok b => l.all fun (x, v) => b.eval x = v
  | .error _ => false

/-- `EvaluateDerivative` of the basis function `i` of degree `p` gives the values. -/
def derivs (U : List ℚ) (p i : ℕ) (l : List (ℚ × ℤ × ℚ)) : Bool :=
  match Basis.create U i p with
  | .ok b => l.all fun (x, k, v) => b.evalDeriv x k = v
  | .error _ => false

/-- A derivative agrees with a value at another place. -/
def derivIsValue (U : List ℚ) (p i : ℕ) (l : List (ℚ × ℤ × ℚ)) : Bool :=
  match Basis.create U i p with
  | .ok b => l.all fun (x, k, y) => b.evalDeriv x k = b.eval y
  | .error _ => false

/-- The fixture `AKnotVector` (knot_vector_test.cc:24-31). -/
def kv : List ℚ := [0, 0, 0, 1 / 2, 1 / 2, 3 / 4, 1, 1, 1]

/-- `GetKnotSpan` (knot_vector_test.cc:36-63). -/
example : kvSpan kv 0 = .ok 2 ∧ kvSpan kv (3 / 10) = .ok 2 ∧ kvSpan kv 1 = .ok 5 ∧ kvSpan kv (1 / 2) = .ok 4 ∧ kvSpan kv (3 / 4) = .ok 5 ∧
    (kvLast kv >>= kvSpan kv) = .ok 5 := by decide +kernel

/-- `IsLastKnot`, `GetKnot` (knot_vector_test.cc:65-75). -/
example : (kvLast kv >>= kvIsLast kv) = .ok true ∧ kvIsLast kv (9 / 10) = .ok false ∧ kvGet kv 5 = .ok (3 / 4) := by decide +kernel

/-- `IsInKnotVectorRange` (knot_vector_test.cc:87-105). -/
example : kvInRange kv (4 / 10) = .ok true ∧ kvInRange kv 0 = .ok true ∧ kvInRange kv 1 = .ok true ∧ kvInRange kv (-4 / 10) = .ok false ∧
    kvInRange kv (3 / 2) = .ok false := by decide +kernel

/-- Comparison and subtraction (knot_vector_test.cc:107-123). -/
example : kvEq kv kv = true ∧ kvSub kv kv = .ok (List.replicate 9 0) := by decide +kernel

/-- `InsertKnot` (knot_vector_test.cc:155-160). -/
example : ∃ V, kvInsert kv (1 / 2) = .ok V ∧ V.length = kv.length + 1 ∧ kvSpan V (1 / 2) = .ok 5 :=
  ⟨[0, 0, 0, 1 / 2, 1 / 2, 1 / 2, 3 / 4, 1, 1, 1], by decide +kernel⟩

/-- `RemoveKnot` (knot_vector_test.cc:162-167). -/
example : ∃ V, kvRemove kv (1 / 2) = .ok V ∧ V.length = kv.length - 1 ∧ kvSpan V (1 / 2) = .ok 3 :=
  ⟨[0, 0, 0, 1 / 2, 3 / 4, 1, 1, 1], by decide +kernel⟩

/-- The averaging constructor (knot_vector_test.cc:169-189). -/
example : kvAveraged [(0 : ℚ), 5 / 17, 9 / 17, 14 / 17, 1] 3 5 = .ok [0, 0, 0, 0, 28 / 51, 1, 1, 1, 1] ∧
    kvAveraged [(0 : ℚ), 10 / 17, 18 / 17, 28 / 17, 2] 3 5 = .ok [0, 0, 0, 0, 56 / 51, 2, 2, 2, 2] := by decide +kernel

/-- `ControlPoint::Transform` (control_point_test.cc:56-65). -/
example : (Gen.transform (⟨⟨1 / 2, 0, -866 / 1000⟩, ⟨0, 1, 0⟩, ⟨866 / 1000, 0, 1 / 2⟩, ⟨0, 0, 0⟩⟩ : Frame ℚ) ⟨1, 1, 1⟩ ⟨1, 7 / 10, 19 / 10⟩).x =
      21454 / 10000 ∧
    |(Gen.transform (⟨⟨1 / 2, 0, -866 / 1000⟩, ⟨0, 1, 0⟩, ⟨866 / 1000, 0, 1 / 2⟩, ⟨0, 0, 0⟩⟩ : Frame ℚ) ⟨1 / 2, 1, 7 / 10⟩
      ⟨1, 7 / 10, 19 / 10⟩).x - 140178 / 100000| ≤ 1 / 100000 := by decide +kernel

/-- `BasisFunctionEx21N01` (b_spline_basis_function_test.cc:47-66). -/
example : values [0, 0, 0, 1, 1, 1] 1 0 [(0, 0), (1/2, 0), (1, 0), (3/2, 0), (-3/2, 0)] = true := by decide +kernel

/-- `BasisFunctionEx21N11` (b_spline_basis_function_test.cc:77-96). -/
example : values [0, 0, 0, 1, 1, 1] 1 1 [(0, 1), (1/2, 1/2), (1, 0), (3/2, 0), (-3/2, 0)] = true := by decide +kernel

/-- `BasisFunctionEx21N21` (b_spline_basis_function_test.cc:107-126). -/
example : values [0, 0, 0, 1, 1, 1] 1 2 [(0, 0), (1/2, 1/2), (1, 1), (3/2, 0), (-3/2, 0)] = true := by decide +kernel

/-- `BasisFunctionEx21N31` (b_spline_basis_function_test.cc:137-156). -/
example : values [0, 0, 0, 1, 1, 1] 1 3 [(0, 0), (1/2, 0), (1, 0), (3/2, 0), (-3/2, 0)] = true := by decide +kernel

/-- `BasisFunctionEx21N02` (b_spline_basis_function_test.cc:167-186). -/
example : values [0, 0, 0, 1, 1, 1] 2 0 [(0, 1), (1/2, 1/4), (1, 0), (3/2, 0), (-3/2, 0)] = true := by decide +kernel

/-- `BasisFunctionEx21N12` (b_spline_basis_function_test.cc:197-216). -/
example : values [0, 0, 0, 1, 1, 1] 2 1 [(0, 0), (1/2, 1/2), (1, 0), (3/2, 0), (-3/2, 0)] = true := by decide +kernel

/-- `BasisFunctionEx21N22` (b_spline_basis_function_test.cc:227-246). -/
example : values [0, 0, 0, 1, 1, 1] 2 2 [(0, 0), (1/2, 1/4), (1, 1), (3/2, 0), (-3/2, 0)] = true := by decide +kernel

/-- `BasisFunctionEx22N01` (b_spline_basis_function_test.cc:281-343). -/
example : derivs [0, 0, 0, 1, 2, 3, 4, 4, 5, 5, 5] 1 0 [(0, 1, 0), (3/2, 1, 0), (2, 1, 0), (4, 1, 0), (5, 1, 0), (6, 1, 0), (-1/2, 1, 0)] = true ∧
    derivIsValue [0, 0, 0, 1, 2, 3, 4, 4, 5, 5, 5] 1 0 [(0, 0, 0), (3/2, 0, 3/2), (2, 0, 2), (4, 0, 4), (5, 0, 5), (6, 0, 6), (-1/2, 0, -1/2)] = true := by decide +kernel

/-- `BasisFunctionEx22N13` (b_spline_basis_function_test.cc:354-385). -/
example : derivs [0, 0, 0, 1, 2, 3, 4, 4, 5, 5, 5] 1 3 [(0, 1, 0), (1/2, 1, 0), (1, 1, 1), (3/2, 1, 1), (2, 1, -1), (5/2, 1, -1), (3, 1, 0), (3/2, 4, 0)] = true := by decide +kernel

/-- `BasisFunctionEx22N61` (b_spline_basis_function_test.cc:396-403). -/
example : derivs [0, 0, 0, 1, 2, 3, 4, 4, 5, 5, 5] 1 6 [(4, 1, -1), (9/2, 2, 0)] = true := by decide +kernel

/-- `BasisFunctionEx22N72` (b_spline_basis_function_test.cc:414-453). -/
example : derivs [0, 0, 0, 1, 2, 3, 4, 4, 5, 5, 5] 2 7 [(4, 1, 0), (4, 2, 2), (4, 3, 0), (9/2, 1, 1), (9/2, 2, 2), (9/2, 3, 0), (5, 1, 2), (11/2, 1, 0), (3/2, 1, 0), (-11/2, 1, 0)] = true := by decide +kernel

/-- `ZeroDegreeBasisFunctionEx21N00` (zero_degree_b_spline_basis_function_test.cc:53-72). -/
example : values [0, 0, 0, 1, 1, 1] 0 0 [(0, 0), (1/2, 0), (1, 0), (3/2, 0), (-3/2, 0)] = true := by decide +kernel

/-- `ZeroDegreeBasisFunctionEx21N20` (zero_degree_b_spline_basis_function_test.cc:83-102). -/
example : values [0, 0, 0, 1, 1, 1] 0 2 [(0, 1), (1/2, 1), (1, 1), (3/2, 0), (-3/2, 0)] = true := by decide +kernel

/-- `ZeroDegreeBasisFunctionEx21N40` (zero_degree_b_spline_basis_function_test.cc:113-132). -/
example : values [0, 0, 0, 1, 1, 1] 0 0 [(0, 0), (1/2, 0), (1, 0), (3/2, 0), (-3/2, 0)] = true := by decide +kernel

/-- `ZeroDegreeBasisFunctionEx22N00` (zero_degree_b_spline_basis_function_test.cc:143-205). -/
example : derivs [0, 0, 0, 1, 1, 1] 0 0 [(1, 0, 0), (1, 1, 0), (1, 2, 0), (1, 4, 0), (1, 5, 0), (1, 6, 0), (1, 0, 0)] = true ∧
    derivIsValue [0, 0, 0, 1, 1, 1] 0 0 [(0, 0, 0), (0, 1, 3/2), (0, 2, 2), (0, 4, 4), (0, 5, 5), (0, 6, 6), (0, 0, -1/2)] = true := by decide +kernel

/-- `ZeroDegreeBasisFunctionEx22N40` (zero_degree_b_spline_basis_function_test.cc:216-278). -/
example : derivs [0, 0, 0, 1, 1, 1] 0 0 [(1, 0, 0), (1, 1, 0), (1, 2, 0), (1, 4, 0), (1, 5, 0), (1, 6, 0), (1, 0, 0)] = true ∧
    derivIsValue [0, 0, 0, 1, 1, 1] 0 0 [(0, 0, 0), (0, 1, 3/2), (0, 2, 2), (0, 4, 4), (0, 5, 5), (0, 6, 6), (0, 0, -1/2)] = true := by decide +kernel

end Tests
end SplineLib
