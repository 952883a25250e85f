import Verif.Model.KnotInsertion
import Mathlib.Algebra.Order.Field.Rat

/-!
# Unit tests of `test/spl` about spaces, evaluation and knot insertion, run on the model

The fixtures and expected values are those of the tests, as rational numbers. Where a test mocks the spaces, the spline described in the
comment of the fixture is built instead. `DoubleEq` is equality, `DoubleNear` and `ASSERT_NEAR` keep their tolerances. Where a test compares two curves
at 51 or 101 parameters, 11 of them are taken. `GetMaximumDistanceFromOrigin` (physical_space_test.cc:87-89, 178-180) needs a square root
and is left out.
-/

namespace SplineLib
namespace Tests

/-- The values of a result are near the expected values. -/
def near (tol : ℚ) (m : M (List ℚ)) (l : List ℚ) : Bool :=
  match m with
  | .ok v => decide (v.length = l.length) && (List.zipWith (fun a b => decide (|a - b| ≤ tol)) v l).all id
  | .error _ => false

/-- `Evaluate` gives the expected values. -/
def evals (s : M (Spl ℚ)) (tol : ℚ) (l : List (List ℚ × List ℤ × List ℚ)) : Bool :=
  match s with
  | .ok s => l.all fun (x, d, v) => near tol (s.evaluate x d) v
  | .error _ => false

/-- `EvaluateDerivative` gives the expected values. -/
def evalDerivs (s : M (Spl ℚ)) (tol : ℚ) (l : List (List ℚ × List ℤ × List ℤ × List ℚ)) : Bool :=
  match s with
  | .ok s => l.all fun (x, d, k, v) => near tol (s.evaluateDerivative x d k) v
  | .error _ => false

/-- Two curves agree at the parameters `l` in the coordinates `d`. -/
def sameAt (a b : M (Spl ℚ)) (tol : ℚ) (l : List ℚ) (d : List ℤ) : Bool :=
  match a, b with
  | .ok a, .ok b => l.all fun x => match b.evaluate [x] d with
    | .ok v => near tol (a.evaluate [x] d) v
    | .error _ => false
  | _, _ => false

/-- The control points of a spline, one list. -/
def cpsOf (s : M (Spl ℚ)) : M (List ℚ) := s.map fun s => s.ph.cps

/-- The knots of a direction. -/
def knotsOf (s : M (Spl ℚ)) (d : ℕ) : M (List ℚ) := s.map fun s => s.ps.knots.getD d []

/-- The weights of a NURBS. -/
def weightsOf (s : M (Spl ℚ)) : M (List ℚ) := s.map fun s => s.ph.weights.getD []

/-! ## parameter_space_test.cc -/

/-- `A1DParameterSpace` (parameter_space_test.cc:25-38). -/
def ps1 : M (PS ℚ) := PS.new [[0, 0, 0, 1, 2, 3, 4, 4, 5, 5, 5]] [2]

/-- The constructor throws (parameter_space_test.cc:40-56). -/
example : PS.new [[(0 : ℚ), 0, 0, 5, 5]] [2] = .error (.thrown .runtimeError) ∧
    PS.new [[(0 : ℚ), 0, 1, 5, 5, 5]] [2] = .error (.thrown .runtimeError) ∧
    PS.new [[(0 : ℚ), 0, 0, 4, 5, 5]] [2] = .error (.thrown .runtimeError) := by decide +kernel

/-- Degree, knots, basis functions and derivatives (parameter_space_test.cc:58-78). -/
example : (ps1.map fun p => p.degree) = .ok [2] ∧ (do let p ← ps1; kvGet (p.knots.getD 0 []) 5) = .ok 3 ∧
    (do let p ← ps1; (List.range 8).mapM fun i : ℕ => p.getBasisFunctions [(i : ℤ)] [0.5]) = .ok [0.25, 0.625, 0.125, 0, 0, 0, 0, 0] ∧
    (do let p ← ps1; (List.range 8).mapM fun i : ℕ => p.getBasisFunctionDerivatives [(i : ℤ)] [0.5] [1]) =
      .ok [-1, 0.5, 0.5, 0, 0, 0, 0, 0] := by decide +kernel

/-- First non-zero basis functions and the range check (parameter_space_test.cc:80-90). -/
example : (do let p ← ps1; PS.firstNonZero p.knots p.degree [1.5]) = .ok [1] ∧
    (do let p ← ps1; PS.firstNonZero p.knots p.degree [4]) = .ok [5] ∧
    (do let p ← ps1; PS.throwIfOutside p.knots [5.1]) = .error (.thrown .rangeError) := by decide +kernel

/-- `InsertKnot` and `RemoveKnot` (parameter_space_test.cc:92-108). -/
example : (do let p ← ps1; let p ← p.insertKnot 0.5 0; return (p.knots.map List.length)) = .ok [12] ∧
    (do let p ← ps1; let p ← p.insertKnot 0.5 0; (List.range 9).mapM fun i : ℕ => p.getBasisFunctions [(i : ℤ)] [0.5]) =
      .ok [0, 0.5, 0.5, 0, 0, 0, 0, 0, 0] ∧
    (do let p ← ps1; let p ← p.removeKnot 1 0; return (p.knots.map List.length)) = .ok [10] ∧
    near 0.000001 (do let p ← ps1; let p ← p.removeKnot 1 0; (List.range 7).mapM fun i : ℕ => p.getBasisFunctions [(i : ℤ)] [0.5])
      [0.5625, 0.395833, 0.0416667, 0, 0, 0, 0] = true := by decide +kernel

/-- `A2DParameterSpace` and `A3DParameterSpace` (parameter_space_test.cc:115-130, 162-181). -/
def ps2 : M (PS ℚ) := PS.new [[0, 0, 0, 1, 1, 1], [0, 0, 1, 2, 3, 3]] [2, 1]
@[inherit_doc ps2]
def ps3 : M (PS ℚ) := PS.new [[0, 0, 0, 1, 1, 1], [0, 0.3, 0.6, 0.9], [0, 0, 1, 2, 3, 3]] [2, 0, 1]

/-- Values and derivatives (parameter_space_test.cc:132-155, 183-205, 211-220), the range (parameter_space_test.cc:207-209), copies
(parameter_space_test.cc:110-113, 157-160, 222-226). -/
example : (do let p ← ps2; p.getBasisFunctions [1, 1] [0.5, 0.25]) = .ok 0.125 ∧
    (do let p ← ps2; p.getBasisFunctionDerivatives [1, 1] [0.5, 0.25] [0, 1]) = .ok 0.5 ∧
    (do let p ← ps3; p.getBasisFunctions [1, 1, 1] [0.5, 0.5, 0.25]) = .ok 0.125 ∧
    (do let p ← ps3; p.getBasisFunctionDerivatives [1, 1, 1] [0.5, 0.5, 0.25] [0, 0, 1]) = .ok 0.5 ∧
    (do let p ← ps3; p.knotVectorRange 2) = .ok 3 ∧
    (∀ p ∈ [ps1, ps2, ps3], (do let p ← p; let q ← p.copy; return p.areEqualPS q (kEps ℚ)) = .ok true) := by decide +kernel

/-! ## physical_space_test.cc and weighted_physical_space_test.cc -/

/-- `A1DPhysicalSpace`, `A2DPhysicalSpace` (physical_space_test.cc:22-38, 101-118). -/
def pts1 : List (List ℚ) := [[0, 0], [1, 1], [3, 2], [4, 1], [5, -1]]
@[inherit_doc pts1]
def pts2 : List (List ℚ) := [[0, 0], [1, 1], [3, 2], [0, 2], [1.5, 2.5], [5, 1]]
@[inherit_doc pts1]
def ph1 : M (Phys ℚ) := Phys.new pts1 [5]
@[inherit_doc pts1]
def ph2 : M (Phys ℚ) := Phys.new pts2 [3, 2]

/-- The constructor throws (physical_space_test.cc:40-47, 120-127). -/
example : Phys.new pts1 [4] = .error (.thrown .runtimeError) ∧ Phys.new (pts1 ++ [[0]]) [6] = .error (.thrown .runtimeError) ∧
    Phys.new pts2 [3, 1] = .error (.thrown .runtimeError) ∧ Phys.new (pts2 ++ [[0]]) [1, 7] = .error (.thrown .runtimeError) := by
  decide +kernel

/-- Access to the points (physical_space_test.cc:49-64, 129-155). -/
example : (do let p ← ph1; p.getCP [2]) = .ok [3, 2] ∧ (ph1.map fun p => (p.num, p.maxIndex, p.dim)) = .ok ([5], [4], 2) ∧
    (do let p ← ph2; p.getCP [2, 1]) = .ok [5, 1] ∧ (do let p ← ph2; p.getCP [4, 0]) = .ok [1.5, 2.5] ∧
    (do let p ← ph2; p.getWeight [1, 2]) = .ok 1 ∧ (ph2.map fun p => (p.num, p.maxIndex, p.dim)) = .ok ([3, 2], [2, 1], 2) := by
  decide +kernel

/-- Adding and removing points (physical_space_test.cc:66-81, 157-172). -/
example : (do let p ← ph1; p.numCPs) = .ok 5 ∧
    (do let p ← ph1; let p ← (p.addCPs 1).setCP [5] [6, 0] p.num; return (← p.numCPs, ← p.getCP [5])) = .ok (6, [6, 0]) ∧
    (do let p ← ph1; let p ← p.removeCPs 2; return (← p.numCPs, ← p.getCP [2])) = .ok (3, [3, 2]) ∧
    (do let p ← ph2; p.numCPs) = .ok 6 ∧
    (do let p ← ph2; let p ← (p.addCPs 1).setCP [6, 0] [6, 0] p.num; return (← p.numCPs, ← p.getCP [6, 0])) = .ok (7, [6, 0]) ∧
    (do let p ← ph2; let p ← p.removeCPs 2; return (← p.numCPs, ← p.getCP [3, 0])) = .ok (4, [0, 2]) := by decide +kernel

/-- Expansion, division, copies (physical_space_test.cc:83-85, 91-99, 174-176, 182-190). -/
example : (ph1.map fun p => p.expansion) = .ok 5 ∧ (ph2.map fun p => p.expansion) = .ok 5 ∧
    (do let p ← ph1; return (← p.dividedCPs 2 2 0).length) = .ok 2 ∧ (do let p ← ph1; return (← p.dividedCPs 2 2 0)[0]?) = .ok (some [(3 : ℚ), 2]) ∧
    (do let p ← ph2; return (← p.dividedCPs 1 2 0).length) = .ok 4 ∧
    (do let p ← ph2; return (← p.dividedCPs 1 2 0)[2]?) = .ok (some [(1.5 : ℚ), 2.5]) ∧
    (∀ p ∈ [ph1, ph2], (p.map fun p => p.areEqualPhys p (kEps ℚ)) = .ok true) := by decide +kernel

/-- `A1DWeightedPhysicalSpace`, `A2DWeightedPhysicalSpace` (weighted_physical_space_test.cc:22-40, 100-119). -/
def w1 : List ℚ := [0.5, 0.75, 0.8, 1, 1.2]
@[inherit_doc w1]
def w2 : List ℚ := [0.5, 0.75, 0.8, 1, 1.2, 3.8]
@[inherit_doc w1]
def wph1 : M (Phys ℚ) := Phys.newWeighted pts1 w1 [5]
@[inherit_doc w1]
def wph2 : M (Phys ℚ) := Phys.newWeighted pts2 w2 [3, 2]

/-- The constructor throws (weighted_physical_space_test.cc:42-45, 121-124). -/
example : Phys.newWeighted (pts1 ++ [[0, 0]]) w1 [6] = .error (.thrown .runtimeError) ∧
    Phys.newWeighted pts2 (w2 ++ [1]) [3, 2] = .error (.thrown .runtimeError) := by decide +kernel

/-- Weights and homogenous points (weighted_physical_space_test.cc:47-71, 126-188, 223-247). -/
example : (do let p ← wph1; p.getWeight [2]) = .ok 0.8 ∧ (do let p ← wph1; p.minWeight) = .ok 0.5 ∧
    (do let p ← wph1; p.getHomCP [0]) = .ok [0, 0, 0.5] ∧ (do let p ← wph1; p.getHomCP [2]) = .ok [2.4, 1.6, 0.8] ∧
    (do let p ← wph1; p.getHomCP [4]) = .ok [6, -1.2, 1.2] ∧
    (do let p ← wph2; return [← p.getWeight [0, 0], ← p.getWeight [0, 1], ← p.getWeight [2, 1], ← p.getWeight [3, 0], ← p.getWeight [5, 0],
      ← p.minWeight]) = .ok [0.5, 1, 3.8, 1, 3.8, 0.5] ∧
    (do let p ← wph2; p.getHomCP [0, 0]) = .ok [0, 0, 0.5] ∧ (do let p ← wph2; p.getHomCP [1, 1]) = .ok [1.8, 3, 1.2] ∧
    (do let p ← wph2; p.getHomCP [2, 1]) = .ok [19, 3.8, 3.8] ∧ (do let p ← wph2; p.getHomCP [4, 0]) = .ok [1.8, 3, 1.2] ∧
    (do let p ← wph2; p.getHomCP [5, 0]) = .ok [19, 3.8, 3.8] ∧
    (do let p ← Phys.newWeighted pts1 [(1 : ℚ), 4, 1, 1, 1] [5]; p.getHomCP [1]) = .ok [4, 4, 4] := by decide +kernel

/-- Adding, removing, dividing, copying (weighted_physical_space_test.cc:73-98, 190-215). -/
example : (do let p ← wph1; let p ← (p.addCPs 1).setCP [5] [6, 0] p.num; let p ← p.setWeight [5] 4.3 p.num
              return (← p.numCPs, ← p.getCP [5], ← p.getWeight [5])) = .ok (6, [6, 0], 4.3) ∧
    (do let p ← wph1; let p ← p.removeCPs 2; return (← p.numCPs, p.weights.map List.length)) = .ok (3, some 3) ∧
    (do let p ← wph1; p.dividedWeights 2 2 0) = .ok [0.8, 1] ∧
    (do let p ← wph2; let p ← (p.addCPs 1).setCP [6, 0] [6, 0] p.num; let p ← p.setWeight [6, 0] 4.3 p.num
        return (← p.numCPs, ← p.getCP [6, 0], ← p.getWeight [6, 0])) = .ok (7, [6, 0], 4.3) ∧
    (do let p ← wph2; let p ← p.removeCPs 2; return (← p.numCPs, p.weights.map List.length)) = .ok (4, some 4) ∧
    (do let p ← wph2; return (← p.dividedWeights 1 2 0)[2]?) = .ok (some (1.2 : ℚ)) ∧
    (∀ p ∈ [wph1, wph2], (p.map fun p => p.areEqualPhys p (kEps ℚ)) = .ok true) := by decide +kernel

/-! ## b_spline_test.cc and b_spline_2d_test.cc -/

/-- `ABSpline`, `ABSplineWithSplineGenerator` (b_spline_test.cc:137-156, 242-268). -/
def bs : M (Spl ℚ) := Spl.newBSpline [[0, 0, 0, 1, 2, 3, 4, 4, 5, 5, 5]] [2]
  [[0, 0], [0, 1], [1, 1], [1.5, 1.5], [2, 1.3], [3, 2], [4, 1.5], [4, 0]]

/-- Values and derivatives (b_spline_test.cc:158-216, 270-272). -/
example : evals bs 0 [([0], [0], [0]), ([0], [1], [0]), ([5], [0], [4]), ([5], [1], [0]), ([2.5], [0], [1.5])] = true ∧
    evalDerivs bs 0 [([0], [0], [1], [0]), ([0], [1], [1], [2]), ([5], [0], [1], [0]), ([2.25], [1], [1], [0.325])] = true := by
  decide +kernel

/-- Outside of the knots (b_spline_test.cc:218-240). -/
example : ∀ x ∈ [(6 : ℚ), -1], (do let s ← bs; s.evaluate [x] [0]) = .error (.thrown .rangeError) ∧
    (do let s ← bs; s.evaluateDerivative [x] [0] [1]) = .error (.thrown .rangeError) := by decide +kernel

/-- `A2DBSpline` (b_spline_2d_test.cc:26-46). -/
def bs2 : M (Spl ℚ) := Spl.newBSpline [[0, 0, 0, 1, 1, 1], [0, 0, 0, 1, 1, 1]] [2, 2]
  [[-1, -1, 0], [0, -1, 0], [1, -1, 0], [-1, 0, 0], [0, 0, 1], [1, 0, 0], [-1, 1, 0], [0, 1, 0], [1, 1, 0]]

/-- Values (b_spline_2d_test.cc:48-86). -/
example : evals bs2 0.00005 [([0, 0], [0, 1, 2], [-1, -1, 0]), ([0, 0.33333], [0, 1, 2], [-1, -0.33333, 0]),
    ([0.33333, 0], [0, 1, 2], [-0.33333, -1, 0]), ([0.5, 0.5], [0, 1, 2], [0, 0, 0.25]),
    ([0.75, 0.25], [0, 1, 2], [0.5, -0.5, 0.14063])] = true := by decide +kernel

/-- Derivatives (b_spline_2d_test.cc:88-150). -/
example : evalDerivs bs2 0.00005 [([0, 0], [0, 1, 2], [1, 0], [2, 0, 0]), ([0, 0], [0, 1, 2], [0, 1], [0, 2, 0]),
    ([0, 0.33333], [0, 1, 2], [1, 0], [2, 0, 0.888889]), ([0, 0.33333], [0, 1, 2], [0, 1], [0, 2, 0]),
    ([0.5, 0.5], [0, 1, 2], [1, 0], [2, 0, 0]), ([0.75, 0.25], [0, 1, 2], [1, 0], [2, 0, -0.375]),
    ([0.75, 0.25], [0, 1, 2], [0, 1], [0, 2, 0.375]), ([0.75, 0.25], [0, 1, 2], [1, 2], [0, 0, 4])] = true := by decide +kernel

/-! ## nurbs_test.cc, nurbs_2d_test.cc and nurbs_3d_test.cc -/

/-- `NurbsEx4_1`, `ANURBSWithSplineGenerator` (nurbs_test.cc:83-120, 497-523). -/
example : evals (Spl.newNurbs [[(0 : ℚ), 0, 0, 1, 2, 3, 3, 3]] [2] [[0, 0], [1, 1], [3, 2], [4, 1], [5, -1]] [1, 4, 1, 1, 1]) 0
    [([1], [0], [1.4]), ([1], [1], [1.2]), ([1], [2], [2.5])] = true := by decide +kernel

/-- `ANurbs` (nurbs_test.cc:234-253). -/
def nu : M (Spl ℚ) := Spl.newNurbs [[0, 0, 0, 0.25, 0.5, 0.75, 0.95, 1, 1, 1]] [2]
  [[0.5, 3, 1], [1.5, 5.5, 4], [4.5, 5.5, 0.1], [3, 1.5, 2], [7.5, 1.5, 3.5], [6, 4, 5.3], [8.5, 4.5, 0]] [1, 0.9, 0.7, 0.5, 0.8, 1.2, 2]

/-- Values (nurbs_test.cc:255-304). -/
example : evals nu 0 [([0], [0, 1, 2, 3], [0.5, 3, 1, 1]), ([0.25], [0, 1, 2, 3], [2.8125, 5.5, 2.29375, 0.8]), ([1 / 3], [0], [3.625]),
      ([1], [0, 1, 2, 3], [8.5, 4.5, 0, 2])] = true ∧
    evals nu 0.000005 [([1 / 3], [1, 2, 3], [5.34848, 1.23561, 0.73333])] = true ∧
    (do let s ← nu; s.evaluate [1.2] [0]) = .error (.thrown .rangeError) ∧
    (do let s ← nu; s.evaluate [-0.1] [0]) = .error (.thrown .rangeError) := by decide +kernel

/-- `NurbsDerivativeEx4_2` (nurbs_test.cc:409-495). -/
example : evalDerivs (Spl.newNurbs [[(0 : ℚ), 0, 0, 1, 1, 1]] [2] [[1, 0], [1, 1], [0, 1]] [1, 1, 2]) 0
    [([0], [0, 1], [1], [0, 2]), ([0.5], [0, 1], [1], [-1.28, 0.96]), ([1], [0, 1], [1], [-1, 0]),
     ([0], [0, 1], [2], [-4, 0]), ([0.5], [0, 1], [2], [-0.512, -2.816]), ([1], [0, 1], [2], [1, -1]),
     ([0], [0, 1], [3], [0, -12]), ([0.5], [0, 1], [3], [7.3728, 2.1504]), ([1], [0, 1], [3], [0, 3])] = true := by decide +kernel

/-- `A2DNurbs` (nurbs_2d_test.cc:29-48). -/
def nu2 : M (Spl ℚ) := Spl.newNurbs [[0, 0, 0, 1, 1, 1], [0, 0, 0, 1, 1, 1]] [2, 2]
  [[0, 0], [1, 0], [3, 0], [-1, 0.5], [2, 2], [4, 1], [0, 2], [2.5, 3.5], [5, 2]] [1, 1, 1, 1, 1, 1, 1, 2, 1]

/-- Values (nurbs_2d_test.cc:50-93). -/
example : evals nu2 0.00001 [([0.4, 0.6], [0, 1], [1.62074, 1.88267]), ([0.9, 1], [0, 1], [4.19492, 2.45763])] = true ∧
    evals nu2 0 [([0.5, 1], [0, 1], [2.5, 3]), ([1, 0], [0, 1], [3, 0])] = true := by decide +kernel

/-- Derivatives (nurbs_2d_test.cc:95-146). -/
example : evalDerivs nu2 0 [([0, 1], [0, 1], [1, 0], [10, 6]), ([0, 1], [0, 1], [0, 1], [2, 3])] = true ∧
    evalDerivs nu2 0.000001 [([0.4, 0.6], [0, 1], [1, 0], [4.15298, 0.792032])] = true ∧
    evalDerivs nu2 0.00001 [([0.4, 0.6], [0, 1], [0, 1], [1.40046, 3.13402])] = true := by decide +kernel

/-- `A2DNurbsWithAllWeights1` (nurbs_2d_test.cc:148-196). -/
example : ∀ t ∈ [([(0.5 : ℚ), 0.5], [1, 1]), ([0, 0.7], [1, 1]), ([0, 0.7], [2, 1])],
    (do
      let P : List (List ℚ) := [[1, 2], [2, 2], [4, 2], [0, 2.5], [3, 4], [5, 3], [1, 4], [3.5, 5.5], [6, 4]]
      let U : List (List ℚ) := [[0, 0, 0, 2, 2, 2], [0, 0, 0, 2, 2, 2]]
      let s ← Spl.newNurbs U [2, 2] P (List.replicate 9 1)
      let b ← Spl.newBSpline U [2, 2] P
      return decide ((← s.evaluateDerivative t.1 [0] t.2) = (← b.evaluateDerivative t.1 [0] t.2))) = .ok true := by decide +kernel

/-- `A3DNurbsWithAllWeights1` (nurbs_3d_test.cc:26-83). -/
example : ∀ t ∈ [([(0.5 : ℚ), 0.5, 0.5], [1, 1, 0]), ([0.5, 0.8, 0.1], [1, 1, 1]), ([0.5, 0.8, 0.1], [1, 2, 1])],
    (do
      let P : List (List ℚ) := [[0, 0], [1, 0], [3, 0], [-1, 0.5], [2, 2], [4, 1], [0, 2], [-1, 0.5], [2, 2], [4, 1], [0, 2], [5, 2]]
      let U : List (List ℚ) := [[0, 0, 0, 1, 1, 1], [0, 0, 1, 1], [0, 0, 1, 1]]
      let s ← Spl.newNurbs U [2, 1, 1] P (List.replicate 12 1)
      let b ← Spl.newBSpline U [2, 1, 1] P
      return decide ((← s.evaluateDerivative t.1 [0] t.2) = (← b.evaluateDerivative t.1 [0] t.2))) = .ok true := by decide +kernel

/-! ## knot_insertion_test.cc -/

/-- `BSpline1DEx5_1` (knot_insertion_test.cc:24-49). -/
def ki1 : M (Spl ℚ) := Spl.newBSpline [[0, 0, 0, 0, 1, 2, 3, 4, 5, 5, 5, 5]] [3]
  [[0, 1], [1, 2], [2, 0], [4, 0], [5, 2], [4, 4], [2, 4], [1.3, 2.3]]

/-- The tenths from 0 to `n / 10`. -/
def tenths (n : ℕ) : List ℚ := (List.range (n + 1)).map fun i : ℕ => (i : ℚ) / 10

/-- `InsertsKnot2_5Correctly` (knot_insertion_test.cc:51-78). -/
example : knotsOf (do let s ← ki1; s.insertKnot 2.5 0 1) 0 = .ok [0, 0, 0, 0, 1, 2, 2.5, 3, 4, 5, 5, 5, 5] ∧
    cpsOf (do let s ← ki1; s.insertKnot 2.5 0 1) =
      .ok [0, 1, 1, 2, 2, 0, 11 / 3, 0, 4.5, 1, 29 / 6, 7 / 3, 4, 4, 2, 4, 1.3, 2.3] ∧
    sameAt ki1 (do let s ← ki1; s.insertKnot 2.5 0 1) 0 (tenths 10) [0] = true := by decide +kernel

/-- `NURBS1DEx5_2` (knot_insertion_test.cc:80-109). -/
def ki2 : M (Spl ℚ) := Spl.newNurbs [[0, 0, 0, 0, 1, 2, 3, 4, 5, 5, 5, 5]] [3]
  [[0, 1], [1, 2], [1, 0], [1, 0], [5, 2], [1, 1], [1, 2], [1.3, 2.3]] [1, 1, 2, 4, 1, 4, 2, 1]

/-- `InsertsKnot2_0Correctly` (knot_insertion_test.cc:111-142). -/
example : knotsOf (do let s ← ki2; s.insertKnot 2 0 1) 0 = .ok [0, 0, 0, 0, 1, 2, 2, 3, 4, 5, 5, 5, 5] ∧
    cpsOf (do let s ← ki2; s.insertKnot 2 0 1) =
      .ok [0, 1, 1, 2, 1, 0, 1, 0, 13 / 9, 2 / 9, 5, 2, 1, 1, 1, 2, 1.3, 2.3] ∧
    weightsOf (do let s ← ki2; s.insertKnot 2 0 1) = .ok [1, 1, 2, 10 / 3, 3, 1, 4, 2, 1] ∧
    sameAt ki2 (do let s ← ki2; s.insertKnot 2 0 1) 0 (tenths 10) [0] = true := by decide +kernel

/-- `BSpline1DFig5_16` (knot_insertion_test.cc:144-169). -/
def ki3 : M (Spl ℚ) := Spl.newBSpline [[0, 0, 0, 0, 0.3, 0.7, 1, 1, 1, 1]] [3]
  [[0, 0], [1, 0.15], [0.5, 1.5], [2.3, 2], [1.7, 0.3], [3, 0]]

/-- `InsertsMidpoints` (knot_insertion_test.cc:171-203). -/
example : knotsOf (do let s ← ki3; s.refineKnots [0.15, 0.5, 0.85] 0) 0 = .ok [0, 0, 0, 0, 0.15, 0.3, 0.5, 0.7, 0.85, 1, 1, 1, 1] ∧
    near 0.00001 (cpsOf (do let s ← ki3; s.refineKnots [0.15, 0.5, 0.85] 0))
      [0, 0, 0.5, 0.075, 0.892857, 0.439286, 0.805102, 1.25051, 1.4, 1.75, 1.97245, 1.5648, 1.82857, 0.664286, 2.35, 0.15, 3, 0] = true ∧
    sameAt ki3 (do let s ← ki3; s.refineKnots [0.15, 0.5, 0.85] 0) 0 (tenths 10) [0] = true := by decide +kernel

/-- One knot several times (knot_insertion_test.cc:205-254). -/
example : knotsOf (do let s ← ki3; s.refineKnots [0.5, 0.5, 0.5] 0) 0 = .ok [0, 0, 0, 0, 0.3, 0.5, 0.5, 0.5, 0.7, 1, 1, 1, 1] ∧
    knotsOf (do let s ← ki3; s.insertKnot 0.5 0 3) 0 = .ok [0, 0, 0, 0, 0.3, 0.5, 0.5, 0.5, 0.7, 1, 1, 1, 1] ∧
    knotsOf (do let s ← ki3; s.insertKnot 0.3 0 2) 0 = .ok [0, 0, 0, 0, 0.3, 0.3, 0.3, 0.7, 1, 1, 1, 1] ∧
    sameAt ki3 (do let s ← ki3; s.refineKnots [0.5, 0.5, 0.5] 0) 0 (tenths 10) [0] = true ∧
    sameAt ki3 (do let s ← ki3; s.insertKnot 0.5 0 3) 0 (tenths 10) [0] = true ∧
    sameAt ki3 (do let s ← ki3; s.insertKnot 0.3 0 2) 0 (tenths 10) [0] = true := by decide +kernel

end Tests
end SplineLib
