import Verif.Model.KnotRemoval
import Verif.Model.Degree
import Verif.Model.Generators
import Verif.Model.Sweep
import Verif.Model.Projection
import Verif.Tests.Spl

/-!
# Unit tests of `test/spl` about knot removal, degrees, subdivision, generators and projections, run on the model

The fixtures and expected values are those of the tests, as rational numbers; the square root is rounded down to twelve decimal places. Tests
with random splines are left out, and so are the projections on surfaces (projection_surface_test.cc) and the projections of points
beyond the ends of a curve (projection_curve_test.cc:55-61): they take up to 1001 Newton steps, which exact arithmetic cannot afford.
Where a test compares two splines with `AreGeometricallyEqual`, the model is asked at fewer points.
-/

namespace SplineLib
namespace Tests

/-- The square root, rounded down to twelve decimal places. -/
@[instance_reducible] def fineSqrt : HasSqrt ℚ := ⟨fun q => mkRat (Nat.sqrt (q.num.toNat * 10 ^ 24 / q.den)) (10 ^ 12)⟩
attribute [local instance] fineSqrt

/-! ## knot_removal_test.cc -/

/-- `BSpline1DFig5_26` (knot_removal_test.cc:25-45). -/
def kr : M (Spl ℚ) :=
  Spl.newBSpline [[0, 0, 0, 0, 1, 1, 1, 2, 2, 2, 2]] [3] [[0, 0], [0, 1.5], [1, 2], [2, 2], [3, 2], [4, 1.5], [4, 0]]

/-- `NURBS1DFig5_26` (knot_removal_test.cc:103-128). -/
def krw : M (Spl ℚ) :=
  Spl.newNurbs [[0, 0, 0, 0, 1, 1, 1, 2, 2, 2, 2]] [3] [[0, 0], [0, 1.5], [1, 2], [2, 2], [3, 2], [4, 1.5], [4, 0]]
    [1, 0.8, 1.4, 1.2, 1.1, 0.8, 1.4]

/-- The knot 1 is removed `m` times at most. -/
def rem1 (s : M (Spl ℚ)) (tol : ℚ) (m : ℕ) : M (Spl ℚ) := do return (← (← s).removeKnot 1 0 tol m).1

/-- How often the knot 1 was removed. -/
def rem1Number (s : M (Spl ℚ)) (tol : ℚ) (m : ℕ) : M ℕ := do return (← (← s).removeKnot 1 0 tol m).2

/-- The knot is removed once, twice and three times (knot_removal_test.cc:47-101). -/
example : rem1Number kr 0.1 1 = .ok 1 ∧ rem1Number kr 0 2 = .ok 2 ∧ rem1Number kr 0.5 3 = .ok 3 ∧ rem1Number kr 0.1 3 = .ok 2 ∧
    knotsOf (rem1 kr 0.1 1) 0 = .ok [0, 0, 0, 0, 1, 1, 2, 2, 2, 2] ∧
    knotsOf (rem1 kr 0 2) 0 = .ok [0, 0, 0, 0, 1, 2, 2, 2, 2] ∧
    knotsOf (rem1 kr 0.5 3) 0 = .ok [0, 0, 0, 0, 2, 2, 2, 2] ∧
    cpsOf (rem1 kr 0.1 1) = .ok [0, 0, 0, 1.5, 1, 2, 3, 2, 4, 1.5, 4, 0] ∧
    cpsOf (rem1 kr 0 2) = .ok [0, 0, 0, 1.5, 2, 2.5, 4, 1.5, 4, 0] ∧
    cpsOf (rem1 kr 0.5 3) = .ok [0, 0, 0, 3, 4, 3, 4, 0] := by decide +kernel

/-- The curve stays the same (knot_removal_test.cc:61, 78), or not (knot_removal_test.cc:95). -/
example : sameAt kr (rem1 kr 0.1 1) 0 [0, 0.4, 0.8, 1, 1.2, 1.6, 2] [0, 1] = true ∧
    sameAt kr (rem1 kr 0 2) 0 [0, 0.4, 0.8, 1, 1.2, 1.6, 2] [0, 1] = true ∧
    sameAt kr (rem1 kr 0.5 3) 0.2 [1] [0, 1] = false := by decide +kernel

/-- The knot of the NURBS is removed once (knot_removal_test.cc:130-157). -/
example : rem1Number krw 0.81 1 = .ok 1 ∧ rem1Number krw 0.81 2 = .ok 1 ∧
    knotsOf (rem1 krw 0.81 1) 0 = .ok [0, 0, 0, 0, 1, 1, 2, 2, 2, 2] ∧
    cpsOf (rem1 krw 0.81 1) = .ok [0, 0, 0, 1.5, 1, 2, 3, 2, 4, 1.5, 4, 0] ∧
    weightsOf (rem1 krw 0.81 1) = .ok [1, 0.8, 1.4, 1.1, 0.8, 1.4] := by decide +kernel

/-! ## degree_elevation_test.cc and degree_reduction_test.cc -/

/-- `BSplineFig5_35…` (degree_elevation_test.cc:26-49, degree_reduction_test.cc:26-51). -/
def de1 : M (Spl ℚ) :=
  Spl.newBSpline [[0, 0, 0, 0, 0.3, 0.6, 1, 1, 1, 1]] [3] [[1, 0], [0, 2], [1, 2], [3, 2], [4, 1], [3, 0]]

/-- `ALinearNURBS…` (degree_elevation_test.cc:72-94, degree_reduction_test.cc:86-110). -/
def de2 : M (Spl ℚ) := Spl.newNurbs [[0, 0, 0.3, 0.6, 1, 1]] [1] [[1, 1], [1, 2], [2, 2], [2, 3]] [1, 1.5, 0.5, 1]

/-- `A2DBSpline…` (degree_elevation_test.cc:117-144, degree_reduction_test.cc:136-165). -/
def de3 : M (Spl ℚ) :=
  Spl.newBSpline [[0, 0, 0, 0.3, 0.6, 0.6, 1, 1, 1], [0, 0, 1, 1]] [2, 1]
    [[1, 1], [1, 2], [2, 2], [2, 3], [3, 3], [3, 4], [2, 1], [1.5, 2.5], [2, 3], [2.5, 3.5], [3.5, 4], [5, 5]]

/-- The degrees, the numbers of knots and the numbers of points. -/
def sizes (s : M (Spl ℚ)) : M (List ℕ × List ℕ × List ℤ) := do
  let s ← s
  return (s.ps.degree, s.ps.knots.map List.length, s.ph.num)

/-- Before the elevation the sizes are as the tests take them. -/
example : sizes de1 = .ok ([3], [10], [6]) ∧ sizes de2 = .ok ([1], [6], [4]) ∧ sizes de3 = .ok ([2, 1], [9, 4], [6, 2]) := by
  decide +kernel

/-- The elevation divides by a zero weight (C21). The tests about elevated splines (degree_elevation_test.cc:51-70, 96-115, 146-177,
degree_reduction_test.cc:62-84, 112-134, 167-206) do not see it: they ask for degrees, numbers of knots and points and for
`AreGeometricallyEqual`, which takes a distance that is not a number for a small one. -/
example : (do (← de1).elevateDegree 0) = .error .nonfinite ∧ (do (← de2).elevateDegree 0) = .error .nonfinite ∧
    (do (← de3).elevateDegree 0) = .error .nonfinite := by decide +kernel

/-- Reduction without elevation fails (degree_reduction_test.cc:53-60). -/
example : (do (← de1).reduceDegree 0 (kEps ℚ) : M _).map (fun r => (r.2, r.1.ps.degree)) = .ok (false, [3]) := by decide +kernel

/-! ## spline_subdivision_test.cc -/

/-- `BSplineFig5_9` (spline_subdivision_test.cc:26-62). -/
def sd : M (Spl ℚ) :=
  Spl.newBSpline [[0, 0, 0, 0, 1, 1, 1, 1], [0, 0, 0, 0.5, 1, 1, 1]] [3, 2]
    [[5, 0, 2], [2, 0, 2], [1, 0, 3], [-1, 0, 3], [5, 2, 2], [2, 1.5, 2], [1, 1, 3], [-1, 1, 3], [5, 2, 0], [2, 2, 0], [1, 2.5, 2],
      [-1, 2.5, 2], [5, 5, 0], [2, 4.5, 0], [1, 4, 2], [-1, 4, 2]]

/-- `IsSubdividedAtKnot0_7InFirstDirection` (spline_subdivision_test.cc:64-88). -/
example : (do let r ← (← sd).subdivide 0.7 0; return r.2.1.ps.knots.getD 0 [] : M (List ℚ)) = .ok [0, 0, 0, 0, 0.7, 0.7, 0.7, 0.7] ∧
    (do let r ← (← sd).subdivide 0.7 0; return r.2.2.ps.knots.getD 0 [] : M (List ℚ)) = .ok [0.7, 0.7, 0.7, 0.7, 1, 1, 1, 1] ∧
    (do (← (← sd).subdivide 0.7 0).2.1.evaluate [0.4, 0.3] [0, 1] : M (List ℚ)) = (do (← sd).evaluate [0.4, 0.3] [0, 1]) ∧
    (do (← (← sd).subdivide 0.7 0).2.2.evaluate [0.8, 0.6] [0, 1] : M (List ℚ)) = (do (← sd).evaluate [0.8, 0.6] [0, 1]) := by
  decide +kernel

/-! ## square_generator_test.cc -/

/-- `ASquare` (square_generator_test.cc:25-74). -/
example : sizes (Gen.square 2 6) = .ok ([2, 2], [6, 6], [3, 3]) ∧
    evals (Gen.square 2 6) 0 [([0, 0], [0, 1], [-1, -1]), ([0, 1], [0, 1], [-1, 1]), ([0.5, 0.5], [0, 1], [0, 0]),
      ([0.2, 0.75], [0, 1], [-0.6, 0.5]), ([1, 0], [0, 1], [1, -1]), ([1, 1], [0, 1], [1, 1])] = true := by decide +kernel

/-- `ASquareWithDegree3And8Knots` (square_generator_test.cc:76-127). -/
example : sizes (Gen.square 3 8) = .ok ([3, 3], [8, 8], [4, 4]) ∧
    evals (Gen.square 3 8) 0 [([0, 0], [0, 1], [-1, -1]), ([0, 1], [0, 1], [-1, 1]), ([0.5, 0.5], [0, 1], [0, 0]),
      ([0.2, 0.75], [0, 1], [-0.6, 0.5]), ([1, 0], [0, 1], [1, -1]), ([1, 1], [0, 1], [1, 1])] = true := by decide +kernel

/-- `ASquareWithDegree3And10Knots` (square_generator_test.cc:129-181). -/
example : sizes (Gen.square 3 10) = .ok ([3, 3], [10, 10], [6, 6]) ∧
    evals (Gen.square 3 10) (1 / 10 ^ 14) [([0, 0], [0, 1], [-1, -1]), ([0, 1], [0, 1], [-1, 1]), ([0.5, 0.5], [0, 1], [0, 0]),
      ([0.2, 0.75], [0], [-0.46]), ([0.2, 0.7], [1], [0.2845]), ([1, 0], [0, 1], [1, -1]), ([1, 1], [0, 1], [1, 1])] = true := by
  decide +kernel

/-! ## surface_generator_test.cc -/

/-- The trajectory of `ASurface` (surface_generator_test.cc:139-150). -/
def sgT : M (Spl ℚ) := Spl.newNurbs [[0, 0, 1, 1]] [1] [[0, 0, 0], [10, 0, 0]] [1, 1]

/-- The section of `ASurface` (surface_generator_test.cc:139-150). -/
def sgC : M (Spl ℚ) :=
  Spl.newNurbs [[0, 0, 0, 0.25, 0.25, 0.5, 0.5, 0.75, 0.75, 1, 1, 1]] [2]
    [[0, 1, 0], [0, 1, 1], [0, 0, 1], [0, -1, 1], [0, -1, 0], [0, -1, -1], [0, 0, -1], [0, 1, -1], [0, 1, 0]]
    [1, 0.7071, 1, 0.7071, 1, 0.7071, 1, 0.7071, 1]

/-- The scaling of `ASurface` (surface_generator_test.cc:176-178). -/
def sgS : List (V3 ℚ) := ([1, 1, 1, 0.5, 0.5, 0.5, 0.5, 0.5, 1, 1, 1] : List ℚ).map fun q => ⟨q, q, q⟩

/-- Some coordinate of a control point. -/
def cpOf (s : M (Spl ℚ)) (ix : List ℤ) (d : ℕ) : M ℚ := do return (← (← s).ph.getCP ix).getD d 0

/-- The translational surface (surface_generator_test.cc:202-225). -/
example : sizes (do Gen.translationalSurface (← sgT) (← sgC)) = .ok ([1, 2], [4, 12], [2, 9]) ∧
    (do (← Gen.translationalSurface (← sgT) (← sgC)).ph.getWeight [1, 4] : M ℚ) = .ok 1 ∧
    (do (← Gen.translationalSurface (← sgT) (← sgC)).ph.getWeight [0, 3] : M ℚ) = .ok 0.7071 ∧
    cpOf (do Gen.translationalSurface (← sgT) (← sgC)) [1, 4] 1 = .ok (-1) ∧
    cpOf (do Gen.translationalSurface (← sgT) (← sgC)) [0, 3] 2 = .ok 1 := by decide +kernel

/-- The swept surfaces (surface_generator_test.cc:227-262). -/
example : sizes (do Gen.sweep (← sgT) (← sgC) 11 sgS) = .ok ([1, 2], [13, 12], [11, 9]) ∧
    cpOf (do Gen.sweep (← sgT) (← sgC) 11 sgS) [1, 4] 1 = .ok (-1) ∧
    cpOf (do Gen.sweep (← sgT) (← sgC) 11 sgS) [5, 4] 1 = .ok (-0.5) ∧
    cpOf (do Gen.sweep (← sgT) (← sgC) 11 sgS) [1, 4] 0 = .ok 1 ∧
    cpOf (do Gen.sweep (← sgT) (← sgC) 11 sgS) [5, 4] 0 = .ok 5 ∧
    sizes (do Gen.sweep (← sgT) (← sgC) 2 [⟨1, 1, 1⟩, ⟨1, 1, 1⟩]) = .ok ([1, 2], [4, 12], [2, 9]) ∧
    cpOf (do Gen.sweep (← sgT) (← sgC) 2 [⟨1, 1, 1⟩, ⟨1, 1, 1⟩]) [1, 6] 0 =
      cpOf (do Gen.translationalSurface (← sgT) (← sgC)) [1, 6] 0 := by decide +kernel

/-! ## projection_curve_test.cc -/

/-- `ABSpline2` (projection_curve_test.cc:24-49). -/
def prC : M (Spl ℚ) :=
  Spl.newBSpline [[0, 0, 0, 0, 0.2, 0.4, 0.6, 0.8, 1, 1, 1, 1]] [3]
    [[100, 100], [140, 196], [200, 240], [260, 164], [340, 164], [400, 240], [460, 196], [500, 100]]

/-- `ComputesCorrectProjectionCloseToCenter` (projection_curve_test.cc:51-53). -/
example : near 0.0001 (do return (← Proj.onCurve (← prC) [332, 200] 0.0001).1) [0.6223419238] = true := by decide +kernel

end Tests
end SplineLib
