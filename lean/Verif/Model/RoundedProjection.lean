import Verif.Model.RoundedSampling
import Verif.Model.Projection
import Verif.Model.Iga

/-!
# Projection and the output of solutions with rounded arithmetic (src/spl/projection.h, example/iga/src/solution_vtk_writer.h)

As in `Model/Rounded.lean` every floating point operation is followed by a rounding, in the order of the C++ code. Conversions of the
indices and of the numbers of cells from `int` to `double` are exact. The elements are the same as without rounding: the difference of
two floating point numbers is rounded to zero only if they are equal.
-/

namespace SplineLib
set_option linter.unusedSectionVars false

namespace Fl
variable {K : Type} [LinearOrder K] [Field K] (r : Rounding K)

/-- `ComputeDifference(vectorA, vectorB)` (vector_utils.h:37-40). -/
def difference (a b : List K) : M (List K) :=
  if b.length < a.length then .error .ub else .ok (List.zipWith (fun x y => r.rnd (x - y)) a b ++ b.drop a.length)

/-- `ComputeScalarProduct(vectorA, vectorB)` (vector_utils.h:46-53). -/
def scalarProduct (a b : List K) : M K :=
  if b.length < a.length then .error .ub
  else .ok ((List.zipWith (fun x y => r.rnd (x * y)) a b ++ b.drop a.length).foldl (fun s x => r.rnd (s + x)) 0)

/-- `ScaleVector(vectorA, factor)` (vector_utils.h:55-59). -/
def scale (a : List K) (factor : K) : List K := a.map fun x => r.rnd (factor * x)

/-- `CrossProduct(a, b)` (vector_utils.h:61-67). -/
def crossProduct (a b : List K) : M (List K) := do
  let a0 ← getN a 0
  let a1 ← getN a 1
  let a2 ← getN a 2
  let b0 ← getN b 0
  let b1 ← getN b 1
  let b2 ← getN b 2
  return [r.rnd (r.rnd (a1 * b2) - r.rnd (a2 * b1)), r.rnd (r.rnd (a2 * b0) - r.rnd (a0 * b2)), r.rnd (r.rnd (a0 * b1) - r.rnd (a1 * b0))]
    ++ List.replicate (a.length - 3) 0

/-- `GetDelta1D` (projection.h:177-186). -/
def delta1 (C dC P : List K) : M (List K) := do
  let v ← difference r P C
  let a ← scalarProduct r dC v
  let b ← scalarProduct r dC dC
  let d ← div r a b
  return [d]

/-- `UpdateProjectedPoint` (projection.h:133-139). -/
def update (x delta : List K) : List K := List.zipWith (fun a b => r.rnd (a + b)) x delta

/-- The loop of `ProjectionOnSurface` and `ProjectionOnCurve` (projection.h:37-48, 59-69) with the number of iterations. The clamping to the
range of the knots and the test of convergence only compare. -/
def projLoop (step : List K → M (List K)) (s : Spl K) (tol : K) : ℕ → ℕ → List K → M (List K × ℕ)
  | 0, _, _ => .error .diverges
  | fuel + 1, iteration, x => do
    let delta ← step x
    let y ← Proj.check s (update r x delta)
    if Proj.converged delta tol || decide (iteration + 1 > 1000) then return (y, iteration + 1)
    else projLoop step s tol fuel (iteration + 1) y

/-- The evaluations in one iteration of `ProjectionOnCurve` (projection.h:60-62). -/
def curveStep (s : Spl K) (P x : List K) : M (List K) := do
  let dC ← evaluateDerivative r s x (Proj.dimensions P) [1]
  let C ← evaluate r s x (Proj.dimensions P)
  delta1 r C dC P

variable [HasSqrt K]

/-- `ComputeDistance(vectorA, vectorB)` (vector_utils.h:42-44) for vectors of any length. -/
def vecDistance (a b : List K) : M K := do
  let d ← difference r a b
  return twoNorm r d

/-- The loop of `FindInitialValue1D` over the elements (projection.h:92-101). -/
def initialLoop1 (s : Spl K) (P : List K) : List (K × K) → K → K → M K
  | [], _, x => .ok x
  | e :: es, dist, x => do
    let y := r.rnd (r.rnd (1 / 2 * r.rnd (e.2 - e.1)) + e.1)
    let q ← evaluate r s [y] (Proj.dimensions P)
    let d ← vecDistance r P q
    if d < dist then initialLoop1 s P es d y else initialLoop1 s P es dist x

/-- `FindInitialValue1D` (projection.h:82-103). -/
def initial1 (s : Spl K) (P : List K) : M (List K) := do
  let els ← Elem.elements s.ps.knots s.ps.degree
  let el ← getN els 0
  let e ← getN el 0
  let y := r.rnd (1 / 2 * r.rnd (e.2 - e.1))
  let q ← evaluate r s [y] (Proj.dimensions P)
  let d ← vecDistance r P q
  let x ← initialLoop1 r s P el.tail d y
  return [x]

/-- `ProjectionOnCurve` (projection.h:52-71) with the number of iterations. -/
def onCurve (s : Spl K) (P : List K) (tol : K) : M (List K × ℕ) := do
  let x ← initial1 r s P
  projLoop r (curveStep r s P) s tol 1001 0 x

/-- A parameter of the grid of `FindInitialValue2D` (projection.h:118-119): `i * (last - first) / scattering`. -/
def gridParam2 (a b : K) (sc : ℤ) (i : ℕ) : K := r.rnd (r.rnd ((i : K) * r.rnd (b - a)) / (sc : K))

/-- The inner loop of `FindInitialValue2D` (projection.h:117-129): `n` iterations from `j` on. -/
def initialRow (s : Spl K) (P : List K) (u a2 b2 : K) (sc2 : ℤ) : ℕ → ℕ → K → List K → M (K × List K)
  | 0, _, dist, x => .ok (dist, x)
  | n + 1, j, dist, x => do
    let v := gridParam2 r a2 b2 sc2 j
    let q ← evaluate r s [u, v] (Proj.dimensions P)
    let d ← vecDistance r P q
    if d < dist then initialRow s P u a2 b2 sc2 n (j + 1) d [u, v] else initialRow s P u a2 b2 sc2 n (j + 1) dist x

/-- The outer loop of `FindInitialValue2D` (projection.h:116-130): `n` iterations from `i` on. -/
def initialRows (s : Spl K) (P : List K) (a1 b1 a2 b2 : K) (sc1 sc2 : ℤ) : ℕ → ℕ → K → List K → M (K × List K)
  | 0, _, dist, x => .ok (dist, x)
  | n + 1, i, dist, x => do
    let t ← initialRow r s P (gridParam2 r a1 b1 sc1 i) a2 b2 sc2 sc2.toNat 1 dist x
    initialRows s P a1 b1 a2 b2 sc1 sc2 n (i + 1) t.1 t.2

/-- `FindInitialValue2D` (projection.h:105-131). -/
def initial2 (s : Spl K) (P : List K) (sc1 sc2 : ℤ) : M (List K) := do
  let U ← getN s.ps.knots 0
  let V ← getN s.ps.knots 1
  let a1 ← kvGet U 0
  let b1 ← kvLast U
  let a2 ← kvGet V 0
  let b2 ← kvLast V
  let q ← evaluate r s [a1, a2] (Proj.dimensions P)
  let d ← vecDistance r P q
  let t ← initialRows r s P a1 b1 a2 b2 sc1 sc2 sc1.toNat 1 d [a1, a2]
  return t.2

/-- `GetQ` (projection.h:163-175). -/
def getQ (P S Su Sv : List K) : M (List K) := do
  let n ← crossProduct r Su Sv
  let f ← div r 1 (twoNorm r n)
  let nn := scale r n f
  let a ← scalarProduct r S nn
  let b ← scalarProduct r P nn
  difference r P (scale r nn (-(r.rnd (a - b))))

/-- `GetDelta2D` (projection.h:188-202). -/
def delta2 (S Su Sv P : List K) : M (List K) := do
  let q ← getQ r P S Su Sv
  let diff ← difference r q S
  let a ← scalarProduct r Su Su
  let b ← scalarProduct r Sv Su
  let c ← scalarProduct r diff Su
  let d ← scalarProduct r Sv Sv
  let e ← scalarProduct r diff Sv
  let d2 ← div r (r.rnd (r.rnd (a * e) - r.rnd (b * c))) (r.rnd (r.rnd (a * d) - r.rnd (b * b)))
  let d1 ← div r (r.rnd (c - r.rnd (b * d2))) a
  return [d1, d2]

/-- The evaluations in one iteration of `ProjectionOnSurface` (projection.h:38-41). -/
def surfaceStep (s : Spl K) (P x : List K) : M (List K) := do
  let Su ← evaluateDerivative r s x (Proj.dimensions P) [1, 0]
  let Sv ← evaluateDerivative r s x (Proj.dimensions P) [0, 1]
  let S ← evaluate r s x (Proj.dimensions P)
  delta2 r S Su Sv P

/-- `ProjectionOnSurface` (projection.h:29-50) with the number of iterations. -/
def onSurface (s : Spl K) (P : List K) (sc1 sc2 : ℤ) (tol : K) : M (List K × ℕ) := do
  let x ← initial2 r s P sc1 sc2
  projLoop r (surfaceStep r s P) s tol 1001 0 x

end Fl

namespace Fl
variable {K : Type} [LinearOrder K] [Field K] (r : Rounding K)

/-- `SolutionSpline(spl, solution)` (solution_spline.h:27-40): only the basis functions are computed. -/
def solutionSpline (s : Spl K) (solution : List K) : M (Spl K) := do
  let h := MIH.mk' s.ph.num
  let n ← s.ph.numCPs
  let pts ← upLoop (Iga.solutionBody s solution) n.toNat h []
  let ps ← copyPS r s.ps
  let w ← s.ph.theWeights
  let ph ← Phys.newWeighted pts w s.ph.num
  return ⟨ps, ph⟩

/-- The parametric coordinates of a point of the output grid (solution_vtk_writer.h:41-52). -/
def solutionCoord : List (List K) → List ℤ → List ℤ → M (List K)
  | U :: Us, i :: is, n :: ns => do
    let a ← kvGet U 0
    let b ← kvGet U (toSizeT ((U.length : ℤ) - 1))
    let dxi ← div r (r.rnd (b - a)) (n : K)
    let rest ← solutionCoord Us is ns
    return r.rnd (a + r.rnd ((i : K) * dxi)) :: rest
  | _, _, _ => .ok []

/-- The point data of `WriteSolutionToVTK` (solution_vtk_writer.h:36-56) for `scattering[0]`. -/
def solutionData (s : Spl K) (solution : List K) (scat : List ℤ) : M (List K) := do
  let t ← solutionSpline r s solution
  let h := MIH.mk' (scat.map (· + 1))
  upLoop (fun h acc => do
    let x ← solutionCoord r s.ps.knots h.cur scat
    let v ← evaluate r t x [(s.ph.dim : ℤ)]
    let a ← getN v 0
    return acc ++ [a]) h.length1D.toNat h []

end Fl
end SplineLib
