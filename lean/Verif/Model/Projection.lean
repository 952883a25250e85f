import Verif.Model.Elements

/-!
# Model of the vector utilities and of the projection onto curves and surfaces (src/util/vector_utils.h, src/spl/projection.h)

A division by zero is the outcome `nonfinite`. (With IEEE arithmetic a step `0 / 0` makes the parameter NaN; all comparisons with NaN
are false, so that the loop stops and NaN is returned.)
-/

namespace SplineLib
namespace Vec
variable {K : Type} [LinearOrder K] [Field K]

/-- `ComputeDifference(vectorA, vectorB)` (vector_utils.h:37-40): `std::transform` over the range of `vectorA`, which reads and writes
`vectorB`. -/
def difference (a b : List K) : M (List K) :=
  if b.length < a.length then .error .ub else .ok (List.zipWith (· - ·) a b ++ b.drop a.length)

/-- `ComputeScalarProduct(vectorA, vectorB)` (vector_utils.h:46-53): the products overwrite the beginning of `vectorB`, then all
entries of `vectorB` are summed. -/
def scalarProduct (a b : List K) : M K :=
  if b.length < a.length then .error .ub else .ok ((List.zipWith (· * ·) a b ++ b.drop a.length).foldl (· + ·) 0)

/-- `ScaleVector(vectorA, factor)` (vector_utils.h:55-59). -/
def scale (a : List K) (factor : K) : List K := a.map fun x => factor * x

/-- `CrossProduct(a, b)` (vector_utils.h:61-67): the result has the size of `a`; further entries are zero. -/
def crossProduct (a b : List K) : M (List K) := do
  let a0 ← getN a 0
  let a1 ← getN a 1
  let a2 ← getN a 2
  let b0 ← getN b 0
  let b1 ← getN b 1
  let b2 ← getN b 2
  return [a1 * b2 - a2 * b1, a2 * b0 - a0 * b2, a0 * b1 - a1 * b0] ++ List.replicate (a.length - 3) 0

/-- `FilterVector(input, positions)` (vector_utils.h:69-79). -/
def filter (input : List K) : List ℤ → M (List K)
  | [] => .ok []
  | i :: is =>
    if i < input.length then do
      let v ← getI input i
      let r ← filter input is
      return v :: r
    else .error (.thrown .runtimeError)

variable [HasSqrt K]

/-- `ComputeDistance(vectorA, vectorB)` (vector_utils.h:42-44). -/
def distance (a b : List K) : M K := do
  let d ← difference a b
  return Phys.twoNorm d

end Vec

namespace Proj
variable {K : Type} [LinearOrder K] [Field K]

/-- `GetDimensions` (projection.h:74-80). -/
def dimensions (P : List K) : List ℤ := (List.range P.length).map fun i : ℕ => (i : ℤ)

/-- `GetDelta1D` (projection.h:177-186). -/
def delta1 (C dC P : List K) : M (List K) := do
  let v ← Vec.difference P C
  let a ← Vec.scalarProduct dC v
  let b ← Vec.scalarProduct dC dC
  let d ← fdiv a b
  return [d]

/-- `UpdateProjectedPoint` (projection.h:133-139). -/
def update (x delta : List K) : List K := List.zipWith (· + ·) x delta

/-- The body of the loop of `CheckParametricCoordinates` (projection.h:144-148). -/
def clamp (lo hi x : K) : K := if x < lo then lo else if x > hi then hi else x

/-- `CheckParametricCoordinates` (projection.h:141-151): all coordinates are compared with the first knot vector. -/
def check (s : Spl K) (x : List K) : M (List K) := do
  let U ← getN s.ps.knots 0
  let lo ← kvGet U 0
  let hi ← kvLast U
  return x.map (clamp lo hi)

/-- `UpdateConverged` (projection.h:153-161). -/
def converged (delta : List K) (tol : K) : Bool := delta.all fun d => !decide (|d| ≥ tol)

/-- The loop of `ProjectionOnSurface` and `ProjectionOnCurve` (projection.h:37-48, 59-69) with the number of iterations. `step`
computes `delta` at the current parameter. The first argument bounds the recursion depth of the model. -/
def loop (step : List K → M (List K)) (s : Spl K) (tol : K) : ℕ → ℕ → List K → M (List K × ℕ)
  | 0, _, _ => .error .diverges
  | fuel + 1, iteration, x => do
    let delta ← step x
    let y ← check s (update x delta)
    if converged delta tol || decide (iteration + 1 > 1000) then return (y, iteration + 1)
    else loop step s tol fuel (iteration + 1) y

/-- The evaluations in one iteration of `ProjectionOnCurve` (projection.h:60-62). -/
def curveStep (s : Spl K) (P x : List K) : M (List K) := do
  let dC ← s.evaluateDerivative x (dimensions P) [1]
  let C ← s.evaluate x (dimensions P)
  delta1 C dC P

variable [HasSqrt K]

/-- The loop of `FindInitialValue1D` over the elements (projection.h:92-101). -/
def initialLoop1 (s : Spl K) (P : List K) : List (K × K) → K → K → M K
  | [], _, x => .ok x
  | e :: es, dist, x => do
    let y := 1 / 2 * (e.2 - e.1) + e.1
    let q ← s.evaluate [y] (dimensions P)
    let d ← Vec.distance P q
    if d < dist then initialLoop1 s P es d y else initialLoop1 s P es dist x

/-- `FindInitialValue1D` (projection.h:82-103). The lower bound of the first element is not added (lines 88-91). -/
def initial1 (s : Spl K) (P : List K) : M (List K) := do
  let els ← Elem.elements s.ps.knots s.ps.degree
  let el ← getN els 0
  let e ← getN el 0
  let y := 1 / 2 * (e.2 - e.1)
  let q ← s.evaluate [y] (dimensions P)
  let d ← Vec.distance P q
  let x ← initialLoop1 s P el.tail d y
  return [x]

/-- `ProjectionOnCurve` (projection.h:52-71) with the number of iterations. -/
def onCurve (s : Spl K) (P : List K) (tol : K) : M (List K × ℕ) := do
  let x ← initial1 s P
  loop (curveStep s P) s tol 1001 0 x

/-- The inner loop of `FindInitialValue2D` (projection.h:117-129): `n` iterations from `j` on. -/
def initialRow (s : Spl K) (P : List K) (u a2 b2 : K) (sc2 : ℤ) : ℕ → ℕ → K → List K → M (K × List K)
  | 0, _, dist, x => .ok (dist, x)
  | n + 1, j, dist, x => do
    let v := (j : K) * (b2 - a2) / (sc2 : K)
    let q ← s.evaluate [u, v] (dimensions P)
    let d ← Vec.distance P q
    if d < dist then initialRow s P u a2 b2 sc2 n (j + 1) d [u, v] else initialRow s P u a2 b2 sc2 n (j + 1) dist x

/-- The outer loop of `FindInitialValue2D` (projection.h:116-130): `n` iterations from `i` on. -/
def initialRows (s : Spl K) (P : List K) (a1 b1 a2 b2 : K) (sc1 sc2 : ℤ) : ℕ → ℕ → K → List K → M (K × List K)
  | 0, _, dist, x => .ok (dist, x)
  | n + 1, i, dist, x => do
    let r ← initialRow s P ((i : K) * (b1 - a1) / (sc1 : K)) a2 b2 sc2 sc2.toNat 1 dist x
    initialRows s P a1 b1 a2 b2 sc1 sc2 n (i + 1) r.1 r.2

/-- `FindInitialValue2D` (projection.h:105-131). The first knots are not added to the parameters of the grid (lines 118-119). -/
def initial2 (s : Spl K) (P : List K) (sc1 sc2 : ℤ) : M (List K) := do
  let U ← getN s.ps.knots 0
  let V ← getN s.ps.knots 1
  let a1 ← kvGet U 0
  let b1 ← kvLast U
  let a2 ← kvGet V 0
  let b2 ← kvLast V
  let q ← s.evaluate [a1, a2] (dimensions P)
  let d ← Vec.distance P q
  let r ← initialRows s P a1 b1 a2 b2 sc1 sc2 sc1.toNat 1 d [a1, a2]
  return r.2

/-- `GetQ` (projection.h:163-175): the foot of the point on the tangent plane. -/
def getQ (P S Su Sv : List K) : M (List K) := do
  let n ← Vec.crossProduct Su Sv
  let f ← fdiv 1 (Phys.twoNorm n)
  let nn := Vec.scale n f
  let a ← Vec.scalarProduct S nn
  let b ← Vec.scalarProduct P nn
  Vec.difference P (Vec.scale nn (-(a - b)))

/-- `GetDelta2D` (projection.h:188-202). -/
def delta2 (S Su Sv P : List K) : M (List K) := do
  let q ← getQ P S Su Sv
  let diff ← Vec.difference q S
  let a ← Vec.scalarProduct Su Su
  let b ← Vec.scalarProduct Sv Su
  let c ← Vec.scalarProduct diff Su
  let d ← Vec.scalarProduct Sv Sv
  let e ← Vec.scalarProduct diff Sv
  let d2 ← fdiv (a * e - b * c) (a * d - b * b)
  let d1 ← fdiv (c - b * d2) a
  return [d1, d2]

/-- The evaluations in one iteration of `ProjectionOnSurface` (projection.h:38-41). -/
def surfaceStep (s : Spl K) (P x : List K) : M (List K) := do
  let Su ← s.evaluateDerivative x (dimensions P) [1, 0]
  let Sv ← s.evaluateDerivative x (dimensions P) [0, 1]
  let S ← s.evaluate x (dimensions P)
  delta2 S Su Sv P

/-- `ProjectionOnSurface` (projection.h:29-50) with the number of iterations. -/
def onSurface (s : Spl K) (P : List K) (sc1 sc2 : ℤ) (tol : K) : M (List K × ℕ) := do
  let x ← initial2 s P sc1 sc2
  loop (surfaceStep s P) s tol 1001 0 x

end Proj
end SplineLib
