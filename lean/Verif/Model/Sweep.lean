import Verif.Model.Generators

/-!
# Model of the sweep along a trajectory (src/spl/surface_generator.cc, second constructor)

The 4 × 4 matrix of `GetTransformation` has the constant last row `(0, 0, 0, 1)`; the first three rows are stored by columns.
-/

namespace SplineLib

/-- `std::array<double, 3>`. -/
structure V3 (K : Type) where
  x : K
  y : K
  z : K
  deriving DecidableEq, Repr

/-- The columns of the matrix of `GetTransformation`: three axes and the origin. -/
structure Frame (K : Type) where
  x : V3 K
  y : V3 K
  z : V3 K
  t : V3 K
  deriving DecidableEq, Repr

namespace Gen
variable {K : Type} [LinearOrder K] [Field K]

/-- The first three entries of a `std::vector<double>`. -/
def toV3 (l : List K) : M (V3 K) := do
  let x ← getN l 0
  let y ← getN l 1
  let z ← getN l 2
  return ⟨x, y, z⟩

/-- `CrossProduct` (surface_generator.cc:104-116). -/
def cross (a b : V3 K) : V3 K := ⟨a.y * b.z - a.z * b.y, a.z * b.x - a.x * b.z, a.x * b.y - a.y * b.x⟩

/-- `DotProduct` (surface_generator.cc:118-132). -/
def dot (a b : V3 K) : K := a.x * b.x + a.y * b.y + a.z * b.z

/-- `ComputeNorm` (surface_generator.cc:134-148). -/
def norm [HasSqrt K] (a : V3 K) : K := HasSqrt.sqrt (dot a a)

/-- Division of all entries by a number. -/
def divBy (a : V3 K) (n : K) : M (V3 K) := do
  let x ← fdiv a.x n
  let y ← fdiv a.y n
  let z ← fdiv a.z n
  return ⟨x, y, z⟩

variable [HasSqrt K]

/-- `ComputeNormal(T, dT, ddT, previous, index)` (surface_generator.cc:150-181). `T` is the point on the trajectory; the tangent is
normalised in the second part (lines 168-171) but the result is not used. -/
def computeNormal (T dT ddT previous : V3 K) (index : ℕ) : M (V3 K) :=
  let c := cross dT ddT
  if 0 < norm c then do
    let n ← divBy c (norm c)
    if dot n previous = 0 ∧ index ≠ 0 then .error (.thrown .runtimeError) else return n
  else
    let product := dot previous T
    let c : V3 K := ⟨previous.x - product * T.x, previous.y - product * T.y, previous.z - product * T.z⟩
    divBy c (norm c)

/-- `GetTransformation(t, dT, ddT, prev_z, index)` (surface_generator.cc:183-209). -/
def getTransformation (t dT ddT previous : V3 K) (index : ℕ) : M (Frame K) := do
  let z ← computeNormal t dT ddT previous index
  let x ← divBy dT (norm dT)
  return ⟨x, cross z x, z, t⟩

/-- `ControlPoint::Transform(matrix, scaling)` (control_point.cc:64-73): the origin plus the scaled coordinates times the axes. -/
def transform (f : Frame K) (scaling p : V3 K) : V3 K :=
  ⟨f.t.x + f.x.x * scaling.x * p.x + f.y.x * scaling.y * p.y + f.z.x * scaling.z * p.z,
   f.t.y + f.x.y * scaling.x * p.x + f.y.y * scaling.y * p.y + f.z.y * scaling.z * p.z,
   f.t.z + f.x.z * scaling.x * p.x + f.y.z * scaling.y * p.y + f.z.z * scaling.z * p.z⟩

/-- The frame and the evaluated weight of the trajectory at the parameter `v` (surface_generator.cc:76-84). -/
def sectionFrame (T : Spl K) (v : K) (previous : V3 K) (index : ℕ) : M (Frame K × K) := do
  let t ← T.evaluate [v] [0, 1, 2]
  let w ← T.evaluate [v] [3]
  let w0 ← getN w 0
  let d ← T.evaluateDerivative [v] [0, 1, 2] [1]
  let dd ← T.evaluateDerivative [v] [0, 1, 2] [2]
  let t3 ← toV3 t
  let d3 ← toV3 d
  let dd3 ← toV3 dd
  let f ← getTransformation t3 d3 dd3 previous index
  return (f, w0)

/-- The control points and weights of one section (surface_generator.cc:85-90). -/
def sectionPoints (C : Spl K) (m : ℕ) (f : Frame K) (w : K) (scaling : V3 K) : M (List (V3 K × K)) :=
  buildList (fun j => do
    let p ← C.ph.getCP [(j : ℤ)]
    let p3 ← toV3 p
    let wc ← C.ph.getWeight [(j : ℤ)]
    return (transform f scaling p3, wc * w)) m

/-- The loop over the sections (surface_generator.cc:74-91). The first `previous` axis is that of the initial matrix, `(0, 0, 1)`
(lines 64-67). -/
def sections (T C : Spl K) (m : ℕ) (step : K) (scaling : List (V3 K)) : ℕ → M (List (List (V3 K × K)) × V3 K)
  | 0 => .ok ([], ⟨0, 0, 1⟩)
  | i + 1 => do
    let (cols, previous) ← sections T C m step scaling i
    let (f, w) ← sectionFrame T ((i : K) * step) previous i
    let col ← do
      let sc ← getN scaling i
      sectionPoints C m f w sc
    return (cols ++ [col], f.z)

/-- `SurfaceGenerator(nurbs_T, nurbs_C, nbInter, scaling)` (surface_generator.cc:54-102), for `nbInter ≥ 0`. Simplification: when `C` has
no control points `scaling` is not read in the code; splines have at least one control point. -/
def sweep (T C : Spl K) (nb : ℕ) (scaling : List (V3 K)) : M (Spl K) := do
  let UT ← getN T.ps.knots 0
  let UC ← getN C.ps.knots 0
  let pT ← getN T.ps.degree 0
  let pC ← getN C.ps.degree 0
  let range ← T.ps.knotVectorRange 0
  let step ← fdiv range ((nb : K) - 1)
  let mi ← C.ph.numCPs
  let m := mi.toNat
  let (cols, _) ← sections T C m step scaling nb
  let entries ← buildList (fun j => buildList (fun i => do
    let col ← getN cols i
    getN col j) nb) m
  let knots ← kvAveraged ((List.range nb).map fun i : ℕ => (i : K) * step) pT nb
  let tmp ← PS.new [knots, UC] [pT, pC]
  let ps ← tmp.copy
  let ph ← Phys.newWeighted (entries.flatten.map fun e => [e.1.x, e.1.y, e.1.z]) (entries.flatten.map fun e => e.2) [(nb : ℤ), (m : ℤ)]
  return ⟨ps, ph⟩

end Gen
end SplineLib
