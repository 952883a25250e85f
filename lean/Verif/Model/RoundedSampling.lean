import Verif.Model.Rounded
import Verif.Model.Vtk

/-!
# Comparison and sampling with rounded arithmetic (src/spl/spline.h, src/io/vtk_writer_utils.h)

As in `Model/Rounded.lean` every floating point operation is followed by a rounding, in the order of the C++ code. Conversions of the
indices and of the numbers of cells from `int` to `double` are exact.
-/

namespace SplineLib
set_option linter.unusedSectionVars false

namespace Fl
variable {K : Type} [LinearOrder K] [Field K] (r : Rounding K)

/-- The parametric coordinates of a sample of `AreGeometricallyEqual` (spline.h:110-113). -/
def samplePoint (number : ℕ) : List (List K) → List ℤ → M (List K)
  | U :: Us, i :: is => do
    let b ← kvLast U
    let a ← kvGet U 0
    let rest ← samplePoint number Us is
    return r.rnd (r.rnd (r.rnd (b - a) / (number : K)) * (i : K)) :: rest
  | _, _ => .ok []

/-- `VectorUtils::ComputeTwoNorm` (vector_utils.h:28-35). -/
def twoNorm [HasSqrt K] (v : List K) : K := r.rnd (HasSqrt.sqrt (v.foldl (fun s a => r.rnd (s + r.rnd (a * a))) 0))

/-- `VectorUtils::ComputeDistance` (vector_utils.h:37-44) for vectors of equal length. -/
def distance [HasSqrt K] (a b : List K) : K := twoNorm r (List.zipWith (fun x y => r.rnd (x - y)) a b)

/-- The loop of `AreGeometricallyEqual` (spline.h:108-119) from the current handler on. -/
def geomLoop [HasSqrt K] (a b : Spl K) (tol : K) (number : ℕ) (dims : List ℤ) : ℕ → MIH → M Bool
  | 0, _ => .ok true
  | n + 1, h => do
    let x ← samplePoint r number a.ps.knots h.cur
    let va ← evaluate r a x dims
    let vb ← evaluate r b x dims
    if distance r va vb > tol then return false
    else geomLoop a b tol number dims n h.incr

/-- `AreGeometricallyEqual(rhs, tolerance)` (spline.h:96-121). -/
def areGeometricallyEqual [HasSqrt K] (a b : Spl K) (tol : K) : M Bool :=
  let number := Spl.sampleNumber a.ps.knots.length
  let h := MIH.mk' (a.ps.knots.map fun _ => (number : ℤ) + 1)
  geomLoop r a b tol number ((List.range a.ph.dim).map Int.ofNat) h.length1D.toNat h

/-- The parametric coordinate of a point of the sampling grid of VTK files (vtk_writer_utils.h:28-35, 58-60). -/
def gridCoord : List (List K) → List ℤ → List ℤ → M (List K)
  | U :: Us, i :: is, n :: ns => do
    let a ← kvGet U 0
    let b ← kvLast U
    let q ← div r (r.rnd ((i : K) * r.rnd (b - a))) (n : K)
    let rest ← gridCoord Us is ns
    return r.rnd (a + q) :: rest
  | _, _, _ => .ok []

/-- One line of the section `POINTS` (vtk_writer_utils.h:61-63). -/
def pointLine (s : Spl K) (x : List K) : M (List K) :=
  buildList (fun k => if k < s.ph.dim then do
      let v ← evaluate r s x [(k : ℤ)]
      getN v 0
    else .ok 0) 3

/-- `WritePoints` (vtk_writer_utils.h:52-65): the numbers of the section. -/
def writePoints (s : Spl K) (scat : List ℤ) : M (List (List K)) :=
  let h := MIH.mk' (scat.map (· + 1))
  upLoop (fun h acc => do
    let x ← gridCoord r s.ps.knots h.cur scat
    let l ← pointLine r s x
    return acc ++ [l]) h.length1D.toNat h []

end Fl
end SplineLib
