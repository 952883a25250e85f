import Verif.Model.Spline
import Verif.Model.Printing

/-!
# Model of the generators of splines
(src/util/random.h, src/spl/random_spline_utils.h, src/spl/random_b_spline_generator.h, src/spl/random_nurbs_generator.h,
src/spl/square_generator.cc, src/spl/surface_generator.cc)

A generator object is its parameter space and its physical space; `BSpline(generator)` and `NURBS(generator)` (b_spline.h:44-46,
nurbs.h:44-46) take them over, so the generator is identified with the spline that is constructed from it.
-/

namespace SplineLib
namespace Gen

/-- The results of the random engines: the `k`-th draw of an engine with upper bound `t` is some number in `0, ..., t`. Nothing else is
assumed about `std::binomial_distribution<int>(t, 0.5)`; `engine k` is cut off at `t`. -/
def draw (engine : ℕ → ℕ) (k t : ℕ) : ℕ := min (engine k) t

/-- `GetBinomialRandom<double>(min, max, distance)` (random.h:23-28). `std::binomial_distribution` requires `t ≥ 0`. -/
def binomial {K : Type} [LinearOrder K] [Field K] [FloorRing K] (engine : ℕ → ℕ) (k : ℕ) (lo hi distance : K) : M K := do
  let q ← fdiv (hi - lo) distance
  let t := Prn.truncate q
  if t < 0 then .error .ub else return (draw engine k t.toNat : K) * distance + lo

/-- `GetBinomialRandom<int>(min, max, distance)` (random.h:23-28): the result is converted to `int`. -/
def binomialInt (K : Type) [LinearOrder K] [Field K] [FloorRing K] (engine : ℕ → ℕ) (k : ℕ) (lo hi distance : ℤ) : M ℤ := do
  let v ← binomial engine k (lo : K) (hi : K) (distance : K)
  return Prn.truncate v

section
variable {K : Type} [LinearOrder K] [Field K] [FloorRing K]

/-- `GetRandomDegrees(max_degree)` (random_spline_utils.h:32-38). -/
def degrees (K : Type) [LinearOrder K] [Field K] [FloorRing K] (engine : ℕ → ℕ) (D : ℕ) (maxDegree : ℤ) : M (List ℕ) :=
  buildList (fun i => do let p ← binomialInt K engine i 1 maxDegree 1; return p.toNat) D

/-- `GetNumberOfKnots(degree)` (random_spline_utils.h:95-101); these draws follow those of the degrees. -/
def numberOfKnots (K : Type) [LinearOrder K] [Field K] [FloorRing K] (engine : ℕ → ℕ) (ps : List ℕ) : M (List ℤ) :=
  buildList (fun i => do let p ← getN ps i; binomialInt K engine (ps.length + i) (2 * p + 2) (4 * p) 1) ps.length

/-- The knots of one direction (random_spline_utils.h:45-56). -/
def knots (a b : K) (p : ℕ) (n : ℤ) : M (List K) := do
  let number : ℤ := n - 2 * p - 2
  let inner ← buildList (fun j => do let h ← fdiv (b - a) ((number : K) + 1); return h * ((j : K) + 1) + a) number.toNat
  return List.replicate (p + 1) a ++ inner ++ List.replicate (p + 1) b

/-- `GetRandomKnotVectors(coord_limits, degree)` (random_spline_utils.h:40-60). -/
def knotVectors (engine : ℕ → ℕ) (a b : K) (ps : List ℕ) : M (List (List K)) := do
  let ns ← numberOfKnots K engine ps
  buildList (fun i => do let p ← getN ps i; let n ← getN ns i; knots a b p n) ps.length

/-- `GetRandomControlPoints(dimension, number_of_points)` (random_spline_utils.h:62-74). -/
def controlPoints (engine : ℕ → ℕ) (dimension : ℕ) (num : List ℤ) : M (List (List K)) :=
  buildList (fun i => buildList (fun j => binomial engine (dimension * i + j) (-5) 5 (1 / 100)) dimension) (MIH.mk' num).length1D.toNat

/-- `GetRandomWeights(number_of_points)` (random_spline_utils.h:76-83); these draws follow the `first` ones of the coordinates. -/
def weights (engine : ℕ → ℕ) (first : ℕ) (num : List ℤ) : M (List K) :=
  buildList (fun i => binomial engine (first + i) (1 / 10) 2 (1 / 10)) (MIH.mk' num).length1D.toNat

/-- `RandomBSplineGenerator<DIM>(coord_limits, max_degree, dimension)` (random_b_spline_generator.h:31-39). `ei` and `ed` are the
engines of `GetBinomialRandom<int>` and `GetBinomialRandom<double>`, from their current states on. -/
def randomBSpline (ei ed : ℕ → ℕ) (D : ℕ) (a b : K) (maxDegree : ℤ) (dimension : ℕ) : M (Spl K) := do
  let ps ← degrees K ei D maxDegree
  let Us ← knotVectors ei a b ps
  let num := Spl.pointNumbers Us ps
  let points ← controlPoints ed dimension num
  let ph ← Phys.new points num
  let space ← PS.new Us ps
  return ⟨space, ph⟩

/-- `RandomNURBSGenerator<DIM>(coord_limits, max_degree, dimension)` (random_nurbs_generator.h:31-40). -/
def randomNurbs (ei ed : ℕ → ℕ) (D : ℕ) (a b : K) (maxDegree : ℤ) (dimension : ℕ) : M (Spl K) := do
  let ps ← degrees K ei D maxDegree
  let Us ← knotVectors ei a b ps
  let num := Spl.pointNumbers Us ps
  let points ← controlPoints ed dimension num
  let ws ← weights ed (dimension * points.length) num
  let ph ← Phys.newWeighted points ws num
  let space ← PS.new Us ps
  return ⟨space, ph⟩

end

section
variable {K : Type} [LinearOrder K] [Field K]

/-- The loop of `GenerateParameterSpace` (square_generator.cc:28-30): `count` knots from position `p+1` on. -/
def squareLoop (h : K) (p : ℕ) : ℕ → List K → M (List K)
  | 0, l => .ok l
  | n + 1, l => do
    let l' ← squareLoop h p n l
    let prev ← getN l' (p + n)
    setI l' (p + n + 1) (prev + h)

/-- The knots of `GenerateParameterSpace` (square_generator.cc:26-31). With fewer than `2p+2` knots the iterators never meet or leave
the vector. -/
def squareKnots (p n : ℕ) : M (List K) :=
  if n < 2 * p + 2 then .error .ub
  else do
    let h ← fdiv 1 ((n : K) - 2 * p - 1)
    let l ← squareLoop h p (n - 2 * p - 2) (List.replicate n 0)
    return l.take (n - p - 1) ++ List.replicate (p + 1) 1

/-- The coordinates of `GeneratePhysicalSpace` (square_generator.cc:42-47): `val` is incremented after each assignment. -/
def squareCoords (delta : K) : ℕ → K → List K
  | 0, _ => []
  | n + 1, val => val :: squareCoords delta n (val + delta)

/-- The control points (square_generator.cc:48-54). -/
def squarePoints (coords : List K) : List (List K) := coords.flatMap fun y => coords.map fun x => [x, y]

/-- `CreateSquare()` (square_generator.cc:19-56). Returning the parameter space by value is elided by the compiler; the `make_shared` in
line 20 copies it. -/
def square (p n : ℕ) : M (Spl K) := do
  let U ← squareKnots p n
  let tmp ← PS.new [U, U] [p, p]
  let ps ← tmp.copy
  let num := n - p - 1
  let delta ← fdiv 2 ((num : K) - 1)
  let ph ← Phys.new (squarePoints (squareCoords delta num (-1))) [(num : ℤ), (num : ℤ)]
  return ⟨ps, ph⟩

/-- `ControlPoint::operator+` (control_point.cc:39-46): as many coordinates as the left operand has. -/
def addPoints (a b : List K) : M (List K) := buildList (fun i => do let x ← getN a i; let y ← getN b i; return x + y) a.length

/-- `SurfaceGenerator(nurbs_T, nurbs_C)` (surface_generator.cc:19-52). -/
def translationalSurface (T C : Spl K) : M (Spl K) := do
  let UT ← getN T.ps.knots 0
  let UC ← getN C.ps.knots 0
  let pT ← getN T.ps.degree 0
  let pC ← getN C.ps.degree 0
  let tmp ← PS.new [UT, UC] [pT, pC]
  let ps ← tmp.copy
  let nT ← T.ph.numCPs
  let nC ← C.ph.numCPs
  let points ← buildList (fun i => buildList (fun j => do
    let a ← T.ph.getCP [(j : ℤ)]
    let b ← C.ph.getCP [(i : ℤ)]
    addPoints a b) nT.toNat) nC.toNat
  let ws ← buildList (fun i => buildList (fun j => do
    let a ← T.ph.getWeight [(j : ℤ)]
    let b ← C.ph.getWeight [(i : ℤ)]
    return a * b) nT.toNat) nC.toNat
  let ph ← Phys.newWeighted points.flatten ws.flatten [nT, nC]
  return ⟨ps, ph⟩

end
end Gen
end SplineLib
