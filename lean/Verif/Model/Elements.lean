import Verif.Model.Spline

/-!
# Model of the element generators and of the connectivity of the isogeometric example
(src/util/element_generator.h, example/iga/src/element_generator.h, example/iga/src/connectivity_handler.h,
example/iga/src/mapping_handler.h, example/iga/src/itg)

`util::ElementGenerator` and `iga::elm::ElementGenerator` have the same constructor. An element is the pair of its lower and upper
bound (element.h:24-40). Conversions between `size_t` and `int` of sizes are exact.
-/

namespace SplineLib
namespace Elem

section
variable {K : Type} [LinearOrder K] [Field K]

/-- The inner loop of the constructor (util/element_generator.h:30-35): `n` iterations from `j` on. -/
def elementLoop (U : List K) : ℕ → ℕ → M (List (K × K))
  | 0, _ => .ok []
  | n + 1, j => do
    let a ← kvGet U j
    let b ← kvGet U (j + 1)
    let r ← elementLoop U n (j + 1)
    return if a - b ≠ 0 then (a, b) :: r else r

/-- The constructor for one direction (element_generator.h:30-35). The bound `GetNumberOfKnots() - degree - 1` is a `size_t`. -/
def elementsDir (U : List K) (p : ℕ) : M (List (K × K)) := elementLoop U (toSizeT ((U.length : ℤ) - p - 1)) 0

/-- The constructor (element_generator.h:28-37): the element list of every direction. -/
def elements : List (List K) → List ℕ → M (List (List (K × K)))
  | U :: Us, p :: ps => do
    let e ← elementsDir U p
    let r ← elements Us ps
    return e :: r
  | _, _ => .ok []

/-- `GetNumElementsPerParamDir()` (example/iga/src/element_generator.h:44-50). -/
def numElements (els : List (List (K × K))) : List ℤ := els.map fun e => (e.length : ℤ)

/-- `GetNumberOfElements()` (example/iga/src/element_generator.h:52-58). -/
def totalElements (els : List (List (K × K))) : ℤ := (numElements els).foldl (· * ·) 1

/-- `GetElementIndices(element_index)` (example/iga/src/element_generator.h:83-87). -/
def elementIndices (els : List (List (K × K))) (i : ℤ) : List ℤ := ((MIH.mk' (numElements els)).plus i).cur

/-- `Get1DElementIndex(element_indices)` (example/iga/src/element_generator.h:89-93). -/
def elementNumber (els : List (List (K × K))) (ix : List ℤ) : ℤ := ((MIH.mk' (numElements els)).setIndices ix).get1D

/-- `GetInternalKnots()` for one direction (example/iga/src/element_generator.h:96-105): `vector(begin + p, end - p)`; an inverted
range is undefined. -/
def internalKnots (U : List K) (p : ℕ) : M (List K) :=
  if 2 * p ≤ U.length then .ok ((U.drop p).take (U.length - 2 * p)) else .error .ub

/-- `erase(unique(begin, end), end)` (example/iga/src/element_generator.h:110). -/
def uniq : List K → List K
  | a :: b :: l => if a = b then uniq (b :: l) else a :: uniq (b :: l)
  | l => l

/-- `v.erase(std::find(v.rbegin(), v.rend(), x).base(), v.rbegin().base())` (example/iga/src/element_generator.h:66-68): keeps the
elements up to and including the last `x`; nothing if `x` does not occur. -/
def keepThrough (l : List K) (x : K) : List K := (l.reverse.dropWhile fun a => decide (a ≠ x)).reverse

/-- `GetKnotMultiplicityIndexShift` for one direction (example/iga/src/element_generator.h:60-72). -/
def indexShift (U : List K) (p : ℕ) (e : ℤ) : M ℤ := do
  let internal ← internalKnots U p
  let unique := uniq internal
  let lower ← getI unique e
  return ((keepThrough internal lower).length : ℤ) - (keepThrough unique lower).length

/-- The loop of `GetGlobalIndicesPerParametricDirection` (example/iga/src/connectivity_handler.h:48-50): element index, local index
and shift are added. -/
def globalIndices : List (List K) → List ℕ → List ℤ → List ℤ → M (List ℤ)
  | U :: Us, p :: ps, e :: es, l :: ls => do
    let s ← indexShift U p e
    let r ← globalIndices Us ps es ls
    return (l + e + s) :: r
  | _, _, _, _ => .ok []

/-- `ConnectivityHandler::GetGlobalIndex(element_number, local_index)` (example/iga/src/connectivity_handler.h:32-58). -/
def globalIndex (s : Spl K) (element loc : ℤ) : M ℤ := do
  let els ← elements s.ps.knots s.ps.degree
  let ix ← globalIndices s.ps.knots s.ps.degree (elementIndices els element) ((MIH.mk' s.numBasis).plus loc).cur
  return ((MIH.mk' s.ph.num).setIndices ix).get1D + 1

/-- The loop of `GetElementNumberAtParamCoord` (example/iga/src/element_generator.h:76-79). -/
def elementIndicesAt : List (List K) → List ℕ → List K → M (List ℤ)
  | U :: Us, p :: ps, x :: xs => do
    let internal ← internalKnots U p
    let k ← kvSpan (uniq internal) x
    let r ← elementIndicesAt Us ps xs
    return k :: r
  | _, _, _ => .ok []

/-- `GetElementNumberAtParamCoord(param_coords)` (example/iga/src/element_generator.h:74-81). -/
def elementNumberAt (s : Spl K) (x : List K) : M ℤ := do
  let els ← elements s.ps.knots s.ps.degree
  let ix ← elementIndicesAt s.ps.knots s.ps.degree x
  return elementNumber els ix

/-- The loop of `Reference2ParameterSpace` (example/iga/src/mapping_handler.h:43-47). -/
def toParamLoop : List (List (K × K)) → List ℤ → List K → M (List K)
  | E :: Es, e :: es, t :: ts => do
    let el ← getI E e
    let r ← toParamLoop Es es ts
    return ((el.2 - el.1) * t + (el.2 + el.1)) / 2 :: r
  | _, _, _ => .ok []

/-- `MappingHandler::Reference2ParameterSpace(element_number, itg_pnts)` (example/iga/src/mapping_handler.h:40-49). -/
def toParam (s : Spl K) (element : ℤ) (t : List K) : M (List K) := do
  let els ← elements s.ps.knots s.ps.degree
  toParamLoop els (elementIndices els element) t

/-- The Gauss-Legendre rules as lists of (coordinate, weight) (example/iga/src/itg/*_point_gauss_legendre.h:24-30). -/
def gauss1 : List (K × K) := [(0, 2)]

variable [HasSqrt K]
open HasSqrt

/-- two_point_gauss_legendre.h:27-28 -/
def gauss2 : List (K × K) := [(-sqrt (1 / 3 : K), 1), (sqrt (1 / 3 : K), 1)]

/-- three_point_gauss_legendre.h:27-30 -/
def gauss3 : List (K × K) := [(-sqrt (3 / 5 : K), 5 / 9), (0, 8 / 9), (sqrt (3 / 5 : K), 5 / 9)]

/-- four_point_gauss_legendre.h:27-31 -/
def gauss4 : List (K × K) :=
  [(-sqrt (3 / 7 + 2 / 7 * sqrt (6 / 5 : K)), (18 - sqrt (30 : K)) / 36),
   (-sqrt (3 / 7 - 2 / 7 * sqrt (6 / 5 : K)), (18 + sqrt (30 : K)) / 36),
   (sqrt (3 / 7 - 2 / 7 * sqrt (6 / 5 : K)), (18 + sqrt (30 : K)) / 36),
   (sqrt (3 / 7 + 2 / 7 * sqrt (6 / 5 : K)), (18 - sqrt (30 : K)) / 36)]

/-- five_point_gauss_legendre.h:27-32 -/
def gauss5 : List (K × K) :=
  [(-(1 / 3) * sqrt (5 + 2 * sqrt (10 / 7 : K)), (322 - 13 * sqrt (70 : K)) / 900),
   (-(1 / 3) * sqrt (5 - 2 * sqrt (10 / 7 : K)), (322 + 13 * sqrt (70 : K)) / 900),
   (0, 128 / 225),
   ((1 / 3) * sqrt (5 - 2 * sqrt (10 / 7 : K)), (322 + 13 * sqrt (70 : K)) / 900),
   ((1 / 3) * sqrt (5 + 2 * sqrt (10 / 7 : K)), (322 - 13 * sqrt (70 : K)) / 900)]

end
end Elem
end SplineLib
