import Verif.Model.Basis

/-!
# Model of `spl::ParameterSpace<DIM>` (src/spl/parameter_space.h)

Arrays over the directions are lists; all arrays of one spline have length `DIM`. Directions are natural numbers, a
direction `≥ DIM` is an out-of-bounds array access.
-/

namespace SplineLib

/-- `[f 0, ..., f (n-1)]`, i.e. a loop `for (i = 0; i < n; ++i) v.push_back(f(i));`. -/
def buildList {α : Type} (f : ℕ → M α) : ℕ → M (List α)
  | 0 => .ok []
  | n + 1 => do
    let l ← buildList f n
    let a ← f n
    return l ++ [a]

/-- Members `knot_vector_`, `degree_` and the cached basis function objects `basis_functions_` (parameter_space.h:246-248).
The knot vectors are held by value here; sharing is modelled in `Model/Heap.lean`. -/
structure PS (K : Type) where
  knots : List (List K)
  degree : List ℕ
  basis : List (List (Basis K))
  deriving DecidableEq, Repr

namespace PS
variable {K : Type} [LinearOrder K]

/-- The tests of `ThrowIfKnotVectorDoesNotStartAndEndWith` for one direction (parameter_space.h:212-225): at least `2p+2`
knots, knots `1..p` equal the first one, knots `n-2, ..., n-p-1` equal the last one. -/
def clamped (U : List K) (p : ℕ) : Bool :=
  decide (2 * p + 2 ≤ U.length) && (List.range p).all (fun j => decide (U[j + 1]? = U[0]?)) &&
    (List.range p).all (fun j => decide (U[U.length - 2 - j]? = U[U.length - 1]?))

/-- `ThrowIfKnotVectorDoesNotStartAndEndWith` (parameter_space.h:210-227). All three failures throw `std::runtime_error`. -/
def checkKnots : List (List K) → List ℕ → M Unit
  | U :: Us, p :: ps => if clamped U p then checkKnots Us ps else .error (.thrown .runtimeError)
  | _, _ => .ok ()

variable [Field K]

/-- The basis functions of one direction (parameter_space.h:41-44, 56-59, 235-242). `reserve(n - p - 1)` is computed in
`size_t`; when it would be negative `reserve` throws `std::length_error`. -/
def basisRow (U : List K) (p : ℕ) : M (List (Basis K)) :=
  if U.length < p + 1 then .error (.thrown .lengthError)
  else buildList (fun j => Basis.create U j p) (U.length - p - 1)

/-- The basis functions of all directions (parameter_space.h:40-45, 55-60, 229-244). -/
def basisTable : List (List K) → List ℕ → M (List (List (Basis K)))
  | U :: Us, p :: ps => do
    let row ← basisRow U p
    let rows ← basisTable Us ps
    return row :: rows
  | _, _ => .ok []

/-- The constructor (parameter_space.h:36-46). -/
def new (knots : List (List K)) (degree : List ℕ) : M (PS K) := do
  checkKnots knots degree
  let b ← basisTable knots degree
  return ⟨knots, degree, b⟩

/-- The copy constructor (parameter_space.h:48-61): does not check the knot vectors again. -/
def copy (ps : PS K) : M (PS K) := do
  let b ← basisTable ps.knots ps.degree
  return ⟨ps.knots, ps.degree, b⟩

/-- `RecreateBasisFunctions` (parameter_space.h:229-244). -/
def recreate (ps : PS K) : M (PS K) := do
  let b ← basisTable ps.knots ps.degree
  return { ps with basis := b }

/-- `ThrowIfParametricCoordinateOutsideKnotVectorRange` (parameter_space.h:138-147). -/
def throwIfOutside : List (List K) → List K → M Unit
  | U :: Us, x :: xs => do
    if ← kvInRange U x then throwIfOutside Us xs else .error (.thrown .rangeError)
  | _, _ => .ok ()

/-- `GetArrayOfFirstNonZeroBasisFunctions` (parameter_space.h:130-136). -/
def firstNonZero : List (List K) → List ℕ → List K → M (List ℤ)
  | U :: Us, p :: ps, x :: xs => do
    let k ← kvSpan U x
    let r ← firstNonZero Us ps xs
    return (k - p) :: r
  | _, _, _ => .ok []

/-- The loop of `GetBasisFunctions` (parameter_space.h:113-117); `value` is the accumulated product. -/
def basisProd : List (List (Basis K)) → List ℤ → List K → K → M K
  | row :: rows, i :: is, x :: xs, value => do
    let b ← getI row i
    basisProd rows is xs (value * b.eval x)
  | _, _, _, value => .ok value

/-- `GetBasisFunctions(indices, param_coord)` (parameter_space.h:112-118). -/
def getBasisFunctions (ps : PS K) (ix : List ℤ) (x : List K) : M K := basisProd ps.basis ix x 1

/-- The loop of `GetBasisFunctionDerivatives` (parameter_space.h:123-127). -/
def basisDerivProd : List (List (Basis K)) → List ℤ → List K → List ℤ → K → M K
  | row :: rows, i :: is, x :: xs, k :: ks, value => do
    let b ← getI row i
    basisDerivProd rows is xs ks (value * b.evalDeriv x k)
  | _, _, _, _, value => .ok value

/-- `GetBasisFunctionDerivatives(indices, param_coord, derivative)` (parameter_space.h:120-128). -/
def getBasisFunctionDerivatives (ps : PS K) (ix : List ℤ) (x : List K) (k : List ℤ) : M K :=
  basisDerivProd ps.basis ix x k 1

/-- `EvaluateAllNonZeroBasisFunctions(direction, param_coord)` (parameter_space.h:65-73, 98-102). Reading through the
iterator outside the vector is undefined. -/
def evalAllNonZero (ps : PS K) (d : ℕ) (x : K) : M (List K) := do
  let row ← getN ps.basis d
  let U ← getN ps.knots d
  let p ← getN ps.degree d
  let k ← kvSpan U x
  buildList (fun i => do let b ← getI row (k - p + i); return b.eval x) (p + 1)

/-- `EvaluateAllNonZeroBasisFunctionDerivatives(direction, param_coord, derivative)` (parameter_space.h:75-85). -/
def evalAllNonZeroDerivs (ps : PS K) (d : ℕ) (x : K) (order : ℤ) : M (List K) := do
  let row ← getN ps.basis d
  let U ← getN ps.knots d
  let p ← getN ps.degree d
  let k ← kvSpan U x
  buildList (fun i => do let b ← getI row (k - p + i); return b.evalDeriv x order) (p + 1)

/-- `GetKnotVectorRange(direction)` (parameter_space.h:149-151). -/
def knotVectorRange (ps : PS K) (d : ℕ) : M K := do
  let U ← getN ps.knots d
  let a ← kvGet U 0
  let b ← kvLast U
  return b - a

/-- `InsertKnot(knot, dimension)` (parameter_space.h:153-156). -/
def insertKnot (ps : PS K) (x : K) (d : ℕ) : M (PS K) := do
  let U ← getN ps.knots d
  let V ← kvInsert U x
  recreate { ps with knots := ps.knots.set d V }

/-- `RemoveKnot(knot, dimension)` (parameter_space.h:158-161). -/
def removeKnot (ps : PS K) (x : K) (d : ℕ) : M (PS K) := do
  let U ← getN ps.knots d
  let V ← kvRemove U x
  recreate { ps with knots := ps.knots.set d V }

/-- `ElevateDegree(dimension)` (parameter_space.h:163-166). -/
def elevateDegree (ps : PS K) (d : ℕ) : M (PS K) := do
  let p ← getN ps.degree d
  recreate { ps with degree := ps.degree.set d (p + 1) }

/-- `ReduceDegree(dimension)` (parameter_space.h:168-171). For degree 0 the degree becomes `-1` and `CreateDynamic` throws
`std::runtime_error` (basis_function_factory.cc:22-25). -/
def reduceDegree (ps : PS K) (d : ℕ) : M (PS K) := do
  let p ← getN ps.degree d
  if p = 0 then .error (.thrown .runtimeError)
  else recreate { ps with degree := ps.degree.set d (p - 1) }

/-- `std::unique_copy` with the exact `==` of `ParamCoord`. -/
def uniqueCopy : List K → List K
  | a :: b :: l => if a = b then uniqueCopy (b :: l) else a :: uniqueCopy (b :: l)
  | l => l

/-- The unique knots as computed in parameter_space.h:174-176, 183-185: writing more than
`GetNumberOfDifferentKnots()` elements would be out of bounds. -/
def uniqueKnots (U : List K) : M (List K) :=
  if (uniqueCopy U).length ≤ kvNumDifferent U then .ok (uniqueCopy U) else .error .ub

/-- A loop over a list with an effect on the state. -/
def forEach {σ : Type} (f : σ → K → M σ) : List K → σ → M σ
  | [], s => .ok s
  | x :: xs, s => do
    let s' ← f s x
    forEach f xs s'

/-- `IncrementMultiplicityOfAllKnots(dim)` (parameter_space.h:173-180). -/
def incrementMultiplicities (ps : PS K) (d : ℕ) : M (PS K) := do
  let U ← getN ps.knots d
  let us ← uniqueKnots U
  forEach (fun ps x => insertKnot ps x d) us ps

/-- `DecrementMultiplicityOfAllKnots(dim)` (parameter_space.h:182-189). -/
def decrementMultiplicities (ps : PS K) (d : ℕ) : M (PS K) := do
  let U ← getN ps.knots d
  let us ← uniqueKnots U
  forEach (fun ps x => removeKnot ps x d) us ps

/-- `GetDividedKnotVectors(param_coord, dimension)` (parameter_space.h:191-207): the knots `[0, k]` and `[k - p, n)` where `k`
is the knot span; all other directions keep their knot vectors. -/
def dividedKnotVectors (ps : PS K) (x : K) (d : ℕ) : M (List (List K) × List (List K)) := do
  let U ← getN ps.knots d
  let p ← getN ps.degree d
  let k ← kvSpan U x
  let left ← buildList (fun j => getI U j) (k + 1).toNat
  let right ← buildList (fun j => getI U (k - p + j)) ((U.length : ℤ) - (k - p)).toNat
  return (ps.knots.set d left, ps.knots.set d right)

/-- `ParameterSpace::AreEqual` (parameter_space.h:87-96). Degrees are compared as doubles with tolerance `kEpsilon < 1`, which
is equality of the integers. The loops over the directions compare element-wise. -/
def areEqualKnots (tol : K) : List (List K) → List (List K) → Bool
  | [], [] => true
  | U :: Us, V :: Vs => kvAreEqual U V tol && areEqualKnots tol Us Vs
  | _, _ => false

/-- Same loop for integer arrays, converted to double (parameter_space.h:88-91, physical_space.h:62-66). -/
def areEqualInts (K : Type) [LinearOrder K] [Field K] : List ℤ → List ℤ → Bool
  | [], [] => true
  | a :: as, b :: bs => areEqual (a : K) (b : K) (kEps K) && areEqualInts K as bs
  | _, _ => false

/-- `ParameterSpace::AreEqual(rhs, tolerance)` (parameter_space.h:87-96). -/
def areEqualPS (a b : PS K) (tol : K) : Bool :=
  areEqualInts K (a.degree.map Int.ofNat) (b.degree.map Int.ofNat) && areEqualKnots tol a.knots b.knots

end PS
end SplineLib
