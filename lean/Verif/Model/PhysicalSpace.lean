import Verif.Model.ParameterSpace
import Verif.Model.MultiIndex

/-!
# Model of `spl::PhysicalSpace<DIM>` and `spl::WeightedPhysicalSpace<DIM>`
(src/spl/physical_space.h, src/spl/weighted_physical_space.h)

A `baf::ControlPoint` is the list of its coordinates.
-/

namespace SplineLib

/-- The C++ `sqrt`. The real instance is the real square root (`Core/Sqrt.lean`); concrete rational examples use `Rat.sqrt`, which
is exact on squares. -/
class HasSqrt (K : Type) where
  sqrt : K → K

/-- `for (int i = 0; i < n; ++i, ++handler) body`. -/
def upLoop {σ : Type} (body : MIH → σ → M σ) : ℕ → MIH → σ → M σ
  | 0, _, s => .ok s
  | n + 1, h, s => do
    let s' ← body h s
    upLoop body n h.incr s'

/-- `for (int i = n - 1; i >= 0; --i, --handler) body`. -/
def downLoop {σ : Type} (body : MIH → σ → M σ) : ℕ → MIH → σ → M σ
  | 0, _, s => .ok s
  | n + 1, h, s => do
    let s' ← body h s
    downLoop body n h.decr s'

/-- Members `dimension_`, `number_of_points_`, `control_points_` (physical_space.h:177-179) and, for a
`WeightedPhysicalSpace`, `weights_` (weighted_physical_space.h:122). -/
structure Phys (K : Type) where
  dim : ℕ
  num : List ℤ
  cps : List K
  weights : Option (List K)
  deriving DecidableEq, Repr

namespace Phys
variable {K : Type}

/-- `PhysicalSpace(control_points, number_of_points)` (physical_space.h:32-50). `control_points[0]` of an empty vector is
undefined. The product of the point numbers is computed in `uint64_t`. -/
def new (points : List (List K)) (num : List ℤ) : M (Phys K) :=
  match points with
  | [] => .error .ub
  | p0 :: _ =>
    if toSizeT (num.foldl (· * ·) 1) ≠ points.length then .error (.thrown .runtimeError)
    else if points.all (fun p => p.length = p0.length) then .ok ⟨p0.length, num, points.flatten, none⟩
    else .error (.thrown .runtimeError)

/-- `WeightedPhysicalSpace(control_points, weights, number_of_points)` (weighted_physical_space.h:27-35). -/
def newWeighted (points : List (List K)) (weights : List K) (num : List ℤ) : M (Phys K) := do
  let ph ← new points num
  if points.length ≠ weights.length then .error (.thrown .runtimeError)
  else return { ph with weights := some weights }

/-- `GetControlPoint(indices)` (physical_space.h:69-78). -/
def getCP (ph : Phys K) (ix : List ℤ) : M (List K) :=
  buildList (fun c => getI ph.cps (ph.dim * MIH.oneD ph.num ix + c)) ph.dim

/-- The loop that stores the coordinates (physical_space.h:87-89). -/
def storeLoop (cp : List K) (first : ℤ) : ℕ → List K → M (List K)
  | 0, l => .ok l
  | n + 1, l => do
    let l' ← storeLoop cp first n l
    let v ← getN cp n
    setI l' (first + n) v

/-- `SetControlPoint(indices, control_point, dimension, before)` (physical_space.h:80-91); `num'` are the numbers of points after
the callback `before` has been applied in the given direction (they are restored at the end). -/
def setCP (ph : Phys K) (ix : List ℤ) (cp : List K) (num' : List ℤ) : M (Phys K) := do
  let cps ← storeLoop cp (ph.dim * MIH.oneD num' ix) ph.dim ph.cps
  return { ph with cps := cps }

/-- `GetWeight(indices)` (physical_space.h:137-139, weighted_physical_space.h:62-67). -/
def getWeight [One K] (ph : Phys K) (ix : List ℤ) : M K :=
  match ph.weights with
  | none => .ok 1
  | some w => getI w (MIH.oneD ph.num ix)

/-- `weights_` of a `WeightedPhysicalSpace`; the `none` case cannot occur since only NURBS code calls this. -/
def theWeights (ph : Phys K) : M (List K) :=
  match ph.weights with
  | none => .error .ub
  | some w => .ok w

/-- `SetWeight(indices, weight, dimension, before)` (weighted_physical_space.h:82-90), `num'` as in `setCP`. -/
def setWeight (ph : Phys K) (ix : List ℤ) (v : K) (num' : List ℤ) : M (Phys K) := do
  let w ← ph.theWeights
  let w' ← setI w (MIH.oneD num' ix) v
  return { ph with weights := some w' }

/-- `GetHomogenousControlPoint(indices)` (weighted_physical_space.h:50-60). `int` division truncates. -/
def getHomCP [Mul K] (ph : Phys K) (ix : List ℤ) : M (List K) := do
  let w ← ph.theWeights
  let first : ℤ := ph.dim * MIH.oneD ph.num ix
  let coords ← buildList (fun c => do
    let a ← getI ph.cps (first + c)
    let b ← getI w (first.tdiv ph.dim)
    return a * b) ph.dim
  let b ← getI w (MIH.oneD ph.num ix)
  return coords ++ [b]

/-- `AddControlPoints(number)` (physical_space.h:93-99, weighted_physical_space.h:92-97). -/
def addCPs [Zero K] (ph : Phys K) (number : ℤ) : Phys K :=
  { ph with
    cps := ph.cps ++ List.replicate (number.toNat * ph.dim) 0
    weights := ph.weights.map fun w => w ++ List.replicate number.toNat 0 }

/-- `v.erase(v.end() - n, v.end())`: undefined unless `0 ≤ n ≤ size`. -/
def eraseEnd {α : Type} (v : List α) (n : ℤ) : M (List α) :=
  if 0 ≤ n ∧ n ≤ v.length then .ok (v.take (v.length - n.toNat)) else .error .ub

/-- `RemoveControlPoints(number)` (physical_space.h:101-103, weighted_physical_space.h:99-102). -/
def removeCPs (ph : Phys K) (number : ℤ) : M (Phys K) := do
  let cps ← eraseEnd ph.cps (number * ph.dim)
  match ph.weights with
  | none => return { ph with cps := cps }
  | some w =>
    let w' ← eraseEnd w number
    return { ph with cps := cps, weights := some w' }

/-- `GetNumberOfControlPoints()` (physical_space.h:105-107); division by zero is undefined. -/
def numCPs (ph : Phys K) : M ℤ :=
  if ph.dim = 0 then .error .ub else .ok ((ph.cps.length : ℤ).tdiv ph.dim)

/-- `GetMaximumPointIndexInEachDirection()` (physical_space.h:113-119). -/
def maxIndex (ph : Phys K) : List ℤ := ph.num.map (· - 1)

/-- `GetNumberOfControlPoints() / n` for an `int` `n`: the division that occurs all over the spline classes. -/
def cpsPer (ph : Phys K) (n : ℤ) : M ℤ := do
  let a ← ph.numCPs
  if n = 0 then .error .ub else return a.tdiv n

/-- `GetDividedControlPoints(first, length, dimension)` (physical_space.h:163-174). -/
def dividedCPs (ph : Phys K) (first length : ℤ) (d : ℕ) : M (List (List K)) :=
  let h := MIH.mk' (ph.num.set d length)
  upLoop (fun h acc => do
    let p ← ph.getCP (h.cur.modify d (· + first))
    return acc ++ [p]) h.length1D.toNat h []

/-- `GetDividedWeights(first, length, dimension)` (weighted_physical_space.h:108-119). -/
def dividedWeights [One K] (ph : Phys K) (first length : ℤ) (d : ℕ) : M (List K) :=
  let h := MIH.mk' (ph.num.set d length)
  upLoop (fun h acc => do
    let w ← ph.getWeight (h.cur.modify d (· + first))
    return acc ++ [w]) h.length1D.toNat h []

section
variable [Field K] [LinearOrder K]

/-- `GetExpansion()` (physical_space.h:141-147). -/
def expansion (ph : Phys K) : K := ph.cps.foldl (fun e c => if c > e then c else e) 0

/-- `GetMinimumWeight()` (weighted_physical_space.h:69-75). -/
def minWeight (ph : Phys K) : M K := do
  let w ← ph.theWeights
  let w0 ← getN w 0
  return w.foldl (fun m a => if a < m then a else m) w0

/-- `PhysicalSpace::AreEqual` and `WeightedPhysicalSpace::AreEqual` (physical_space.h:56-67, weighted_physical_space.h:41-48).
`dimension_` is not compared. The mixed case cannot occur (different C++ types). -/
def areEqualPhys (a b : Phys K) (tol : K) : Bool :=
  (match a.weights, b.weights with
    | some v, some w => listClose tol v w
    | none, none => true
    | _, _ => false) && listClose tol a.cps b.cps && PS.areEqualInts K a.num b.num

variable [HasSqrt K]

/-- `VectorUtils::ComputeTwoNorm` (vector_utils.h:28-35), also `ControlPoint::GetEuclideanNorm` (control_point.cc:75-82). -/
def twoNorm (v : List K) : K := HasSqrt.sqrt (v.foldl (fun s a => s + a * a) 0)

/-- `VectorUtils::ComputeDistance` (vector_utils.h:37-44) for vectors of equal length. -/
def distance (a b : List K) : K := twoNorm (List.zipWith (· - ·) a b)

/-- One step of the loop in `GetMaximumDistanceFromOrigin` (physical_space.h:153-159). -/
def maxDistLoop (ph : Phys K) : ℕ → M K
  | 0 => .ok 0
  | n + 1 => do
    let m ← maxDistLoop ph n
    let p ← buildList (fun j => getI ph.cps ((n : ℤ) * ph.dim + j)) ph.dim
    let dist := distance (List.replicate ph.dim 0) p
    return if dist > m then dist else m

/-- `GetMaximumDistanceFromOrigin()` (physical_space.h:149-161). -/
def maxDistance (ph : Phys K) : M K := do
  let n ← ph.numCPs
  maxDistLoop ph n.toNat

end
end Phys
end SplineLib
