import Verif.Model.Outcome

/-!
# Model of `baf::KnotVector` (src/baf/knot_vector.cc)

A knot vector is the list of its knots. `ParamCoord` is `util::NamedType<double, ...>` whose comparison operators are
the exact ones of `double` (src/util/named_type.h:42-60).
-/

namespace SplineLib

section
variable {K : Type}

/-- The search loop shared by libstdc++'s `std::lower_bound` and `std::upper_bound`:
`while (len > 0) { half = len >> 1; mid = first + half; if (goRight(*mid)) { first = mid + 1; len = len - half - 1; }
else len = half; } return first;`
The `none` branch is unreachable as long as `first + len` is at most the size of the list. -/
def bisect (goRight : K → Bool) (l : List K) (first len : Nat) : Nat :=
  if len = 0 then first else
  let half := len / 2
  match l[first + half]? with
  | none => first
  | some a => if goRight a then bisect goRight l (first + half + 1) (len - half - 1) else bisect goRight l first half
termination_by len
decreasing_by all_goals omega

variable [LinearOrder K]

/-- `std::lower_bound(v.begin(), v.end(), x) - v.begin()`. -/
def lowerBound (l : List K) (x : K) : Nat := bisect (fun a => decide (a < x)) l 0 l.length

/-- `std::upper_bound(v.begin(), v.end(), x) - v.begin()`. -/
def upperBound (l : List K) (x : K) : Nat := bisect (fun a => !decide (x < a)) l 0 l.length

/-- `GetKnot(index)` with a non-negative index (knot_vector.cc:88-94; `operator[]` at :80-86 is the same access). -/
def kvGet (U : List K) (i : Nat) : M K := getN U i

/-- `GetLastKnot()`: `back()`, undefined on an empty vector (knot_vector.cc:96-98). -/
def kvLast (U : List K) : M K :=
  match U.getLast? with
  | some a => .ok a
  | none => .error .ub

/-- `IsInKnotVectorRange` (knot_vector.cc:139-141). `front()`/`back()` of an empty vector are undefined. -/
def kvInRange (U : List K) (x : K) : M Bool := do
  let first ← getN U 0
  let last ← kvLast U
  return decide (x ≥ first) && decide (x ≤ last)

/-- `GetMultiplicity`: `std::count` with exact comparison (knot_vector.cc:107-109). -/
def kvMult (U : List K) (x : K) : Nat := U.count x

/-- `GetNumberOfDifferentKnots`: one plus the number of strict increases between neighbours (knot_vector.cc:115-121). -/
def kvNumDifferent : List K → Nat
  | a :: b :: l => (if b > a then 1 else 0) + kvNumDifferent (b :: l)
  | _ => 1

variable [Field K]

/-- `IsLastKnot`: within `kEpsilon` of the last knot (knot_vector.cc:143-145). -/
def kvIsLast (U : List K) (x : K) : M Bool := do
  let last ← kvLast U
  return areEqual x last (kEps K)

/-- `GetKnotSpan` (knot_vector.cc:100-105). -/
def kvSpan (U : List K) (x : K) : M Int := do
  if (← kvIsLast U x) then
    return (lowerBound U x : Int) - 1
  else
    return (upperBound U x : Int) - 1

/-- `KnotVector::InsertKnot` (knot_vector.cc:147-150): `insert(begin + span + 1, x)`; a position outside `[0, size]` is
undefined (it cannot occur, see `C29_insert`). -/
def kvInsert (U : List K) (x : K) : M (List K) := do
  let k ← kvSpan U x
  if 0 ≤ k + 1 ∧ k + 1 ≤ U.length then
    return U.insertIdx (k + 1).toNat x
  else .error .ub

/-- `KnotVector::RemoveKnot` (knot_vector.cc:152-159): erases the knot at the span index, or the last knot;
`erase(begin() + k)` is undefined if `k` is not a valid position. -/
def kvRemove (U : List K) (x : K) : M (List K) := do
  let k ← kvSpan U x
  if (← kvIsLast U x) then
    return U.eraseIdx (U.length - 1)
  else if 0 ≤ k ∧ k < U.length then
    return U.eraseIdx k.toNat
  else .error .ub

/-- The comparison used by `AreEqual` and (with `kEpsilon`) by `operator==`: `std::equal` on four iterators, i.e. equal
lengths and pairwise closeness (knot_vector.cc:65-78). -/
def listClose (tol : K) : List K → List K → Bool
  | [], [] => true
  | a :: l, b :: r => areEqual a b tol && listClose tol l r
  | _, _ => false

/-- `KnotVector::AreEqual(rhs, tolerance)` (knot_vector.cc:72-78). -/
def kvAreEqual (U V : List K) (tol : K) : Bool := listClose tol U V

/-- `KnotVector::operator==` (knot_vector.cc:65-70). -/
def kvEq (U V : List K) : Bool := listClose (kEps K) U V

/-- `KnotVector::operator-` (knot_vector.cc:52-56): `std::transform` over the knots of the left operand; a shorter right
operand is read past its end, which is undefined behaviour. -/
def kvSub (U V : List K) : M (List K) :=
  if U.length ≤ V.length then .ok (List.zipWith (· - ·) U V) else .error .ub

/-- The inner sum of the averaging constructor: `coords[i] + ... + coords[i + degree - 1]` (knot_vector.cc:41-43). -/
def sumFrom (coords : List K) (i : Nat) : Nat → M K
  | 0 => .ok 0
  | n + 1 => do
    let s ← sumFrom coords i n
    let a ← getN coords (i + n)
    return s + a

/-- The averaged interior knots, `i = 1 .. count` (knot_vector.cc:39-46). -/
def averagedKnots (coords : List K) (degree : Nat) : Nat → M (List K)
  | 0 => .ok []
  | n + 1 => do
    let prev ← averagedKnots coords degree n
    let s ← sumFrom coords (n + 1) degree
    let a ← fdiv s (degree : K)
    return prev ++ [a]

/-- The averaging constructor `KnotVector(coords, degree, nbControlPoints)` (knot_vector.cc:34-50). The degree is a
natural number here. -/
def kvAveraged (coords : List K) (degree : Nat) (nb : Int) : M (List K) := do
  let inner ← averagedKnots coords degree (nb - 1 - degree).toNat
  let last ← kvLast coords
  return List.replicate (degree + 1) 0 ++ inner ++ List.replicate (degree + 1) last

end
end SplineLib
