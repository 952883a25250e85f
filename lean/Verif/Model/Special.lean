import Verif.Model.Spline

/-!
# Evaluation and comparison with NaN and infinite values

The rest of the model replaces `double` by an ordered field. Here the values NaN and ±∞ are added to the field, with the rules of
IEEE 754 for `+`, `-`, `*`, `/`, `fabs`, `sqrt` and the comparisons. Control points, weights and parametric coordinates may be NaN or
infinite; knots are finite. Rounding, overflow and the sign of zero are not modelled here (a division by zero is the outcome
`Err.nonfinite`, as in the rest of the model).
-/

namespace SplineLib
set_option linter.unusedSectionVars false

/-- A `double`: a number, an infinity or NaN. -/
inductive X (K : Type)
  | fin (a : K)
  | pinf
  | ninf
  | nan
  deriving DecidableEq, Repr

namespace X
variable {K : Type} [Field K] [LinearOrder K]

instance : Zero (X K) := ⟨fin 0⟩
instance : One (X K) := ⟨fin 1⟩

/-- IEEE negation. -/
def neg : X K → X K
  | fin a => fin (-a)
  | pinf => ninf
  | ninf => pinf
  | nan => nan

/-- IEEE addition: `∞ + (-∞)` is NaN. -/
def add : X K → X K → X K
  | fin a, fin b => fin (a + b)
  | nan, _ => nan
  | _, nan => nan
  | pinf, ninf => nan
  | ninf, pinf => nan
  | pinf, _ => pinf
  | _, pinf => pinf
  | ninf, _ => ninf
  | _, ninf => ninf

/-- An infinity times a number: NaN for zero. -/
def scale (a : K) (pos : Bool) : X K := if a = 0 then nan else if (0 < a) = pos then pinf else ninf

/-- IEEE multiplication: `0 * ∞` is NaN. -/
def mul : X K → X K → X K
  | fin a, fin b => fin (a * b)
  | nan, _ => nan
  | _, nan => nan
  | fin a, pinf => scale a true
  | fin a, ninf => scale a false
  | pinf, fin a => scale a true
  | ninf, fin a => scale a false
  | pinf, pinf => pinf
  | ninf, ninf => pinf
  | pinf, ninf => ninf
  | ninf, pinf => ninf

/-- IEEE division; dividing by zero is the outcome `nonfinite` (its result depends on the sign of the zero). -/
def div : X K → X K → M (X K)
  | a, fin b => if b = 0 then .error .nonfinite else .ok (mul a (fin (1 / b)))
  | nan, _ => .ok nan
  | _, nan => .ok nan
  | fin _, _ => .ok (fin 0)
  | _, _ => .ok nan

instance : Add (X K) := ⟨add⟩
instance : Mul (X K) := ⟨mul⟩
instance : Neg (X K) := ⟨neg⟩
instance : Sub (X K) := ⟨fun a b => add a (neg b)⟩

/-- `fabs`. -/
def abs : X K → X K
  | fin a => fin |a|
  | pinf => pinf
  | ninf => pinf
  | nan => nan

/-- `a < b`: false if one of them is NaN. -/
def lt : X K → X K → Bool
  | fin a, fin b => decide (a < b)
  | fin _, pinf => true
  | ninf, fin _ => true
  | ninf, pinf => true
  | _, _ => false

/-- `a <= b`: false if one of them is NaN. -/
def le : X K → X K → Bool
  | fin a, fin b => decide (a ≤ b)
  | fin _, pinf => true
  | ninf, fin _ => true
  | ninf, pinf => true
  | pinf, pinf => true
  | ninf, ninf => true
  | _, _ => false

/-- `sqrt`: NaN for negative numbers. -/
def sqrt [HasSqrt K] : X K → X K
  | fin a => if a < 0 then nan else fin (HasSqrt.sqrt a)
  | pinf => pinf
  | _ => nan

/-- Neither NaN nor infinite. -/
def IsFin : X K → Prop
  | fin _ => True
  | _ => False

end X

namespace Sp
open X
variable {K : Type} [LinearOrder K] [Field K]

/-- A spline with finite knots whose control points and weights may be NaN or infinite. -/
structure S (K : Type) where
  ps : PS K
  ph : Phys (X K)
  deriving DecidableEq, Repr

/-- `IsInKnotVectorRange` (knot_vector.cc:139-141). -/
def inRange (U : List K) (x : X K) : M Bool := do
  let first ← getN U 0
  let last ← kvLast U
  return le (fin first) x && le x (fin last)

/-- `ThrowIfParametricCoordinateOutsideKnotVectorRange` (parameter_space.h:138-147). -/
def throwIfOutside : List (List K) → List (X K) → M Unit
  | U :: Us, x :: xs => do
    if ← inRange U x then throwIfOutside Us xs else .error (.thrown .rangeError)
  | _, _ => .ok ()

/-- The numbers behind the coordinates. It is applied only after `throwIfOutside` has rejected NaN and the infinities, so the last
case is not reached (`C102_parameters`); the code goes on with the same `double`s. -/
def numbers : List (X K) → M (List K)
  | [] => .ok []
  | fin a :: l => do
    let r ← numbers l
    return a :: r
  | _ :: _ => .error .ub

/-- `GetControlPoint(indices, dimension)` (spline.h:147-149). -/
def controlPoint (s : S K) (ix : List ℤ) (c : ℤ) : M (X K) := do
  let p ← s.ph.getCP ix
  getI p c

/-- `GetNumberOfBasisFunctionsToEvaluate()` (spline.h:279-285). -/
def numBasis (s : S K) : List ℤ := s.ps.degree.map fun p : ℕ => (p : ℤ) + 1

/-- `GetEvaluatedWeightSum` and `GetEvaluatedWeight` (nurbs.h:187-197, 212-214). -/
def evaluatedWeightSum (s : S K) (x : List K) : M (X K) := do
  let fnz ← PS.firstNonZero s.ps.knots s.ps.degree x
  let h := MIH.mk' (numBasis s)
  upLoop (fun h sum => do
    let b ← s.ps.getBasisFunctions (List.zipWith (· + ·) h.cur fnz) x
    let w ← s.ph.getWeight (List.zipWith (· + ·) h.cur fnz)
    return sum + fin b * w) h.length1D.toNat h (fin 0)

/-- `GetEvaluatedControlPoint` of `BSpline` (b_spline.h:118-122) and of `NURBS` (nurbs.h:135-146). The products of basis function
values are finite. -/
def evaluatedCP (s : S K) (x : List K) (ix : List ℤ) (c : ℤ) : M (X K) :=
  match s.ph.weights with
  | none => do
    let b ← s.ps.getBasisFunctions ix x
    let v ← controlPoint s ix c
    return fin b * v
  | some _ =>
    if (s.ph.dim : ℤ) = c then do
      let b ← s.ps.getBasisFunctions ix x
      let p ← s.ph.getHomCP ix
      let v ← getI p c
      return fin b * v
    else do
      let b ← s.ps.getBasisFunctions ix x
      let p ← s.ph.getHomCP ix
      let v ← getI p c
      let ws ← evaluatedWeightSum s x
      div (fin b * v) ws

/-- `GetEvaluatedDerivativeControlPoint` of `BSpline` (b_spline.h:124-130). -/
def evaluatedDerivCP (s : S K) (x : List K) (k : List ℤ) (ix : List ℤ) (c : ℤ) : M (X K) := do
  let b ← s.ps.getBasisFunctionDerivatives ix x k
  let v ← controlPoint s ix c
  return fin b * v

/-- The inner loop `evaluated_point[j] += f(dimensions[j])` (spline.h:60-62, 79-81). -/
def addEach (f : ℤ → M (X K)) : List ℤ → List (X K) → M (List (X K))
  | c :: cs, a :: as => do
    let v ← f c
    let r ← addEach f cs as
    return (a + v) :: r
  | _, as => .ok as

/-- The common body of `Evaluate` and `EvaluateDerivative` (spline.h:51-64, 70-83). -/
def evalWith (s : S K) (x : List (X K)) (dims : List ℤ) (f : List K → List ℤ → ℤ → M (X K)) : M (List (X K)) := do
  throwIfOutside s.ps.knots x
  let y ← numbers x
  let fnz ← PS.firstNonZero s.ps.knots s.ps.degree y
  let h := MIH.mk' (numBasis s)
  upLoop (fun h acc => addEach (f y (List.zipWith (· + ·) h.cur fnz)) dims acc) h.length1D.toNat h (dims.map fun _ => fin 0)

/-- `Evaluate(param_coord, dimensions)` (spline.h:49-65). -/
def evaluate (s : S K) (x : List (X K)) (dims : List ℤ) : M (List (X K)) := evalWith s x dims (evaluatedCP s)

/-- `EvaluateDerivative(param_coord, dimensions, derivative)` (spline.h:67-84) of a `BSpline`. -/
def evaluateDerivative (s : S K) (x : List (X K)) (dims : List ℤ) (k : List ℤ) : M (List (X K)) :=
  evalWith s x dims (fun y => evaluatedDerivCP s y k)

/-- `NumericSettings::AreEqual` (numeric_settings.h:31-33). -/
def areEqual (a b : X K) (tol : K) : Bool := lt (X.abs (a - b)) (fin tol)

/-- `std::equal` with `AreEqual` (physical_space.h:57-61, weighted_physical_space.h:43-47). -/
def listClose (tol : K) : List (X K) → List (X K) → Bool
  | [], [] => true
  | a :: l, b :: r => areEqual a b tol && listClose tol l r
  | _, _ => false

/-- `PhysicalSpace::AreEqual` and `WeightedPhysicalSpace::AreEqual` (physical_space.h:56-67, weighted_physical_space.h:41-48). -/
def areEqualPhys (a b : Phys (X K)) (tol : K) : Bool :=
  (match a.weights, b.weights with
    | some v, some w => listClose tol v w
    | none, none => true
    | _, _ => false) && listClose tol a.cps b.cps && PS.areEqualInts K a.num b.num

/-- `BSpline::AreEqual` / `NURBS::AreEqual` (b_spline.h:55-58, nurbs.h:61-64). -/
def areEqualSpl (a b : S K) (tol : K) : Bool := a.ps.areEqualPS b.ps tol && areEqualPhys a.ph b.ph tol

variable [HasSqrt K]

/-- `VectorUtils::ComputeDistance` and `ComputeTwoNorm` (vector_utils.h:28-44). -/
def distance (a b : List (X K)) : X K := X.sqrt ((List.zipWith (· - ·) a b).foldl (fun s v => s + v * v) (fin 0))

/-- The loop of `AreGeometricallyEqual` (spline.h:108-119) from the current handler on. -/
def geomLoop (a b : S K) (tol : K) (number : ℕ) (dims : List ℤ) : ℕ → MIH → M Bool
  | 0, _ => .ok true
  | n + 1, h => do
    let x ← Spl.samplePoint number a.ps.knots h.cur
    let va ← evaluate a (x.map fin) dims
    let vb ← evaluate b (x.map fin) dims
    if lt (fin tol) (distance va vb) then return false
    else geomLoop a b tol number dims n h.incr

/-- `AreGeometricallyEqual(rhs, tolerance)` (spline.h:96-121). -/
def areGeometricallyEqual (a b : S K) (tol : K) : M Bool :=
  let number := Spl.sampleNumber a.ps.knots.length
  let h := MIH.mk' (a.ps.knots.map fun _ => (number : ℤ) + 1)
  geomLoop a b tol number ((List.range a.ph.dim).map Int.ofNat) h.length1D.toNat h

end Sp
end SplineLib
