import Verif.Model.PhysicalSpace

/-!
# Model of `spl::Spline<DIM>`, `spl::BSpline<DIM>` and `spl::NURBS<DIM>`: construction, evaluation, derivatives, comparison
(src/spl/spline.h, src/spl/b_spline.h, src/spl/nurbs.h)

A spline object is its parameter space and its physical space. `ph.weights = none` is a `BSpline`, `some _` is a `NURBS`; the
virtual functions dispatch on this.
-/

namespace SplineLib

/-- Members `parameter_space_` (spline.h:428) and `physical_space_` (b_spline.h:245, nurbs.h:444). -/
structure Spl (K : Type) where
  ps : PS K
  ph : Phys K
  deriving DecidableEq, Repr

namespace Spl
variable {K : Type} [LinearOrder K] [Field K]

/-- `number_of_points[i] = knot_vector[i]->GetNumberOfKnots() - degree[i].get() - 1` (b_spline.h:37-40, nurbs.h:36-39). -/
def pointNumbers : List (List K) → List ℕ → List ℤ
  | U :: Us, p :: ps => ((U.length : ℤ) - p - 1) :: pointNumbers Us ps
  | _, _ => []

/-- `BSpline(knot_vector, degree, control_points)` (b_spline.h:35-42). The base class constructor `Spline(knot_vector, degree)`
(spline.h:37-40) constructs a temporary parameter space and copies it. -/
def newBSpline (knots : List (List K)) (degree : List ℕ) (points : List (List K)) : M (Spl K) := do
  let tmp ← PS.new knots degree
  let ps ← tmp.copy
  let ph ← Phys.new points (pointNumbers knots degree)
  return ⟨ps, ph⟩

/-- `NURBS(knot_vector, degree, control_points, weights)` (nurbs.h:33-42). -/
def newNurbs (knots : List (List K)) (degree : List ℕ) (points : List (List K)) (weights : List K) : M (Spl K) := do
  let tmp ← PS.new knots degree
  let ps ← tmp.copy
  let ph ← Phys.newWeighted points weights (pointNumbers knots degree)
  return ⟨ps, ph⟩

/-- Copy constructors (spline.h:44-47, b_spline.h:48-51, nurbs.h:48-51). -/
def copy (s : Spl K) : M (Spl K) := do
  let ps ← s.ps.copy
  return ⟨ps, s.ph⟩

/-- `GetNumberOfBasisFunctionsToEvaluate()` (spline.h:279-285). -/
def numBasis (s : Spl K) : List ℤ := s.ps.degree.map fun p : ℕ => (p : ℤ) + 1

/-- `GetControlPoint(indices, dimension)` (spline.h:147-149). -/
def controlPoint (s : Spl K) (ix : List ℤ) (c : ℤ) : M K := do
  let p ← s.ph.getCP ix
  getI p c

/-- The summation `sum += f(indices)` over all basis functions that do not vanish at `x`, as in `GetEvaluatedWeightSum`
(nurbs.h:187-197) and `GetEvaluatedDerivativeWeightSum` (nurbs.h:199-210). -/
def weightSumWith (s : Spl K) (x : List K) (f : List ℤ → M K) : M K := do
  let fnz ← PS.firstNonZero s.ps.knots s.ps.degree x
  let h := MIH.mk' s.numBasis
  upLoop (fun h sum => do
    let v ← f (List.zipWith (· + ·) h.cur fnz)
    return sum + v) h.length1D.toNat h 0

/-- `GetEvaluatedWeight` (nurbs.h:212-214). -/
def evaluatedWeight (s : Spl K) (x : List K) (ix : List ℤ) : M K := do
  let b ← s.ps.getBasisFunctions ix x
  let w ← s.ph.getWeight ix
  return b * w

/-- `GetEvaluatedWeightSum` (nurbs.h:187-197). -/
def evaluatedWeightSum (s : Spl K) (x : List K) : M K := s.weightSumWith x (s.evaluatedWeight x)

/-- `GetEvaluatedDerivativeWeight` (nurbs.h:216-221). -/
def evaluatedDerivWeight (s : Spl K) (x : List K) (k : List ℤ) (ix : List ℤ) : M K := do
  let b ← s.ps.getBasisFunctionDerivatives ix x k
  let w ← s.ph.getWeight ix
  return b * w

/-- `GetEvaluatedDerivativeWeightSum` (nurbs.h:199-210). -/
def evaluatedDerivWeightSum (s : Spl K) (x : List K) (k : List ℤ) : M K := s.weightSumWith x (s.evaluatedDerivWeight x k)

/-- `GetEvaluatedControlPoint` of `BSpline` (b_spline.h:118-122) and of `NURBS` (nurbs.h:135-146; the "dimension"
`GetPointDim()` of a NURBS gives the weight function). -/
def evaluatedCP (s : Spl K) (x : List K) (ix : List ℤ) (c : ℤ) : M K :=
  match s.ph.weights with
  | none => do
    let b ← s.ps.getBasisFunctions ix x
    let v ← s.controlPoint ix c
    return b * v
  | some _ =>
    if (s.ph.dim : ℤ) = c then do
      let b ← s.ps.getBasisFunctions ix x
      let p ← s.ph.getHomCP ix
      let v ← getI p c
      return b * v
    else do
      let b ← s.ps.getBasisFunctions ix x
      let p ← s.ph.getHomCP ix
      let v ← getI p c
      let ws ← s.evaluatedWeightSum x
      fdiv (b * v) ws

/-- The inner loop `evaluated_point[j] += f(dimensions[j])` (spline.h:60-62, 79-81). -/
def addEach (f : ℤ → M K) : List ℤ → List K → M (List K)
  | c :: cs, a :: as => do
    let v ← f c
    let r ← addEach f cs as
    return (a + v) :: r
  | _, as => .ok as

/-- The common body of `Evaluate` and `EvaluateDerivative` (spline.h:51-64, 70-83). -/
def evalWith (s : Spl K) (x : List K) (dims : List ℤ) (f : List ℤ → ℤ → M K) : M (List K) := do
  PS.throwIfOutside s.ps.knots x
  let fnz ← PS.firstNonZero s.ps.knots s.ps.degree x
  let h := MIH.mk' s.numBasis
  upLoop (fun h acc => addEach (f (List.zipWith (· + ·) h.cur fnz)) dims acc) h.length1D.toNat h (dims.map fun _ => 0)

/-- `Evaluate(param_coord, dimensions)` (spline.h:49-65). -/
def evaluate (s : Spl K) (x : List K) (dims : List ℤ) : M (List K) := s.evalWith x dims (s.evaluatedCP x)

/-- `binomialCoefficient(number, subset)` (nurbs.h:231-235) for non-negative arguments; the recursion does not terminate for
`subset > number`. -/
def binomialCoefficient : ℕ → ℕ → M ℕ
  | _, 0 => .ok 1
  | 0, _ + 1 => .error .diverges
  | n + 1, m + 1 =>
    if m + 1 = n + 1 then .ok 1
    else do
      let a ← binomialCoefficient n m
      let b ← binomialCoefficient n (m + 1)
      return a + b

/-- `binomialCoefficient(numbers, subsets)` (nurbs.h:237-243). -/
def binomialCoefficients : List ℤ → List ℤ → M ℕ
  | n :: ns, m :: ms => do
    let a ← binomialCoefficient n.toNat m.toNat
    let b ← binomialCoefficients ns ms
    return a * b
  | _, _ => .ok 1

/-- `GetRationalBasisFunctionDerivative` and `GetDerivativesSum` (nurbs.h:156-185). The recursion of the C++ code strictly decreases
the total order of the derivative; `fuel` bounds the recursion depth (the caller supplies the total order, see
`Spl.evaluatedDerivCP`). -/
def rationalDeriv (s : Spl K) (x : List K) (ix : List ℤ) : ℕ → List ℤ → M K
  | fuel, k =>
    if k.all (fun a => a = 0) then do
      let b ← s.ps.getBasisFunctions ix x
      let w ← s.ph.getWeight ix
      let ws ← s.evaluatedWeightSum x
      fdiv (b * w) ws
    else
      match fuel with
      | 0 => .error .diverges
      | fuel + 1 => do
        let dw ← s.evaluatedDerivWeight x k ix
        let h := (MIH.mk' (k.map (· + 1))).incr
        let sum ← upLoop (fun h sum => do
          let c ← binomialCoefficients k h.cur
          let r ← rationalDeriv s x ix fuel h.differenceIndices
          let ws ← s.evaluatedDerivWeightSum x h.cur
          return sum + (c : K) * r * ws) (h.length1D - 1).toNat h 0
        let ws ← s.evaluatedWeightSum x
        fdiv (dw - sum) ws

/-- `GetEvaluatedDerivativeControlPoint` of `BSpline` (b_spline.h:124-130) and `NURBS` (nurbs.h:148-154). -/
def evaluatedDerivCP (s : Spl K) (x : List K) (k : List ℤ) (ix : List ℤ) (c : ℤ) : M K :=
  match s.ph.weights with
  | none => do
    let b ← s.ps.getBasisFunctionDerivatives ix x k
    let v ← s.controlPoint ix c
    return b * v
  | some _ => do
    let r ← s.rationalDeriv x ix (k.foldl (· + ·) 0).toNat k
    let v ← s.controlPoint ix c
    return r * v

/-- `EvaluateDerivative(param_coord, dimensions, derivative)` (spline.h:67-84). -/
def evaluateDerivative (s : Spl K) (x : List K) (dims : List ℤ) (k : List ℤ) : M (List K) :=
  s.evalWith x dims (s.evaluatedDerivCP x k)

/-- `BSpline::AreEqual` / `NURBS::AreEqual` (b_spline.h:55-58, nurbs.h:61-64). -/
def areEqualSpl (a b : Spl K) (tol : K) : Bool := a.ps.areEqualPS b.ps tol && a.ph.areEqualPhys b.ph tol

/-- The parametric coordinate of a sampling point (spline.h:109-113). -/
def samplePoint (number : ℕ) : List (List K) → List ℤ → M (List K)
  | U :: Us, i :: is => do
    let b ← kvLast U
    let a ← kvGet U 0
    let r ← samplePoint number Us is
    return ((b - a) / (number : K) * (i : K)) :: r
  | _, _ => .ok []

variable [HasSqrt K]

/-- The loop of `AreGeometricallyEqual` (spline.h:108-119) from the current handler on. -/
def geomLoop (a b : Spl K) (tol : K) (number : ℕ) (dims : List ℤ) : ℕ → MIH → M Bool
  | 0, _ => .ok true
  | n + 1, h => do
    let x ← samplePoint number a.ps.knots h.cur
    let va ← a.evaluate x dims
    let vb ← b.evaluate x dims
    if Phys.distance va vb > tol then return false
    else geomLoop a b tol number dims n h.incr

/-- `ceil(pow(100, 1.0 / DIM))` (spline.h:98): the least `n` with `100 ≤ n^DIM`. (Floating point `pow` is idealised; with
IEEE doubles `pow(100, 1.0/DIM)` is exactly 100 and 10 for `DIM` = 1, 2.) -/
def sampleNumber (dim : ℕ) : ℕ := ((List.range 101).find? fun n => 100 ≤ n ^ dim).getD 100

/-- `AreGeometricallyEqual(rhs, tolerance)` (spline.h:96-121). -/
def areGeometricallyEqual (a b : Spl K) (tol : K) : M Bool :=
  let number := sampleNumber a.ps.knots.length
  let h := MIH.mk' (a.ps.knots.map fun _ => (number : ℤ) + 1)
  geomLoop a b tol number ((List.range a.ph.dim).map Int.ofNat) h.length1D.toNat h

end Spl
end SplineLib
