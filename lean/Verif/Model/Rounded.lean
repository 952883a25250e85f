import Verif.Model.Spline
import Mathlib.Algebra.Order.Ring.Abs

/-!
# Construction and evaluation with rounded arithmetic

The other models compute exactly. Here every floating point operation of the constructors, of `Evaluate` and of
`EvaluateDerivative` is followed by a rounding, in the order of the C++ code. Comparisons, `std::abs` and conversions of small integers
are exact. What is not modelled: overflow, underflow, fused or extended precision operations.
-/

namespace SplineLib
set_option linter.unusedSectionVars false

/-- A rounding function with relative error at most `u` (for `double`: `u = 2^-53`). -/
structure Rounding (K : Type) [Field K] [LinearOrder K] where
  rnd : K → K
  u : K
  u_nonneg : 0 ≤ u
  u_lt : u < 1
  mono : ∀ x y, x ≤ y → rnd x ≤ rnd y
  neg : ∀ x, rnd (-x) = -rnd x
  err : ∀ x, |rnd x - x| ≤ u * |x|
  eps : rnd (kEps K) = kEps K

namespace Fl
variable {K : Type} [LinearOrder K] [Field K] (r : Rounding K)

/-- `IsLastKnot` (knot_vector.cc:143-145) with `AreEqual` (numeric_settings.h:31-33). -/
def isLast (U : List K) (x : K) : M Bool := do
  let last ← kvLast U
  return decide (|r.rnd (x - last)| < kEps K)

/-- `GetKnotSpan` (knot_vector.cc:100-105). -/
def span (U : List K) (x : K) : M ℤ := do
  if (← isLast r U x) then
    return (lowerBound U x : ℤ) - 1
  else
    return (upperBound U x : ℤ) - 1

/-- `InverseWithPossiblyZeroDenominator` (b_spline_basis_function.cc:62-64). -/
def invOrZero (d : K) : K := if |d| < kEps K then 0 else r.rnd (1 / d)

/-- The constructors of the basis functions (basis_function_factory.cc:22-34, basis_function.cc:26-33,
b_spline_basis_function.cc:20-31,45-52). -/
def create (U : List K) (i : ℕ) : ℕ → M (Basis K)
  | 0 => do
    let s ← kvGet U i
    let e ← kvGet U (i + 1)
    let b ← isLast r U e
    return .zero s e b
  | p + 1 => do
    let s ← kvGet U i
    let e ← kvGet U (i + (p + 1) + 1)
    let b ← isLast r U e
    let lk ← kvGet U (i + (p + 1))
    let rk ← kvGet U (i + 1)
    let l ← create U i p
    let rt ← create U (i + 1) p
    return .node (p + 1) s e b (invOrZero r (r.rnd (lk - s))) (invOrZero r (r.rnd (e - rk))) l rt

/-- `Evaluate` of a basis function (basis_function.cc:17-19, zero_degree_b_spline_basis_function.cc:20-22,
b_spline_basis_function.cc:33-36,54-60). -/
def eval : Basis K → K → K
  | b@(.zero _ _ _), x => if b.inSupport x then 1 else 0
  | b@(.node _ s e _ li ri l rt), x =>
    if b.inSupport x then
      r.rnd (r.rnd (r.rnd (r.rnd (x - s) * li) * eval l x) + r.rnd (r.rnd (r.rnd (e - x) * ri) * eval rt x))
    else 0

/-- `EvaluateDerivative` of a basis function (basis_function.cc:21-24, zero_degree_b_spline_basis_function.cc:24-27,
b_spline_basis_function.cc:38-43). -/
def evalDeriv : Basis K → K → ℤ → K
  | b@(.zero _ _ _), x, k => if k = 0 then eval r b x else 0
  | b@(.node p _ _ _ li ri l rt), x, k =>
    if k = 0 then eval r b x
    else if b.inSupport x then
      r.rnd ((p : K) * r.rnd (r.rnd (li * evalDeriv l x (k - 1)) - r.rnd (ri * evalDeriv rt x (k - 1))))
    else 0

/-- The basis functions of one direction (parameter_space.h:41-44, 56-59, 235-242). -/
def basisRow (U : List K) (p : ℕ) : M (List (Basis K)) :=
  if U.length < p + 1 then .error (.thrown .lengthError)
  else buildList (fun j => create r U j p) (U.length - p - 1)

/-- The basis functions of all directions (parameter_space.h:40-45, 55-60, 229-244). -/
def basisTable : List (List K) → List ℕ → M (List (List (Basis K)))
  | U :: Us, p :: ps => do
    let row ← basisRow r U p
    let rows ← basisTable Us ps
    return row :: rows
  | _, _ => .ok []

/-- `ParameterSpace(knot_vector, degree)` (parameter_space.h:36-46). -/
def newPS (knots : List (List K)) (degree : List ℕ) : M (PS K) := do
  PS.checkKnots knots degree
  let b ← basisTable r knots degree
  return ⟨knots, degree, b⟩

/-- The copy constructor (parameter_space.h:48-61). -/
def copyPS (ps : PS K) : M (PS K) := do
  let b ← basisTable r ps.knots ps.degree
  return ⟨ps.knots, ps.degree, b⟩

/-- `BSpline(knot_vector, degree, control_points)` (b_spline.h:35-42, spline.h:37-40). -/
def newBSpline (knots : List (List K)) (degree : List ℕ) (points : List (List K)) : M (Spl K) := do
  let tmp ← newPS r knots degree
  let ps ← copyPS r tmp
  let ph ← Phys.new points (Spl.pointNumbers knots degree)
  return ⟨ps, ph⟩

/-- `NURBS(knot_vector, degree, control_points, weights)` (nurbs.h:33-42). -/
def newNurbs (knots : List (List K)) (degree : List ℕ) (points : List (List K)) (weights : List K) : M (Spl K) := do
  let tmp ← newPS r knots degree
  let ps ← copyPS r tmp
  let ph ← Phys.newWeighted points weights (Spl.pointNumbers knots degree)
  return ⟨ps, ph⟩

/-- `GetArrayOfFirstNonZeroBasisFunctions` (parameter_space.h:130-136). -/
def firstNonZero : List (List K) → List ℕ → List K → M (List ℤ)
  | U :: Us, p :: ps, x :: xs => do
    let k ← span r U x
    let rest ← firstNonZero Us ps xs
    return (k - p) :: rest
  | _, _, _ => .ok []

/-- The loop of `GetBasisFunctions` (parameter_space.h:113-117). -/
def basisProd : List (List (Basis K)) → List ℤ → List K → K → M K
  | row :: rows, i :: is, x :: xs, value => do
    let b ← getI row i
    basisProd rows is xs (r.rnd (value * eval r b x))
  | _, _, _, value => .ok value

/-- The loop of `GetBasisFunctionDerivatives` (parameter_space.h:123-127). -/
def basisDerivProd : List (List (Basis K)) → List ℤ → List K → List ℤ → K → M K
  | row :: rows, i :: is, x :: xs, k :: ks, value => do
    let b ← getI row i
    basisDerivProd rows is xs ks (r.rnd (value * evalDeriv r b x k))
  | _, _, _, _, value => .ok value

/-- `EvaluateAllNonZeroBasisFunctions(direction, param_coord)` (parameter_space.h:65-73, 98-102). -/
def evalAllNonZero (ps : PS K) (d : ℕ) (x : K) : M (List K) := do
  let row ← getN ps.basis d
  let U ← getN ps.knots d
  let p ← getN ps.degree d
  let k ← span r U x
  buildList (fun i => do let b ← getI row (k - p + i); return eval r b x) (p + 1)

/-- `GetHomogenousControlPoint(indices)` (weighted_physical_space.h:50-60). -/
def homCP (ph : Phys K) (ix : List ℤ) : M (List K) := do
  let w ← ph.theWeights
  let first : ℤ := ph.dim * MIH.oneD ph.num ix
  let coords ← buildList (fun c => do
    let a ← getI ph.cps (first + c)
    let b ← getI w (first.tdiv ph.dim)
    return r.rnd (a * b)) ph.dim
  let b ← getI w (MIH.oneD ph.num ix)
  return coords ++ [b]

/-- `GetEvaluatedWeight` (nurbs.h:212-214). -/
def evaluatedWeight (s : Spl K) (x : List K) (ix : List ℤ) : M K := do
  let b ← basisProd r s.ps.basis ix x 1
  let w ← s.ph.getWeight ix
  return r.rnd (b * w)

/-- `GetEvaluatedWeightSum` (nurbs.h:187-197). -/
def evaluatedWeightSum (s : Spl K) (x : List K) : M K := do
  let fnz ← firstNonZero r s.ps.knots s.ps.degree x
  let h := MIH.mk' s.numBasis
  upLoop (fun h sum => do
    let v ← evaluatedWeight r s x (List.zipWith (· + ·) h.cur fnz)
    return r.rnd (sum + v)) h.length1D.toNat h 0

/-- A rounded division; `nonfinite` if the denominator is zero. -/
def div (a b : K) : M K := do
  let q ← fdiv a b
  return r.rnd q

/-- `GetEvaluatedControlPoint` of `BSpline` (b_spline.h:118-122) and of `NURBS` (nurbs.h:135-146). -/
def evaluatedCP (s : Spl K) (x : List K) (ix : List ℤ) (c : ℤ) : M K :=
  match s.ph.weights with
  | none => do
    let b ← basisProd r s.ps.basis ix x 1
    let v ← s.controlPoint ix c
    return r.rnd (b * v)
  | some _ =>
    if (s.ph.dim : ℤ) = c then do
      let b ← basisProd r s.ps.basis ix x 1
      let p ← homCP r s.ph ix
      let v ← getI p c
      return r.rnd (b * v)
    else do
      let b ← basisProd r s.ps.basis ix x 1
      let p ← homCP r s.ph ix
      let v ← getI p c
      let ws ← evaluatedWeightSum r s x
      div r (r.rnd (b * v)) ws

/-- `GetEvaluatedDerivativeWeight` (nurbs.h:216-221). -/
def evaluatedDerivWeight (s : Spl K) (x : List K) (k : List ℤ) (ix : List ℤ) : M K := do
  let b ← basisDerivProd r s.ps.basis ix x k 1
  let w ← s.ph.getWeight ix
  return r.rnd (b * w)

/-- `GetEvaluatedDerivativeWeightSum` (nurbs.h:199-210). -/
def evaluatedDerivWeightSum (s : Spl K) (x : List K) (k : List ℤ) : M K := do
  let fnz ← firstNonZero r s.ps.knots s.ps.degree x
  let h := MIH.mk' s.numBasis
  upLoop (fun h sum => do
    let v ← evaluatedDerivWeight r s x k (List.zipWith (· + ·) h.cur fnz)
    return r.rnd (sum + v)) h.length1D.toNat h 0

/-- `GetRationalBasisFunctionDerivative` and `GetDerivativesSum` (nurbs.h:156-185). The binomial coefficients are computed with
integers (nurbs.h:231-243) and converted to `double` without error. The products `binomial * derivative * weight` are evaluated from left
to right. -/
def rationalDeriv (s : Spl K) (x : List K) (ix : List ℤ) : ℕ → List ℤ → M K
  | fuel, k =>
    if k.all (fun a => a = 0) then do
      let b ← basisProd r s.ps.basis ix x 1
      let w ← s.ph.getWeight ix
      let ws ← evaluatedWeightSum r s x
      div r (r.rnd (b * w)) ws
    else
      match fuel with
      | 0 => .error .diverges
      | fuel + 1 => do
        let dw ← evaluatedDerivWeight r s x k ix
        let h := (MIH.mk' (k.map (· + 1))).incr
        let sum ← upLoop (fun h sum => do
          let c ← Spl.binomialCoefficients k h.cur
          let v ← rationalDeriv s x ix fuel h.differenceIndices
          let ws ← evaluatedDerivWeightSum r s x h.cur
          return r.rnd (sum + r.rnd (r.rnd ((c : K) * v) * ws))) (h.length1D - 1).toNat h 0
        let ws ← evaluatedWeightSum r s x
        div r (r.rnd (dw - sum)) ws

/-- `GetEvaluatedDerivativeControlPoint` of `BSpline` (b_spline.h:124-130) and of `NURBS` (nurbs.h:148-154). -/
def evaluatedDerivCP (s : Spl K) (x : List K) (k : List ℤ) (ix : List ℤ) (c : ℤ) : M K :=
  match s.ph.weights with
  | none => do
    let b ← basisDerivProd r s.ps.basis ix x k 1
    let v ← s.controlPoint ix c
    return r.rnd (b * v)
  | some _ => do
    let b ← rationalDeriv r s x ix (k.foldl (· + ·) 0).toNat k
    let v ← s.controlPoint ix c
    return r.rnd (b * v)

/-- The inner loop `evaluated_point[j] += f(dimensions[j])` (spline.h:60-62, 79-81). -/
def addEach (f : ℤ → M K) : List ℤ → List K → M (List K)
  | c :: cs, a :: as => do
    let v ← f c
    let rest ← addEach f cs as
    return r.rnd (a + v) :: rest
  | _, as => .ok as

/-- The common body of `Evaluate` and `EvaluateDerivative` (spline.h:51-64, 70-83). -/
def evalWith (s : Spl K) (x : List K) (dims : List ℤ) (f : List ℤ → ℤ → M K) : M (List K) := do
  PS.throwIfOutside s.ps.knots x
  let fnz ← firstNonZero r s.ps.knots s.ps.degree x
  let h := MIH.mk' s.numBasis
  upLoop (fun h acc => addEach r (f (List.zipWith (· + ·) h.cur fnz)) dims acc) h.length1D.toNat h (dims.map fun _ => 0)

/-- `Evaluate(param_coord, dimensions)` (spline.h:49-65). -/
def evaluate (s : Spl K) (x : List K) (dims : List ℤ) : M (List K) := evalWith r s x dims (evaluatedCP r s x)

/-- `EvaluateDerivative(param_coord, dimensions, derivative)` (spline.h:67-84). -/
def evaluateDerivative (s : Spl K) (x : List K) (dims : List ℤ) (k : List ℤ) : M (List K) :=
  evalWith r s x dims (evaluatedDerivCP r s x k)

end Fl
end SplineLib
