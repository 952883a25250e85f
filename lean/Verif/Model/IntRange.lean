import Verif.Model.Spline

/-!
# Evaluation with the range of `int` (src/util/multi_index_handler.h, src/spl/physical_space.h, src/spl/spline.h, src/spl/nurbs.h)

In the other models `int` is unbounded. Here the index arithmetic of `Evaluate` and `EvaluateDerivative` is repeated with 32 bit integers:
a result that does not fit is undefined behaviour. Conversions from larger types are treated in the same way. Loop counters and indices that are only
compared or copied are not checked; they never exceed values that have been checked before.
-/

namespace SplineLib
namespace I32

/-- The largest value of `int`. -/
def intMax : ℤ := 2 ^ 31 - 1

/-- The result of an operation on `int`. -/
def int (a : ℤ) : M ℤ := if -2 ^ 31 ≤ a ∧ a ≤ 2 ^ 31 - 1 then .ok a else .error .ub

/-- The loop `temp *= length[j]` (multi_index_handler.h:122-124). -/
def scale : List ℤ → ℤ → M ℤ
  | [], t => .ok t
  | l :: ls, t => do
    let t' ← int (t * l)
    scale ls t'

/-- The outer loop of `Get1DIndex(length, indices)` (multi_index_handler.h:120-126); `done` holds the passed lengths, `sum` is `index_1d`. -/
def oneDLoop : List ℤ → List ℤ → List ℤ → ℤ → M ℤ
  | done, l :: ls, i :: is, sum => do
    let t ← scale done i
    let sum' ← int (sum + t)
    oneDLoop (l :: done) ls is sum'
  | _, _, _, sum => .ok sum

/-- `Get1DIndex(length, indices)` (multi_index_handler.h:118-128). -/
def oneD (len ix : List ℤ) : M ℤ := oneDLoop [] len ix 0

/-- `Get1DLength()` (multi_index_handler.h:130-136). -/
def length1D (h : MIH) : M ℤ := scale h.len 1

/-- The loop of `operator++` (multi_index_handler.h:40-50). -/
def incrL : List ℤ → List ℤ → M (List ℤ)
  | l :: ls, c :: cs => do
    let l' ← int (l - 1)
    if c = l' ∨ l = 0 then
      let rest ← incrL ls cs
      return 0 :: rest
    else
      let c' ← int (c + 1)
      return c' :: cs
  | _, cs => .ok cs

/-- `operator++` (multi_index_handler.h:40-50). -/
def incr (h : MIH) : M MIH := do
  let cur ← incrL h.len h.cur
  return { h with cur := cur }

/-- `GetDifferenceIndices` (multi_index_handler.h:102-108). -/
def differenceIndices : List ℤ → List ℤ → M (List ℤ)
  | l :: ls, c :: cs => do
    let a ← int (l - c)
    let b ← int (a - 1)
    let rest ← differenceIndices ls cs
    return b :: rest
  | _, _ => .ok []

/-- `for (int i = 0; i < n; ++i, ++handler) body`. -/
def upLoop {σ : Type} (body : MIH → σ → M σ) : ℕ → MIH → σ → M σ
  | 0, _, s => .ok s
  | n + 1, h, s => do
    let s' ← body h s
    let h' ← incr h
    upLoop body n h' s'

/-- `std::transform(…, std::plus<>())` (spline.h:59, 78, nurbs.h:193, 206). -/
def plus : List ℤ → List ℤ → M (List ℤ)
  | a :: as, b :: bs => do
    let c ← int (a + b)
    let rest ← plus as bs
    return c :: rest
  | _, _ => .ok []

/-- Each entry plus one: `GetNumberOfBasisFunctionsToEvaluate()` (spline.h:279-285), `GetDerivativeHandler` (nurbs.h:223-229). -/
def succs : List ℤ → M (List ℤ)
  | a :: as => do
    let b ← int (a + 1)
    let rest ← succs as
    return b :: rest
  | [] => .ok []

section phys
variable {K : Type} [LinearOrder K] [Field K]

/-- `GetControlPoint(indices)` (physical_space.h:69-78). -/
def getCP (ph : Phys K) (ix : List ℤ) : M (List K) := do
  let i ← oneD ph.num ix
  let first ← int (ph.dim * i)
  buildList (fun c => do
    let j ← int (first + c)
    getI ph.cps j) ph.dim

/-- `GetWeight(indices)` (physical_space.h:137-139, weighted_physical_space.h:62-67). -/
def getWeight (ph : Phys K) (ix : List ℤ) : M K :=
  match ph.weights with
  | none => .ok 1
  | some w => do
    let i ← oneD ph.num ix
    getI w i

/-- `GetHomogenousControlPoint(indices)` (weighted_physical_space.h:50-60). -/
def getHomCP (ph : Phys K) (ix : List ℤ) : M (List K) := do
  let w ← ph.theWeights
  let i ← oneD ph.num ix
  let first ← int (ph.dim * i)
  let coords ← buildList (fun c => do
    let j ← int (first + c)
    let a ← getI ph.cps j
    let b ← getI w (first.tdiv ph.dim)
    return a * b) ph.dim
  let b ← getI w i
  return coords ++ [b]

/-- `GetControlPoint(indices, dimension)` (spline.h:147-149). -/
def controlPoint (s : Spl K) (ix : List ℤ) (c : ℤ) : M K := do
  let p ← getCP s.ph ix
  getI p c

/-- `GetArrayOfFirstNonZeroBasisFunctions` (parameter_space.h:130-136). -/
def firstNonZero : List (List K) → List ℕ → List K → M (List ℤ)
  | U :: Us, p :: ps, x :: xs => do
    let k ← kvSpan U x
    let k' ← int k
    let a ← int (k' - p)
    let rest ← firstNonZero Us ps xs
    return a :: rest
  | _, _, _ => .ok []

/-- The summation over the basis functions that do not vanish (nurbs.h:187-197, 199-210). -/
def weightSumWith (s : Spl K) (x : List K) (f : List ℤ → M K) : M K := do
  let fnz ← firstNonZero s.ps.knots s.ps.degree x
  let len ← succs (s.ps.degree.map fun p : ℕ => (p : ℤ))
  let n ← length1D (MIH.mk' len)
  upLoop (fun h sum => do
    let ix ← plus h.cur fnz
    let v ← f ix
    return sum + v) n.toNat (MIH.mk' len) 0

/-- `GetEvaluatedWeightSum` (nurbs.h:187-197, 212-214). -/
def evaluatedWeightSum (s : Spl K) (x : List K) : M K :=
  weightSumWith s x fun ix => do
    let b ← s.ps.getBasisFunctions ix x
    let w ← getWeight s.ph ix
    return b * w

/-- `GetEvaluatedDerivativeWeight` (nurbs.h:216-221). -/
def evaluatedDerivWeight (s : Spl K) (x : List K) (k : List ℤ) (ix : List ℤ) : M K := do
  let b ← s.ps.getBasisFunctionDerivatives ix x k
  let w ← getWeight s.ph ix
  return b * w

/-- `GetEvaluatedDerivativeWeightSum` (nurbs.h:199-210). -/
def evaluatedDerivWeightSum (s : Spl K) (x : List K) (k : List ℤ) : M K := weightSumWith s x (evaluatedDerivWeight s x k)

/-- `GetEvaluatedControlPoint` (b_spline.h:118-122, nurbs.h:135-146). -/
def evaluatedCP (s : Spl K) (x : List K) (ix : List ℤ) (c : ℤ) : M K :=
  match s.ph.weights with
  | none => do
    let b ← s.ps.getBasisFunctions ix x
    let v ← controlPoint s ix c
    return b * v
  | some _ =>
    if (s.ph.dim : ℤ) = c then do
      let b ← s.ps.getBasisFunctions ix x
      let p ← getHomCP s.ph ix
      let v ← getI p c
      return b * v
    else do
      let b ← s.ps.getBasisFunctions ix x
      let p ← getHomCP s.ph ix
      let v ← getI p c
      let ws ← evaluatedWeightSum s x
      fdiv (b * v) ws

/-- The common body of `Evaluate` and `EvaluateDerivative` (spline.h:51-64, 70-83). -/
def evalWith (s : Spl K) (x : List K) (dims : List ℤ) (f : List ℤ → ℤ → M K) : M (List K) := do
  PS.throwIfOutside s.ps.knots x
  let fnz ← firstNonZero s.ps.knots s.ps.degree x
  let len ← succs (s.ps.degree.map fun p : ℕ => (p : ℤ))
  let n ← length1D (MIH.mk' len)
  upLoop (fun h acc => do
    let ix ← plus h.cur fnz
    Spl.addEach (f ix) dims acc) n.toNat (MIH.mk' len) (dims.map fun _ => 0)

/-- `Evaluate(param_coord, dimensions)` (spline.h:49-65). -/
def evaluate (s : Spl K) (x : List K) (dims : List ℤ) : M (List K) := evalWith s x dims (evaluatedCP s x)

end phys

/-- `binomialCoefficient(number, subset)` (nurbs.h:231-235) for non-negative arguments. -/
def binomialCoefficient : ℕ → ℕ → M ℤ
  | _, 0 => .ok 1
  | 0, _ + 1 => .error .diverges
  | n + 1, m + 1 =>
    if m + 1 = n + 1 then .ok 1
    else do
      let a ← binomialCoefficient n m
      let b ← binomialCoefficient n (m + 1)
      int (a + b)

/-- The loop of `binomialCoefficient(numbers, subsets)` (nurbs.h:237-243); `bc` is the product so far. -/
def binomialLoop : List ℤ → List ℤ → ℤ → M ℤ
  | n :: ns, m :: ms, bc => do
    let a ← binomialCoefficient n.toNat m.toNat
    let bc' ← int (bc * a)
    binomialLoop ns ms bc'
  | _, _, bc => .ok bc

variable {K : Type} [LinearOrder K] [Field K]

/-- `GetRationalBasisFunctionDerivative` and `GetDerivativesSum` (nurbs.h:156-185). -/
def rationalDeriv (s : Spl K) (x : List K) (ix : List ℤ) : ℕ → List ℤ → M K
  | fuel, k =>
    if k.all (fun a => a = 0) then do
      let b ← s.ps.getBasisFunctions ix x
      let w ← getWeight s.ph ix
      let ws ← evaluatedWeightSum s x
      fdiv (b * w) ws
    else
      match fuel with
      | 0 => .error .diverges
      | fuel + 1 => do
        let dw ← evaluatedDerivWeight s x k ix
        let len ← succs k
        let h ← incr (MIH.mk' len)
        let n ← length1D h
        let sum ← upLoop (fun h sum => do
          let c ← binomialLoop k h.cur 1
          let diff ← differenceIndices h.len h.cur
          let r ← rationalDeriv s x ix fuel diff
          let ws ← evaluatedDerivWeightSum s x h.cur
          return sum + (c : K) * r * ws) (n - 1).toNat h 0
        let ws ← evaluatedWeightSum s x
        fdiv (dw - sum) ws

/-- `GetEvaluatedDerivativeControlPoint` (b_spline.h:124-130, nurbs.h:148-154). -/
def evaluatedDerivCP (s : Spl K) (x : List K) (k : List ℤ) (ix : List ℤ) (c : ℤ) : M K :=
  match s.ph.weights with
  | none => do
    let b ← s.ps.getBasisFunctionDerivatives ix x k
    let v ← controlPoint s ix c
    return b * v
  | some _ => do
    let r ← rationalDeriv s x ix (k.foldl (· + ·) 0).toNat k
    let v ← controlPoint s ix c
    return r * v

/-- `EvaluateDerivative(param_coord, dimensions, derivative)` (spline.h:67-84). -/
def evaluateDerivative (s : Spl K) (x : List K) (dims : List ℤ) (k : List ℤ) : M (List K) := evalWith s x dims (evaluatedDerivCP s x k)

end I32
end SplineLib
