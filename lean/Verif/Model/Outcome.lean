import Mathlib.Algebra.Order.Field.Basic
import Mathlib.Data.Rat.Defs

/-!
# Outcomes of C++ code

Every modelled function that can fail returns `M α = Except Err α`.
-/

namespace SplineLib

/-- The C++ exception types that the library throws. -/
inductive Exc
  | rangeError       -- std::range_error
  | runtimeError     -- std::runtime_error
  | invalidArgument  -- std::invalid_argument (from std::stoi)
  | lengthError      -- std::length_error / std::bad_alloc (absurd container size requested)
  | outOfRange       -- std::out_of_range (substr)
  | badAnyCast       -- std::bad_any_cast
  deriving DecidableEq, Repr

/-- The ways in which an execution can fail to produce an ordinary value.
* `ub`: undefined behaviour (out-of-bounds access, past-the-end iterator, ...);
* `thrown e`: a C++ exception;
* `nonfinite`: a floating-point division by zero, i.e. an infinite or NaN double appears;
* `diverges`: the C++ execution does not terminate (or only after ~2^64 iterations). -/
inductive Err
  | ub
  | thrown (e : Exc)
  | nonfinite
  | diverges
  deriving DecidableEq, Repr

/-- Result of a modelled C++ function. -/
abbrev M (α : Type) := Except Err α

instance {ε α : Type*} [DecidableEq ε] [DecidableEq α] : DecidableEq (Except ε α)
  | .ok a, .ok b => if h : a = b then isTrue (h ▸ rfl) else isFalse (fun e => h (Except.ok.inj e))
  | .error a, .error b => if h : a = b then isTrue (h ▸ rfl) else isFalse (fun e => h (Except.error.inj e))
  | .ok _, .error _ => isFalse (fun e => nomatch e)
  | .error _, .ok _ => isFalse (fun e => nomatch e)

/-- `v[i]` for a `std::vector`/`std::array` and an `int` index: undefined behaviour when out of bounds
(`operator[]` without bounds check; the library is not compiled with `DEBUG`). -/
def getI {α : Type} (v : List α) (i : Int) : M α :=
  if 0 ≤ i then
    match v[i.toNat]? with
    | some a => .ok a
    | none => .error .ub
  else .error .ub

/-- `v[i]` for an unsigned index. -/
def getN {α : Type} (v : List α) (i : Nat) : M α :=
  match v[i]? with
  | some a => .ok a
  | none => .error .ub

/-- `v[i] = a` for an `int` index: undefined behaviour when out of bounds. -/
def setI {α : Type} (v : List α) (i : Int) (a : α) : M (List α) :=
  if 0 ≤ i ∧ i < v.length then .ok (v.set i.toNat a) else .error .ub

/-- Floating point division: a zero denominator gives inf or NaN, which is reported as `nonfinite`. -/
def fdiv {K : Type} [Field K] [DecidableEq K] (a b : K) : M K :=
  if b = 0 then .error .nonfinite else .ok (a / b)

/-- Conversion of an `int`/`int64` to `size_t`: wraps modulo 2^64. -/
def toSizeT (i : Int) : Nat := (i % (2 ^ 64 : Int)).toNat

/-- `util::NumericSettings<double>::kEpsilon()` = 10 * 2^-52 (src/util/numeric_settings.h:27-29,42). -/
def kEps (K : Type) [Field K] : K := 10 / 2 ^ 52

/-- `util::NumericSettings<double>::AreEqual` (src/util/numeric_settings.h:31-33). -/
def areEqual {K : Type} [Field K] [LinearOrder K] (a b tol : K) : Bool := decide (|a - b| < tol)

end SplineLib
