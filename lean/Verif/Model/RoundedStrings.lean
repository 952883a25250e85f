import Verif.Model.Rounded
import Verif.Model.Strings
import Mathlib.Algebra.Field.Power

/-!
# Reading numbers with rounded arithmetic

`StringToDouble` with a rounding after every floating point operation, in the order of the C++ code. Digits are small integers, so their
conversion to `double` is exact, as is the multiplication by the sign. Overflow and underflow are not modelled.
-/

namespace SplineLib
namespace Fl
open Str (npos)
variable {K : Type} [LinearOrder K] [Field K]

/-- `pow(10, n)` of the C library: a value that is at most `units` roundings away from the power. -/
structure PowTen (r : Rounding K) where
  val : ℤ → K
  units : ℕ
  upper : ∀ n, val n * (1 - r.u) ^ units ≤ 10 ^ n
  lower : ∀ n, 10 ^ n * (1 - r.u) ^ units ≤ val n

variable (r : Rounding K)

/-- The loop over the digits in `StringToDouble` (string_operations.h:99-104), see `Str.digitLoop`. -/
def digitLoop (s : List Char) (found endNumber : ℕ) : ℕ → ℕ → Option K → K → M (Option K × K)
  | 0, i, factor, result => if i ≤ endNumber then .error .diverges else .ok (factor, result)
  | fuel + 1, i, factor, result =>
    if i ≤ endNumber then
      if i ≠ found then do
        let c ← Str.substr s i 1
        let v ← Str.stoi c
        match factor with
        | none => .error .nonfinite
        | some f => digitLoop s found endNumber fuel (i + 1) (some (r.rnd (f / 10))) (r.rnd (result + r.rnd ((v : K) * f)))
      else digitLoop s found endNumber fuel (i + 1) factor result
    else .ok (factor, result)

/-- `StringToDouble(string)` (string_operations.h:88-116), see `Str.stringToDouble`. -/
def stringToDouble (P : PowTen r) (s : List Char) : M K := do
  let sign : K := if s.head? == some '-' then -1 else 1
  let s := if s.head? == some '-' then s.tail else s
  let found := Str.firstOf (fun c => c == '.') s
  let exponent := Str.firstOf (fun c => c == 'E' || c == 'e') s
  let endNumber := if exponent = npos then toSizeT ((s.length : ℤ) - 1) else toSizeT ((exponent : ℤ) - 1)
  let size := if found ≠ npos then toSizeT ((found : ℤ) - 1) else toSizeT ((s.length : ℤ) - 1)
  let factor : Option K := if size = npos then none else some (P.val size)
  let (_, result) ← digitLoop r s found endNumber (s.length + 1) 0 factor 0
  if exponent ≠ npos then do
    let c := s.getD (exponent + 1) '\x00'
    let minus : Bool := c == '-'
    let exponent := if c == '-' || c == '+' then exponent + 1 else exponent
    let rest ← Str.substr s (exponent + 1) (s.length - exponent)
    let potency ← Str.stoi rest
    return sign * r.rnd (result * (if minus then r.rnd (1 / P.val potency) else P.val potency))
  else return sign * result

end Fl
end SplineLib
