import Verif.Model.Outcome
import Mathlib.Algebra.Order.Floor.Defs
import Mathlib.Algebra.Field.Basic

/-!
# Printing numbers: `std::to_string`

`std::to_string(double)` prints with `%f`: a sign, the integral part, a point and six decimals. Which of the two neighbouring decimal
numbers is chosen is left open: the class `DecPrinter` gives the sign that is printed and the number of millionths.
-/

namespace SplineLib

/-- How `%f` prints a number: whether a minus sign is printed, and the printed magnitude in millionths. -/
class DecPrinter (K : Type) where
  neg : K → Bool
  mag : K → ℕ

namespace Prn

/-- The character of a digit. -/
def digit (n : ℕ) : Char := Char.ofNat (48 + n % 10)

/-- The decimal digits of a number, without leading zeros. -/
def natText (n : ℕ) : List Char := if n < 10 then [digit n] else natText (n / 10) ++ [digit n]

/-- The last `k` decimal digits of a number, with leading zeros. -/
def fixedText : ℕ → ℕ → List Char
  | 0, _ => []
  | k + 1, n => fixedText k (n / 10) ++ [digit n]

/-- `std::to_string(int)`. -/
def intText (z : ℤ) : List Char := if z < 0 then '-' :: natText z.natAbs else natText z.natAbs

/-- `std::to_string(double)`. -/
def doubleText {K : Type} [DecPrinter K] (x : K) : List Char :=
  (if DecPrinter.neg x then ['-'] else []) ++
    (natText (DecPrinter.mag x / 1000000) ++ '.' :: fixedText 6 (DecPrinter.mag x))

/-- Conversion of a `double` to `int`: the fractional part is discarded. -/
def truncate {K : Type} [Ring K] [LinearOrder K] [FloorRing K] (x : K) : ℤ := if 0 ≤ x then ⌊x⌋ else ⌈x⌉

end Prn
end SplineLib
