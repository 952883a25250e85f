import Mathlib.Algebra.Field.Basic
import Mathlib.Algebra.Field.Power
import Mathlib.Data.Fin.Basic

/-!
# Decimal literals (specification)
-/

namespace SplineLib

/-- The character of a digit. -/
def digitChar (d : Fin 10) : Char := Char.ofNat (48 + d)

/-- The number that a sequence of digits denotes. -/
def digitsNum : List (Fin 10) → ℕ
  | [] => 0
  | d :: ds => d * 10 ^ ds.length + digitsNum ds

/-- The exponent part of a literal: the letter, an optional sign (`true` is minus) and the digits. -/
structure ExpPart where
  upper : Bool
  sign : Option Bool
  digits : List (Fin 10)

/-- A decimal literal `[-]int[.frac][(e|E)[+|-]digits]`. -/
structure DecLit where
  neg : Bool
  int : List (Fin 10)
  frac : Option (List (Fin 10))
  exp : Option ExpPart

def ExpPart.text (e : ExpPart) : List Char :=
  (if e.upper then 'E' else 'e') ::
    ((match e.sign with | none => [] | some true => ['-'] | some false => ['+']) ++ e.digits.map digitChar)

def ExpPart.value (e : ExpPart) : ℤ := if e.sign = some true then -(digitsNum e.digits : ℤ) else digitsNum e.digits

/-- The characters of the mantissa. -/
def DecLit.mantissa (l : DecLit) : List Char :=
  l.int.map digitChar ++ (match l.frac with | none => [] | some fs => '.' :: fs.map digitChar)

/-- The characters of the exponent part. -/
def DecLit.expText (l : DecLit) : List Char := match l.exp with | none => [] | some e => e.text

/-- The literal as text. -/
def DecLit.text (l : DecLit) : List Char := (if l.neg then ['-'] else []) ++ (l.mantissa ++ l.expText)

/-- The number that the literal denotes. -/
def DecLit.value (K : Type) [Field K] (l : DecLit) : K :=
  (if l.neg then -1 else 1) *
    ((digitsNum l.int : K) + (match l.frac with | none => 0 | some fs => (digitsNum fs : K) / 10 ^ fs.length)) *
    (match l.exp with | none => 1 | some e => (10 : K) ^ e.value)

/-- A literal of the grammar: there are digits before the point, and digits in the exponent, whose value is an `int`; the text is
shorter than `2^32` characters. -/
structure DecLit.Valid (l : DecLit) : Prop where
  int : l.int ≠ []
  exp : ∀ e, l.exp = some e → e.digits ≠ [] ∧ digitsNum e.digits < 2 ^ 31
  short : l.text.length < 2 ^ 32

end SplineLib
