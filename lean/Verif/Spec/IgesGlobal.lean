import Mathlib.Data.List.Basic

/-!
# The free format of IGES files

Parameters are separated by commas and end with a semicolon. A string is given by the number of its characters, the letter `H` and the characters,
which may include separators.
-/

namespace SplineLib

/-- A parameter: a string or other text. -/
inductive IgesItem where
  | str (t : List Char)
  | text (t : List Char)
  deriving DecidableEq

/-- The value of digits. -/
def igesDigits (ds : List Char) : ℕ := ds.foldl (fun a c => 10 * a + (c.toNat - 48)) 0

/-- The characters up to the next separator, and the rest. -/
def igesPlain (s : List Char) : IgesItem × List Char :=
  (.text (s.takeWhile fun c => c ≠ ',' && c ≠ ';'), s.dropWhile fun c => c ≠ ',' && c ≠ ';')

/-- The first parameter and the rest. -/
def igesItem (s : List Char) : IgesItem × List Char :=
  match s.takeWhile Char.isDigit, s.dropWhile Char.isDigit with
  | d :: ds, 'H' :: r => (.str (r.take (igesDigits (d :: ds))), r.drop (igesDigits (d :: ds)))
  | _, _ => igesPlain s

/-- At most `n` parameters up to the first semicolon between parameters. -/
def igesItems : ℕ → List Char → Option (List IgesItem)
  | 0, _ => none
  | n + 1, s =>
    match igesItem s with
    | (i, ',' :: r) => (igesItems n r).map (i :: ·)
    | (i, ';' :: _) => some [i]
    | _ => none

/-- The parameters of a section, of which `s` is the text. -/
def igesParameters (s : List Char) : Option (List IgesItem) := igesItems (s.length + 1) s

example : igesParameters "1H,,3Ha;b,12,;  ".toList = some [.str [','], .str "a;b".toList, .text "12".toList, .text []] := by decide

/-- The last `k` digits of a number. -/
def padded : ℕ → ℕ → List Char
  | 0, _ => []
  | k + 1, n => padded k (n / 10) ++ [Char.ofNat (48 + n % 10)]

/-- The form of a date and time in IGES files: `YYYYMMDD.HHNNSS`. -/
def igesDate (year month day hour minute second : ℕ) : List Char :=
  padded 4 year ++ padded 2 month ++ padded 2 day ++ '.' :: (padded 2 hour ++ padded 2 minute ++ padded 2 second)

example : igesDate 2019 3 7 9 5 0 = "20190307.090500".toList := by decide

end SplineLib
