import Verif.Model.Outcome
import Mathlib.Algebra.Field.Power

/-!
# String operations (src/util/string_operations.h)

Strings are lists of characters. Characters are assumed to be ASCII (`std::isspace` of a negative `char` is undefined). Positions
are `size_t`; strings are assumed to be shorter than 2^32 where the code uses an `unsigned int` index (stated as a hypothesis of the
theorems). `double` arithmetic is exact; `pow(10, n)` with an `n` that wrapped around to 2^64 - 1 is infinite.
-/

namespace SplineLib
namespace Str

/-- `std::string::npos`. -/
def npos : ℕ := 2 ^ 64 - 1

/-- The search loop of `std::string::find`. -/
def findFrom (t : List Char) : List Char → ℕ → ℕ
  | [], i => if t.isPrefixOf [] then i else npos
  | c :: s, i => if t.isPrefixOf (c :: s) then i else findFrom t s (i + 1)

/-- `string.find(t)`: the position of the first occurrence. -/
def find (s t : List Char) : ℕ := findFrom t s 0

/-- The search loop of `std::string::find_first_of`. -/
def firstOfFrom (p : Char → Bool) : List Char → ℕ → ℕ
  | [], _ => npos
  | c :: s, i => if p c then i else firstOfFrom p s (i + 1)

/-- `string.find_first_of(...)` for the set of characters `p`. -/
def firstOf (p : Char → Bool) (s : List Char) : ℕ := firstOfFrom p s 0

/-- `string.substr(pos, n)`. -/
def substr (s : List Char) (pos n : ℕ) : M (List Char) :=
  if pos ≤ s.length then .ok ((s.drop pos).take n) else .error (.thrown .outOfRange)

/-- `std::isspace` in the C locale. -/
def isSpace (c : Char) : Bool := c == ' ' || c == '\t' || c == '\n' || c == '\x0b' || c == '\x0c' || c == '\r'

/-- The value of a decimal digit. -/
def digitVal (c : Char) : ℕ := c.toNat - 48

/-- The value of a sequence of digits. -/
def digitsVal (ds : List Char) : ℕ := ds.foldl (fun a c => 10 * a + digitVal c) 0

/-- `std::stoi(s)`: leading white space, an optional sign, then the longest sequence of digits. -/
def stoi (s : List Char) : M ℤ :=
  let s := s.dropWhile isSpace
  let neg : Bool := s.head? == some '-'
  let s := if s.head? == some '-' || s.head? == some '+' then s.tail else s
  let ds := s.takeWhile Char.isDigit
  if ds.isEmpty then .error (.thrown .invalidArgument)
  else
    let v : ℤ := if neg then -(digitsVal ds : ℤ) else digitsVal ds
    if -(2 ^ 31) ≤ v ∧ v < 2 ^ 31 then .ok v else .error (.thrown .outOfRange)

/-- `StartsWith(string, start)` (string_operations.h:70-72). -/
def startsWith (s t : List Char) : Bool := find s t == 0

/-- `EndsWith(string, end)` (string_operations.h:74-76). The difference of the lengths is a `size_t`. -/
def endsWith (s t : List Char) : Bool := find s t == toSizeT ((s.length : ℤ) - t.length)

/-- `trim(s)` (string_operations.h:78-86). -/
def trim (s : List Char) : List Char :=
  let s := s.dropWhile fun c => isSpace c || c == '['
  (s.reverse.dropWhile fun c => isSpace c || c == ']').reverse

/-- The tokens that repeated `std::getline(stream, token, delimiter)` extracts; `cur` is the token read so far. -/
def getlinesFrom (delim : Char) (cur : List Char) : List Char → List (List Char)
  | [] => if cur.isEmpty then [] else [cur]
  | c :: s => if c == delim then cur :: getlinesFrom delim [] s else getlinesFrom delim (cur ++ [c]) s

/-- `while (std::getline(stream, token, delimiter))`. -/
def getlines (delim : Char) (s : List Char) : List (List Char) := getlinesFrom delim [] s

/-- `split(string, delimiter)` (string_operations.h:27-39). -/
def split (s : List Char) (delim : Char) : List (List Char) :=
  (getlines '\n' s).flatMap fun l => (getlines delim l).filter fun v => !v.isEmpty

section
variable {K : Type} [Field K]

/-- `pow(10, e)` for a `size_t` exponent; `none` is infinity. -/
def pow10 (K : Type) [Field K] (e : ℕ) : Option K := if e = npos then none else some (10 ^ e)

/-- The loop over the digits in `StringToDouble` (string_operations.h:99-104), from position `i` on. `fuel` bounds the number of
iterations; `std::stoi` of the empty string behind the end throws, so more than `length + 1` iterations are not possible. -/
def digitLoop (s : List Char) (found endNumber : ℕ) : ℕ → ℕ → Option K → K → M (Option K × K)
  | 0, i, factor, result => if i ≤ endNumber then .error .diverges else .ok (factor, result)
  | fuel + 1, i, factor, result =>
    if i ≤ endNumber then
      if i ≠ found then do
        let c ← substr s i 1
        let v ← stoi c
        match factor with
        | none => .error .nonfinite
        | some f => digitLoop s found endNumber fuel (i + 1) (some (f / 10)) (result + (v : K) * f)
      else digitLoop s found endNumber fuel (i + 1) factor result
    else .ok (factor, result)

/-- `StringToDouble(string)` (string_operations.h:88-116). `string[string.length()]` is the terminating null character. -/
def stringToDouble (K : Type) [Field K] (s : List Char) : M K := do
  let sign : K := if s.head? == some '-' then -1 else 1
  let s := if s.head? == some '-' then s.tail else s
  let found := firstOf (fun c => c == '.') s
  let exponent := firstOf (fun c => c == 'E' || c == 'e') s
  let endNumber := if exponent = npos then toSizeT ((s.length : ℤ) - 1) else toSizeT ((exponent : ℤ) - 1)
  let factor : Option K := pow10 K (if found ≠ npos then toSizeT ((found : ℤ) - 1) else toSizeT ((s.length : ℤ) - 1))
  let (_, result) ← digitLoop s found endNumber (s.length + 1) 0 factor 0
  if exponent ≠ npos then do
    let c := s.getD (exponent + 1) '\x00'
    let minus : Bool := c == '-'
    let exponent := if c == '-' || c == '+' then exponent + 1 else exponent
    let rest ← substr s (exponent + 1) (s.length - exponent)
    let potency ← stoi rest
    return sign * (result * (if minus then 1 / (10 : K) ^ potency else (10 : K) ^ potency))
  else return sign * result

/-- `DelimitedStringToVector(str)` (string_operations.h:41-59). Every iteration erases at least one character. -/
def delimitedLoop (K : Type) [Field K] : ℕ → List Char → M (List K)
  | fuel, s =>
    if s.isEmpty then .ok []
    else
      match fuel with
      | 0 => .error .diverges
      | fuel + 1 => do
        let found1 := firstOf (fun c => c == ',') s
        let found2 := firstOf (fun c => c == ';') s
        if found1 < found2 ∧ found1 ≠ 0 then do
          let v ← stringToDouble K (trim (s.take found1))
          let r ← delimitedLoop K fuel (s.drop (found1 + 1))
          return v :: r
        else if found2 < found1 ∧ found2 ≠ 0 then do
          let v ← stringToDouble K (trim (s.take found2))
          let r ← delimitedLoop K fuel (s.drop (found2 + 1))
          return v :: r
        else delimitedLoop K fuel (s.drop 1)

/-- `DelimitedStringToVector(str)` (string_operations.h:41-59). -/
def delimitedStringToVector (K : Type) [Field K] (s : List Char) : M (List K) := delimitedLoop K s.length s

end

/-- The file formats of `IOConverter` (io_converter.h:42). -/
inductive FileFormat
  | error | iges | irit | vtk | xml
  deriving DecidableEq, Repr

/-- `IOConverter::GetFileFormat(filename)` (io_converter.cc:41-55). -/
def fileFormat (s : List Char) : FileFormat :=
  if endsWith s ".iges".toList then .iges
  else if endsWith s ".itd".toList then .irit
  else if endsWith s ".vtk".toList then .vtk
  else if endsWith s ".xml".toList then .xml
  else .error

end Str
end SplineLib
