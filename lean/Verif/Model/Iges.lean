import Verif.Model.Spline
import Verif.Model.Strings
import Verif.Model.Printing

/-!
# The IGES writer and reader (src/io/iges_writer.cc, iges_reader.cc)

A file is its list of characters. Opening the file is assumed to succeed. Splines are given with their number of directions (the
template parameter `DIM`), which is the number of knot vectors. The name of the file and the two readings of the clock are arguments.
-/

namespace SplineLib

/-- How `%.18g` prints a number: whether a minus sign is printed, the 18 decimal digits of the mantissa (as a number, 0 for zero), and
the decimal exponent of the first digit. -/
class GenPrinter (K : Type) where
  neg : K → Bool
  mant : K → ℕ
  expo : K → ℤ

namespace Iges
open Str Prn

/-- Remove trailing zeros. -/
def dropZeros (ds : List Char) : List Char := (ds.reverse.dropWhile fun c => c == '0').reverse

/-- A decimal point and digits, or nothing if there are no digits. -/
def pointed (ds : List Char) : List Char := if ds.isEmpty then [] else '.' :: ds

/-- The exponent: a sign and at least two digits. -/
def exponentText (e : ℤ) : List Char :=
  'e' :: (if e < 0 then '-' else '+') :: (if e.natAbs < 10 then ['0'] else []) ++ natText e.natAbs

/-- The formatting rules of `%.18g` for digits and decimal exponent. -/
def generalDigits (ds : List Char) (e : ℤ) : List Char :=
  if 0 ≤ e ∧ e < 18 then ds.take (e.toNat + 1) ++ pointed (dropZeros (ds.drop (e.toNat + 1)))
  else if -4 ≤ e ∧ e < 0 then '0' :: pointed (dropZeros (List.replicate (-e - 1).toNat '0' ++ ds))
  else ds.take 1 ++ pointed (dropZeros (ds.drop 1)) ++ exponentText e

/-- `GetString(double)` (iges_writer.cc:274-280): `out.precision(18); out << value`. -/
def generalText {K : Type} [GenPrinter K] (x : K) : List Char :=
  (if GenPrinter.neg x then ['-'] else []) ++
    (if GenPrinter.mant x = 0 then ['0'] else generalDigits (natText (GenPrinter.mant x)) (GenPrinter.expo x))

variable {K : Type} [LinearOrder K] [Field K]

/-! ## Writer -/

/-- `GetBlock(str, width, right)` (iges_writer.cc:270-272). If the string is too long, `width - str.size()` wraps around and
`std::string(..., ' ')` throws `std::length_error`. -/
def block (s : List Char) (width : ℕ) (right : Bool) : M (List Char) :=
  if s.length ≤ width then
    .ok (if right then List.replicate (width - s.length) ' ' ++ s else s ++ List.replicate (width - s.length) ' ')
  else .error (.thrown .lengthError)

/-- `GetHollerithFormat(str)` (iges_writer.cc:266-268). -/
def hollerith (s : List Char) : List Char := natText s.length ++ 'H' :: s

/-- `AddToContents(contents, add, delimiter)` (iges_writer.cc:258-264). -/
def addTo (add : List (List Char)) (delimiter : List Char) : List Char := add.flatMap fun i => i ++ delimiter

/-- `GetDimension(spline)` (iges_writer.cc:234-242). -/
def entity (s : Spl K) : M ℕ :=
  if s.ps.knots.length = 1 then .ok 126 else if s.ps.knots.length = 2 then .ok 128 else .error (.thrown .runtimeError)

/-- `GetHighestValue(splines)` (iges_writer.cc:308-340). -/
def highestValue : List (Spl K) → K → M K
  | [], h => .ok h
  | s :: ss, h => do
    let _ ← entity s
    highestValue ss (if h < s.ph.expansion then s.ph.expansion else h)

/-- `GetStartSection()` (iges_writer.cc:59-61). -/
def startSection : M (List (List Char)) := do
  let a ← block "IGES file generated by SplineLib".toList 72 false
  let b ← block (natText 1) 7 true
  return [a ++ 'S' :: b]

/-- `GetGlobalSectionLayout(contents)` and `GetDataEntrySectionLayout(contents, dLine)` (iges_writer.cc:85-93, 219-226): lines of 72
characters, the letter of the section and the number of the line; `line` is the number of the previous line. -/
def lines72 (letter : Char) (contents : List Char) (line : ℕ) : M (List (List Char)) :=
  buildList (fun i => do
    let t ← substr contents (i * 72) 72
    let a ← block t 72 false
    let b ← block (natText (line + i + 1)) 7 true
    return a ++ letter :: b) (toSizeT ((contents.length : ℤ) - 1) / 72 + 1)

/-- The contents of the global section (iges_writer.cc:67-81). -/
def globalContents [GenPrinter K] (filename time1 time2 : List Char) (highest : K) : List Char :=
  addTo [hollerith [','], hollerith [';'], hollerith "unknown".toList, filename, hollerith "SplineLib".toList,
    hollerith "pre_release".toList, natText 31, natText 128, natText 24, natText 1024, natText 53, hollerith "unknown".toList,
    generalText (1 : K), natText 2, hollerith "MM".toList, natText 1, generalText (1 / 10 ^ 3 : K), hollerith (hollerith time1),
    generalText (1 / 10 ^ 6 : K), generalText highest, hollerith "unknown".toList, hollerith "unknown".toList, natText 11, natText 0,
    hollerith (hollerith time2)] [','] ++ [';']

/-- `GetGlobalSection(filename, delimiter, endDelimiter, splines)` (iges_writer.cc:63-83). -/
def globalSection [GenPrinter K] (filename time1 time2 : List Char) (splines : List (Spl K)) : M (List (List Char)) := do
  let h ← highestValue splines 0
  lines72 'G' (globalContents filename time1 time2 h) 0

/-- `Get3DControlPoint(spline, index, direction)` (iges_writer.cc:195-201). -/
def coordinate (s : Spl K) (i : ℕ) (j : ℕ) : M K :=
  if j < s.ph.dim then s.controlPoint ((i : ℤ) :: List.replicate (s.ps.knots.length - 1) 0) j else .ok 0

/-- The coordinates of the control points with their delimiters (iges_writer.cc:146-153, 185-192). -/
def pointsText [GenPrinter K] (s : Spl K) (n : ℕ) : M (List Char) := do
  let l ← buildList (fun i => do
    let t ← buildList (fun j => do
      let x ← coordinate s i j
      return generalText x ++ (if i ≠ n - 1 ∨ j ≠ 2 then [','] else [])) 3
    return t.flatten) n
  return l.flatten

/-- The weights with their delimiters (iges_writer.cc:143-145, 182-184). -/
def weightsText [GenPrinter K] (s : Spl K) (n : ℕ) : M (List Char) := do
  let l ← buildList (fun i => do
    let w ← s.ph.getWeight ((i : ℤ) :: List.replicate (s.ps.knots.length - 1) 0)
    return generalText w ++ [',']) n
  return l.flatten

/-- `GetNumberOfKnots() - GetDegree(i) - 2`, computed in `size_t`. -/
def upperIndex (U : List K) (p : ℕ) : ℕ := toSizeT ((U.length : ℤ) - p - 2)

/-- The first numbers of the parameter data (iges_writer.cc:133-137, 167-173). -/
def headText (s : Spl K) : List Char :=
  let rational := if s.ph.weights.isSome then 0 else 1
  match s.ps.knots, s.ps.degree with
  | [U], [p] => addTo [natText 126, natText (upperIndex U p), natText p, natText 0, natText 0, natText rational, natText 0] [',']
  | [U, V], [p, q] =>
    addTo [natText 128, natText (upperIndex U p), natText (upperIndex V q), natText p, natText q, natText 0, natText 0, natText rational,
      natText 0, natText 0] [',']
  | _, _ => []

/-- `GetParameterData1D` and `GetParameterData2D` with the final delimiter (iges_writer.cc:95-108, 122-193). -/
def parameterContents [GenPrinter K] (s : Spl K) : M (List Char) := do
  let _ ← entity s
  let n ← s.ph.numCPs
  let w ← weightsText s n.toNat
  let p ← pointsText s n.toNat
  return headText s ++ ((s.ps.knots.flatMap fun U => U.flatMap fun x => generalText x ++ [',']) ++ (w ++ (p ++ [';'])))

/-- `GetParameterSectionLayout(contents, entityPosition, pLine)` (iges_writer.cc:110-120); `line` is the number of the previous
line. -/
def parameterLines (contents : List Char) (position line : ℕ) : M (List (List Char)) :=
  buildList (fun i => do
    let t ← substr contents (i * 64) 64
    let a ← block t 64 false
    let b ← block (natText position) 7 true
    let c ← block (natText (line + i + 1)) 7 true
    return a ++ ' ' :: (b ++ 'P' :: c)) (toSizeT ((contents.length : ℤ) - 1) / 64 + 1)

/-- The contents of a directory entry (iges_writer.cc:207-215). -/
def entryContents (paramStart paramLength : ℕ) (s : Spl K) : M (List Char) := do
  let e ← entity s
  let e ← block (natText e) 8 true
  let a ← block (natText paramStart) 8 true
  let z ← block (natText 0) 8 true
  let b ← block (natText paramLength) 8 true
  let g ← block [] 16 true
  let n ← block "SPLINE".toList 8 true
  return addTo [e, a, z, z, z, z, z, z, " 0 0 0 1".toList, e, z, z, b, z, g, n, z] []

/-- `GetDataEntry(paramStart, paramLength, spline, dLine)` (iges_writer.cc:203-217). -/
def dataEntry (paramStart paramLength : ℕ) (s : Spl K) (dLine : ℕ) : M (List (List Char)) := do
  let c ← entryContents paramStart paramLength s
  lines72 'D' c dLine

/-- The loop of `WriteFile` over the splines (iges_writer.cc:37-49): the directory entry section and the parameter section. -/
def sections [GenPrinter K] : List (Spl K) → (dLine pLine position paramStart : ℕ) → M (List (List Char) × List (List Char))
  | [], _, _, _, _ => .ok ([], [])
  | s :: ss, dLine, pLine, position, paramStart => do
    let c ← parameterContents s
    let p ← parameterLines c position pLine
    let d ← dataEntry paramStart p.length s dLine
    let (ds, ps) ← sections ss (dLine + d.length) (pLine + p.length) (position + 2) (paramStart + p.length)
    return (d ++ ds, p ++ ps)

/-- `GetTerminateSection(linesS, linesG, linesD, linesP)` (iges_writer.cc:228-232). -/
def terminateSection (s g d p : ℕ) : M (List (List Char)) := do
  let s ← block (natText s) 7 true
  let g ← block (natText g) 7 true
  let d ← block (natText d) 7 true
  let p ← block (natText p) 7 true
  let t ← block ['T'] 41 true
  let n ← block (natText 1) 7 true
  return ['S' :: s ++ 'G' :: g ++ 'D' :: d ++ 'P' :: p ++ t ++ n]

/-- The lines of the file (iges_writer.cc:25-57, 282-293). -/
def fileLines [GenPrinter K] (filename time1 time2 : List Char) (splines : List (Spl K)) : M (List (List Char)) := do
  let s ← startSection
  let g ← globalSection filename time1 time2 splines
  let (d, p) ← sections splines 0 0 1 1
  let t ← terminateSection s.length g.length d.length p.length
  return s ++ g ++ d ++ p ++ t

/-- `WriteFile(splines, filename)` (iges_writer.cc:25-57, 295-299): the contents of the file. -/
def writeFile [GenPrinter K] (filename time1 time2 : List Char) (splines : List (Spl K)) : M (List Char) := do
  let l ← fileLines filename time1 time2 splines
  return l.flatMap fun t => t ++ ['\n']

/-! ## Reader -/

/-- `line[72]`; the character behind the end is the null character, positions behind are undefined. -/
def column73 (line : List Char) : M Char :=
  if line.length < 72 then .error .ub else .ok (line.getD 72 '\x00')

/-- The loop over the lines (iges_reader.cc:34-41): the directory entry section and the parameter section. -/
def readLines : List (List Char) → M (List (List Char) × List (List Char))
  | [] => .ok ([], [])
  | l :: ls => do
    let c ← column73 l
    let (ds, ps) ← readLines ls
    return (if c = 'D' then l.take 72 :: ds else ds, if c = 'P' then l.take 64 :: ps else ps)

/-- `GetParameterSectionStartEndPointers(directoryEntrySection, entityToBeRead)` (iges_reader.cc:157-166). -/
def pointers (directory : List (List Char)) (i : ℕ) : M (ℤ × ℤ) := do
  let l ← getN directory (i * 2)
  let a ← substr l 8 8
  let l' ← getN directory (i * 2 + 1)
  let b ← substr l' 24 8
  let start ← stoi (trim (trim a))
  let count ← stoi (trim (trim b))
  return (start, start + count - 1)

/-- `ParameterSectionToVector(parameterSection, pointers)` (iges_reader.cc:168-177). -/
def parameterVector (K : Type) [Field K] (parameters : List (List Char)) (ptr : ℤ × ℤ) : M (List K) := do
  let t ← buildList (fun i => getI parameters (ptr.1 - 1 + i)) (ptr.2 - ptr.1 + 1).toNat
  delimitedStringToVector K t.flatten

/-- `static_cast<int>(double)`: undefined if the value does not fit. -/
def toInt [FloorRing K] (x : K) : M ℤ :=
  if (-2 ^ 31 - 1 : K) < x ∧ x < 2 ^ 31 then .ok (truncate x) else .error .ub

/-- `for (int i = first; i <= last; ++i) v.push_back(data[i])`. -/
def slice (data : List K) (first last : ℤ) : M (List K) := buildList (fun i => getI data (first + i)) (last - first + 1).toNat

/-- The loop that collects the control points of a curve (iges_reader.cc:86-90). -/
def triples : List K → M (List (List K))
  | [] => .ok []
  | [_] => .error .ub
  | [_, _] => .error .ub
  | x :: y :: z :: r => do
    let t ← triples r
    return [x, y, z] :: t

/-- A degree; a negative one is treated as undefined behaviour. -/
def toDegree [FloorRing K] (x : K) : M ℕ := do
  let p ← toInt x
  if p < 0 then .error .ub else return p.toNat

/-- `Create1DSpline(parameterData)` (iges_reader.cc:58-101). -/
def create1D [FloorRing K] (data : List K) : M (Spl K) := do
  let v ← getN data 1
  let n ← toInt v
  let v ← getN data 2
  let p ← toDegree v
  let knots ← slice data 7 (7 + n + p + 1)
  let weights ← slice data (7 + n + p + 1 + 1) (7 + n + p + 1 + 1 + n)
  let coords ← slice data (7 + n + p + 1 + 1 + n + 1) (7 + n + p + 1 + 1 + n + 1 + 3 * n + 2)
  let points ← triples coords
  let f ← getN data 5
  if f = 1 then Spl.newBSpline [knots] [p] points else Spl.newNurbs [knots] [p] points weights

/-- The loop that collects the control points of a surface (iges_reader.cc:140-144): `i < size - 2`. -/
def triplesBut2 : List K → List (List K)
  | x :: y :: z :: r => [x, y, z] :: triplesBut2 r
  | _ => []

/-- The same with the unsigned subtraction: fewer than two coordinates lead to reads behind the end. -/
def surfacePoints (coords : List K) : M (List (List K)) :=
  if coords.length < 2 then .error .ub else .ok (triplesBut2 coords)

/-- `Create2DSpline(parameterData)` (iges_reader.cc:103-155). -/
def create2D [FloorRing K] (data : List K) : M (Spl K) := do
  let v ← getN data 1
  let n0 ← toInt v
  let v ← getN data 2
  let n1 ← toInt v
  let v ← getN data 3
  let p0 ← toDegree v
  let v ← getN data 4
  let p1 ← toDegree v
  let e0 : ℤ := 10 + n0 + p0 + 1
  let e1 : ℤ := e0 + 1 + n1 + p1 + 1
  let ew : ℤ := e1 + 1 - 1 + (1 + n0) * (1 + n1)
  let knots0 ← slice data 10 e0
  let knots1 ← slice data (e0 + 1) e1
  let weights ← slice data (e1 + 1) ew
  let coords ← slice data (ew + 1) (ew + 1 - 1 + 3 * (1 + n0) * (1 + n1) + 2)
  let points ← surfacePoints coords
  let f ← getN data 7
  if f = 1 then Spl.newBSpline [knots0, knots1] [p0, p1] points else Spl.newNurbs [knots0, knots1] [p0, p1] points weights

/-- One iteration of the loop over the entities (iges_reader.cc:44-53). -/
def readEntity (K : Type) [LinearOrder K] [Field K] [FloorRing K] (directory parameters : List (List Char)) (i : ℕ) : M (List (Spl K)) := do
  let l ← getN directory (i * 2)
  let t ← substr l 5 3
  let e ← stoi (trim t)
  if e = 126 then do
    let ptr ← pointers directory i
    let data ← parameterVector K parameters ptr
    let s ← create1D data
    return [s]
  else if e = 128 then do
    let ptr ← pointers directory i
    let data ← parameterVector K parameters ptr
    let s ← create2D data
    return [s]
  else return []

/-- `ReadFile(filename)` (iges_reader.cc:25-56); `file` is the contents of the file. -/
def readFile (K : Type) [LinearOrder K] [Field K] [FloorRing K] (file : List Char) : M (List (Spl K)) := do
  let (directory, parameters) ← readLines (getlines '\n' file)
  let l ← buildList (readEntity K directory parameters) ((directory.length + 1) / 2)
  return l.flatten

end Iges
end SplineLib
