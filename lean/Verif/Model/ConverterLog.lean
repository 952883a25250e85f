import Verif.Model.Converter
import Verif.Model.Printing

/-!
# Model of `io::ConverterLog` and of the conversion programs (src/io/executables)

The contents of the log file are a list of characters. The text that `asctime` returns is a parameter. What a program does is recorded
as an `Effect`: what was handed to the writer, the text appended to the log file, and the outcome.
-/

namespace SplineLib
namespace Log
open Str

/-! ## Reading lines -/

/-- An input stream: the lines not yet read, whether the last of them is terminated, and whether neither `eofbit` nor `failbit` is
set. -/
structure Stream where
  lines : List (List Char)
  term : Bool
  good : Bool
  deriving DecidableEq, Repr

/-- `log.open(log_file)` of a file with the given contents. -/
def openText (text : List Char) : Stream := ⟨getlines '\n' text, text.getLast?.getD '\n' == '\n', true⟩

/-- `getline(log, str)`: whether it succeeded, the new value of `str`, and the stream afterwards. A stream that is not good leaves `str`
unchanged; a stream without characters empties it. Reading an unterminated last line sets `eofbit`. -/
def getline (st : Stream) (str : List Char) : Bool × List Char × Stream :=
  if st.good then
    match st.lines with
    | [] => (false, [], { st with good := false })
    | [l] => (true, l, { st with lines := [], good := st.term })
    | l :: ls => (true, l, { st with lines := ls })
  else (false, str, st)

/-- The members of a `ConverterLog` (converter_log.h:36-42). -/
structure ConverterLog where
  input : List Char := []
  output : List Char := []
  positions : List ℤ := []
  written : List ℤ := []
  notWritten : List ℤ := []
  scattering : List (List ℤ) := []
  deriving DecidableEq, Repr

/-- The loop of the section "options:" (converter_log.cc:42-49): the positions, the last value of `line` and the stream. Every iteration
reads a line, so `fuel` larger than the number of lines is enough. -/
def readOptions : ℕ → Stream → List Char → List ℤ → M (List ℤ × List Char × Stream)
  | 0, _, _, _ => .error .diverges
  | fuel + 1, st, line, pos =>
    match getline st line with
    | (false, line, st) => .ok (pos, line, st)
    | (true, line, st) =>
      if endsWith (trim line) ":".toList then .ok (pos, line, st)
      else if line = "all".toList then .ok ([-1], line, st)
      else do
        let p ← stoi line
        readOptions fuel st line (pos ++ [p])

/-- A `double` converted to `int`; undefined if it does not fit. -/
def toInt {K : Type} [Field K] [LinearOrder K] [FloorRing K] (x : K) : M ℤ :=
  let z := Prn.truncate x
  if -2 ^ 31 ≤ z ∧ z < 2 ^ 31 then .ok z else .error .ub

/-- `StringVectorToNumberVector<int>(split(line, ' '))` (converter_log.cc:53-54, string_operations.h:62-68). -/
def readRow (K : Type) [Field K] [LinearOrder K] [FloorRing K] (line : List Char) : M (List ℤ) :=
  (split line ' ').mapM fun t => do
    let x ← stringToDouble K t
    toInt x

section
variable (K : Type) [Field K] [LinearOrder K] [FloorRing K]

/-- The loop of the section "scattering:" (converter_log.cc:52-55). -/
def readScattering : ℕ → Stream → List Char → List (List ℤ) → M (List (List ℤ) × List Char × Stream)
  | 0, _, _, _ => .error .diverges
  | fuel + 1, st, line, rows =>
    match getline st line with
    | (false, line, st) => .ok (rows, line, st)
    | (true, line, st) =>
      if endsWith (trim line) ":".toList then .ok (rows, line, st)
      else do
        let r ← readRow K line
        readScattering fuel st line (rows ++ [r])

/-- The first two branches of the loop of the constructor (converter_log.cc:35-40). -/
def readPaths (c : ConverterLog) (line : List Char) (st : Stream) : ConverterLog × Stream :=
  let a := if startsWith line "input:".toList then
      let g := getline st c.input
      ({ c with input := g.2.1 }, g.2.2)
    else (c, st)
  if startsWith line "output:".toList then
    let g := getline a.2 a.1.output
    ({ a.1 with output := g.2.1 }, g.2.2)
  else a

/-- The third branch (converter_log.cc:41-50). -/
def optionsBranch (fuel : ℕ) (c : ConverterLog) (line : List Char) (st : Stream) : M (ConverterLog × List Char × Stream) :=
  if startsWith line "options:".toList then do
    let r ← readOptions fuel st line c.positions
    return ({ c with positions := r.1 }, r.2)
  else .ok (c, line, st)

/-- The fourth branch (converter_log.cc:51-56). -/
def scatteringBranch (fuel : ℕ) (c : ConverterLog) (line : List Char) (st : Stream) : M (ConverterLog × List Char × Stream) :=
  if startsWith line "scattering:".toList then do
    let r ← readScattering K fuel st line c.scattering
    return ({ c with scattering := r.1 }, r.2)
  else .ok (c, line, st)

/-- The loop of the constructor (converter_log.cc:34-57). -/
def readLoop : ℕ → Stream → List Char → ConverterLog → M ConverterLog
  | 0, _, _, _ => .error .diverges
  | fuel + 1, st, line, c =>
    match getline st line with
    | (false, _, _) => .ok c
    | (true, line, st) => do
      let a := readPaths c line st
      let b ← optionsBranch fuel a.1 line a.2
      let d ← scatteringBranch K fuel b.1 b.2.1 b.2.2
      readLoop fuel d.2.2 d.2.1 d.1

/-- `ConverterLog(log_file)` (converter_log.cc:27-58); `none` is a file that cannot be opened. -/
def new (file : Option (List Char)) : M ConverterLog :=
  match file with
  | none => .error (.thrown .runtimeError)
  | some text => readLoop K ((openText text).lines.length + 2) (openText text) [] {}

end

/-! ## Positions and scattering -/

/-- `GetPositions(possible_positions)` (converter_log.cc:68-81): the object afterwards and the result. `positions_[0]` of an empty vector
is undefined. -/
def getPositions (c : ConverterLog) (possible : List ℤ) : M (ConverterLog × List ℤ) :=
  match c.positions with
  | [] => .error .ub
  | p :: _ =>
    let c' := if p = -1 then { c with written := possible }
      else { c with
        written := c.written ++ c.positions.filter fun q => possible.contains q
        notWritten := c.notWritten ++ c.positions.filter fun q => !possible.contains q }
    .ok (c', c'.written)

/-- `GetScattering()` (converter_log.cc:83-95). -/
def getScattering (c : ConverterLog) : M (List (List ℤ)) :=
  match c.positions with
  | [] => .error .ub
  | p :: _ => Conv.filterVector c.scattering (if p ≠ -1 then Conv.scatIndices c.written 0 c.positions else c.written)

/-! ## Writing the log -/

/-- `for (i < written_.size() - 1) log << written_[i] << ", "; log << written_.back()` (converter_log.cc:103-106). -/
def positionsText : List ℤ → List Char
  | [] => []
  | [p] => Prn.intText p
  | p :: l => Prn.intText p ++ ", ".toList ++ positionsText l

/-- The text that `WriteLog()` appends (converter_log.cc:97-111, 125-132); `time` is the result of `GetTime()`. -/
def logText (c : ConverterLog) (time : List Char) : List Char :=
  let one : Bool := c.written.length == 1
  "\n\nlog:\n".toList ++ time ++
    (if c.written.isEmpty then "No splines".toList
     else "The ".toList ++ (if one then "spline".toList else "splines".toList) ++ " at position".toList ++
       (if one then " ".toList else "s ".toList) ++ positionsText c.written) ++
    " in file ".toList ++ c.input ++ (if one then " has".toList else " have".toList) ++ " been written to ".toList ++ c.output

/-! ## The programs -/

/-- The surroundings of a program. `S` is the type of the spline objects. -/
structure Env (S : Type) where
  /-- The contents of a file, as the log is opened. -/
  file : List Char → Option (List Char)
  /-- `ReadFile(name)` of the reader of a format. -/
  read : FileFormat → List Char → M (List S)
  /-- `util::AnyCasts::GetSplineDimension` (any_casts.h:40-63). -/
  dim : S → M ℤ
  /-- The outcome of `WriteFile` of the writer of a format. -/
  write : FileFormat → List S → List Char → List (List ℤ) → M Unit
  /-- The result of `asctime`. -/
  time : List Char

/-- What a program does: the help text is printed, what is handed to the writer (splines, file name, scattering), what is appended to
which log file, and the outcome. -/
structure Effect (S : Type) where
  help : Bool := false
  output : Option (List S × List Char × List (List ℤ)) := none
  log : Option (List Char × List Char) := none
  result : M Unit

/-- The second argument of `GetSplinePositionsOfCorrectDimension` in each program (iges_to_irit.cc:45, iges_to_vtk.cc:45,
iges_to_xml.cc:45, irit_to_iges.cc:44, irit_to_vtk.cc:44, irit_to_xml.cc:44, xml_to_iges.cc:44, xml_to_irit.cc:44, xml_to_vtk.cc:44). There
are no other programs. -/
def programDim : FileFormat → FileFormat → Option ℤ
  | .iges, .irit => some 3
  | .iges, .vtk => some 3
  | .iges, .xml => some 4
  | .irit, .iges => some 2
  | .irit, .vtk => some 3
  | .irit, .xml => some 4
  | .xml, .iges => some 2
  | .xml, .irit => some 3
  | .xml, .vtk => some 3
  | _, _ => none

/-- The handlers around `ReadFile` (irit_to_xml.cc:34-41): every exception becomes a `std::runtime_error`. -/
def guarded {α : Type} (m : M α) : M α :=
  match m with
  | .error (.thrown _) => .error (.thrown .runtimeError)
  | r => r

variable {S : Type}

/-- The part of `main` before the writer is called (irit_to_xml.cc:31-46, iges_to_vtk.cc:32-48): the log object, the splines and the
scattering handed to the writer. -/
def prepare (K : Type) [Field K] [LinearOrder K] [FloorRing K] (env : Env S) (source target : FileFormat) (maxDim : ℤ) (logFile : List Char) :
    M (ConverterLog × List S × List (List ℤ)) := do
  let c ← new K (env.file logFile)
  let splines ← guarded (env.read source c.input)
  let possible ← Conv.positionsFrom ⟨fun _ => .ok [], env.dim, fun _ _ _ => .ok ()⟩ maxDim 0 splines
  let r ← getPositions c possible
  let scat ← if target = FileFormat.vtk then getScattering r.1 else .ok []
  let out ← Conv.filterVector splines r.2
  return (r.1, out, scat)

/-- `main` of the program that converts `source` to `target` (irit_to_xml.cc:21-49 and the other eight files); `args` are the command line
arguments without the name of the program. -/
def program (K : Type) [Field K] [LinearOrder K] [FloorRing K] (env : Env S) (source target : FileFormat) (maxDim : ℤ)
    (args : List (List Char)) : Effect S :=
  match args with
  | [logFile] =>
    if startsWith logFile "--help".toList || startsWith logFile "-h".toList then { help := true, result := .ok () }
    else
      match prepare K env source target maxDim logFile with
      | .error e => { result := .error e }
      | .ok (c, out, scat) =>
        match env.write target out c.output scat with
        | .error e => { output := some (out, c.output, scat), result := .error e }
        | .ok _ => { output := some (out, c.output, scat), log := some (logFile, logText c env.time), result := .ok () }
  | _ => { result := .error (.thrown .runtimeError) }

end Log
end SplineLib
