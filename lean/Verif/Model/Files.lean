import Verif.Model.Converter
import Verif.Model.Irit
import Verif.Model.Pugi
import Verif.Model.Iges
import Verif.Model.Emit

/-!
# Model of conversions of files

`io::IOConverter` (src/io/io_converter.cc) with the readers and writers of the library: a call reads the input file and changes the output
file. Files are named contents. Every file can be opened for writing (otherwise the writers do nothing, irit_writer.cc:27,
iges_writer.cc:28, vtk_writer.cc:25). Files are texts (`Model/Irit.lean`, `Model/Iges.lean`, `Model/Pugi.lean`, `Model/VtkText.lean`). A writer that
threw an exception leaves behind what it had written (`Model/Emit.lean`). What is in a file after undefined behaviour, and what the readers do with
it, is left open.
-/

namespace SplineLib
namespace Conv
open Str
variable {K : Type} [LinearOrder K] [Field K]

/-- The contents of a file. `unfinished` is a file whose writer had undefined behaviour or got numbers that are not finite. -/
inductive Content
  | text (t : List Char)
  | unfinished

/-- The surroundings of the conversions: what a reader does with an unfinished file, and the two time stamps of
`GetGlobalSection` (iges_writer.cc:63-98). -/
structure Surroundings (K : Type) where
  other : FileFormat → Content → M (List (Spl K))
  time1 : List Char
  time2 : List Char

/-- The files by name. -/
abbrev Files := List Char → Option (Content)

/-- `util::AnyCasts::GetSplineDimension(spline)` (any_casts.h:40-63). -/
def splineDimension (s : Spl K) : M ℤ :=
  if 1 ≤ s.ps.knots.length ∧ s.ps.knots.length ≤ 4 then .ok s.ps.knots.length else .error (.thrown .runtimeError)

/-- `ReadFile(filename)` of the reader of a format; a missing file is refused (irit_reader.cc:27-29, iges_reader.cc:28-30,
xml_reader.cc:25-28). -/
def readContent [FloorRing K] (w : Surroundings K) : FileFormat → Option (Content) → M (List (Spl K))
  | _, none => .error (.thrown .runtimeError)
  | .irit, some (.text t) => Irit.readFile K t
  | .iges, some (.text t) => Iges.readFile K t
  | .xml, some (.text t) => Xml.readText K t
  | f, some c => w.other f c

/-- `WriteFile(splines, filename)` of the writer of a format, for the VTK writer with the scattering. -/
def writeContent [DecPrinter K] [GenPrinter K] [SigPrinter 5 K] (w : Surroundings K) (filename : List Char) :
    FileFormat → List (Spl K) → List (List ℤ) → M (Content)
  | .iges, ss, _ => do
    let t ← Iges.writeFile filename w.time1 w.time2 ss
    return .text t
  | .irit, ss, _ => do
    let t ← Irit.writeFile ss
    return .text t
  | .vtk, ss, scat => do
    let t ← Vtk.writeText ss scat
    return .text t
  | .xml, ss, _ => do
    let t ← Xml.writeText ss
    return .text t
  | .error, _, _ => .error (.thrown .runtimeError)

/-- The file `name` gets new contents. -/
def setFile (fs : Files) (name : List Char) (c : Content) : Files := fun n => if n = name then some c else fs n

/-- A converter for two files. -/
def fileEnv [FloorRing K] [DecPrinter K] [GenPrinter K] [SigPrinter 5 K] (w : Surroundings K) (fs : Files) (input output : List Char) : Env (Spl K) where
  read f := readContent w f (fs input)
  dim := splineDimension
  write f ss scat := do
    let _ ← writeContent w output f ss scat
    return ()

/-- What a writer that threw an exception leaves in the file. The XML writer saves the document at the end (xml_writer.cc:31), the other
writers write to the file from the beginning. -/
def leftover [DecPrinter K] [GenPrinter K] [SigPrinter 5 K] (w : Surroundings K) (filename : List Char) :
    FileFormat → List (Spl K) → List (List ℤ) → Option Content
  | .iges, ss, _ => some (.text (Iges.writeE filename w.time1 w.time2 ss).1)
  | .irit, ss, _ => some (.text (Irit.writeE ss).1)
  | .vtk, ss, scat => some (.text (Vtk.writeE ss scat).1)
  | _, _, _ => none

/-- The files after a writer was called. -/
def written [DecPrinter K] [GenPrinter K] [SigPrinter 5 K] (w : Surroundings K) (fs : Files) (output : List Char) (ss : List (Spl K))
    (scat : List (List ℤ)) : Files :=
  match writeContent w output (fileFormat output) ss scat with
  | .ok c => setFile fs output c
  | .error (.thrown _) =>
    match leftover w output (fileFormat output) ss scat with
    | some c => setFile fs output c
    | none => fs
  | .error _ => if fileFormat output = .xml then fs else setFile fs output .unfinished

/-- `IOConverter(input, output).ConvertFile(positions, scattering)` (io_converter.cc:17-28): the files afterwards, and the outcome. -/
def convert [FloorRing K] [DecPrinter K] [GenPrinter K] [SigPrinter 5 K] (w : Surroundings K) (fs : Files) (input output : List Char)
    (positions : List ℤ) (scattering : List (List ℤ)) : Files × M (List ℤ) :=
  let e := convertFile (fileEnv w fs input output) (new input output) positions scattering
  (match e.output with
    | none => fs
    | some (ss, scat) => written w fs output ss scat, e.result)

/-- A file is converted to the first of the names, the result to the next one, and so on, until a conversion fails. -/
def convertChain [FloorRing K] [DecPrinter K] [GenPrinter K] [SigPrinter 5 K] (w : Surroundings K) (fs : Files) (input : List Char) :
    List (List Char) → Files × M Unit
  | [] => (fs, .ok ())
  | output :: names =>
    match convert w fs input output [] [] with
    | (fs', .ok _) => convertChain w fs' output names
    | (fs', .error e) => (fs', .error e)

end Conv
end SplineLib
