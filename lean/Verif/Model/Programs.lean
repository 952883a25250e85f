import Verif.Model.Files
import Verif.Model.ConverterLog

/-!
# The conversion programs with files (src/io/executables/*.cc)

The programs of `Model/ConverterLog.lean` with the readers and writers of the library: a run reads the log file and the input file, changes the output
file and appends to the log file. Any two of the three files may be the same. As in `Model/Files.lean` every file can be opened for writing, and what
is in a file after undefined behaviour is left open.
-/

namespace SplineLib
namespace Conv
open Str
variable {K : Type} [LinearOrder K] [Field K] [FloorRing K] [DecPrinter K] [GenPrinter K] [SigPrinter 5 K]

/-- The files as a program sees them. Each program uses the reader and the writer of its formats, whatever the names of the files are
(irit_to_xml.cc:34-47 and the other eight files). -/
def programEnv (w : Surroundings K) (time : List Char) (fs : Files) : Log.Env (Spl K) where
  file n := match fs n with
    | some (.text t) => some t
    | _ => none
  read f n := readContent w f (fs n)
  dim := splineDimension
  write f ss n scat := do
    let _ ← writeContent w n f ss scat
    return ()
  time := time

/-- The files after the writer of the format `target` was called; see `written`. -/
def writtenAs (w : Surroundings K) (fs : Files) (target : FileFormat) (output : List Char) (ss : List (Spl K)) (scat : List (List ℤ)) : Files :=
  match writeContent w output target ss scat with
  | .ok c => setFile fs output c
  | .error (.thrown _) =>
    match leftover w output target ss scat with
    | some c => setFile fs output c
    | none => fs
  | .error _ => if target = .xml then fs else setFile fs output .unfinished

/-- `log.open(log_file_, std::ios_base::app)` and writing the text (converter_log.cc:97-111). -/
def appendFile (fs : Files) (name text : List Char) : Files :=
  match fs name with
  | some (.text t) => setFile fs name (.text (t ++ text))
  | some .unfinished => fs
  | none => setFile fs name (.text text)

/-- Whether the argument is the name of a file whose contents are left open. -/
def unfinishedLog (fs : Files) (args : List (List Char)) : Bool :=
  match args with
  | [name] => match fs name with
    | some .unfinished => true
    | _ => false
  | _ => false

/-- A run of the program that converts `source` to `target` (irit_to_xml.cc:21-49 and the other eight files): the files afterwards and the outcome.
What happens with an unfinished log file is left open. -/
def runProgram (w : Surroundings K) (time : List Char) (fs : Files) (source target : FileFormat) (maxDim : ℤ) (args : List (List Char)) :
    Files × M Unit :=
  if unfinishedLog fs args then (fs, .error .ub) else
  let e := Log.program K (programEnv w time fs) source target maxDim args
  let fs1 := match e.output with
    | none => fs
    | some (ss, output, scat) => writtenAs w fs target output ss scat
  let fs2 := match e.log with
    | none => fs1
    | some (name, text) => appendFile fs1 name text
  (fs2, e.result)

end Conv
end SplineLib
