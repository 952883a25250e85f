import Verif.Model.Strings

/-!
# Model of `io::IOConverter` (src/io/io_converter.cc)

A converter object is its two file formats and the member `written_`. The contents of the input file, the dimension of a spline
object and the outcome of a writer are parameters (`Env`): the spline objects are passed through unchanged. What a call does to the
output file is recorded as the list of splines (and scatterings) handed to the writer.
-/

namespace SplineLib
namespace Conv
open Str

/-- The surroundings of a converter. `S` is the type of the spline objects (`std::any`). -/
structure Env (S : Type) where
  /-- `ReadFile(input_filename_)` of the reader of a format. -/
  read : FileFormat → M (List S)
  /-- `util::AnyCasts::GetSplineDimension` (any_casts.h:40-63). -/
  dim : S → M ℤ
  /-- The outcome of `WriteFile` of the writer of a format. -/
  write : FileFormat → List S → List (List ℤ) → M Unit

/-- Members `input_format_`, `output_format_` and `written_` (io_converter.h:58-62). -/
structure Converter where
  input : FileFormat
  output : FileFormat
  written : List ℤ
  deriving DecidableEq, Repr

/-- The constructor (io_converter.cc:17-21). -/
def new (inputName outputName : List Char) : Converter := ⟨fileFormat inputName, fileFormat outputName, []⟩

variable {S : Type}

/-- `GetSplinePositionsOfCorrectDimension(splines, max_dim)` (io_converter.cc:30-39), from position `i` on. -/
def positionsFrom (env : Env S) (maxDim : ℤ) : ℤ → List S → M (List ℤ)
  | _, [] => .ok []
  | i, s :: l => do
    let d ← env.dim s
    let r ← positionsFrom env maxDim (i + 1) l
    return if d ≤ maxDim then i :: r else r

/-- `VectorUtils::FilterVector(input, positions)` (vector_utils.h:69-79); a negative position is undefined. -/
def filterVector {α : Type} (input : List α) : List ℤ → M (List α)
  | [] => .ok []
  | p :: l =>
    if p < (input.length : ℤ) then do
      let a ← getI input p
      let r ← filterVector input l
      return a :: r
    else .error (.thrown .runtimeError)

/-- `GetPositions(positions, possible_positions)` (io_converter.cc:98-109): the new value of `written_`. -/
def getPositions (written positions possible : List ℤ) : List ℤ :=
  if positions.isEmpty then possible else written ++ positions.filter fun p => possible.contains p

/-- The indices of `GetScattering` (io_converter.cc:114-123), from index `i` on. -/
def scatIndices (written : List ℤ) : ℤ → List ℤ → List ℤ
  | _, [] => []
  | i, p :: l => if written.contains p then i :: scatIndices written (i + 1) l else scatIndices written (i + 1) l

/-- `GetScattering(scattering, positions, written)` (io_converter.cc:111-125). -/
def getScattering (scattering : List (List ℤ)) (positions written : List ℤ) : M (List (List ℤ)) :=
  filterVector scattering (if positions.isEmpty then written else scatIndices written 0 positions)

/-- The highest dimension that a format supports (io_converter.cc:73-90). -/
def maxDim : FileFormat → M ℤ
  | .iges => .ok 2
  | .irit => .ok 3
  | .vtk => .ok 3
  | .xml => .ok 4
  | .error => .error (.thrown .runtimeError)

/-- `GetReader()` (io_converter.cc:57-68). -/
def reader : FileFormat → M FileFormat
  | .iges => .ok .iges
  | .irit => .ok .irit
  | .xml => .ok .xml
  | _ => .error (.thrown .runtimeError)

/-- What a call of `ConvertFile` does: the object afterwards, what was handed to the writer (if it was called), and the outcome. -/
structure Effect (S : Type) where
  conv : Converter
  output : Option (List S × List (List ℤ))
  result : M (List ℤ)

/-- `ConvertFile(positions, scattering)` (io_converter.cc:23-28, with `GetWriter` :70-89 and `WriteFile` :91-96). -/
def convertFile (env : Env S) (c : Converter) (positions : List ℤ) (scattering : List (List ℤ)) : Effect S :=
  match (do
      let f ← reader c.input
      let splines ← env.read f
      let m ← maxDim c.output
      let possible ← positionsFrom env m 0 splines
      return (splines, possible)) with
  | .error e => ⟨c, none, .error e⟩
  | .ok (splines, possible) =>
    let c' := { c with written := getPositions c.written positions possible }
    match (do
        let out ← filterVector splines c'.written
        let scat ← if c.output = FileFormat.vtk then getScattering scattering positions c'.written else .ok []
        return (out, scat)) with
    | .error e => ⟨c', none, .error e⟩
    | .ok (out, scat) =>
      match env.write c.output out scat with
      | .error e => ⟨c', some (out, scat), .error e⟩
      | .ok _ => ⟨c', some (out, scat), .ok c'.written⟩

end Conv
end SplineLib
