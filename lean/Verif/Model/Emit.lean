import Verif.Model.Irit
import Verif.Model.Iges
import Verif.Model.VtkText

/-!
# Writers as sequences of outputs (src/io/irit_writer.cc, src/io/iges_writer.cc, src/io/vtk_writer.cc)

`Model/Irit.lean`, `Model/Iges.lean` and `Model/VtkText.lean` give the contents of a file whose writer returned. If a writer throws an exception, the
file stream is closed by its destructor, and what was written until then stays in the file. Here the writers are modelled statement by
statement: the characters that were written, and the outcome.
-/

namespace SplineLib

/-- The characters that were written to a file, and the outcome. -/
abbrev Emitted := List Char × M Unit

namespace Emitted

/-- `file << text`. -/
def emit (t : List Char) : Emitted := (t, .ok ())

/-- `file << f()`: nothing is written if `f` throws. -/
def emitM : M (List Char) → Emitted
  | .ok t => (t, .ok ())
  | .error e => ([], .error e)

/-- Two statements, the second of which is only executed if the first one returned. -/
def andThen (a b : Emitted) : Emitted :=
  match a.2 with
  | .ok _ => (a.1 ++ b.1, b.2)
  | .error e => (a.1, .error e)

end Emitted
open Emitted Prn

namespace Irit
variable {K : Type} [LinearOrder K] [Field K]

/-- The choice of `AddSpline` (irit_writer.cc:42-51). -/
def splineBody [DecPrinter K] (s : Spl K) : M (List Char) :=
  if s.ps.knots.length = 1 then splineText "[CURVE".toList s
  else if s.ps.knots.length = 2 then splineText "[SURFACE".toList s
  else if s.ps.knots.length = 3 then splineText "[TRIVAR".toList s
  else .error (.thrown .runtimeError)

/-- `AddSpline(file, spline, spline_number)` (irit_writer.cc:40-53). -/
def addSplineE [DecPrinter K] (s : Spl K) (number : ℕ) : Emitted :=
  (emit ("  [OBJECT SPLINE".toList ++ (natText (number + 1) ++ "\n    ".toList))).andThen
    ((emitM (splineBody s)).andThen (emit "    ]\n  ]\n".toList))

/-- The loop of `WriteFile` (irit_writer.cc:29-34) from spline `number` on. -/
def splinesE [DecPrinter K] : List (Spl K) → ℕ → Emitted
  | [], _ => emit []
  | [s], number => addSplineE s number
  | s :: t :: rest, number => (addSplineE s number).andThen ((emit ['\n']).andThen (splinesE (t :: rest) (number + 1)))

/-- `WriteFile(splines, filename)` (irit_writer.cc:24-38). -/
def writeE [DecPrinter K] (splines : List (Spl K)) : Emitted :=
  (emit "[OBJECT SPLINES\n".toList).andThen ((splinesE splines 0).andThen (emit [']']))

end Irit

namespace Iges
variable {K : Type} [LinearOrder K] [Field K]

/-- `WriteFile(splines, filename)` (iges_writer.cc:25-57): all lines are computed before the first one is written. -/
def writeE [GenPrinter K] (filename time1 time2 : List Char) (splines : List (Spl K)) : Emitted :=
  emitM (writeFile filename time1 time2 splines)

end Iges

namespace Vtk
variable {K : Type} [LinearOrder K] [Field K]

/-- The loop of `WritePoints` (vtk_writer_utils.h:56-64), `n` iterations from a position of the handler on. All coordinates of a point are computed
at the same parametric coordinate, so that only the first of them can throw. -/
def pointsE [SigPrinter 5 K] (s : Spl K) (scat : List ℤ) : ℕ → MIH → Emitted
  | 0, _ => emit []
  | n + 1, h => (emitM (do
      let x ← gridCoord s.ps.knots h.cur scat
      let l ← pointLine s x
      return pointText l)).andThen (pointsE s scat n h.incr)

/-- `AddPoints` (vtk_writer.cc:98-111) with `WritePoints` (vtk_writer_utils.h:52-65). -/
def addPointsE [SigPrinter 5 K] (s : Spl K) (scat : List ℤ) (dim : ℕ) : Emitted :=
  if dim = 1 ∨ dim = 2 ∨ dim = 3 then
    let h := MIH.mk' ((scat.take dim).map (· + 1))
    pointsE s (scat.take dim) h.length1D.toNat h
  else ([], .error (.thrown .runtimeError))

/-- The loop over `AddPoints` (vtk_writer.cc:32-34). -/
def allPointsE [SigPrinter 5 K] : List (Spl K) → List (List ℤ) → Emitted
  | s :: ss, c :: cs => (addPointsE s c s.ps.knots.length).andThen (allPointsE ss cs)
  | _, _ => emit []

/-- The loop over `AddCells` (vtk_writer.cc:37-39). No function that is called there throws. -/
def allCellsE : List ℕ → List (List ℤ) → ℤ → Emitted
  | d :: ds, c :: cs, off => (emitM (do
      let a ← addCells c off d
      return a.flatMap cellText)).andThen (allCellsE ds cs (off + numPoints d c))
  | _, _, _ => emit []

/-- `ThrowIfScatteringHasWrongSizes` (vtk_writer.cc:56-66). -/
def checkScattering (scat : List (List ℤ)) (dims : List ℕ) : M (List Char) := do
  if scat.length ≠ dims.length then .error (.thrown .runtimeError) else
  checkSizes scat dims
  return []

/-- `WriteFile(splines, filename, scattering)` (vtk_writer.cc:20-46). -/
def writeE [SigPrinter 5 K] (splines : List (Spl K)) (scat : List (List ℤ)) : Emitted :=
  let dims := splines.map fun s => s.ps.knots.length
  let cellNs := List.zipWith numCells dims scat
  let pointNs := List.zipWith numPoints dims scat
  (emit header).andThen ((emitM (checkScattering scat dims)).andThen
    ((emit ("POINTS ".toList ++ intText (pointNs.foldl (· + ·) 0) ++ " double\n".toList)).andThen ((allPointsE splines scat).andThen
    ((emit ("\nCELLS ".toList ++ intText (cellNs.foldl (· + ·) 0) ++ " ".toList ++
      intText ((List.zipWith (fun d n => n * entriesPerCell d) dims cellNs).foldl (· + ·) 0) ++ "\n".toList)).andThen
    ((allCellsE dims scat 0).andThen
    (emit ("\nCELL_TYPES ".toList ++ intText (cellNs.foldl (· + ·) 0) ++ "\n".toList ++
      (List.zipWith (fun d c => addCellTypes c d) dims scat).flatten.flatMap fun t => intText t ++ ['\n'])))))))

end Vtk
end SplineLib
