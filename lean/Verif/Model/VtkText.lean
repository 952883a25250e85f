import Verif.Model.Vtk
import Verif.Model.Iges
import Verif.Model.Iga

/-!
# VTK files as texts (src/io/vtk_writer.cc, src/io/vtk_writer_utils.h, example/iga/src/solution_vtk_writer.h)

`operator<<` prints a `double` with the default precision of a stream, `%.6g`. Which of the nearest decimal numbers is printed is left
open, as for `std::to_string`.
-/

namespace SplineLib

/-- How a number is printed with `p + 1` significant digits: whether a minus sign is printed, the digits of the mantissa (as a number, 0 for
zero), and the decimal exponent of the first digit. -/
class SigPrinter (p : ℕ) (K : Type) where
  neg : K → Bool
  mant : K → ℕ
  expo : K → ℤ

namespace Sig
open Prn Iges

/-- The formatting rules of `%g` with `p + 1` digits, for digits and decimal exponent. -/
def digitsText (p : ℕ) (ds : List Char) (e : ℤ) : List Char :=
  if 0 ≤ e ∧ e ≤ p then ds.take (e.toNat + 1) ++ pointed (dropZeros (ds.drop (e.toNat + 1)))
  else if -4 ≤ e ∧ e < 0 then '0' :: pointed (dropZeros (List.replicate (-e - 1).toNat '0' ++ ds))
  else ds.take 1 ++ pointed (dropZeros (ds.drop 1)) ++ exponentText e

/-- A number printed with `%g` and `p + 1` digits. -/
def text (p : ℕ) {K : Type} [SigPrinter p K] (x : K) : List Char :=
  (if SigPrinter.neg p x then ['-'] else []) ++
    (if SigPrinter.mant p x = 0 then ['0'] else digitsText p (natText (SigPrinter.mant p x)) (SigPrinter.expo p x))

end Sig

namespace Vtk
open Prn
variable {K : Type}

/-- `file << value` for a `double` and the default precision. -/
def numberText [SigPrinter 5 K] (x : K) : List Char := Sig.text 5 x

/-- A line of the section `POINTS` (vtk_writer_utils.h:61-63). -/
def pointText [SigPrinter 5 K] : List K → List Char
  | [] => []
  | [x] => numberText x ++ ['\n']
  | x :: y :: xs => numberText x ++ ' ' :: pointText (y :: xs)

/-- A line of the section `CELLS` (vtk_writer.cc:133-169). -/
def cellText : List ℤ → List Char
  | [] => []
  | [i] => intText i ++ ['\n']
  | i :: j :: is => intText i ++ ' ' :: cellText (j :: is)

/-- The first lines (vtk_writer.cc:26). -/
def header : List Char := "# vtk DataFile Version 3.0\nSpline from Splinelib\nASCII\n\nDATASET UNSTRUCTURED_GRID\n".toList

/-- The characters of a file with the given numbers (vtk_writer.cc:26-43). -/
def fileText [SigPrinter 5 K] (f : File K) : List Char :=
  header ++ ("POINTS ".toList ++ intText f.pointCount ++ " double\n".toList ++ f.points.flatMap pointText) ++
    ("\nCELLS ".toList ++ intText f.cellCount ++ " ".toList ++ intText f.entryCount ++ "\n".toList ++ f.cells.flatMap cellText) ++
    ("\nCELL_TYPES ".toList ++ intText f.typeCount ++ "\n".toList ++ f.types.flatMap fun t => intText t ++ ['\n'])

variable [LinearOrder K] [Field K]

/-- `WriteFile` (vtk_writer.cc:20-46): the characters of the file. -/
def writeText [SigPrinter 5 K] (splines : List (Spl K)) (scat : List (List ℤ)) : M (List Char) := do
  let f ← writeFile splines scat
  return fileText f

/-- What `WriteSolutionToVTK` appends to the file (solution_vtk_writer.h:63-66). -/
def pointDataText [SigPrinter 5 K] (data : List K) : List Char :=
  "\nPOINT_DATA ".toList ++ natText data.length ++ "\nSCALARS solution float 1\nLOOKUP_TABLE default\n".toList ++
    data.flatMap fun x => numberText x ++ ['\n']

end Vtk

namespace Iga
variable {K : Type} [LinearOrder K] [Field K]

/-- `WriteSolutionToVTK` (solution_vtk_writer.h:34-69): the characters of the file. -/
def solutionText [SigPrinter 5 K] (s : Spl K) (solution : List K) (scat : List (List ℤ)) : M (List Char) := do
  let c ← getN scat 0
  let data ← solutionData s solution c
  let t ← Vtk.writeText [s] scat
  return t ++ Vtk.pointDataText data

end Iga
end SplineLib
