import Verif.Tests.Util
import Verif.Model.Files
import Verif.Props.Files
import Mathlib.Data.Rat.Floor

/-!
# Unit tests of `test/io`, run on the model

Only one curve of test/io/test_files/test.itd are embedded here. The whole sample files (test.itd, read.iges, read2.iges, spline_tank.xml) take
minutes in the kernel; they were read and converted with the compiled model by tools/sample_files.txt.
-/

namespace SplineLib
namespace Tests
attribute [local instance] halfUp genHalfUp sigHalfUp

/-- A file with the given lines. -/
def joinLines (l : List String) : List Char := ['\n'].intercalate (l.map String.toList)

/-- test/io/test_files/test.itd:66-77. -/
def itd : List Char := joinLines
  ["     [OBJECT [rgb \"255,255,0\"] [transp 0]",
   "         [ObjWrapper _REFPTR_ATTR_NOT_CNVRTED_] CNURBS_000108",
   "         [CURVE BSPLINE 6 3 P2",
   "       [KV 0. 0. 0. 0.25 0.5",
   "            0.75 1. 1. 1.]",
   "       [0.5 0. 0.]",
   "       [0.5 0.5 0.15]",
   "       [0.5 1. 0.25]",
   "       [1. 0. 0.6]",
   "       [1. 1. 0.8]",
   "       [1. 2. 1.]",
   "         ]",
   "      ]"]

/-- irit_reader_writer_test.cc:31-47. -/
def iritB : M (Spl ℚ) := Spl.newBSpline
  [[0, 0, 0, 0.16666666666667, 0.33333333333333, 0.5, 0.66666666666667, 0.83333333333333, 1, 1, 1]] [2]
  [[0, 0, 0], [0.5, 0.5, 0], [0.5, 0.5, 1], [1, 1, 1], [2, 1, 0], [1.5, 0.5, -0.5], [0.8, 0.3, -0.4], [0.5, 0, 0]]

/-- irit_reader_writer_test.cc:57-71. -/
def iritN : M (Spl ℚ) := Spl.newNurbs [[0, 0, 0, 0.25, 0.5, 0.75, 1, 1, 1]] [2]
  [[0, 0], [1, 0.3], [2, 0.5], [0, 0.6], [1, 0.8], [2, 1]] [0.5, 0.5, 0.5, 1, 1, 1]

/-- Two splines have the same data, cached basis functions aside. -/
def sameData (a b : Spl ℚ) : Bool :=
  a.ps.knots == b.ps.knots && a.ps.degree == b.ps.degree && a.ph.cps == b.ph.cps && a.ph.weights == b.ph.weights

/-- The file has exactly the spline that the tests construct (irit_reader_writer_test.cc:208-241). -/
example : (match Irit.readFile ℚ itd, iritN with
    | .ok [s], .ok t => sameData s t
    | _, _ => false) = true := by decide +kernel

/-- The file with both curves (irit_reader_writer_test.cc:267). -/
def iritText : M (List Char) := do
  let a ← iritB
  let b ← iritN
  Irit.writeFile [a, b]

/-- The parts of the file (irit_reader_writer_test.cc:266-285). -/
example : (iritText.map fun t => ["[CURVE BSPLINE 8 3 E3", "[CURVE BSPLINE 6 3 P2", "[KV ", " 1.000000]", "[0.800000 0.300000 -0.400000]",
    "[0.500000 1.000000 0.250000]"].all fun p => decide (p.toList <:+: t)) = .ok true := by decide +kernel

/-- vtk_writer_test.cc:25-35. -/
def vtkN : M (Spl ℚ) := Spl.newNurbs [[0, 0, 0.5, 1, 1]] [1] [[4, -1], [5, 0], [5.2, 2]] [3, 0.5, 1.8]

/-- The scattering must have one entry for every spline, with one number for every dimension (vtk_writer_test.cc:131-153). -/
example : ∀ c ∈ ([[], [[100], [10]], [[]], [[100, 20]]] : List (List (List ℤ))),
    (vtkN.bind fun s => (Vtk.writeFile [s] c).map fun f => f.pointCount) = .error (.thrown .runtimeError) := by decide +kernel

/-- The numbers of the header (vtk_writer_test.cc:115-129: 2659 points, 2260 cells with 14940 entries). -/
example : (List.zipWith Vtk.numPoints [1, 2, 3] [[100], [40, 30], [10, 8, 12]]).sum = 2659 ∧
    (List.zipWith Vtk.numCells [1, 2, 3] [[100], [40, 30], [10, 8, 12]]).sum = 2260 ∧
    (List.zipWith (fun d n => n * Vtk.entriesPerCell d) [1, 2, 3]
      (List.zipWith Vtk.numCells [1, 2, 3] [[100], [40, 30], [10, 8, 12]])).sum = 14940 := by decide +kernel

/-- Formats that cannot be read or written (io_converter_test.cc:231-253). -/
example : (Conv.convert (K := ℚ) ⟨fun _ _ => .error .ub, [], []⟩ (fun _ => some (.text itd)) "file.vtk".toList "file.iges".toList [] []).2 =
      .error (.thrown .runtimeError) ∧
    (Conv.convert (K := ℚ) ⟨fun _ _ => .error .ub, [], []⟩ (fun _ => some (.text [])) "read.iges".toList "file.txt".toList [] []).2 =
      .error (.thrown .runtimeError) := by decide +kernel

end Tests
end SplineLib
