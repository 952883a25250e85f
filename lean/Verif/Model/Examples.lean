import Verif.Model.VtkText

/-!
# The example programs

Model of example/ex1.cc and example/testcase_optimizer.cc.
-/

namespace SplineLib
namespace Ex
variable {K : Type} [Field K] [LinearOrder K]

/-- The spline of `main` in ex1.cc (example/ex1.cc:24-39). -/
def ex1Spline : M (Spl K) :=
  Spl.newBSpline [[0, 0, 0, 1, 2, 3, 4, 4, 5, 5, 5]] [2]
    [[4, 2], [7, 3 / 2], [11, 2], [5 / 2, 9 / 2], [3, 43 / 10], [7, 3], [8, 5 / 2], [8, 1]]

/-- `main` of ex1.cc (example/ex1.cc:23-44): the value that it computes and does not use. -/
def ex1 : M (List K) := do
  let s ← ex1Spline
  s.evaluate [1] [0]

/-- Calling `WriteFile` through a pointer to a writer: undefined for the null pointer (example/testcase_optimizer.cc:36-38). The writer has
no data members (src/io/vtk_writer.h:25-51), so a pointer is null or not. -/
def callWriter [SigPrinter 5 K] (writer : Option Unit) (splines : List (Spl K)) (scat : List (List ℤ)) : M (List Char) :=
  match writer with
  | none => .error .ub
  | some _ => Vtk.writeText splines scat

/-- `createVTKFromControlPoints` (example/testcase_optimizer.cc:26-39), with the pointer as argument: the text of the file. -/
def createVtk [SigPrinter 5 K] (writer : Option Unit) (points : List (List K)) : M (List Char) := do
  let s ← Spl.newBSpline [[0, 0, 0, 1, 1, 1]] [2] points
  callWriter writer [s] [[100]]

/-- The loop over pairs of arguments (example/testcase_optimizer.cc:48-53). -/
def argPoints (atof : List Char → K) : List (List Char) → List (List K)
  | a :: b :: rest => [atof a, atof b] :: argPoints atof rest
  | _ => []

/-- `main` (example/testcase_optimizer.cc:41-58) up to the pointer; `args` are all arguments, the name of the program first. Converting the
arguments (`atof`) is a parameter; what is printed to the terminal is not modelled. -/
def optimizerWith [SigPrinter 5 K] (writer : Option Unit) (atof : List Char → K) (args : List (List Char)) : M (List Char) :=
  if args.length ≠ 3 then .error (.thrown .runtimeError)
  else createVtk writer ([-1, 0] :: argPoints atof args.tail ++ [[1, 0]])

/-- The program itself: `vtk_writer_` is declared without a value, it is the null pointer (example/testcase_optimizer.cc:36). -/
def optimizer [SigPrinter 5 K] (atof : List Char → K) (args : List (List Char)) : M (List Char) := optimizerWith none atof args

end Ex
end SplineLib
