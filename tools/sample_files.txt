import Verif

/-
Reads and converts the sample files of /repo/test/io/test_files with the model. Not part of the build (it needs /repo); run with
  cd lean; cp ../tools/sample_files.txt /tmp/sample_files.lean; lake env lean /tmp/sample_files.lean
The expected values are those of test/io/xml_reader_test.cc, iges_reader_writer_test.cc, irit_reader_writer_test.cc,
io_converter_test.cc and io_converter_executables_test.cc. Files with a surface that the IGES writer wrote cannot be read: the reader reads two
values behind the data (C38), which the model reports as undefined behaviour. The file that the tests read has further values there.
-/

open SplineLib
attribute [local instance] halfUp genHalfUp sigHalfUp
open Conv Str
def W : Surroundings ℚ := ⟨fun _ _ => .error .ub, "13HTIME".toList, "13HTIME".toList⟩
def errS {α} (f : α → String) : M α → String
 | .error e => match e with | .ub => "ub" | .thrown _ => "thrown" | .nonfinite => "nonfinite" | .diverges => "diverges"
 | .ok l => f l
def eqs (tol : ℚ) (a b : M (List (Spl ℚ))) (ps : List (ℕ × ℕ)) : String := match a, b with
 | .ok l, .ok m => toString (l.length, m.length, ps.map fun (i, j) => match l[i]?, m[j]? with | some s, some t => toString (Spl.areEqualSpl t s tol) | _, _ => "none")
 | _, _ => "err"
def content (fs : Files) (n : String) : String := match fs n.toList with | some (.text t) => String.ofList t | some .unfinished => "UNF" | none => "NONE"
def go (inp out : String) (pos : List ℤ) (sc : List (List ℤ)) (ps : List (ℕ × ℕ)) (tol : ℚ) (n : ℕ := 0): IO Unit := do
  let t ← IO.FS.readFile ("/repo/test/io/test_files/" ++ inp)
  let fs : Files := fun n => if n = inp.toList then some (.text t.toList) else none
  let r := convert W fs inp.toList out.toList pos sc
  IO.println s!"{inp} {out} {errS (fun l : List ℤ => toString l) r.2}"
  let a := readContent W (Str.fileFormat inp.toList) (r.1 inp.toList)
  let b := readContent W (Str.fileFormat out.toList) (r.1 out.toList)
  IO.println (eqs tol a b ps)
  IO.println (String.ofList ((content r.1 out).toList.take n))
  if out.endsWith "vtk" then
    for l in (content r.1 out).splitOn "\n" do
      if l.startsWith "POINTS" || l.startsWith "CELL" then IO.println l
#eval go "read2.iges" "c.itd" [] [] [(0,0),(1,1)] (1/10^6)
#eval go "read.iges" "c.xml" [] [] [(0,0),(1,1)] (1/10^6)
#eval go "test.itd" "c.iges" [0,3] [] [(0,0),(3,1)] (1/10^6) 10
#eval go "test.itd" "c.xml" [1,4] [] [(1,0),(4,1)] (1/10^6) 
#eval go "spline_tank.xml" "c.iges" [1,2] [] [(1,0)] (1/10^6) 
#eval go "spline_tank.xml" "c.itd" [0,2,3] [] [(0,0)] (1/10^5) 
#eval go "read.iges" "c.vtk" [] [[20,30],[70]] [] (1/10^5) 
#eval go "test.itd" "c.vtk" [5] [[12,13,9]] [] (1/10^5) 
#eval go "test.itd" "c.vtk" [] [[30],[40],[10,5],[10,20],[5,8,5],[9,4,8]] [] (1/10^5) 
#eval go "test.itd" "c.iges" [] [] [(0,0),(1,1),(2,2),(3,3)] (1/10^6) 

def ev (r : M (List (Spl ℚ))) (i : ℕ) (x : List ℚ) (d : List ℕ) : String := match r with
 | .error _ => "err"
 | .ok l => match l[i]? with | none => "none" | some s => errS (fun v : List ℚ => toString v) (s.evaluate x d)
#eval do
  let t ← IO.FS.readFile "/repo/test/io/test_files/spline_tank.xml"
  let r := Xml.readText ℚ t.toList
  IO.println (ev r 0 [1,1] [0,1,2])
  IO.println (ev r 1 [0,0] [0,1,2])
  IO.println (ev r 2 [0,0,0,0] [0,1,2,3])
  IO.println (ev r 3 [0,0,0,0] [0,1,2,3])
#eval do
  let t ← IO.FS.readFile "/repo/test/io/test_files/read.iges"
  let r := Iges.readFile ℚ t.toList
  IO.println (ev r 1 [0] [0,1,2])
  IO.println (ev r 1 [1] [0,1,2])
  IO.println (ev r 0 [0,0] [0,1,2])
