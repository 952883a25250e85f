import Verif.Model.Spline

/-!
# Model of `io::VTKWriter` (src/io/vtk_writer.cc, src/io/vtk_writer_utils.h)

The written file is modelled by its numbers: the counts in the section headers and the numbers of every line. The characters are
modelled in `Model/VtkText.lean`. A spline object of any dimension is a `Spl K`; its dimension is the number of its knot
vectors.
-/

namespace SplineLib
namespace Vtk

variable {K : Type} [LinearOrder K] [Field K]

/-- `VTKWriterUtils::NumberOfCells(scattering)` (vtk_writer_utils.h:37-43). -/
def numberOfCells (s : List ℤ) : ℤ := s.foldl (· * ·) 1

/-- The entries of a scattering that `GetNumberOfAllPoints`/`GetNumberOfAllCells` use for a spline dimension (vtk_writer.cc:72-74,
83-85). -/
def used (dim : ℕ) : ℕ := if dim = 1 then 1 else if dim = 2 then 2 else 3

/-- Entry `i` of `GetNumberOfAllPoints` (vtk_writer.cc:68-77). -/
def numPoints (dim : ℕ) (s : List ℤ) : ℤ := numberOfCells ((s.take (used dim)).map (· + 1))

/-- Entry `i` of `GetNumberOfAllCells` (vtk_writer.cc:79-88). -/
def numCells (dim : ℕ) (s : List ℤ) : ℤ := numberOfCells (s.take (used dim))

/-- The number of entries per cell (vtk_writer.cc:93). -/
def entriesPerCell (dim : ℕ) : ℤ := if dim = 1 then 3 else if dim = 2 then 5 else 9

/-- The parametric coordinate of a grid point (vtk_writer_utils.h:28-35, 58-60). -/
def gridCoord : List (List K) → List ℤ → List ℤ → M (List K)
  | U :: Us, i :: is, n :: ns => do
    let a ← kvGet U 0
    let b ← kvLast U
    let q ← fdiv ((i : K) * (b - a)) (n : K)
    let r ← gridCoord Us is ns
    return (a + q) :: r
  | _, _, _ => .ok []

/-- One line of the section `POINTS` (vtk_writer_utils.h:61-63). -/
def pointLine (s : Spl K) (x : List K) : M (List K) :=
  buildList (fun k => if k < s.ph.dim then do
      let v ← s.evaluate x [(k : ℤ)]
      getN v 0
    else .ok 0) 3

/-- `WritePoints` (vtk_writer_utils.h:52-65). -/
def writePoints (s : Spl K) (scat : List ℤ) : M (List (List K)) :=
  let h := MIH.mk' (scat.map (· + 1))
  upLoop (fun h acc => do
    let x ← gridCoord s.ps.knots h.cur scat
    let l ← pointLine s x
    return acc ++ [l]) h.length1D.toNat h []

/-- `Write1DCells` (vtk_writer.cc:133-137). -/
def cells1 (s off : ℤ) : List (List ℤ) := (List.range s.toNat).map fun i : ℕ => [2, i + off, i + 1 + off]

/-- The body of the loops of `Write2DCells` with the increment of the handler (vtk_writer.cc:142-150). `operator+` and `operator-`
change the handler. -/
def step2 (s0 s1 off : ℤ) (st : MIH × List (List ℤ)) : M (MIH × List (List ℤ)) := do
  let h := st.1
  let i0 ← getN h.cur 0
  let i1 ← getN h.cur 1
  if i0 ≠ s0 ∧ i1 ≠ s1 then
    let a := h.get1D + off
    let h := h.plus 1
    let b := h.get1D + off
    let h := h.plus (s0 + 1)
    let c := h.get1D + off
    let h := h.minus 1
    let d := h.get1D + off
    let h := h.minus (s0 + 1)
    return (h.incr, st.2 ++ [[4, a, b, c, d]])
  else return (h.incr, st.2)

/-- `n` executions of a loop body. -/
def times {σ : Type} (body : σ → M σ) : ℕ → σ → M σ
  | 0, st => .ok st
  | n + 1, st => do
    let st ← body st
    times body n st

/-- `Write2DCells` (vtk_writer.cc:139-152). -/
def cells2 (s0 s1 off : ℤ) : M (List (List ℤ)) := do
  let st ← times (times (step2 s0 s1 off) (s0 + 1).toNat) s1.toNat (MIH.mk' [s0 + 1, s1 + 1], [])
  return st.2

/-- The body of the loop of `Write3DCells` with the increment of the handler (vtk_writer.cc:156-168). -/
def step3 (s0 s1 s2 off : ℤ) (st : MIH × List (List ℤ)) : M (MIH × List (List ℤ)) := do
  let h := st.1
  let i0 ← getN h.cur 0
  let i1 ← getN h.cur 1
  let i2 ← getN h.cur 2
  if i0 ≠ s0 ∧ i1 ≠ s1 ∧ i2 ≠ s2 then
    let a := h.get1D + off
    let h := h.plus 1
    let b := h.get1D + off
    let h := h.plus (s0 + 1)
    let c := h.get1D + off
    let h := h.minus 1
    let d := h.get1D + off
    let h := h.plus (s1 * (s0 + 1))
    let e := h.get1D + off
    let h := h.plus 1
    let f := h.get1D + off
    let h := h.plus (s0 + 1)
    let g := h.get1D + off
    let h := h.minus 1
    let i := h.get1D + off
    let h := h.minus ((s0 + 1) * (s1 + 2))
    return (h.incr, st.2 ++ [[8, a, b, c, d, e, f, g, i]])
  else return (h.incr, st.2)

/-- The loop of `Write3DCells`: `for (; Get1DIndex() < Get1DLength() - 1; ++point_handler)`. The first argument bounds the number of
iterations. -/
def loop3 (s0 s1 s2 off : ℤ) : ℕ → MIH × List (List ℤ) → M (List (List ℤ))
  | 0, _ => .error .diverges
  | n + 1, st =>
    if st.1.get1D < st.1.length1D - 1 then do
      let st ← step3 s0 s1 s2 off st
      loop3 s0 s1 s2 off n st
    else .ok st.2

/-- `Write3DCells` (vtk_writer.cc:154-169). The handler returns to its initial state after `Get1DLength()` increments, so a loop that
has not ended by then never ends. -/
def cells3 (s0 s1 s2 off : ℤ) : M (List (List ℤ)) :=
  let h := MIH.mk' [s0 + 1, s1 + 1, s2 + 1]
  loop3 s0 s1 s2 off (h.length1D.toNat + 1) (h, [])

/-- `AddCells` (vtk_writer.cc:113-121). -/
def addCells (s : List ℤ) (off : ℤ) (dim : ℕ) : M (List (List ℤ)) :=
  if dim = 1 then do
    let a ← getN s 0
    return cells1 a off
  else if dim = 2 then do
    let a ← getN s 0
    let b ← getN s 1
    cells2 a b off
  else if dim = 3 then do
    let a ← getN s 0
    let b ← getN s 1
    let c ← getN s 2
    cells3 a b c off
  else .ok []

/-- `AddCellTypes` (vtk_writer.cc:123-131) with `WriteCellTypes` (vtk_writer_utils.h:67-71). -/
def addCellTypes (s : List ℤ) (dim : ℕ) : List ℤ :=
  if dim = 1 then List.replicate (numberOfCells (s.take 1)).toNat 3
  else if dim = 2 then List.replicate (numberOfCells (s.take 2)).toNat 9
  else if dim = 3 then List.replicate (numberOfCells (s.take 3)).toNat 12
  else []

/-- `AddPoints` (vtk_writer.cc:98-111). -/
def addPoints (s : Spl K) (scat : List ℤ) (dim : ℕ) : M (List (List K)) :=
  if dim = 1 ∨ dim = 2 ∨ dim = 3 then writePoints s (scat.take dim) else .error (.thrown .runtimeError)

/-- The second loop of `ThrowIfScatteringHasWrongSizes` (vtk_writer.cc:61-65). -/
def checkSizes : List (List ℤ) → List ℕ → M Unit
  | s :: ss, d :: ds => if s.length ≠ d then .error (.thrown .runtimeError) else checkSizes ss ds
  | _, _ => .ok ()

/-- The numbers in a written file. -/
structure File (K : Type) where
  pointCount : ℤ
  points : List (List K)
  cellCount : ℤ
  entryCount : ℤ
  cells : List (List ℤ)
  typeCount : ℤ
  types : List ℤ
  deriving DecidableEq, Repr

/-- The loop over `AddPoints` (vtk_writer.cc:32-34). -/
def allPoints : List (Spl K) → List (List ℤ) → M (List (List K))
  | s :: ss, c :: cs => do
    let a ← addPoints s c s.ps.knots.length
    let r ← allPoints ss cs
    return a ++ r
  | _, _ => .ok []

/-- The loop over `AddCells` (vtk_writer.cc:37-39); `off` is the sum of the numbers of points of the splines passed already. -/
def allCells : List ℕ → List (List ℤ) → ℤ → M (List (List ℤ))
  | d :: ds, c :: cs, off => do
    let a ← addCells c off d
    let r ← allCells ds cs (off + numPoints d c)
    return a ++ r
  | _, _, _ => .ok []

/-- `WriteFile` (vtk_writer.cc:20-46), for a file that can be opened. -/
def writeFile (splines : List (Spl K)) (scat : List (List ℤ)) : M (File K) := do
  let dims := splines.map fun s => s.ps.knots.length
  if scat.length ≠ dims.length then .error (.thrown .runtimeError) else
  checkSizes scat dims
  let cellNs := List.zipWith numCells dims scat
  let pointNs := List.zipWith numPoints dims scat
  let pts ← allPoints splines scat
  let cs ← allCells dims scat 0
  return { pointCount := pointNs.foldl (· + ·) 0
           points := pts
           cellCount := cellNs.foldl (· + ·) 0
           entryCount := (List.zipWith (fun d n => n * entriesPerCell d) dims cellNs).foldl (· + ·) 0
           cells := cs
           typeCount := cellNs.foldl (· + ·) 0
           types := (List.zipWith (fun d c => addCellTypes c d) dims scat).flatten }

end Vtk
end SplineLib
