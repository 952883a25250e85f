import Verif.Model.IntRange
import Verif.Model.Vtk

/-!
# The VTK writer with the range of `int` (src/io/vtk_writer.cc, src/io/vtk_writer_utils.h)

In `Model/Vtk.lean` numbers of type `int` are unbounded. Here the counts, offsets and indices are computed with 32 bit integers: a result that
does not fit is undefined behaviour. Loop counters are bounded by numbers that have been checked. The evaluation of the splines is the exact one
(for its indices see `Model/IntRange.lean`).
-/

namespace SplineLib
namespace I32
open Vtk

/-- The loop of `operator--` (multi_index_handler.h:58-68). -/
def decrL : List ℤ → List ℤ → M (List ℤ)
  | l :: ls, c :: cs =>
    if c = 0 then do
      let l' ← int (l - 1)
      let rest ← decrL ls cs
      return l' :: rest
    else do
      let c' ← int (c - 1)
      return c' :: cs
  | _, cs => .ok cs

/-- `operator--` (multi_index_handler.h:58-68). -/
def decr (h : MIH) : M MIH := do
  let cur ← decrL h.len h.cur
  return { h with cur := cur }

/-- A step repeated `n` times. -/
def repeated (f : MIH → M MIH) : ℕ → MIH → M MIH
  | 0, h => .ok h
  | n + 1, h => do
    let h' ← f h
    repeated f n h'

/-- `operator+(int i)` (multi_index_handler.h:70-75); it changes the handler. -/
def forward (h : MIH) (i : ℤ) : M MIH := repeated incr i.toNat h

/-- `operator-(int i)` (multi_index_handler.h:77-82); it changes the handler. -/
def backward (h : MIH) (i : ℤ) : M MIH := repeated decr i.toNat h

/-- `point_handler.Get1DIndex() + offset` (vtk_writer.cc:144-147, 158-165). -/
def node (h : MIH) (off : ℤ) : M ℤ := do
  let i ← oneD h.len h.cur
  int (i + off)

/-- Entry `i` of `GetNumberOfAllPoints` (vtk_writer.cc:68-77, vtk_writer_utils.h:37-43). -/
def numPoints (dim : ℕ) (s : List ℤ) : M ℤ := do
  let l ← succs (s.take (used dim))
  scale l 1

/-- Entry `i` of `GetNumberOfAllCells` (vtk_writer.cc:79-88, vtk_writer_utils.h:37-43). -/
def numCells (dim : ℕ) (s : List ℤ) : M ℤ := scale (s.take (used dim)) 1

/-- The loop over the splines in `GetNumberOfAllPoints` and `GetNumberOfAllCells` (vtk_writer.cc:71-75, 82-86). -/
def counts (f : ℕ → List ℤ → M ℤ) : List ℕ → List (List ℤ) → M (List ℤ)
  | d :: ds, s :: ss => do
    let n ← f d s
    let rest ← counts f ds ss
    return n :: rest
  | _, _ => .ok []

/-- `std::accumulate(…, 0)` (vtk_writer.cc:31, 35, 38, 40). -/
def accumulate : List ℤ → ℤ → M ℤ
  | [], sum => .ok sum
  | a :: as, sum => do
    let sum' ← int (sum + a)
    accumulate as sum'

/-- `GetNumberOfCellEntries` (vtk_writer.cc:90-96). -/
def cellEntries : List ℕ → List ℤ → ℤ → M ℤ
  | d :: ds, n :: ns, sum => do
    let e ← int (n * entriesPerCell d)
    let sum' ← int (sum + e)
    cellEntries ds ns sum'
  | _, _, sum => .ok sum

section points
variable {K : Type} [LinearOrder K] [Field K]

/-- `WritePoints` (vtk_writer_utils.h:45-65). -/
def writePoints (s : Spl K) (scat : List ℤ) : M (List (List K)) := do
  let len ← succs scat
  let n ← length1D (MIH.mk' len)
  upLoop (fun h acc => do
    let x ← gridCoord s.ps.knots h.cur scat
    let l ← pointLine s x
    return acc ++ [l]) n.toNat (MIH.mk' len) []

/-- `AddPoints` (vtk_writer.cc:98-111). -/
def addPoints (s : Spl K) (scat : List ℤ) (dim : ℕ) : M (List (List K)) :=
  if dim = 1 ∨ dim = 2 ∨ dim = 3 then writePoints s (scat.take dim) else .error (.thrown .runtimeError)

/-- The loop over `AddPoints` (vtk_writer.cc:32-34). -/
def allPoints : List (Spl K) → List (List ℤ) → M (List (List K))
  | s :: ss, c :: cs => do
    let a ← addPoints s c s.ps.knots.length
    let r ← allPoints ss cs
    return a ++ r
  | _, _ => .ok []

end points

/-- `Write1DCells` (vtk_writer.cc:133-137). -/
def cells1 (s off : ℤ) : M (List (List ℤ)) :=
  buildList (fun i : ℕ => do
    let a ← int (i + off)
    let i' ← int ((i : ℤ) + 1)
    let b ← int (i' + off)
    return [2, a, b]) s.toNat

/-- The body of the loops of `Write2DCells` with the increment of the handler (vtk_writer.cc:142-150). -/
def step2 (s0 s1 off : ℤ) (st : MIH × List (List ℤ)) : M (MIH × List (List ℤ)) := do
  let h := st.1
  let i0 ← getN h.cur 0
  let i1 ← getN h.cur 1
  if i0 ≠ s0 ∧ i1 ≠ s1 then
    let a ← node h off
    let h ← forward h 1
    let b ← node h off
    let h ← forward h s0
    let h ← forward h 1
    let c ← node h off
    let h ← backward h 1
    let d ← node h off
    let z ← int (s0 + 1)
    let h ← backward h z
    let h ← incr h
    return (h, st.2 ++ [[4, a, b, c, d]])
  else
    let h ← incr h
    return (h, st.2)

/-- `Write2DCells` (vtk_writer.cc:139-152). -/
def cells2 (s0 s1 off : ℤ) : M (List (List ℤ)) := do
  let l0 ← int (s0 + 1)
  let l1 ← int (s1 + 1)
  let st ← times (times (step2 s0 s1 off) (s0 + 1).toNat) s1.toNat (MIH.mk' [l0, l1], [])
  return st.2

/-- The body of the loop of `Write3DCells` with the increment of the handler (vtk_writer.cc:156-168). -/
def step3 (s0 s1 s2 off : ℤ) (st : MIH × List (List ℤ)) : M (MIH × List (List ℤ)) := do
  let h := st.1
  let i0 ← getN h.cur 0
  let i1 ← getN h.cur 1
  let i2 ← getN h.cur 2
  if i0 ≠ s0 ∧ i1 ≠ s1 ∧ i2 ≠ s2 then
    let a ← node h off
    let h ← forward h 1
    let b ← node h off
    let h ← forward h s0
    let h ← forward h 1
    let c ← node h off
    let h ← backward h 1
    let d ← node h off
    let z ← int (s0 + 1)
    let y ← int (s1 * z)
    let h ← forward h y
    let e ← node h off
    let h ← forward h 1
    let f ← node h off
    let h ← forward h s0
    let h ← forward h 1
    let g ← node h off
    let h ← backward h 1
    let i ← node h off
    let z ← int (s0 + 1)
    let y ← int (s1 + 2)
    let x ← int (z * y)
    let h ← backward h x
    let h ← incr h
    return (h, st.2 ++ [[8, a, b, c, d, e, f, g, i]])
  else
    let h ← incr h
    return (h, st.2)

/-- The loop of `Write3DCells` (vtk_writer.cc:156); the first argument bounds the number of iterations. -/
def loop3 (s0 s1 s2 off : ℤ) : ℕ → MIH × List (List ℤ) → M (List (List ℤ))
  | 0, _ => .error .diverges
  | n + 1, st => do
    let i ← oneD st.1.len st.1.cur
    let l ← length1D st.1
    let l' ← int (l - 1)
    if i < l' then
      let st ← step3 s0 s1 s2 off st
      loop3 s0 s1 s2 off n st
    else .ok st.2

/-- `Write3DCells` (vtk_writer.cc:154-169). -/
def cells3 (s0 s1 s2 off : ℤ) : M (List (List ℤ)) := do
  let l0 ← int (s0 + 1)
  let l1 ← int (s1 + 1)
  let l2 ← int (s2 + 1)
  let h := MIH.mk' [l0, l1, l2]
  loop3 s0 s1 s2 off (h.length1D.toNat + 1) (h, [])

/-- `AddCells` (vtk_writer.cc:113-121). -/
def addCells (s : List ℤ) (off : ℤ) (dim : ℕ) : M (List (List ℤ)) :=
  if dim = 1 then do
    let a ← getN s 0
    cells1 a off
  else if dim = 2 then do
    let a ← getN s 0
    let b ← getN s 1
    cells2 a b off
  else if dim = 3 then do
    let a ← getN s 0
    let b ← getN s 1
    let c ← getN s 2
    cells3 a b c off
  else .ok []

/-- The loop over `AddCells` (vtk_writer.cc:37-39); `done` holds the numbers of points of the splines passed already. -/
def allCells : List ℕ → List (List ℤ) → List ℤ → List ℤ → M (List (List ℤ))
  | d :: ds, c :: cs, done, n :: ns => do
    let off ← accumulate done 0
    let a ← addCells c off d
    let r ← allCells ds cs (done ++ [n]) ns
    return a ++ r
  | _, _, _, _ => .ok []

/-- `AddCellTypes` (vtk_writer.cc:123-131) with `WriteCellTypes` (vtk_writer_utils.h:67-71). -/
def addCellTypes (dim : ℕ) (s : List ℤ) : M (List ℤ) :=
  if dim = 1 then do
    let n ← scale (s.take 1) 1
    return List.replicate n.toNat 3
  else if dim = 2 then do
    let n ← scale (s.take 2) 1
    return List.replicate n.toNat 9
  else if dim = 3 then do
    let n ← scale (s.take 3) 1
    return List.replicate n.toNat 12
  else .ok []

/-- The loop over `AddCellTypes` (vtk_writer.cc:41-43). -/
def allTypes : List ℕ → List (List ℤ) → M (List ℤ)
  | d :: ds, c :: cs => do
    let a ← addCellTypes d c
    let r ← allTypes ds cs
    return a ++ r
  | _, _ => .ok []

/-- `WriteFile` (vtk_writer.cc:20-46), for a file that can be opened. -/
def writeVtk {K : Type} [LinearOrder K] [Field K] (splines : List (Spl K)) (scat : List (List ℤ)) : M (File K) := do
  let dims := splines.map fun s => s.ps.knots.length
  if scat.length ≠ dims.length then .error (.thrown .runtimeError) else
  checkSizes scat dims
  let cellNs ← counts numCells dims scat
  let pointNs ← counts numPoints dims scat
  let pc ← accumulate pointNs 0
  let pts ← allPoints splines scat
  let cc ← accumulate cellNs 0
  let ec ← cellEntries dims cellNs 0
  let cs ← allCells dims scat [] pointNs
  let ts ← allTypes dims scat
  return { pointCount := pc, points := pts, cellCount := cc, entryCount := ec, cells := cs, typeCount := cc, types := ts }

end I32
end SplineLib
