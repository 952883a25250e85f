import Verif.Spec.Spline

/-!
# Specification of sampling grids and of VTK cells

A grid of dimension `D` has `ns` intervals per direction, hence `ns_d + 1` points. Points are numbered with the first direction running
fastest.
-/

namespace SplineLib
namespace Vtk

/-- The corners of the unit segment, square or cube in the order that VTK prescribes for the cell types 3 (line), 9 (quadrilateral)
and 12 (hexahedron). -/
def corners : ℕ → List (List ℕ)
  | 1 => [[0], [1]]
  | 2 => [[0, 0], [1, 0], [1, 1], [0, 1]]
  | 3 => [[0, 0, 0], [1, 0, 0], [1, 1, 0], [0, 1, 0], [0, 0, 1], [1, 0, 1], [1, 1, 1], [0, 1, 1]]
  | _ => []

/-- The number of the grid point with multi-index `I`. -/
def pointNumber (ns I : List ℕ) : ℕ := lin (ns.map (· + 1)) I

/-- The line of the cell with lower corner `c`, for a grid whose points start at number `off`: the number of corners and their
point numbers. -/
def cellLine (ns : List ℕ) (off : ℕ) (c : List ℕ) : List ℤ :=
  ((2 ^ ns.length : ℕ) : ℤ) :: (corners ns.length).map fun e => ((off + pointNumber ns (List.zipWith (· + ·) c e) : ℕ) : ℤ)

/-- `cells` lists every cell of the grid exactly once. -/
def ListsCells (ns : List ℕ) (off : ℕ) (cells : List (List ℤ)) : Prop :=
  ∃ cs : List (List ℕ), cs.Nodup ∧ (∀ c, c ∈ cs ↔ InBox ns c) ∧ cells = cs.map (cellLine ns off)

/-- The number of points of a grid. -/
def gridPoints (ns : List ℕ) : ℕ := (ns.map (· + 1)).prod

/-- `cells` lists the cells of several grids one after the other, the points of which are numbered consecutively from `off`. -/
def ListsAllCells : List (List ℕ) → ℕ → List (List ℤ) → Prop
  | [], _, cells => cells = []
  | ns :: rest, off, cells => ∃ a b, cells = a ++ b ∧ ListsCells ns off a ∧ ListsAllCells rest (off + gridPoints ns) b

/-- The VTK cell type for a dimension: line, quadrilateral, hexahedron. -/
def cellType : ℕ → ℤ
  | 1 => 3
  | 2 => 9
  | 3 => 12
  | _ => 0

variable {K : Type} [Field K] [LinearOrder K]

/-- The parametric coordinates of the grid point `I`: the parameter range of every direction divided into `ns_d` equal parts. -/
def gridParam (Us : List (List K)) (ns I : List ℕ) : List K :=
  List.zipWith (fun U (q : ℕ × ℕ) => knot U 0 + (q.2 : K) * (lastKnot U - knot U 0) / (q.1 : K)) Us (ns.zip I)

/-- A coordinate of the geometry: of the B-spline or of the NURBS. -/
def splineValue (s : Spl K) (x : List K) (c : ℕ) : K :=
  match s.ph.weights with
  | none => bsplineValue s x c
  | some _ => nurbsValue s x c

/-- Three coordinates: missing ones are zero. -/
def padded (s : Spl K) (x : List K) : List K := (List.range 3).map fun c => if c < s.ph.dim then splineValue s x c else 0

end Vtk
end SplineLib
