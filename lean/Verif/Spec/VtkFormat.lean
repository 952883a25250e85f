import Verif.Spec.Text
import Verif.Spec.Literal
import Mathlib.Algebra.Order.Group.Unbundled.Abs

/-!
# The legacy VTK file format (specification)

A file starts with three lines: the version, a title and the word `ASCII`. Then follow words separated by white space. Only what
unstructured grids with scalar point data need is described.
-/

namespace SplineLib
namespace VtkFormat

/-- White space. -/
def White (c : Char) : Prop := c = ' ' ∨ c = '\n' ∨ c = '\t' ∨ c = '\r' ∨ c = '\x0b' ∨ c = '\x0c'

/-- A word that is a natural number. -/
def IsNat (t : List Char) (n : ℕ) : Prop := ∃ ds : List (Fin 10), ds ≠ [] ∧ t = ds.map digitChar ∧ digitsNum ds = n

variable {K : Type} [Field K]

/-- A word that is a decimal number. -/
def IsNumber (t : List Char) (x : K) : Prop :=
  ∃ l : DecLit, l.int ≠ [] ∧ (∀ e, l.exp = some e → e.digits ≠ []) ∧ l.text = t ∧ l.value K = x

/-- The words of `n` points with their coordinates. -/
def PointWords (ts : List (List Char)) (points : List (List K)) : Prop :=
  ∃ n xs, ts = "POINTS".toList :: n :: "double".toList :: xs ∧ IsNat n points.length ∧ (∀ p ∈ points, p.length = 3) ∧
    List.Forall₂ IsNumber xs points.flatten

/-- The words of cells, each of which is given by the number of its points and their indices. -/
def CellWords (ts : List (List Char)) (cells : List (List ℕ)) : Prop :=
  ∃ n m xs, ts = "CELLS".toList :: n :: m :: xs ∧ IsNat n cells.length ∧ IsNat m (cells.map fun c => c.length + 1).sum ∧
    List.Forall₂ IsNat xs (cells.flatMap fun c => c.length :: c)

/-- The words of the cell types. -/
def TypeWords (ts : List (List Char)) (types : List ℕ) : Prop :=
  ∃ n xs, ts = "CELL_TYPES".toList :: n :: xs ∧ IsNat n types.length ∧ List.Forall₂ IsNat xs types

/-- The words of one value per point. -/
def DataWords (ts : List (List Char)) (name : List Char) (values : List K) : Prop :=
  ∃ n xs, ts = "POINT_DATA".toList :: n :: "SCALARS".toList :: name :: "float".toList :: "1".toList :: "LOOKUP_TABLE".toList ::
    "default".toList :: xs ∧ IsNat n values.length ∧ List.Forall₂ IsNumber xs values

/-- The first three lines and the words behind them. -/
def HasWords (text : List Char) (ts : List (List Char)) : Prop :=
  ∃ version title body, text = "# vtk DataFile Version ".toList ++ version ++ '\n' :: title ++ '\n' :: "ASCII\n".toList ++ body ∧
    '\n' ∉ version ∧ '\n' ∉ title ∧ title.length < 256 ∧ Tokens White body ts

/-- An unstructured grid: points, cells and their types. There is a type for every cell, and cells refer to points of the file.
`rest` are the words behind the grid. -/
def IsGrid (text : List Char) (points : List (List K)) (cells : List (List ℕ)) (types : List ℕ) (rest : List (List Char)) : Prop :=
  ∃ ps cs ts, HasWords text ("DATASET".toList :: "UNSTRUCTURED_GRID".toList :: (ps ++ cs ++ ts ++ rest)) ∧ PointWords ps points ∧
    CellWords cs cells ∧ TypeWords ts types ∧ types.length = cells.length ∧ ∀ c ∈ cells, ∀ i ∈ c, i < points.length

/-- `y` is a decimal number with at most `n` significant digits that is nearest to `x` among all those. -/
def NearestDecimal [LinearOrder K] (n : ℕ) (x y : K) : Prop :=
  (∃ m k : ℤ, |m| < 10 ^ n ∧ y = (m : K) * (10 : K) ^ k) ∧
    ∀ m k : ℤ, |m| < 10 ^ n → |y - x| ≤ |(m : K) * (10 : K) ^ k - x|

end VtkFormat
end SplineLib
