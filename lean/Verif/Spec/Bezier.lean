import Mathlib.Algebra.BigOperators.Group.Finset.Basic
import Mathlib.Algebra.Field.Defs
import Mathlib.Data.Nat.Choose.Basic

/-!
# Bézier curves (specification)
-/

namespace SplineLib
open Finset

/-- The Bézier curve of degree `n` with control values `P 0, ..., P n` in Bernstein form. -/
def bezier {K : Type} [Field K] (n : ℕ) (P : ℕ → K) (t : K) : K :=
  ∑ j ∈ range (n + 1), (n.choose j : K) * t ^ j * (1 - t) ^ (n - j) * P j

/-- Coordinate `c` of the control point at index `j` of line `i` in a list of control points that stores lines of `w` points one
after the other. -/
def lineCoord {K : Type} [Field K] (w : ℕ) (l : List (List K)) (i c j : ℕ) : K := (l.getD (j + w * i) []).getD c 0

end SplineLib
