import Verif.Model.Outcome
import Mathlib.Algebra.Order.Ring.Rat
import Mathlib.Tactic.NormNum
import Mathlib.Tactic.Linarith

/-!
# Specification of knot vectors
-/

namespace SplineLib
variable {K : Type} [Field K] [LinearOrder K]

/-- The `i`-th knot (`0` beyond the end, never used there). -/
def knot (U : List K) (i : ℕ) : K := U.getD i 0

/-- The last knot. -/
def lastKnot (U : List K) : K := knot U (U.length - 1)

/-- Sorted knots. -/
def SortedKnots (U : List K) : Prop := U.Pairwise (· ≤ ·)

/-- Knots that differ are at least `kEpsilon = 10 * 2^-52` apart. -/
def Separated (U : List K) : Prop := ∀ a ∈ U, ∀ b ∈ U, a < b → kEps K ≤ b - a

/-- The knot vectors that splines of degree `p` live on: sorted, at least `2p+2` knots, first and last knot of
multiplicity at least `p+1`, a non-empty parameter range, different knots at least `kEpsilon` apart. Interior
multiplicities are arbitrary. -/
structure WFKnots (U : List K) (p : ℕ) : Prop where
  sorted : SortedKnots U
  size : 2 * p + 2 ≤ U.length
  first : ∀ j ≤ p, knot U j = knot U 0
  last : ∀ j ≤ p, knot U (U.length - 1 - j) = lastKnot U
  range : knot U 0 < lastKnot U
  sep : Separated U

instance (U : List K) : Decidable (SortedKnots U) := by unfold SortedKnots; infer_instance
instance (U : List K) : Decidable (Separated U) := by unfold Separated; infer_instance

theorem wfKnots_iff (U : List K) (p : ℕ) : WFKnots U p ↔
    (SortedKnots U ∧ 2 * p + 2 ≤ U.length ∧ (∀ j ≤ p, knot U j = knot U 0) ∧
      (∀ j ≤ p, knot U (U.length - 1 - j) = lastKnot U) ∧ knot U 0 < lastKnot U ∧ Separated U) :=
  ⟨fun h => ⟨h.sorted, h.size, h.first, h.last, h.range, h.sep⟩,
   fun ⟨a, b, c, d, e, f⟩ => ⟨a, b, c, d, e, f⟩⟩

instance (U : List K) (p : ℕ) : Decidable (WFKnots U p) := decidable_of_iff _ (wfKnots_iff U p).symm

/-- A concrete well-formed knot vector of degree 2 with a double interior knot. -/
example : WFKnots [0, 0, 0, 1/4, 1/2, 1/2, 3, 3, 3] (2 : ℕ) (K := ℚ) := by decide +kernel

end SplineLib
