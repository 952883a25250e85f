import Mathlib.Algebra.BigOperators.Group.Finset.Basic
import Mathlib.Algebra.BigOperators.Intervals

/-!
# Specification of multi-indices
-/

namespace SplineLib
open Finset

/-- `ix` is an index of the box with side lengths `len`. -/
def ValidIx (len ix : List ℤ) : Prop := List.Forall₂ (fun i l => 0 ≤ i ∧ i < l) ix len

/-- All side lengths are positive. -/
def PosLen (len : List ℤ) : Prop := ∀ l ∈ len, 0 < l

/-- The position of `ix`, the first index running fastest: `Σ_d ix_d * Π_{e<d} len_e`. -/
def position (len ix : List ℤ) : ℤ :=
  ∑ d ∈ range len.length, ix.getD d 0 * (len.take d).prod

end SplineLib
