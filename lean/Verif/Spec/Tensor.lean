import Mathlib.Data.Nat.Cast.Defs
import Mathlib.Data.Int.Cast.Basic
import Mathlib.Algebra.BigOperators.Group.Finset.Basic
import Mathlib.Algebra.BigOperators.Ring.Finset

/-!
# Specification of tensor product sums
-/

namespace SplineLib
open Finset

/-- Integer version of a list of natural numbers. -/
abbrev zl (l : List ℕ) : List ℤ := l.map (Nat.cast : ℕ → ℤ)

/-- Position of the multi-index `is` in the box `ns`, first index running fastest. -/
def lin : List ℕ → List ℕ → ℕ
  | n :: ns, i :: is => i + n * lin ns is
  | _, _ => 0

/-- `is` is a multi-index of the box `ns`. -/
def InBox (ns is : List ℕ) : Prop := List.Forall₂ (fun i n => i < n) is ns

/-- Sum over all multi-indices `(i_1, ..., i_D)` with `i_d < ns_d` (nested sums, one per direction). -/
def msum {R : Type*} [AddCommMonoid R] : List ℕ → (List ℕ → R) → R
  | [], f => f []
  | n :: ns, f => ∑ i ∈ range n, msum ns fun t => f (i :: t)

/-- Product over the directions of `b_d (i_d)`. -/
def dprod {R : Type*} [CommSemiring R] : List (ℕ → R) → List ℕ → R
  | b :: bs, i :: is => b i * dprod bs is
  | _, _ => 1

end SplineLib
