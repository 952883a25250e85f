import Mathlib.Order.Defs.LinearOrder
import Mathlib.Data.Int.Notation
import Mathlib.Data.Nat.Notation

/-!
# Elements (specification)
-/

namespace SplineLib

/-- The elements `es` of one direction tile the range of the knots `U`: they are the intervals between consecutive different knots. -/
def Tiles {K : Type} [LinearOrder K] (U : List K) (es : List (K × K)) : Prop :=
  ∃ ds : List K, ds.Pairwise (· < ·) ∧ (∀ x, x ∈ ds ↔ x ∈ U) ∧ es = ds.zip ds.tail

/-- The coordinates `x` lie in the element with the indices `e`, in every direction. -/
def InElement {K : Type} [LinearOrder K] : List (List (K × K)) → List ℤ → List K → Prop
  | E :: Es, e :: es, x :: xs => (∃ n : ℕ, ∃ ab : K × K, e = n ∧ E[n]? = some ab ∧ ab.1 ≤ x ∧ x < ab.2) ∧ InElement Es es xs
  | [], [], [] => True
  | _, _, _ => False

end SplineLib
