import Mathlib.Analysis.Real.Sqrt
import Verif.Model.PhysicalSpace
import Verif.Core.Unity

/-!
# Square roots and distances

`std::sqrt` is a parameter of the model (`HasSqrt`). Statements about distances assume that it is the exact non-negative square
root; the real numbers satisfy this.
-/

namespace SplineLib
set_option linter.unusedSectionVars false
open Finset

/-- `sqrt` is the exact non-negative square root. -/
class LawfulSqrt (K : Type) [Field K] [LinearOrder K] [HasSqrt K] : Prop where
  nonneg : ∀ x : K, 0 ≤ x → 0 ≤ HasSqrt.sqrt x
  sq : ∀ x : K, 0 ≤ x → HasSqrt.sqrt x * HasSqrt.sqrt x = x

noncomputable instance : HasSqrt ℝ := ⟨Real.sqrt⟩

instance : LawfulSqrt ℝ := ⟨fun x _ => Real.sqrt_nonneg x, fun _ h => Real.mul_self_sqrt h⟩

section
variable {K : Type} [Field K] [LinearOrder K] [IsStrictOrderedRing K]

theorem foldl_sq : ∀ (l : List K) (a : K), l.foldl (fun s x => s + x * x) a = a + (l.map fun x => x * x).sum
  | [], a => by simp
  | x :: l, a => by rw [List.foldl_cons, foldl_sq l, List.map_cons, List.sum_cons]; ring

theorem sum_sq_nonneg (l : List K) : 0 ≤ (l.map fun x => x * x).sum := by
  induction l with
  | nil => simp
  | cons x l ih => rw [List.map_cons, List.sum_cons]; exact add_nonneg (mul_self_nonneg x) ih

variable [HasSqrt K] [LawfulSqrt K]

theorem sqrt_zero : HasSqrt.sqrt (0 : K) = 0 := by
  have := LawfulSqrt.sq (0 : K) (le_refl _)
  exact mul_self_eq_zero.1 this

theorem sqrt_le_iff {x T : K} (hx : 0 ≤ x) (hT : 0 ≤ T) : HasSqrt.sqrt x ≤ T ↔ x ≤ T * T := by
  have h1 := LawfulSqrt.nonneg x hx
  have h2 := LawfulSqrt.sq x hx
  constructor
  · intro h
    rw [← h2]; exact mul_le_mul h h h1 hT
  · intro h
    by_contra hc
    rw [not_le] at hc
    have : T * T < HasSqrt.sqrt x * HasSqrt.sqrt x := mul_self_lt_mul_self hT hc
    rw [h2] at this
    exact absurd h (not_le.2 this)

theorem twoNorm_le_iff {v : List K} {T : K} (hT : 0 ≤ T) : Phys.twoNorm v ≤ T ↔ (v.map fun x => x * x).sum ≤ T * T := by
  unfold Phys.twoNorm
  rw [foldl_sq, zero_add, sqrt_le_iff (sum_sq_nonneg v) hT]

theorem twoNorm_nonneg (v : List K) : 0 ≤ Phys.twoNorm v := by
  unfold Phys.twoNorm
  apply LawfulSqrt.nonneg
  rw [foldl_sq, zero_add]
  exact sum_sq_nonneg v

theorem distance_nonneg (a b : List K) : 0 ≤ Phys.distance a b := twoNorm_nonneg _

theorem distance_map_le_iff {n : ℕ} {f g : ℕ → K} {T : K} (hT : 0 ≤ T) :
    Phys.distance ((List.range n).map f) ((List.range n).map g) ≤ T ↔ ∑ c ∈ range n, (f c - g c) * (f c - g c) ≤ T * T := by
  unfold Phys.distance
  rw [twoNorm_le_iff hT]
  have : (List.zipWith (· - ·) ((List.range n).map f) ((List.range n).map g)) = (List.range n).map fun c => f c - g c := by
    rw [List.zipWith_map, List.zipWith_self]
  rw [this, List.map_map]
  have e : ∀ h : ℕ → K, ((List.range n).map h).sum = ∑ c ∈ range n, h c := by
    intro h
    rw [← List.sum_toFinset h List.nodup_range]; congr 1; ext; simp
  rw [e]
  rfl

end
end SplineLib
