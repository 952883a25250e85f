import Verif.Model.Rounded
import Mathlib.Data.Int.Log
import Mathlib.Algebra.Order.Floor.Ring
import Mathlib.Tactic.Linarith
import Mathlib.Tactic.FieldSimp
import Mathlib.Tactic.Positivity
import Mathlib.Tactic.GCongr
import Mathlib.Tactic.Ring
import Mathlib.Tactic.NormNum

/-!
# Round to nearest, ties to even (helper definitions)

Binary floating point numbers with `t` bits and without bounds of the exponent.
-/

namespace SplineLib
set_option linter.unusedSectionVars false
variable {K : Type} [Field K] [LinearOrder K] [IsStrictOrderedRing K] [FloorRing K]

/-- The nearest integer; a tie goes to the even one. -/
def roundEven (y : K) : ℤ :=
  if y - ⌊y⌋ < 1 / 2 then ⌊y⌋ else if 1 / 2 < y - ⌊y⌋ then ⌊y⌋ + 1 else if Even ⌊y⌋ then ⌊y⌋ else ⌊y⌋ + 1

theorem roundEven_err (y : K) : |(roundEven y : K) - y| ≤ 1 / 2 := by
  have h1 := Int.floor_le y
  have h2 := Int.lt_floor_add_one y
  unfold roundEven
  split_ifs <;> rw [abs_le] <;> constructor <;> push_cast <;> linarith

theorem floor_le_roundEven (y : K) : ⌊y⌋ ≤ roundEven y := by
  unfold roundEven; split_ifs <;> omega

theorem roundEven_le_floor (y : K) : roundEven y ≤ ⌊y⌋ + 1 := by
  unfold roundEven; split_ifs <;> omega

theorem roundEven_mono {x y : K} (h : x ≤ y) : roundEven x ≤ roundEven y := by
  rcases eq_or_lt_of_le (Int.floor_le_floor h) with e | e
  · unfold roundEven
    rw [e]
    split_ifs <;> first | omega | (exfalso; linarith)
  · exact (roundEven_le_floor x).trans ((Int.add_one_le_iff.2 e).trans (floor_le_roundEven y))

theorem roundEven_int (n : ℤ) : roundEven (n : K) = n := by
  unfold roundEven; simp

theorem roundEven_neg (y : K) : roundEven (-y) = -roundEven y := by
  by_cases hi : (⌊y⌋ : K) = y
  · rw [← hi, ← Int.cast_neg, roundEven_int, roundEven_int]
  · have h1 := lt_of_le_of_ne (Int.floor_le y) hi
    have h2 := Int.lt_floor_add_one y
    have hf : ⌊-y⌋ = -⌊y⌋ - 1 := by
      rw [Int.floor_eq_iff]; push_cast; constructor <;> linarith
    unfold roundEven
    rw [hf]
    push_cast
    have hev : Even (-⌊y⌋ - 1) ↔ ¬ Even ⌊y⌋ := by
      rw [Int.even_sub_one, even_neg]
    split_ifs <;> first | omega | (exfalso; linarith) | (exfalso; tauto)

/-- The distance of neighbouring numbers with `t` bits around `x`. -/
def ulp (t : ℕ) (x : K) : K := 2 ^ (Int.log 2 |x| - t + 1 : ℤ)

/-- The nearest number with `t` bits. -/
def roundBits (t : ℕ) (x : K) : K := roundEven (x / ulp t x) * ulp t x

theorem ulp_pos (t : ℕ) (x : K) : 0 < ulp t x := zpow_pos two_pos _

theorem roundBits_neg (t : ℕ) (x : K) : roundBits t (-x) = -roundBits t x := by
  unfold roundBits ulp
  rw [abs_neg, neg_div, roundEven_neg]
  push_cast; ring

theorem roundBits_err (t : ℕ) (x : K) : |roundBits t x - x| ≤ (1 / 2) ^ t * |x| := by
  rcases eq_or_ne x 0 with rfl | hx
  · simp [roundBits, roundEven]
  have hu := ulp_pos t x
  have h1 := roundEven_err (x / ulp t x)
  have e : roundBits t x - x = (roundEven (x / ulp t x) - x / ulp t x) * ulp t x := by
    unfold roundBits; field_simp
  rw [e, abs_mul, abs_of_pos hu]
  have h2 : (2 : K) ^ Int.log 2 |x| ≤ |x| := Int.zpow_log_le_self (b := 2) (by norm_num) (abs_pos.2 hx)
  have h3 : ulp t x = 2 * (1 / 2) ^ t * 2 ^ Int.log 2 |x| := by
    unfold ulp
    rw [zpow_add₀ (by norm_num), zpow_sub₀ (by norm_num), zpow_natCast, zpow_one, one_div, inv_pow]
    field_simp
  calc _ ≤ 1 / 2 * ulp t x := mul_le_mul_of_nonneg_right h1 hu.le
    _ = (1 / 2) ^ t * 2 ^ Int.log 2 |x| := by rw [h3]; ring
    _ ≤ _ := by gcongr

theorem roundBits_zero (t : ℕ) : roundBits t (0 : K) = 0 := by simp [roundBits, roundEven]

/-- Numbers `n * 2^e` with at most `t` bits are not changed. -/
theorem roundBits_exact {t : ℕ} {x : K} (n : ℤ) (h : x = n * ulp t x) : roundBits t x = x := by
  have hu := ulp_pos t x
  unfold roundBits
  have : x / ulp t x = n := by rw [div_eq_iff hu.ne']; exact h
  rw [this, roundEven_int]; exact h.symm

theorem roundBits_nonneg (t : ℕ) {x : K} (h : 0 ≤ x) : 0 ≤ roundBits t x := by
  have hu := ulp_pos t x
  have : (0 : ℤ) ≤ roundEven (x / ulp t x) := by
    have := roundEven_mono (show ((0 : ℤ) : K) ≤ x / ulp t x by simp only [Int.cast_zero]; positivity)
    rwa [roundEven_int] at this
  unfold roundBits
  have h2 : (0 : K) ≤ (roundEven (x / ulp t x) : K) := by exact_mod_cast this
  positivity

theorem roundBits_mono_pos {t : ℕ} (ht : 1 ≤ t) {x y : K} (hx : 0 < x) (h : x ≤ y) : roundBits t x ≤ roundBits t y := by
  have hy := lt_of_lt_of_le hx h
  have hux := ulp_pos t x
  have huy := ulp_pos t y
  have hlog : Int.log 2 x ≤ Int.log 2 y := Int.log_mono_right hx h
  rcases eq_or_lt_of_le hlog with e | e
  · have eu : ulp t x = ulp t y := by unfold ulp; rw [abs_of_pos hx, abs_of_pos hy, e]
    unfold roundBits
    rw [eu]
    refine mul_le_mul_of_nonneg_right ?_ huy.le
    exact_mod_cast roundEven_mono (div_le_div_of_nonneg_right h huy.le)
  · have pow_split : ∀ (a : ℤ), (2 : K) ^ a = 2 ^ (a - t + 1) * 2 ^ (t - 1) := by
      intro a
      rw [← zpow_natCast, ← zpow_add₀ (by norm_num : (2 : K) ≠ 0)]
      congr 1; push_cast [ht]; ring
    have hu2 : (2 : K) ^ t * ulp t x = 2 ^ (Int.log 2 x + 1) := by
      unfold ulp
      rw [abs_of_pos hx, ← zpow_natCast, ← zpow_add₀ (by norm_num : (2 : K) ≠ 0)]
      congr 1; ring
    have h1 : roundBits t x ≤ 2 ^ (Int.log 2 x + 1) := by
      have hlt : x < 2 ^ (Int.log 2 x + 1) := Int.lt_zpow_succ_log_self (b := 2) (by norm_num) x
      have hxu : x / ulp t x ≤ ((2 ^ t : ℤ) : K) := by
        rw [div_le_iff₀ hux]
        refine hlt.le.trans (le_of_eq ?_)
        push_cast
        exact hu2.symm
      have := roundEven_mono hxu
      rw [roundEven_int] at this
      have h3 : (roundEven (x / ulp t x) : K) ≤ ((2 ^ t : ℤ) : K) := by exact_mod_cast this
      calc roundBits t x ≤ ((2 ^ t : ℤ) : K) * ulp t x := mul_le_mul_of_nonneg_right h3 hux.le
        _ = 2 ^ (Int.log 2 x + 1) := by push_cast; exact hu2
    have h2 : (2 : K) ^ Int.log 2 y ≤ roundBits t y := by
      have hle : (2 : K) ^ Int.log 2 y ≤ y := Int.zpow_log_le_self (b := 2) (by norm_num) hy
      have hyu : ((2 ^ (t - 1) : ℤ) : K) ≤ y / ulp t y := by
        rw [le_div_iff₀ huy]
        refine le_trans (le_of_eq ?_) hle
        push_cast
        unfold ulp
        rw [abs_of_pos hy, pow_split (Int.log 2 y)]
        ring
      have := roundEven_mono hyu
      rw [roundEven_int] at this
      have h3 : ((2 ^ (t - 1) : ℤ) : K) ≤ (roundEven (y / ulp t y) : K) := by exact_mod_cast this
      calc (2 : K) ^ Int.log 2 y = ((2 ^ (t - 1) : ℤ) : K) * ulp t y := by
            push_cast
            unfold ulp
            rw [abs_of_pos hy, pow_split (Int.log 2 y)]
            ring
        _ ≤ roundBits t y := mul_le_mul_of_nonneg_right h3 huy.le
    refine h1.trans (le_trans ?_ h2)
    exact zpow_le_zpow_right₀ (by norm_num) e

theorem roundBits_mono {t : ℕ} (ht : 1 ≤ t) {x y : K} (h : x ≤ y) : roundBits t x ≤ roundBits t y := by
  rcases lt_trichotomy x 0 with hx | rfl | hx
  · rcases lt_or_ge y 0 with hy | hy
    · have := roundBits_mono_pos ht (neg_pos.2 hy) (neg_le_neg h)
      rw [roundBits_neg, roundBits_neg] at this
      linarith
    · have h1 := roundBits_nonneg t (neg_nonneg.2 hx.le)
      rw [roundBits_neg] at h1
      have h2 := roundBits_nonneg t hy
      linarith
  · rw [roundBits_zero]; exact roundBits_nonneg t h
  · exact roundBits_mono_pos ht hx h

theorem log_kEps : Int.log 2 (kEps K) = -49 := by
  have h1 : (2 : K) ^ (-49 : ℤ) ≤ kEps K := by unfold kEps; norm_num
  have h2 : kEps K < (2 : K) ^ (-48 : ℤ) := by unfold kEps; norm_num
  have hp : (0 : K) < kEps K := by unfold kEps; norm_num
  have a : (-49 : ℤ) ≤ Int.log 2 (kEps K) := (Int.zpow_le_iff_le_log (b := 2) (by norm_num) hp).1 (by exact_mod_cast h1)
  have b : Int.log 2 (kEps K) < (-48 : ℤ) := (Int.lt_zpow_iff_log_lt (b := 2) (by norm_num) hp).1 (by exact_mod_cast h2)
  omega

/-- Arithmetic with `t ≥ 3` bits. -/
def binary (K : Type) [Field K] [LinearOrder K] [IsStrictOrderedRing K] [FloorRing K] (t : ℕ) (ht : 3 ≤ t) : Rounding K where
  rnd := roundBits t
  u := (1 / 2) ^ t
  u_nonneg := by positivity
  u_lt := pow_lt_one₀ (by norm_num) (by norm_num) (by omega)
  mono _ _ h := roundBits_mono (by omega) h
  neg := roundBits_neg t
  err := roundBits_err t
  eps := by
    refine roundBits_exact (5 * 2 ^ (t - 3)) ?_
    have hp : (0 : K) < kEps K := by unfold kEps; norm_num
    unfold ulp
    rw [abs_of_pos hp, log_kEps]
    push_cast
    rw [← zpow_natCast, mul_assoc, ← zpow_add₀ (by norm_num : (2 : K) ≠ 0)]
    rw [show ((t - 3 : ℕ) : ℤ) + (-49 - (t : ℤ) + 1) = -51 by push_cast [ht]; ring]
    unfold kEps; norm_num

end SplineLib
