import Verif.Model.VtkText
import Verif.Core.General

/-!
# Numbers printed with `p + 1` significant digits (helper lemmas)
-/

namespace SplineLib
set_option linter.unusedSectionVars false
open Str Prn

section
variable {K : Type} [Field K] [LinearOrder K] [IsStrictOrderedRing K] {p : ℕ}

section
variable [SigPrinter p K]

/-- The literal for given digits and exponent. -/
def sigDigitsLit (p : ℕ) (neg : Bool) (ds : List (Fin 10)) (e : ℤ) : DecLit :=
  if 0 ≤ e ∧ e ≤ p then ⟨neg, ds.take (e.toNat + 1), optFrac (trimZeros (ds.drop (e.toNat + 1))), none⟩
  else if -4 ≤ e ∧ e < 0 then ⟨neg, [0], optFrac (trimZeros (List.replicate (-e - 1).toNat 0 ++ ds)), none⟩
  else ⟨neg, ds.take 1, optFrac (trimZeros (ds.drop 1)), some (genExp e)⟩

/-- The literal that is printed. -/
def sigLit (p : ℕ) [SigPrinter p K] (x : K) : DecLit :=
  if SigPrinter.mant p x = 0 then ⟨SigPrinter.neg p x, [0], none, none⟩
  else sigDigitsLit p (SigPrinter.neg p x) (natDigs (SigPrinter.mant p x)) (SigPrinter.expo p x)

theorem sigDigitsLit_text (neg : Bool) (ds : List (Fin 10)) (e : ℤ) :
    (sigDigitsLit p neg ds e).text = (if neg then ['-'] else []) ++ Sig.digitsText p (ds.map digitChar) e := by
  unfold sigDigitsLit Sig.digitsText
  by_cases h1 : 0 ≤ e ∧ e ≤ p
  · rw [if_pos h1, if_pos h1, ← List.map_drop, ← List.map_take, dropZeros_digits]
    simp [DecLit.text, mantissa_optFrac, DecLit.expText]
  · rw [if_neg h1, if_neg h1]
    by_cases h2 : -4 ≤ e ∧ e < 0
    · rw [if_pos h2, if_pos h2]
      have : List.replicate (-e - 1).toNat '0' ++ ds.map digitChar = (List.replicate (-e - 1).toNat 0 ++ ds).map digitChar := by
        rw [List.map_append, List.map_replicate]; rfl
      rw [this, dropZeros_digits, DecLit.text, mantissa_optFrac, DecLit.expText]
      simp
      rfl
    · rw [if_neg h2, if_neg h2, ← List.map_drop, ← List.map_take, dropZeros_digits]
      simp [DecLit.text, mantissa_optFrac, DecLit.expText, genExp_text]

theorem sigLit_text (x : K) : (sigLit p x).text = Sig.text p x := by
  unfold sigLit Sig.text
  by_cases h : SigPrinter.mant p x = 0
  · rw [if_pos h, if_pos h]
    simp [DecLit.text, DecLit.mantissa, DecLit.expText]; rfl
  · rw [if_neg h, if_neg h, sigDigitsLit_text, natText_eq]

/-- The value of the printed number. -/
def sgd (p : ℕ) [SigPrinter p K] (x : K) : K := (if SigPrinter.neg p x then -1 else 1) * (SigPrinter.mant p x : K) * (10 : K) ^ (SigPrinter.expo p x - p)

theorem sigDigitsLit_value {neg : Bool} {ds : List (Fin 10)} (hl : ds.length = (p + 1)) (e : ℤ) :
    (sigDigitsLit p neg ds e).value K = (if neg then -1 else 1) * (digitsNum ds : K) * (10 : K) ^ (e - p) := by
  have h10 : (10 : K) ≠ 0 := by norm_num
  have hsplit : ∀ k, k ≤ (p + 1) → (digitsNum (ds.take k) : K) + (digitsNum (ds.drop k) : K) / 10 ^ (ds.drop k).length =
      (digitsNum ds : K) * (10 : K) ^ ((k : ℤ) - (p + 1)) := by
    intro k hk
    have e1 : (digitsNum ds : K) = digitsNum (ds.take k) * 10 ^ (ds.drop k).length + digitsNum (ds.drop k) := by
      rw [← List.take_append_drop k ds, digitsNum_append, List.take_append_drop]
      push_cast; rfl
    have e2 : (ds.drop k).length = (p + 1) - k := by rw [List.length_drop, hl]
    rw [e1, e2]
    have e3 : (10 : K) ^ ((k : ℤ) - (p + 1)) = 1 / 10 ^ ((p + 1) - k) := by
      rw [show (k : ℤ) - (p + 1) = -(((p + 1) - k : ℕ) : ℤ) by omega, zpow_neg, zpow_natCast, one_div]
    rw [e3]
    field_simp
  unfold sigDigitsLit
  by_cases h1 : 0 ≤ e ∧ e ≤ p
  · rw [if_pos h1]
    rw [value_optFrac, hsplit _ (by omega)]
    simp only [mul_one]
    rw [show (((e.toNat + 1 : ℕ) : ℤ) - (p + 1)) = e - p by omega]; ring
  · rw [if_neg h1]
    by_cases h2 : -4 ≤ e ∧ e < 0
    · rw [if_pos h2]
      rw [value_optFrac, digitsNum_append, digitsNum_zeros, List.length_append, List.length_replicate, hl]
      have e3 : (10 : K) ^ (e - p) = 1 / 10 ^ ((-e - 1).toNat + (p + 1)) := by
        rw [show e - p = -(((-e - 1).toNat + (p + 1) : ℕ) : ℤ) by omega, zpow_neg, zpow_natCast, one_div]
      rw [e3]
      simp [digitsNum]
      ring
    · rw [if_neg h2]
      rw [value_optFrac, hsplit 1 (by norm_num)]
      simp only
      rw [genExp_value, show e - p = ((1 : ℕ) : ℤ) - (p + 1) + e by push_cast; ring, zpow_add₀ h10]
      ring

/-- `%g` prints a nearest number among all those with at most `p + 1` significant decimal digits, and zero only for zero. -/
class LawfulSig (p : ℕ) (K : Type) [Field K] [LinearOrder K] extends SigPrinter p K where
  digits : ∀ x : K, mant x = 0 ∨ 10 ^ p ≤ mant x ∧ mant x < 10 ^ (p + 1)
  zero : ∀ x : K, mant x = 0 ↔ x = 0
  nearest : ∀ (x : K) (m k : ℤ), |m| < 10 ^ (p + 1) →
    |(if neg x then -1 else 1) * (mant x : K) * (10 : K) ^ (expo x - p) - x| ≤ |(m : K) * (10 : K) ^ k - x|
end

section
variable [LawfulSig p K]

theorem sgd_nearest (x : K) {m k : ℤ} (h : |m| < 10 ^ (p + 1)) : |sgd p x - x| ≤ |(m : K) * (10 : K) ^ k - x| := LawfulSig.nearest x m k h

/-- Numbers with at most `p + 1` significant digits are printed exactly. -/
theorem sgd_exact {m k : ℤ} (h : |m| < 10 ^ (p + 1)) : sgd p ((m : K) * (10 : K) ^ k) = (m : K) * (10 : K) ^ k := by
  have := sgd_nearest ((m : K) * (10 : K) ^ k) (k := k) h
  rw [sub_self, abs_zero] at this
  exact sub_eq_zero.1 (abs_eq_zero.1 (le_antisymm this (abs_nonneg _)))

theorem sgd_zero : sgd p (0 : K) = 0 := by
  unfold sgd
  rw [(LawfulSig.zero (0 : K)).2 rfl]; simp

theorem sgd_nat {n : ℕ} (h : n < 10 ^ (p + 1)) : sgd p (n : K) = n := by
  have := sgd_exact (K := K) (m := n) (k := 0) (by rw [abs_of_nonneg (by omega)]; exact_mod_cast h)
  simpa using this

theorem natDigs_sigMant {x : K} (h : SigPrinter.mant p x ≠ 0) : (natDigs (SigPrinter.mant p x)).length = (p + 1) := by
  have := (LawfulSig.digits (p := p) x).resolve_left h
  exact natDigs_length this.1 this.2

theorem sigLit_value (x : K) : (sigLit p x).value K = sgd p x := by
  unfold sigLit sgd
  by_cases h : SigPrinter.mant p x = 0
  · rw [if_pos h, h]; simp [DecLit.value, digitsNum]
  · rw [if_neg h, sigDigitsLit_value (natDigs_sigMant h), natDigs_num]

/-- Half a unit in the last place. -/
theorem sgd_ulp {x : K} (hx : x ≠ 0) : |sgd p x - x| ≤ (10 : K) ^ (SigPrinter.expo p x - p) / 2 := by
  have hm := (LawfulSig.digits (p := p) x).resolve_left fun h => hx ((LawfulSig.zero (p := p) x).1 h)
  have hu : (0 : K) < (10 : K) ^ (SigPrinter.expo p x - p) := zpow_pos (by norm_num) _
  set u := (10 : K) ^ (SigPrinter.expo p x - p) with hu_def
  -- the neighbours of the printed number have `p + 1` digits, too
  have key : ∀ d : ℤ, d = 1 ∨ d = -1 → |sgd p x - x| ≤ |sgd p x + d * u - x| := by
    intro d hd
    set s : ℤ := if SigPrinter.neg p x then -1 else 1 with hs
    have hs1 : s = 1 ∨ s = -1 := by rw [hs]; split <;> simp
    have eg : sgd p x = (s : K) * (SigPrinter.mant p x : K) * u := by
      unfold sgd
      rw [hs, hu_def]; split <;> simp
    have e2 : sgd p x + d * u = ((s * (SigPrinter.mant p x : ℤ) + d : ℤ) : K) * u := by
      rw [eg]; push_cast; ring
    by_cases hbig : |s * (SigPrinter.mant p x : ℤ) + d| < 10 ^ (p + 1)
    · rw [e2]
      exact sgd_nearest x hbig
    · have hz : s * (SigPrinter.mant p x : ℤ) + d = s * 10 ^ (p + 1) := by
        have h2 : (SigPrinter.mant p x : ℤ) < 10 ^ (p + 1) := by exact_mod_cast hm.2
        have h0 : (0 : ℤ) ≤ SigPrinter.mant p x := by omega
        rw [abs_lt, not_and_or] at hbig
        clear_value s
        rcases hs1 with rfl | rfl <;> rcases hd with rfl | rfl <;> omega
      rw [e2, hz]
      have h3 : (10 : ℤ) ^ p < 10 ^ (p + 1) := pow_lt_pow_right₀ (by norm_num) (by omega)
      have h0 : (0 : ℤ) ≤ 10 ^ p := by positivity
      have hsp : |s * 10 ^ p| < 10 ^ (p + 1) := by
        clear_value s
        rcases hs1 with rfl | rfl
        · rw [one_mul, abs_of_nonneg h0]; exact h3
        · rw [neg_one_mul, abs_neg, abs_of_nonneg h0]; exact h3
      have := sgd_nearest x (m := s * 10 ^ p) (k := SigPrinter.expo p x - p + 1) hsp
      rw [zpow_add_one₀ (by norm_num), ← hu_def] at this
      have e3 : ((s * 10 ^ p : ℤ) : K) * (u * 10) = ((s * 10 ^ (p + 1) : ℤ) : K) * u := by push_cast; ring
      rwa [e3] at this
  have k1 := key 1 (Or.inl rfl)
  have k2 := key (-1) (Or.inr rfl)
  push_cast at k1 k2
  rcases abs_cases (sgd p x - x) with ⟨h, h'⟩ | ⟨h, h'⟩ <;> rw [h] at k1 k2 ⊢
  · rcases abs_cases (sgd p x + -1 * u - x) with ⟨g, _⟩ | ⟨g, _⟩ <;> rw [g] at k2 <;> linarith
  · rcases abs_cases (sgd p x + 1 * u - x) with ⟨g, _⟩ | ⟨g, _⟩ <;> rw [g] at k1 <;> linarith

theorem abs_sgd (x : K) : |sgd p x| = (SigPrinter.mant p x : K) * (10 : K) ^ (SigPrinter.expo p x - p) := by
  unfold sgd
  rw [abs_mul, abs_mul, abs_of_nonneg (Nat.cast_nonneg (SigPrinter.mant p x) : (0 : K) ≤ _), abs_of_pos (zpow_pos (by norm_num) _ : (0 : K) < (10 : K) ^ (SigPrinter.expo p x - p))]
  split <;> simp

/-- The relative error. -/
theorem sgd_near (x : K) : |sgd p x - x| ≤ |x| / 10 ^ p := by
  by_cases hx : x = 0
  · rw [hx, sgd_zero]; simp
  have hm := (LawfulSig.digits (p := p) x).resolve_left fun h => hx ((LawfulSig.zero (p := p) x).1 h)
  have h1 := sgd_ulp (p := p) hx
  have h2 := abs_sgd (p := p) x
  have hu : (0 : K) < (10 : K) ^ (SigPrinter.expo p x - p) := zpow_pos (by norm_num) _
  generalize (10 : K) ^ (SigPrinter.expo p x - p) = u at h1 h2 hu
  have h3 : (10 : K) ^ p * u ≤ |sgd p x| := by
    rw [h2]
    exact mul_le_mul_of_nonneg_right (by exact_mod_cast hm.1) hu.le
  have h4 : |sgd p x| ≤ |sgd p x - x| + |x| := by
    have := abs_add_le (sgd p x - x) x
    rwa [sub_add_cancel] at this
  have hq : (1 : K) ≤ 10 ^ p := one_le_pow₀ (by norm_num)
  rw [le_div_iff₀ (by positivity)]
  have h5 := mul_le_mul_of_nonneg_right h1 (zero_le_one.trans hq)
  have h6 := mul_le_mul_of_nonneg_left hq hu.le
  generalize (10 : K) ^ p = q at h3 h5 h6 ⊢
  linarith

end

/-! ### An instance -/

variable [FloorRing K]

/-- The magnitude rounded half up to a multiple of `10 ^ (log - p)`. -/
def sigRound (p : ℕ) (x : K) : ℕ := ⌊|x| * (10 : K) ^ (p - Int.log 10 |x|) + 1 / 2⌋.toNat

theorem sigRound_spec {x : K} (hx : x ≠ 0) : 10 ^ p ≤ sigRound p x ∧ sigRound p x ≤ 10 ^ (p + 1) ∧
    ∀ z : ℤ, |(sigRound p x : K) - |x| * (10 : K) ^ (p - Int.log 10 |x|)| ≤ |(z : K) - |x| * (10 : K) ^ (p - Int.log 10 |x|)| := by
  have h10 : (10 : K) ≠ 0 := by norm_num
  have hpos : 0 < |x| := abs_pos.2 hx
  have h1 := Int.zpow_log_le_self (b := 10) (by norm_num) hpos
  have h2 := Int.lt_zpow_succ_log_self (b := 10) (by norm_num) |x|
  push_cast at h1 h2
  set L := Int.log 10 |x|
  have hu : (0 : K) < (10 : K) ^ (p - L) := zpow_pos (by norm_num) _
  have e1 : (10 : K) ^ L * (10 : K) ^ (p - L) = 10 ^ p := by
    rw [← zpow_add₀ h10, ← zpow_natCast]; congr 1; push_cast; ring
  have e2 : (10 : K) ^ (L + 1) * (10 : K) ^ (p - L) = 10 ^ (p + 1) := by
    rw [← zpow_add₀ h10, ← zpow_natCast]; congr 1; push_cast; ring
  have g1 : (10 : K) ^ p ≤ |x| * (10 : K) ^ (p - L) := by rw [← e1]; exact mul_le_mul_of_nonneg_right h1 hu.le
  have g2 : |x| * (10 : K) ^ (p - L) < 10 ^ (p + 1) := by rw [← e2]; exact mul_lt_mul_of_pos_right h2 hu
  unfold sigRound
  generalize |x| * (10 : K) ^ (p - L) = y at g1 g2
  have f1 := Int.floor_le (y + 1 / 2)
  have f2 := Int.lt_floor_add_one (y + 1 / 2)
  have b1 : (10 : ℤ) ^ p ≤ ⌊y + 1 / 2⌋ := by
    rw [Int.le_floor]; push_cast; linarith
  have b2 : ⌊y + 1 / 2⌋ ≤ (10 : ℤ) ^ (p + 1) := by
    rw [← Int.lt_add_one_iff, Int.floor_lt]; push_cast; linarith
  have hp1 : (1 : ℤ) ≤ 10 ^ p := one_le_pow₀ (by norm_num)
  have c1 : ((10 ^ p : ℕ) : ℤ) = 10 ^ p := by push_cast; rfl
  have c2 : ((10 ^ (p + 1) : ℕ) : ℤ) = 10 ^ (p + 1) := by push_cast; rfl
  refine ⟨by omega, by omega, fun z => ?_⟩
  have hc : ((⌊y + 1 / 2⌋.toNat : ℕ) : K) = ((⌊y + 1 / 2⌋ : ℤ) : K) := by
    rw [← Int.cast_natCast, Int.toNat_of_nonneg (by omega)]
  rw [hc]
  by_cases hz : z = ⌊y + 1 / 2⌋
  · rw [hz]
  · generalize ⌊y + 1 / 2⌋ = w at *
    have : |((w : ℤ) : K) - y| ≤ 1 / 2 := by rw [abs_le]; constructor <;> linarith
    refine this.trans ?_
    rcases lt_or_gt_of_ne hz with h | h
    · have h' : (z : K) + 1 ≤ w := by exact_mod_cast h
      rw [abs_sub_comm]
      exact le_trans (by linarith) (le_abs_self _)
    · have h' : (w : K) + 1 ≤ z := by exact_mod_cast h
      exact le_trans (by linarith) (le_abs_self _)

/-- The rounded magnitude is a nearest number with `p + 1` digits. -/
theorem sigRound_nearest {x : K} (hx : x ≠ 0) (m k : ℤ) (hm : |m| < 10 ^ (p + 1)) :
    |(sigRound p x : K) * (10 : K) ^ (Int.log 10 |x| - p) - (|x|)| ≤ |(m : K) * (10 : K) ^ k - x| := by
  obtain ⟨-, -, h3⟩ := sigRound_spec (p := p) hx
  have h10 : (10 : K) ≠ 0 := by norm_num
  have hpos : 0 < |x| := abs_pos.2 hx
  have hlow := Int.zpow_log_le_self (b := 10) (by norm_num) hpos
  push_cast at hlow
  set L := Int.log 10 |x|
  have hu : (0 : K) < (10 : K) ^ (L - p) := zpow_pos (by norm_num) _
  have hone : (10 : K) ^ (p - L) * (10 : K) ^ (L - p) = 1 := by rw [← zpow_add₀ h10]; simp
  -- multiples of the unit
  have hmul : ∀ z : ℤ, |(sigRound p x : K) * (10 : K) ^ (L - p) - (|x|)| ≤ |(z : K) * (10 : K) ^ (L - p) - (|x|)| := by
    intro z
    have := mul_le_mul_of_nonneg_right (h3 z) hu.le
    rw [← abs_of_pos hu, ← abs_mul, ← abs_mul, sub_mul, sub_mul, mul_assoc |x|, hone, mul_one] at this
    exact this
  have habs : |(|(m : K) * (10 : K) ^ k|) - (|x|)| ≤ |(m : K) * (10 : K) ^ k - x| := abs_abs_sub_abs_le _ _
  have hk0 : (0 : K) < (10 : K) ^ k := zpow_pos (by norm_num) _
  rw [abs_mul, abs_of_pos hk0] at habs
  refine le_trans ?_ habs
  by_cases hk : L - p ≤ k
  · obtain ⟨n, hn⟩ := Int.eq_ofNat_of_zero_le (by omega : 0 ≤ k - (L - p))
    have e : |(m : K)| * (10 : K) ^ k = ((|m| * 10 ^ n : ℤ) : K) * (10 : K) ^ (L - p) := by
      rw [show k = (n : ℤ) + (L - p) by omega, zpow_add₀ h10, zpow_natCast]
      push_cast; ring
    rw [e]
    exact hmul _
  · have e17 : (((10 : ℤ) ^ p : ℤ) : K) * (10 : K) ^ (L - p) = (10 : K) ^ L := by
      rw [Int.cast_pow, Int.cast_ofNat, ← zpow_natCast, ← zpow_add₀ h10]; congr 1; push_cast; ring
    have h1 := hmul (10 ^ p)
    rw [e17] at h1
    refine h1.trans ?_
    have hle : |(m : K)| * (10 : K) ^ k ≤ (10 : K) ^ L := by
      have a1 : |(m : K)| ≤ (10 : K) ^ (p + 1) := by exact_mod_cast hm.le
      calc |(m : K)| * (10 : K) ^ k ≤ (10 : K) ^ (p + 1) * (10 : K) ^ k := mul_le_mul_of_nonneg_right a1 hk0.le
        _ = (10 : K) ^ (k + (p + 1)) := by rw [← zpow_natCast, ← zpow_add₀ h10]; congr 1; push_cast; ring
        _ ≤ (10 : K) ^ L := zpow_le_zpow_right₀ (by norm_num) (by omega)
    have g1 : (10 : K) ^ L - |x| ≤ 0 := by linarith
    have g2 : |(m : K)| * (10 : K) ^ k - |x| ≤ 0 := by linarith
    rw [abs_of_nonpos g1, abs_of_nonpos g2]
    linarith

/-- Rounding half up (of the magnitude) to `p + 1` significant digits. -/
@[instance_reducible] def sigHalfUp (p : ℕ) (K : Type) [Field K] [LinearOrder K] [IsStrictOrderedRing K] [FloorRing K] : LawfulSig p K where
  neg x := decide (x < 0)
  mant x := if x = 0 then 0 else if sigRound p x = 10 ^ (p + 1) then 10 ^ p else sigRound p x
  expo x := if sigRound p x = 10 ^ (p + 1) then Int.log 10 |x| + 1 else Int.log 10 |x|
  digits x := by
    by_cases hx : x = 0
    · exact Or.inl (if_pos hx)
    · right
      obtain ⟨h1, h2, -⟩ := sigRound_spec (p := p) hx
      rw [if_neg hx]
      have h3 : 10 ^ p < 10 ^ (p + 1) := Nat.pow_lt_pow_right (by norm_num) (by omega)
      split
      · exact ⟨le_refl _, h3⟩
      · omega
  zero x := by
    by_cases hx : x = 0
    · simp [hx]
    · obtain ⟨h1, h2, -⟩ := sigRound_spec (p := p) hx
      rw [if_neg hx]
      have h3 : 0 < 10 ^ p := Nat.pow_pos (by norm_num)
      refine iff_of_false ?_ hx
      split <;> omega
  nearest x m k hm := by
    by_cases hx : x = 0
    · rw [hx]; simp only [if_true, Nat.cast_zero, mul_zero, zero_mul, sub_zero, abs_zero]; exact abs_nonneg _
    · have h := sigRound_nearest hx m k hm
      have e : ((if x = 0 then 0 else if sigRound p x = 10 ^ (p + 1) then 10 ^ p else sigRound p x : ℕ) : K) *
          (10 : K) ^ ((if sigRound p x = 10 ^ (p + 1) then Int.log 10 |x| + 1 else Int.log 10 |x|) - p) =
          (sigRound p x : K) * (10 : K) ^ (Int.log 10 |x| - p) := by
        rw [if_neg hx]
        by_cases hr : sigRound p x = 10 ^ (p + 1)
        · rw [if_pos hr, if_pos hr, hr, show Int.log 10 |x| + 1 - p = (Int.log 10 |x| - p) + 1 by ring, zpow_add_one₀ (by norm_num)]
          push_cast; ring
        · rw [if_neg hr, if_neg hr]
      rw [mul_assoc, e]
      refine le_trans (le_of_eq ?_) h
      by_cases hneg : x < 0
      · simp only [hneg, decide_true, if_true]
        rw [abs_of_neg hneg, ← abs_neg]; congr 1; ring
      · simp only [hneg, decide_false]
        rw [abs_of_nonneg (not_lt.1 hneg)]; simp
end
end SplineLib
