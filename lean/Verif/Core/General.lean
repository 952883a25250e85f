import Verif.Model.Iges
import Verif.Core.Printing
import Mathlib.Data.Int.Log
import Mathlib.Tactic.Ring
import Mathlib.Tactic.Positivity
import Mathlib.Tactic.LinearCombination

/-!
# Numbers printed with 18 significant digits (helper lemmas)
-/

namespace SplineLib
set_option linter.unusedSectionVars false
open Str Prn

/-! ### Digits -/

theorem digitsNum_append (a b : List (Fin 10)) : digitsNum (a ++ b) = digitsNum a * 10 ^ b.length + digitsNum b := by
  induction a with
  | nil => simp [digitsNum]
  | cons d a ih => rw [List.cons_append, digitsNum, digitsNum, ih, List.length_append, pow_add]; ring

theorem digitsNum_zeros (k : ℕ) : digitsNum (List.replicate k 0) = 0 := by
  induction k with
  | zero => rfl
  | succ k ih => rw [List.replicate_succ, digitsNum, ih]; simp

theorem digitsNum_lt (ds : List (Fin 10)) : digitsNum ds < 10 ^ ds.length := by
  induction ds with
  | nil => simp [digitsNum]
  | cons d ds ih =>
    rw [digitsNum, List.length_cons, pow_succ]
    have := d.isLt
    have h : (d : ℕ) * 10 ^ ds.length ≤ 9 * 10 ^ ds.length := Nat.mul_le_mul_right _ (by omega)
    omega

theorem natDigs_length {n k : ℕ} (h1 : 10 ^ k ≤ n) (h2 : n < 10 ^ (k + 1)) : (natDigs n).length = k + 1 := by
  induction k generalizing n with
  | zero => rw [natDigs, if_pos (by simpa using h2)]; rfl
  | succ k ih =>
    have hp : 1 ≤ 10 ^ k := Nat.one_le_pow _ _ (by norm_num)
    have e1 : 10 ^ (k + 1) = 10 * 10 ^ k := by ring
    have e2 : 10 ^ (k + 1 + 1) = 10 * (10 * 10 ^ k) := by ring
    rw [natDigs, if_neg (by omega), List.length_append, ih (by omega) (by omega)]; rfl

/-- Digits without the trailing zeros. -/
def trimZeros (ds : List (Fin 10)) : List (Fin 10) := (ds.reverse.dropWhile fun d => d == 0).reverse

theorem trimZeros_split (ds : List (Fin 10)) : ∃ k, ds = trimZeros ds ++ List.replicate k 0 := by
  refine ⟨(ds.reverse.takeWhile fun d => d == 0).length, ?_⟩
  have h1 := congrArg List.reverse (List.takeWhile_append_dropWhile (p := fun d : Fin 10 => d == 0) (l := ds.reverse))
  rw [List.reverse_append, List.reverse_reverse] at h1
  have h2 : ds.reverse.takeWhile (fun d => d == 0) = List.replicate (ds.reverse.takeWhile fun d => d == 0).length 0 :=
    List.eq_replicate_of_mem fun b hb => by simpa using List.mem_takeWhile_imp hb
  conv_lhs => rw [← h1]
  unfold trimZeros
  congr 1
  conv_lhs => rw [h2]
  rw [List.reverse_replicate]

theorem dropZeros_digits (ds : List (Fin 10)) : Iges.dropZeros (ds.map digitChar) = (trimZeros ds).map digitChar := by
  have hz : ∀ d : Fin 10, (digitChar d == '0') = (d == 0) := by decide
  have key : ∀ l : List (Fin 10), (l.map digitChar).dropWhile (fun c => c == '0') = (l.dropWhile fun d => d == 0).map digitChar := by
    intro l
    induction l with
    | nil => rfl
    | cons d l ih =>
      rw [List.map_cons, List.dropWhile_cons, List.dropWhile_cons, hz]
      split
      · exact ih
      · rfl
  unfold Iges.dropZeros trimZeros
  rw [← List.map_reverse, key, ← List.map_reverse]

/-- The digits behind the point, if there are any. -/
def optFrac (ds : List (Fin 10)) : Option (List (Fin 10)) := if ds.isEmpty then none else some ds

theorem mantissa_optFrac (n : Bool) (i f : List (Fin 10)) (x : Option ExpPart) :
    DecLit.mantissa ⟨n, i, optFrac f, x⟩ = i.map digitChar ++ Iges.pointed (f.map digitChar) := by
  unfold Iges.pointed optFrac DecLit.mantissa
  cases f <;> simp

section
variable {K : Type} [Field K] [LinearOrder K] [IsStrictOrderedRing K]

theorem value_optFrac (n : Bool) (i ds : List (Fin 10)) (x : Option ExpPart) :
    DecLit.value K ⟨n, i, optFrac (trimZeros ds), x⟩ = (if n then -1 else 1) *
      ((digitsNum i : K) + (digitsNum ds : K) / 10 ^ ds.length) * (match x with | none => 1 | some e => (10 : K) ^ e.value) := by
  obtain ⟨k, hk⟩ := trimZeros_split ds
  have h10 : (10 : K) ≠ 0 := by norm_num
  have e : DecLit.value K ⟨n, i, optFrac (trimZeros ds), x⟩ = (if n then -1 else 1) *
      ((digitsNum i : K) + (digitsNum (trimZeros ds) : K) / 10 ^ (trimZeros ds).length) *
        (match x with | none => 1 | some e => (10 : K) ^ e.value) := by
    unfold optFrac DecLit.value
    cases trimZeros ds <;> cases x <;> simp [digitsNum]
  rw [e]
  generalize trimZeros ds = t at hk
  subst hk
  rw [digitsNum_append, digitsNum_zeros, List.length_append, List.length_replicate, pow_add]
  push_cast
  rw [add_zero, mul_div_mul_right _ _ (pow_ne_zero _ h10)]

/-! ### The printed literal -/

section
variable [GenPrinter K]

/-- The exponent part. -/
def genExp (e : ℤ) : ExpPart := ⟨false, some (decide (e < 0)), (if e.natAbs < 10 then [0] else []) ++ natDigs e.natAbs⟩

theorem genExp_text (e : ℤ) : (genExp e).text = Iges.exponentText e := by
  unfold genExp ExpPart.text Iges.exponentText
  rw [natText_eq]
  by_cases h : e < 0 <;> by_cases h2 : e.natAbs < 10 <;> simp [h, h2] <;> rfl

theorem genExp_value (e : ℤ) : (genExp e).value = e := by
  have hd : digitsNum ((if e.natAbs < 10 then [0] else []) ++ natDigs e.natAbs) = e.natAbs := by
    rw [digitsNum_append, natDigs_num]
    split <;> simp [digitsNum]
  unfold ExpPart.value genExp
  simp only [hd]
  by_cases h : e < 0
  · rw [if_pos (by simp [h])]; omega
  · rw [if_neg (by simp [h])]; omega

/-- The literal for given digits and exponent. -/
def digitsLit (neg : Bool) (ds : List (Fin 10)) (e : ℤ) : DecLit :=
  if 0 ≤ e ∧ e < 18 then ⟨neg, ds.take (e.toNat + 1), optFrac (trimZeros (ds.drop (e.toNat + 1))), none⟩
  else if -4 ≤ e ∧ e < 0 then ⟨neg, [0], optFrac (trimZeros (List.replicate (-e - 1).toNat 0 ++ ds)), none⟩
  else ⟨neg, ds.take 1, optFrac (trimZeros (ds.drop 1)), some (genExp e)⟩

/-- The literal that is printed. -/
def generalLit (x : K) : DecLit :=
  if GenPrinter.mant x = 0 then ⟨GenPrinter.neg x, [0], none, none⟩
  else digitsLit (GenPrinter.neg x) (natDigs (GenPrinter.mant x)) (GenPrinter.expo x)

theorem digitsLit_text (neg : Bool) (ds : List (Fin 10)) (e : ℤ) :
    (digitsLit neg ds e).text = (if neg then ['-'] else []) ++ Iges.generalDigits (ds.map digitChar) e := by
  unfold digitsLit Iges.generalDigits
  by_cases h1 : 0 ≤ e ∧ e < 18
  · rw [if_pos h1, if_pos h1, ← List.map_drop, ← List.map_take, dropZeros_digits]
    simp [DecLit.text, mantissa_optFrac, DecLit.expText]
  · rw [if_neg h1, if_neg h1]
    by_cases h2 : -4 ≤ e ∧ e < 0
    · rw [if_pos h2, if_pos h2]
      have : List.replicate (-e - 1).toNat '0' ++ ds.map digitChar = (List.replicate (-e - 1).toNat 0 ++ ds).map digitChar := by
        rw [List.map_append, List.map_replicate]; rfl
      rw [this, dropZeros_digits, DecLit.text, mantissa_optFrac, DecLit.expText]
      simp
      rfl
    · rw [if_neg h2, if_neg h2, ← List.map_drop, ← List.map_take, dropZeros_digits]
      simp [DecLit.text, mantissa_optFrac, DecLit.expText, genExp_text]

theorem generalLit_text (x : K) : (generalLit x).text = Iges.generalText x := by
  unfold generalLit Iges.generalText
  by_cases h : GenPrinter.mant x = 0
  · rw [if_pos h, if_pos h]
    simp [DecLit.text, DecLit.mantissa, DecLit.expText]; rfl
  · rw [if_neg h, if_neg h, digitsLit_text, natText_eq]

/-- The value of the printed number. -/
def gd (x : K) : K := (if GenPrinter.neg x then -1 else 1) * (GenPrinter.mant x : K) * (10 : K) ^ (GenPrinter.expo x - 17)

theorem digitsLit_value {neg : Bool} {ds : List (Fin 10)} (hl : ds.length = 18) (e : ℤ) :
    (digitsLit neg ds e).value K = (if neg then -1 else 1) * (digitsNum ds : K) * (10 : K) ^ (e - 17) := by
  have h10 : (10 : K) ≠ 0 := by norm_num
  have hsplit : ∀ k, k ≤ 18 → (digitsNum (ds.take k) : K) + (digitsNum (ds.drop k) : K) / 10 ^ (ds.drop k).length =
      (digitsNum ds : K) * (10 : K) ^ ((k : ℤ) - 18) := by
    intro k hk
    have e1 : (digitsNum ds : K) = digitsNum (ds.take k) * 10 ^ (ds.drop k).length + digitsNum (ds.drop k) := by
      rw [← List.take_append_drop k ds, digitsNum_append, List.take_append_drop]
      push_cast; rfl
    have e2 : (ds.drop k).length = 18 - k := by rw [List.length_drop, hl]
    rw [e1, e2]
    have e3 : (10 : K) ^ ((k : ℤ) - 18) = 1 / 10 ^ (18 - k) := by
      rw [show (k : ℤ) - 18 = -((18 - k : ℕ) : ℤ) by omega, zpow_neg, zpow_natCast, one_div]
    rw [e3]
    field_simp
  unfold digitsLit
  by_cases h1 : 0 ≤ e ∧ e < 18
  · rw [if_pos h1]
    rw [value_optFrac, hsplit _ (by omega)]
    simp only [mul_one]
    rw [show (((e.toNat + 1 : ℕ) : ℤ) - 18) = e - 17 by omega]; ring
  · rw [if_neg h1]
    by_cases h2 : -4 ≤ e ∧ e < 0
    · rw [if_pos h2]
      rw [value_optFrac, digitsNum_append, digitsNum_zeros, List.length_append, List.length_replicate, hl]
      have e3 : (10 : K) ^ (e - 17) = 1 / 10 ^ ((-e - 1).toNat + 18) := by
        rw [show e - 17 = -(((-e - 1).toNat + 18 : ℕ) : ℤ) by omega, zpow_neg, zpow_natCast, one_div]
      rw [e3]
      simp [digitsNum]
      ring
    · rw [if_neg h2]
      rw [value_optFrac, hsplit 1 (by norm_num)]
      simp only
      rw [genExp_value, show e - 17 = ((1 : ℕ) : ℤ) - 18 + e by norm_num; ring, zpow_add₀ h10]
      ring

/-- `%.18g` prints a nearest number among all those with at most 18 significant decimal digits, and zero only for zero. -/
class LawfulGen (K : Type) [Field K] [LinearOrder K] extends GenPrinter K where
  digits : ∀ x : K, mant x = 0 ∨ 10 ^ 17 ≤ mant x ∧ mant x < 10 ^ 18
  zero : ∀ x : K, mant x = 0 ↔ x = 0
  nearest : ∀ (x : K) (m k : ℤ), |m| < 10 ^ 18 →
    |(if neg x then -1 else 1) * (mant x : K) * (10 : K) ^ (expo x - 17) - x| ≤ |(m : K) * (10 : K) ^ k - x|
end

section
variable [LawfulGen K]

theorem gd_nearest (x : K) {m k : ℤ} (h : |m| < 10 ^ 18) : |gd x - x| ≤ |(m : K) * (10 : K) ^ k - x| := LawfulGen.nearest x m k h

/-- Numbers with at most 18 significant digits are printed exactly. -/
theorem gd_exact {m k : ℤ} (h : |m| < 10 ^ 18) : gd ((m : K) * (10 : K) ^ k) = (m : K) * (10 : K) ^ k := by
  have := gd_nearest ((m : K) * (10 : K) ^ k) (k := k) h
  rw [sub_self, abs_zero] at this
  exact sub_eq_zero.1 (abs_eq_zero.1 (le_antisymm this (abs_nonneg _)))

theorem gd_zero : gd (0 : K) = 0 := by
  unfold gd
  rw [(LawfulGen.zero (0 : K)).2 rfl]; simp

theorem gd_nat {n : ℕ} (h : n < 10 ^ 18) : gd (n : K) = n := by
  have := gd_exact (K := K) (m := n) (k := 0) (by rw [abs_of_nonneg (by omega)]; exact_mod_cast h)
  simpa using this

theorem natDigs_mant {x : K} (h : GenPrinter.mant x ≠ 0) : (natDigs (GenPrinter.mant x)).length = 18 := by
  have := (LawfulGen.digits x).resolve_left h
  exact natDigs_length this.1 this.2

theorem generalLit_value (x : K) : (generalLit x).value K = gd x := by
  unfold generalLit gd
  by_cases h : GenPrinter.mant x = 0
  · rw [if_pos h, h]; simp [DecLit.value, digitsNum]
  · rw [if_neg h, digitsLit_value (natDigs_mant h), natDigs_num]

/-- Half a unit in the last place. -/
theorem gd_ulp {x : K} (hx : x ≠ 0) : |gd x - x| ≤ (10 : K) ^ (GenPrinter.expo x - 17) / 2 := by
  have hm := (LawfulGen.digits x).resolve_left fun h => hx ((LawfulGen.zero x).1 h)
  have hu : (0 : K) < (10 : K) ^ (GenPrinter.expo x - 17) := zpow_pos (by norm_num) _
  set u := (10 : K) ^ (GenPrinter.expo x - 17) with hu_def
  -- the neighbours of the printed number have 18 digits, too
  have key : ∀ d : ℤ, d = 1 ∨ d = -1 → |gd x - x| ≤ |gd x + d * u - x| := by
    intro d hd
    set s : ℤ := if GenPrinter.neg x then -1 else 1 with hs
    have hs1 : s = 1 ∨ s = -1 := by rw [hs]; split <;> simp
    have eg : gd x = (s : K) * (GenPrinter.mant x : K) * u := by
      unfold gd
      rw [hs, hu_def]; split <;> simp
    have e2 : gd x + d * u = ((s * (GenPrinter.mant x : ℤ) + d : ℤ) : K) * u := by
      rw [eg]; push_cast; ring
    by_cases hbig : |s * (GenPrinter.mant x : ℤ) + d| < 10 ^ 18
    · rw [e2]
      exact gd_nearest x hbig
    · have hz : s * (GenPrinter.mant x : ℤ) + d = s * 10 ^ 18 := by
        have h2 : (GenPrinter.mant x : ℤ) < 10 ^ 18 := by exact_mod_cast hm.2
        have h0 : (0 : ℤ) ≤ GenPrinter.mant x := by omega
        rw [abs_lt, not_and_or] at hbig
        clear_value s
        rcases hs1 with rfl | rfl <;> rcases hd with rfl | rfl <;> omega
      rw [e2, hz]
      have := gd_nearest x (m := s * 10 ^ 17) (k := GenPrinter.expo x - 17 + 1) (by rcases hs1 with h | h <;> rw [h] <;> norm_num)
      rw [zpow_add_one₀ (by norm_num), ← hu_def] at this
      have e3 : ((s * 10 ^ 17 : ℤ) : K) * (u * 10) = ((s * 10 ^ 18 : ℤ) : K) * u := by push_cast; ring
      rwa [e3] at this
  have k1 := key 1 (Or.inl rfl)
  have k2 := key (-1) (Or.inr rfl)
  push_cast at k1 k2
  rcases abs_cases (gd x - x) with ⟨h, h'⟩ | ⟨h, h'⟩ <;> rw [h] at k1 k2 ⊢
  · rcases abs_cases (gd x + -1 * u - x) with ⟨g, _⟩ | ⟨g, _⟩ <;> rw [g] at k2 <;> linarith
  · rcases abs_cases (gd x + 1 * u - x) with ⟨g, _⟩ | ⟨g, _⟩ <;> rw [g] at k1 <;> linarith

theorem abs_gd (x : K) : |gd x| = (GenPrinter.mant x : K) * (10 : K) ^ (GenPrinter.expo x - 17) := by
  unfold gd
  rw [abs_mul, abs_mul, abs_of_nonneg (Nat.cast_nonneg (GenPrinter.mant x) : (0 : K) ≤ _), abs_of_pos (zpow_pos (by norm_num) _ : (0 : K) < (10 : K) ^ (GenPrinter.expo x - 17))]
  split <;> simp

/-- The relative error. -/
theorem gd_near (x : K) : |gd x - x| ≤ |x| / 10 ^ 17 := by
  by_cases hx : x = 0
  · rw [hx, gd_zero]; simp
  have hm := (LawfulGen.digits x).resolve_left fun h => hx ((LawfulGen.zero x).1 h)
  have h1 := gd_ulp hx
  have h2 := abs_gd x
  have hu : (0 : K) < (10 : K) ^ (GenPrinter.expo x - 17) := zpow_pos (by norm_num) _
  generalize (10 : K) ^ (GenPrinter.expo x - 17) = u at h1 h2 hu
  have h3 : (10 : K) ^ 17 * u ≤ |gd x| := by
    rw [h2]
    exact mul_le_mul_of_nonneg_right (by exact_mod_cast hm.1) hu.le
  have h4 : |gd x| ≤ |gd x - x| + |x| := by
    have := abs_add_le (gd x - x) x
    rwa [sub_add_cancel] at this
  rw [le_div_iff₀ (by norm_num)]
  norm_num at h3 ⊢
  linarith

/-- The decimal exponent of the printed number. -/
theorem expo_bounds {x : K} (hx : x ≠ 0) {a b : ℤ} (h1 : (10 : K) ^ a ≤ |x|) (h2 : |x| ≤ (10 : K) ^ b) :
    a ≤ GenPrinter.expo x ∧ GenPrinter.expo x ≤ b := by
  have hm := (LawfulGen.digits x).resolve_left fun h => hx ((LawfulGen.zero x).1 h)
  have h3 := gd_ulp hx
  have h4 := abs_gd x
  have h10 : (1 : K) < 10 := by norm_num
  have hu : (0 : K) < (10 : K) ^ (GenPrinter.expo x - 17) := zpow_pos (by norm_num) _
  have e : (10 : K) ^ GenPrinter.expo x = 10 ^ 17 * (10 : K) ^ (GenPrinter.expo x - 17) := by
    rw [← zpow_natCast, ← zpow_add₀ (by norm_num)]; congr 1; push_cast; ring
  have e' : (10 : K) ^ (GenPrinter.expo x + 1) = 10 ^ 18 * (10 : K) ^ (GenPrinter.expo x - 17) := by
    rw [← zpow_natCast, ← zpow_add₀ (by norm_num)]; congr 1; push_cast; ring
  have hm1 : (10 : K) ^ 17 * (10 : K) ^ (GenPrinter.expo x - 17) ≤ |gd x| := by
    rw [h4]; exact mul_le_mul_of_nonneg_right (by exact_mod_cast hm.1) hu.le
  have hm2 : |gd x| ≤ (10 ^ 18 - 1 : K) * (10 : K) ^ (GenPrinter.expo x - 17) := by
    rw [h4]
    refine mul_le_mul_of_nonneg_right ?_ hu.le
    have : (GenPrinter.mant x : K) + 1 ≤ 10 ^ 18 := by exact_mod_cast hm.2
    linarith
  have t1 : |gd x| ≤ |gd x - x| + |x| := by
    have := abs_add_le (gd x - x) x
    rwa [sub_add_cancel] at this
  have t2 : |x| ≤ |gd x - x| + |gd x| := by
    have := abs_add_le (x - gd x) (gd x)
    rwa [sub_add_cancel, abs_sub_comm] at this
  generalize hU : (10 : K) ^ (GenPrinter.expo x - 17) = u at *
  constructor
  · by_contra hlt
    have : (10 : K) ^ (GenPrinter.expo x + 1) ≤ 10 ^ a := zpow_le_zpow_right₀ h10.le (by omega)
    rw [e'] at this
    linarith
  · by_contra hlt
    have : (10 : K) ^ (b + 1) ≤ 10 ^ GenPrinter.expo x := zpow_le_zpow_right₀ h10.le (by omega)
    rw [zpow_add_one₀ (by norm_num), e] at this
    norm_num at this hm1
    have hb : (0 : K) < (10 : K) ^ b := zpow_pos (by norm_num) _
    linarith
end

/-! ### An instance -/

variable [FloorRing K]

/-- The magnitude rounded half up to a multiple of `10 ^ (log - 17)`. -/
def genRound (x : K) : ℕ := ⌊|x| * (10 : K) ^ (17 - Int.log 10 |x|) + 1 / 2⌋.toNat

theorem genRound_spec {x : K} (hx : x ≠ 0) : 10 ^ 17 ≤ genRound x ∧ genRound x ≤ 10 ^ 18 ∧
    ∀ z : ℤ, |(genRound x : K) - |x| * (10 : K) ^ (17 - Int.log 10 |x|)| ≤ |(z : K) - |x| * (10 : K) ^ (17 - Int.log 10 |x|)| := by
  have h10 : (10 : K) ≠ 0 := by norm_num
  have hpos : 0 < |x| := abs_pos.2 hx
  have h1 := Int.zpow_log_le_self (b := 10) (by norm_num) hpos
  have h2 := Int.lt_zpow_succ_log_self (b := 10) (by norm_num) |x|
  push_cast at h1 h2
  set L := Int.log 10 |x|
  have hu : (0 : K) < (10 : K) ^ (17 - L) := zpow_pos (by norm_num) _
  have e1 : (10 : K) ^ L * (10 : K) ^ (17 - L) = 10 ^ 17 := by
    rw [← zpow_add₀ h10, ← zpow_natCast]; congr 1; push_cast; ring
  have e2 : (10 : K) ^ (L + 1) * (10 : K) ^ (17 - L) = 10 ^ 18 := by
    rw [← zpow_add₀ h10, ← zpow_natCast]; congr 1; push_cast; ring
  have g1 : (10 : K) ^ 17 ≤ |x| * (10 : K) ^ (17 - L) := by rw [← e1]; exact mul_le_mul_of_nonneg_right h1 hu.le
  have g2 : |x| * (10 : K) ^ (17 - L) < 10 ^ 18 := by rw [← e2]; exact mul_lt_mul_of_pos_right h2 hu
  unfold genRound
  generalize |x| * (10 : K) ^ (17 - L) = y at g1 g2
  have f1 := Int.floor_le (y + 1 / 2)
  have f2 := Int.lt_floor_add_one (y + 1 / 2)
  have b1 : (10 : ℤ) ^ 17 ≤ ⌊y + 1 / 2⌋ := by
    rw [Int.le_floor]; push_cast; linarith
  have b2 : ⌊y + 1 / 2⌋ ≤ (10 : ℤ) ^ 18 := by
    rw [← Int.lt_add_one_iff, Int.floor_lt]; push_cast; linarith
  refine ⟨by omega, by omega, fun z => ?_⟩
  have hc : ((⌊y + 1 / 2⌋.toNat : ℕ) : K) = ((⌊y + 1 / 2⌋ : ℤ) : K) := by
    rw [← Int.cast_natCast, Int.toNat_of_nonneg (by omega)]
  rw [hc]
  by_cases hz : z = ⌊y + 1 / 2⌋
  · rw [hz]
  · generalize ⌊y + 1 / 2⌋ = w at *
    have : |((w : ℤ) : K) - y| ≤ 1 / 2 := by rw [abs_le]; constructor <;> linarith
    refine this.trans ?_
    rcases lt_or_gt_of_ne hz with h | h
    · have h' : (z : K) + 1 ≤ w := by exact_mod_cast h
      rw [abs_sub_comm]
      exact le_trans (by linarith) (le_abs_self _)
    · have h' : (w : K) + 1 ≤ z := by exact_mod_cast h
      exact le_trans (by linarith) (le_abs_self _)

/-- The rounded magnitude is a nearest number with 18 digits. -/
theorem genRound_nearest {x : K} (hx : x ≠ 0) (m k : ℤ) (hm : |m| < 10 ^ 18) :
    |(genRound x : K) * (10 : K) ^ (Int.log 10 |x| - 17) - (|x|)| ≤ |(m : K) * (10 : K) ^ k - x| := by
  obtain ⟨-, -, h3⟩ := genRound_spec hx
  have h10 : (10 : K) ≠ 0 := by norm_num
  have hpos : 0 < |x| := abs_pos.2 hx
  have hlow := Int.zpow_log_le_self (b := 10) (by norm_num) hpos
  push_cast at hlow
  set L := Int.log 10 |x|
  have hu : (0 : K) < (10 : K) ^ (L - 17) := zpow_pos (by norm_num) _
  have hone : (10 : K) ^ (17 - L) * (10 : K) ^ (L - 17) = 1 := by rw [← zpow_add₀ h10]; simp
  -- multiples of the unit
  have hmul : ∀ z : ℤ, |(genRound x : K) * (10 : K) ^ (L - 17) - (|x|)| ≤ |(z : K) * (10 : K) ^ (L - 17) - (|x|)| := by
    intro z
    have := mul_le_mul_of_nonneg_right (h3 z) hu.le
    rw [← abs_of_pos hu, ← abs_mul, ← abs_mul, sub_mul, sub_mul, mul_assoc |x|, hone, mul_one] at this
    exact this
  have habs : |(|(m : K) * (10 : K) ^ k|) - (|x|)| ≤ |(m : K) * (10 : K) ^ k - x| := abs_abs_sub_abs_le _ _
  have hk0 : (0 : K) < (10 : K) ^ k := zpow_pos (by norm_num) _
  rw [abs_mul, abs_of_pos hk0] at habs
  refine le_trans ?_ habs
  by_cases hk : L - 17 ≤ k
  · obtain ⟨n, hn⟩ := Int.eq_ofNat_of_zero_le (by omega : 0 ≤ k - (L - 17))
    have e : |(m : K)| * (10 : K) ^ k = ((|m| * 10 ^ n : ℤ) : K) * (10 : K) ^ (L - 17) := by
      rw [show k = (n : ℤ) + (L - 17) by omega, zpow_add₀ h10, zpow_natCast]
      push_cast; ring
    rw [e]
    exact hmul _
  · have e17 : (((10 : ℤ) ^ 17 : ℤ) : K) * (10 : K) ^ (L - 17) = (10 : K) ^ L := by
      rw [Int.cast_pow, Int.cast_ofNat, ← zpow_natCast, ← zpow_add₀ h10]; congr 1; push_cast; ring
    have h1 := hmul (10 ^ 17)
    rw [e17] at h1
    refine h1.trans ?_
    have hle : |(m : K)| * (10 : K) ^ k ≤ (10 : K) ^ L := by
      have a1 : |(m : K)| ≤ (10 : K) ^ 18 := by exact_mod_cast hm.le
      calc |(m : K)| * (10 : K) ^ k ≤ (10 : K) ^ 18 * (10 : K) ^ k := mul_le_mul_of_nonneg_right a1 hk0.le
        _ = (10 : K) ^ (k + 18) := by rw [← zpow_natCast, ← zpow_add₀ h10]; congr 1; push_cast; ring
        _ ≤ (10 : K) ^ L := zpow_le_zpow_right₀ (by norm_num) (by omega)
    have g1 : (10 : K) ^ L - |x| ≤ 0 := by linarith
    have g2 : |(m : K)| * (10 : K) ^ k - |x| ≤ 0 := by linarith
    rw [abs_of_nonpos g1, abs_of_nonpos g2]
    linarith

/-- Rounding half up (of the magnitude) to 18 significant digits. -/
@[instance_reducible] def genHalfUp (K : Type) [Field K] [LinearOrder K] [IsStrictOrderedRing K] [FloorRing K] : LawfulGen K where
  neg x := decide (x < 0)
  mant x := if x = 0 then 0 else if genRound x = 10 ^ 18 then 10 ^ 17 else genRound x
  expo x := if genRound x = 10 ^ 18 then Int.log 10 |x| + 1 else Int.log 10 |x|
  digits x := by
    by_cases hx : x = 0
    · exact Or.inl (if_pos hx)
    · right
      obtain ⟨h1, h2, -⟩ := genRound_spec hx
      rw [if_neg hx]
      split
      · norm_num
      · omega
  zero x := by
    by_cases hx : x = 0
    · simp [hx]
    · obtain ⟨h1, h2, -⟩ := genRound_spec hx
      rw [if_neg hx]
      refine iff_of_false ?_ hx
      split <;> omega
  nearest x m k hm := by
    by_cases hx : x = 0
    · rw [hx]; simp only [if_true, Nat.cast_zero, mul_zero, zero_mul, sub_zero, abs_zero]; exact abs_nonneg _
    · have h := genRound_nearest hx m k hm
      have e : ((if x = 0 then 0 else if genRound x = 10 ^ 18 then 10 ^ 17 else genRound x : ℕ) : K) *
          (10 : K) ^ ((if genRound x = 10 ^ 18 then Int.log 10 |x| + 1 else Int.log 10 |x|) - 17) =
          (genRound x : K) * (10 : K) ^ (Int.log 10 |x| - 17) := by
        rw [if_neg hx]
        by_cases hr : genRound x = 10 ^ 18
        · rw [if_pos hr, if_pos hr, hr, show Int.log 10 |x| + 1 - 17 = (Int.log 10 |x| - 17) + 1 by ring, zpow_add_one₀ (by norm_num)]
          push_cast; ring
        · rw [if_neg hr, if_neg hr]
      rw [mul_assoc, e]
      refine le_trans (le_of_eq ?_) h
      by_cases hneg : x < 0
      · simp only [hneg, decide_true, if_true]
        rw [abs_of_neg hneg, ← abs_neg]; congr 1; ring
      · simp only [hneg, decide_false]
        rw [abs_of_nonneg (not_lt.1 hneg)]; simp
end
end SplineLib
