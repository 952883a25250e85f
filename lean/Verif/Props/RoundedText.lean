import Verif.Core.RoundedStrings
import Verif.Core.IgesText
import Verif.Props.Rounding
import Verif.Props.Xml

/-!
# C75: numbers in files, read with rounded arithmetic
-/

namespace SplineLib
set_option linter.unusedSectionVars false
open Str Prn Rounding
variable {K : Type} [LinearOrder K] [Field K] [IsStrictOrderedRing K]

/-- **C75** A decimal literal is read with a small relative error: one rounding for each digit and a few more. (For literals without decimal
point but with exponent see C33.) -/
theorem C75_literal (r : Rounding K) (P : Fl.PowTen r) {l : DecLit} (hv : l.Valid) (h : l.frac.isSome ∨ l.exp = none) :
    ∃ y, Fl.stringToDouble r P l.text = .ok y ∧
      |y - l.value K| ≤ growth r (l.int.length + (l.frac.getD []).length + P.units + 1 + (if l.exp = none then 0 else P.units + 2)) *
        |l.value K| := by
  refine ⟨_, flRead_literal r P hv, ?_⟩
  obtain ⟨x, X, hX, h1, h2, h3⟩ := flLit_near r P hv h
  have h4 := (h3.close hX).1
  rw [h1, h2, ← mul_sub, abs_mul, abs_mul, abs_of_nonneg hX]
  have hs : |(if l.neg then -1 else 1 : K)| = 1 := by cases l.neg <;> simp
  rw [hs, one_mul, one_mul]
  exact h4

/-- **C75** A literal that denotes an integer is read exactly, if the integer and the powers of ten are not rounded. -/
theorem C75_integer_literal {r : Rounding K} {P : Fl.PowTen r} {N m : ℕ} (h : ExactInts r P N m) {l : DecLit} (hv : l.Valid)
    (he : l.exp = none) (hm : l.int.length ≤ m + 1) {z : ℤ} (hz : l.value K = z) (hN : z.natAbs ≤ N) :
    Fl.stringToDouble r P l.text = .ok (z : K) := by
  rw [flRead_literal r P hv, flLit_int h hv he hm hz hN]

/-- **C75** Counts, sizes, degrees and positions are written and read without error. -/
theorem C75_natural_number {r : Rounding K} {P : Fl.PowTen r} {N m : ℕ} (h : ExactInts r P N m) {n : ℕ} (hN : n ≤ N) (hm : n < 10 ^ (m + 1))
    (hs : m < 2 ^ 32 - 1) : Fl.stringToDouble r P (natText n) = .ok (n : K) := by
  have hlen := natDigs_length_le hm
  rw [← natLit_text]
  refine (C75_integer_literal h (l := natLit n) ⟨natDigs_ne n, fun e he => by simp [natLit] at he, ?_⟩ rfl hlen (z := n)
    (by rw [natLit_value]; simp) (by simpa using hN)).trans (by simp)
  rw [natLit_text, natText_eq, List.length_map]; omega

theorem digits_le_text (l : DecLit) : l.int.length + (l.frac.getD []).length ≤ l.text.length := by
  unfold DecLit.text DecLit.mantissa
  cases l.frac <;> simp <;> omega

theorem growth_mono (r : Rounding K) {a b : ℕ} (h : a ≤ b) : growth r a ≤ growth r b :=
  sub_le_sub_right (pow_le_pow_right₀ r.one_le_t h) 1

theorem growth_nonneg (r : Rounding K) (a : ℕ) : 0 ≤ growth r a := sub_nonneg.2 (r.one_le_pow a)

/-- **C75** A number in an IGES file (18 digits) is read with a small relative error. -/
theorem C75_iges_number [LawfulGen K] (r : Rounding K) (P : Fl.PowTen r) {x : K} (h : DoubleRange x) (hr : IgesReadable x) :
    ∃ y, Fl.stringToDouble r P (Iges.generalText x) = .ok y ∧
      |y - x| ≤ (growth r (28 + 2 * P.units) * (1 + 1 / 10 ^ 17) + 1 / 10 ^ 17) * |x| := by
  have hse := shortExp_of_double h
  obtain ⟨y, h1, h2⟩ := C75_literal r P (generalLit_valid hse) ((readable_iff x).1 hr)
  rw [generalLit_text] at h1
  rw [generalLit_value] at h2
  refine ⟨y, h1, ?_⟩
  have h3 : |y - gd x| ≤ growth r (28 + 2 * P.units) * |gd x| := by
    refine h2.trans (mul_le_mul_of_nonneg_right (growth_mono r ?_) (abs_nonneg _))
    have := digits_le_text (generalLit x)
    rw [generalLit_text] at this
    have h4 := generalText_length hse
    split <;> omega
  have h4 := gd_near x
  have h5 : |gd x| ≤ (1 + 1 / 10 ^ 17) * |x| := by
    have := abs_add_le (gd x - x) x
    rw [sub_add_cancel] at this
    linarith
  have h6 : |y - x| ≤ |y - gd x| + |gd x - x| := abs_sub_le _ _ _
  have h7 := mul_le_mul_of_nonneg_left h5 (growth_nonneg r (28 + 2 * P.units))
  linarith

/-- **C75** A number in an IRIT or XML file (six decimals) is read with a small relative error in addition to the decimals that are not
written. -/
theorem C75_six_decimals [LawfulPrinter K] (r : Rounding K) (P : Fl.PowTen r) {x : K} (h : (doubleText x).length < 2 ^ 32) :
    ∃ y, Fl.stringToDouble r P (doubleText x) = .ok y ∧
      |y - x| ≤ growth r ((doubleText x).length + P.units + 1) * (|x| + 1 / (2 * 10 ^ 6)) + 1 / (2 * 10 ^ 6) := by
  rw [← doubleLit_text] at h
  obtain ⟨y, h1, h2⟩ := C75_literal r P (l := doubleLit x) ⟨natDigs_ne _, fun e he => by simp [doubleLit] at he, h⟩ (Or.inl rfl)
  rw [doubleLit_text] at h1
  rw [doubleLit_value] at h2
  refine ⟨y, h1, ?_⟩
  have h3 : |y - rd x| ≤ growth r ((doubleText x).length + P.units + 1) * |rd x| := by
    refine h2.trans (mul_le_mul_of_nonneg_right (growth_mono r ?_) (abs_nonneg _))
    have := digits_le_text (doubleLit x)
    rw [doubleLit_text] at this
    have hx : (doubleLit x).exp = none := rfl
    rw [if_pos hx]
    omega
  have h4 := rd_near x
  have h5 : |rd x| ≤ |x| + 1 / (2 * 10 ^ 6) := by
    have := abs_add_le (rd x - x) x
    rw [sub_add_cancel] at this
    linarith
  have h6 : |y - x| ≤ |y - rd x| + |rd x - x| := abs_sub_le _ _ _
  have h7 := mul_le_mul_of_nonneg_left h5 (growth_nonneg r ((doubleText x).length + P.units + 1))
  linarith

/-- **C75** Integers are written with six decimals and read without error. -/
theorem C75_six_decimals_integer [LawfulPrinter K] {r : Rounding K} {P : Fl.PowTen r} {N m : ℕ} (h : ExactInts r P N m) {z : ℤ}
    (hN : z.natAbs ≤ N) (hm : z.natAbs < 10 ^ (m + 1)) (hs : m < 2 ^ 31) : Fl.stringToDouble r P (doubleText (z : K)) = .ok (z : K) := by
  have hv : rd (z : K) = z := rd_eq_of_sixDecimals ⟨z * 10 ^ 6, by push_cast; field_simp; norm_num⟩
  have hmag : DecPrinter.mag (z : K) / 1000000 = z.natAbs := by
    have h1 : |rd (z : K)| = (DecPrinter.mag (z : K) : K) / 10 ^ 6 := by
      unfold rd
      rw [abs_mul, abs_of_nonneg (by positivity : (0 : K) ≤ (DecPrinter.mag (z : K) : K) / 10 ^ 6)]
      split <;> simp
    rw [hv, ← Int.cast_abs, Int.abs_eq_natAbs, eq_div_iff (by norm_num)] at h1
    have h2 : z.natAbs * 10 ^ 6 = DecPrinter.mag (z : K) := by exact_mod_cast h1
    omega
  have hlen := natDigs_length_le hm
  rw [← doubleLit_text]
  refine C75_integer_literal h (l := doubleLit (z : K)) ⟨natDigs_ne _, fun e he => by simp [doubleLit] at he, ?_⟩ rfl ?_
    (by rw [doubleLit_value, hv]) hN
  · rw [doubleLit_text]
    unfold doubleText
    rw [natText_eq, fixedText_eq, hmag]
    have : (if DecPrinter.neg (z : K) then ['-'] else []).length ≤ 1 := by split <;> simp
    simp only [List.length_append, List.length_map, List.length_cons, fixedDigs_length]
    omega
  · show (natDigs (DecPrinter.mag (z : K) / 1000000)).length ≤ m + 1
    rw [hmag]; exact hlen

/-- **C75** Integers are written to IGES files and read without error. -/
theorem C75_iges_integer [LawfulGen K] {r : Rounding K} {P : Fl.PowTen r} {N m : ℕ} (h : ExactInts r P N m) (hm : 17 ≤ m) {z : ℤ}
    (hN : z.natAbs ≤ N) (hz : z.natAbs ≤ 10 ^ 17) : Fl.stringToDouble r P (Iges.generalText (z : K)) = .ok (z : K) := by
  have habs : |(z : K)| = (z.natAbs : K) := by rw [← Int.cast_abs, Int.abs_eq_natAbs]; simp
  have hgd : gd (z : K) = z := by
    have := gd_exact (K := K) (m := z) (k := 0) (by rw [Int.abs_eq_natAbs]; omega)
    simpa using this
  have hexp : (z : K) ≠ 0 → 0 ≤ GenPrinter.expo (z : K) ∧ GenPrinter.expo (z : K) ≤ 17 := by
    intro h0
    refine expo_bounds h0 ?_ ?_
    · rw [habs, zpow_zero]
      have : z ≠ 0 := by rintro rfl; simp at h0
      have : 1 ≤ z.natAbs := by omega
      exact_mod_cast this
    · rw [habs]
      exact_mod_cast hz
  have hse : ShortExp (z : K) := by
    by_cases h0 : (z : K) = 0
    · exact Or.inl h0
    · right
      have := hexp h0
      omega
  have hlit : (generalLit (z : K)).exp = none ∧ (generalLit (z : K)).int.length ≤ m + 1 := by
    unfold generalLit
    by_cases h0 : GenPrinter.mant (z : K) = 0
    · rw [if_pos h0]; simp
    · rw [if_neg h0]
      have := hexp fun hx => h0 ((LawfulGen.zero (z : K)).2 hx)
      unfold digitsLit
      rw [if_pos (by omega)]
      refine ⟨rfl, ?_⟩
      rw [List.length_take]
      omega
  rw [← generalLit_text]
  exact C75_integer_literal h (generalLit_valid hse) hlit.1 hlit.2 (by rw [generalLit_value, hgd]) hN

/-! ### Without rounding -/

/-- `pow` without rounding. -/
def exactPow (K : Type) [LinearOrder K] [Field K] [IsStrictOrderedRing K] : Fl.PowTen (exactRounding K) :=
  ⟨fun n => 10 ^ n, 0, fun n => by simp, fun n => by simp⟩

theorem fl_exact_digitLoop (s : List Char) (found e : ℕ) : ∀ fuel i (f : Option K) x,
    Fl.digitLoop (exactRounding K) s found e fuel i f x = digitLoop s found e fuel i f x := by
  intro fuel
  induction fuel with
  | zero => intro i f x; rfl
  | succ n ih =>
    intro i f x
    rw [Fl.digitLoop, digitLoop]
    simp only [ih]
    rfl

/-- **C75** With exact arithmetic the two models of `StringToDouble` are the same. -/
theorem C75_exact_arithmetic (s : List Char) : Fl.stringToDouble (exactRounding K) (exactPow K) s = stringToDouble K s := by
  unfold Fl.stringToDouble stringToDouble pow10
  simp only [fl_exact_digitLoop]
  simp only [exactPow, exactRounding, id, zpow_natCast]

/-! ### `double` -/

/-- `pow` rounded correctly to `double`. -/
def doublePow : Fl.PowTen doubleRounding :=
  ⟨fun n => doubleRounding.rnd (10 ^ n), 1, fun n => by
      have h1 : (0 : ℚ) < 10 ^ n := zpow_pos (by norm_num) _
      have h2 := doubleRounding.err (10 ^ n)
      have h3 := doubleRounding.u_nonneg
      have h4 := doubleRounding.u_lt
      rw [abs_of_pos h1] at h2
      have h5 := (abs_le.1 h2).2
      rw [pow_one]
      nlinarith [mul_le_mul_of_nonneg_right (show doubleRounding.rnd (10 ^ n) ≤ (1 + doubleRounding.u) * 10 ^ n by linarith) (sub_nonneg.2 h4.le),
        mul_nonneg (mul_nonneg h3 h3) h1.le],
    fun n => by
      have h1 : (0 : ℚ) < 10 ^ n := zpow_pos (by norm_num) _
      have h2 := doubleRounding.err (10 ^ n)
      rw [abs_of_pos h1] at h2
      have h5 := (abs_le.1 h2).1
      rw [pow_one]
      linarith⟩

theorem roundBits_nat {t : ℕ} (ht : 1 ≤ t) {n : ℕ} (h : n ≤ 2 ^ t) : roundBits t (n : ℚ) = n := by
  rcases Nat.eq_zero_or_pos n with rfl | hn
  · simpa using roundBits_zero t
  have hlog : Int.log 2 |(n : ℚ)| = (Nat.log 2 n : ℤ) := by
    rw [abs_of_nonneg (Nat.cast_nonneg n), Int.log_natCast]
  have hle : Nat.log 2 n ≤ t := by
    calc Nat.log 2 n ≤ Nat.log 2 (2 ^ t) := Nat.log_mono_right h
      _ = t := Nat.log_pow (by norm_num) t
  rcases Nat.lt_or_eq_of_le hle with hlt | heq
  · refine roundBits_exact (n * 2 ^ (t - 1 - Nat.log 2 n)) ?_
    unfold ulp
    rw [hlog, show ((Nat.log 2 n : ℤ) - t + 1 : ℤ) = -((t - 1 - Nat.log 2 n : ℕ) : ℤ) by omega, zpow_neg, zpow_natCast]
    push_cast
    field_simp
  · have hn2 : n = 2 ^ t := by
      have : 2 ^ Nat.log 2 n ≤ n := Nat.pow_log_le_self 2 (by omega)
      rw [heq] at this
      omega
    refine roundBits_exact (2 ^ (t - 1)) ?_
    unfold ulp
    rw [hlog, heq, show ((t : ℤ) - t + 1 : ℤ) = 1 by omega, hn2]
    push_cast
    rw [← pow_succ]
    congr 1; omega

/-- Integers up to 2⁵³ and powers of ten up to 10²² are `double`s. -/
theorem exactInts_double : ExactInts doubleRounding doublePow (2 ^ 53) 22 where
  ints n h := roundBits_nat (by norm_num) h
  tens k h := by
    have key : ∀ k ∈ List.range 23, doubleRounding.rnd ((10 : ℚ) ^ k) = 10 ^ k := by decide +kernel
    have := key k (List.mem_range.2 (by omega))
    exact ⟨by show doubleRounding.rnd (10 ^ (k : ℤ)) = 10 ^ k; rwa [zpow_natCast], this⟩

/-- **C75** With `double` arithmetic, a number in an IGES file is read with a relative error of at most 4·10⁻¹⁵. -/
theorem C75_iges_number_double [LawfulGen ℚ] {x : ℚ} (h : DoubleRange x) (hr : IgesReadable x) :
    ∃ y, Fl.stringToDouble doubleRounding doublePow (Iges.generalText x) = .ok y ∧ |y - x| ≤ 4 / 10 ^ 15 * |x| := by
  obtain ⟨y, h1, h2⟩ := C75_iges_number doubleRounding doublePow h hr
  refine ⟨y, h1, h2.trans (mul_le_mul_of_nonneg_right ?_ (abs_nonneg _))⟩
  have h3 := C70_growth doubleRounding (28 + 2 * doublePow.units) (by decide +kernel)
  have h4 : ((28 + 2 * doublePow.units : ℕ) : ℚ) * doubleRounding.u / (1 - ((28 + 2 * doublePow.units : ℕ) : ℚ) * doubleRounding.u) ≤ 35 / 10 ^ 16 := by
    decide +kernel
  have h5 := h3.trans h4
  have h6 : growth doubleRounding (28 + 2 * doublePow.units) * (1 + 1 / 10 ^ 17) ≤ 35 / 10 ^ 16 * (1 + 1 / 10 ^ 17) :=
    mul_le_mul_of_nonneg_right h5 (by norm_num)
  refine (add_le_add_left h6 _).trans ?_
  norm_num

section
attribute [local instance] halfUp genHalfUp

/-- Write a number to an IGES file and read it. -/
def igesCycle (x : ℚ) : M ℚ := Fl.stringToDouble doubleRounding doublePow (Iges.generalText x)

/-- **C75** Reading a file is not exact: 0.75 is a `double` and is written exactly, but the number that is read is larger by 2⁻⁵³. -/
theorem C75_three_quarters : doubleText (3 / 4 : ℚ) = "0.750000".toList ∧ Iges.generalText (3 / 4 : ℚ) = "0.75".toList ∧
    Fl.stringToDouble doubleRounding doublePow "0.750000".toList = .ok (3 / 4 + 1 / 2 ^ 53) ∧
    Fl.stringToDouble doubleRounding doublePow "0.75".toList = .ok (3 / 4 + 1 / 2 ^ 53) := by
  decide +kernel

/-- **C75** Every further writing and reading may change the number again. -/
theorem C75_drift : (do igesCycle (← igesCycle (← igesCycle (3 / 4)))) = .ok (3 / 4 + 3 / 2 ^ 53) := by
  decide +kernel

/-- **C75** Two neighbouring `double`s may change their order, so increasing knots need not be increasing after reading. -/
theorem C75_order_lost : ∃ a b a' b' : ℚ, a < b ∧ doubleRounding.rnd a = a ∧ doubleRounding.rnd b = b ∧ igesCycle a = .ok a' ∧
    igesCycle b = .ok b' ∧ b' < a' :=
  ⟨8966873722090544 / 2 ^ 56, 8966873722090545 / 2 ^ 56, 8966873722090546 / 2 ^ 56, 8966873722090545 / 2 ^ 56, by decide +kernel⟩

/-! ### Examples -/

example : ∃ y, Fl.stringToDouble doubleRounding doublePow (Iges.generalText (1 / 3 : ℚ)) = .ok y ∧ |y - 1 / 3| ≤ 4 / 10 ^ 15 * |(1 / 3 : ℚ)| :=
  C75_iges_number_double (Or.inr ⟨le_trans (one_div_le_one_div_of_le (by norm_num) (le_trans (by norm_num)
    (pow_le_pow_right₀ (by norm_num) (by norm_num : 20 ≤ 1074)))) (by norm_num : (1 : ℚ) / 2 ^ 20 ≤ |1 / 3|),
    le_trans (by norm_num) (pow_le_pow_right₀ (by norm_num) (by norm_num : 60 ≤ 1024))⟩) (by unfold IgesReadable; decide +kernel)

example : Fl.stringToDouble doubleRounding doublePow (doubleText ((-12345678901 : ℤ) : ℚ)) = .ok ((-12345678901 : ℤ) : ℚ) :=
  C75_six_decimals_integer exactInts_double (by norm_num) (by norm_num) (by norm_num)

example : Fl.stringToDouble doubleRounding doublePow (natText 4096) = .ok 4096 :=
  C75_natural_number exactInts_double (by norm_num) (by norm_num) (by norm_num)

end
end SplineLib
