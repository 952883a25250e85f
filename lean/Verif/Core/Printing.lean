import Verif.Model.Printing
import Verif.Props.Strings
import Mathlib.Algebra.Order.Floor.Ring
import Mathlib.Data.Rat.Floor
import Mathlib.Tactic.FieldSimp
import Mathlib.Tactic.Linarith

/-!
# Printed numbers (helper lemmas)
-/

namespace SplineLib
set_option linter.unusedSectionVars false
open Str Prn

theorem digit_eq (n : ℕ) : Prn.digit n = digitChar ⟨n % 10, Nat.mod_lt _ (by norm_num)⟩ := rfl

/-- The digits of a number. -/
def natDigs (n : ℕ) : List (Fin 10) :=
  if n < 10 then [⟨n % 10, Nat.mod_lt _ (by norm_num)⟩] else natDigs (n / 10) ++ [⟨n % 10, Nat.mod_lt _ (by norm_num)⟩]

/-- The last `k` digits of a number. -/
def fixedDigs : ℕ → ℕ → List (Fin 10)
  | 0, _ => []
  | k + 1, n => fixedDigs k (n / 10) ++ [⟨n % 10, Nat.mod_lt _ (by norm_num)⟩]

theorem natText_eq (n : ℕ) : natText n = (natDigs n).map digitChar := by
  induction n using Nat.strong_induction_on with
  | _ n ih =>
    rw [natText, natDigs]
    split
    · rfl
    · rw [ih (n / 10) (by omega), List.map_append]; rfl

theorem fixedText_eq (k n : ℕ) : fixedText k n = (fixedDigs k n).map digitChar := by
  induction k generalizing n with
  | zero => rfl
  | succ k ih => rw [fixedText, fixedDigs, ih, List.map_append]; rfl

theorem digitsNum_snoc (ds : List (Fin 10)) (d : Fin 10) : digitsNum (ds ++ [d]) = 10 * digitsNum ds + d := by
  induction ds with
  | nil => simp [digitsNum]
  | cons e ds ih =>
    simp only [List.cons_append, digitsNum, ih, List.length_append, List.length_singleton, pow_succ]
    ring

theorem natDigs_num (n : ℕ) : digitsNum (natDigs n) = n := by
  induction n using Nat.strong_induction_on with
  | _ n ih =>
    rw [natDigs]
    split
    · simp [digitsNum]; omega
    · rw [digitsNum_snoc, ih (n / 10) (by omega)]; simp; omega

theorem natDigs_ne (n : ℕ) : natDigs n ≠ [] := by
  rw [natDigs]; split <;> simp

theorem fixedDigs_num (k n : ℕ) : digitsNum (fixedDigs k n) = n % 10 ^ k := by
  induction k generalizing n with
  | zero => simp [fixedDigs, digitsNum]; omega
  | succ k ih =>
    rw [fixedDigs, digitsNum_snoc, ih, pow_succ, mul_comm (10 ^ k) 10, Nat.mod_mul]
    simp; omega

theorem fixedDigs_length (k n : ℕ) : (fixedDigs k n).length = k := by
  induction k generalizing n with
  | zero => rfl
  | succ k ih => simp [fixedDigs, ih]

/-- A printed natural number as a literal. -/
def natLit (n : ℕ) : DecLit := ⟨false, natDigs n, none, none⟩

theorem natLit_text (n : ℕ) : (natLit n).text = natText n := by
  simp [natLit, DecLit.text, DecLit.mantissa, DecLit.expText, natText_eq]

section
variable {K : Type} [Field K]

theorem natLit_value (n : ℕ) : (natLit n).value K = n := by
  simp [natLit, DecLit.value, natDigs_num]

/-- A printed `double` as a literal. -/
def doubleLit [DecPrinter K] (x : K) : DecLit :=
  ⟨DecPrinter.neg x, natDigs (DecPrinter.mag x / 1000000), some (fixedDigs 6 (DecPrinter.mag x)), none⟩

theorem doubleLit_text [DecPrinter K] (x : K) : (doubleLit x).text = doubleText x := by
  simp [doubleLit, DecLit.text, DecLit.mantissa, DecLit.expText, natText_eq, fixedText_eq, doubleText]
  rfl

/-- The number that is printed for `x`. -/
def rd [DecPrinter K] (x : K) : K := (if DecPrinter.neg x then -1 else 1) * ((DecPrinter.mag x : K) / 10 ^ 6)

theorem doubleLit_value [CharZero K] [DecPrinter K] (x : K) : (doubleLit x).value K = rd x := by
  simp only [doubleLit, DecLit.value, natDigs_num, fixedDigs_num, fixedDigs_length, mul_one, rd]
  congr 1
  have h := Nat.div_add_mod (DecPrinter.mag x) 1000000
  generalize DecPrinter.mag x = m at h ⊢
  have h10 : ((10 : K) ^ 6) ≠ 0 := pow_ne_zero _ (by norm_num)
  have h' : (m : K) = 1000000 * ((m / 1000000 : ℕ) : K) + ((m % 10 ^ 6 : ℕ) : K) := by
    norm_num
    exact_mod_cast h.symm
  rw [h']
  field_simp
  norm_num

/-- Characters that numbers do not contain. -/
theorem lit_chars {l : DecLit} : ∀ c ∈ l.text, c ≠ '\n' ∧ isSpace c = false ∧ c ≠ '[' ∧ c ≠ ']' ∧ c ≠ ' ' ∧ c ≠ 'P' ∧ c ≠ 'B' ∧ c ≠ 'K' := by
  intro c hc
  rcases DecLit.text_chars c hc with ⟨d, rfl⟩ | rfl | rfl | rfl | rfl | rfl
  · clear hc; revert d; decide
  all_goals decide

theorem lit_ne {l : DecLit} (h : l.int ≠ []) : l.text ≠ [] := by
  unfold DecLit.text DecLit.mantissa
  simp [h]

theorem natText_ne (n : ℕ) : natText n ≠ [] := by rw [natText_eq]; simp [natDigs_ne]

theorem doubleText_ne [DecPrinter K] (x : K) : doubleText x ≠ [] := by
  rw [← doubleLit_text]; exact lit_ne (natDigs_ne _)

theorem natText_chars (n : ℕ) : ∀ c ∈ natText n, c ≠ '\n' ∧ isSpace c = false ∧ c ≠ '[' ∧ c ≠ ']' ∧ c ≠ ' ' ∧ c ≠ 'P' ∧ c ≠ 'B' ∧ c ≠ 'K' := by
  rw [← natLit_text]; exact lit_chars

theorem doubleText_chars [DecPrinter K] (x : K) :
    ∀ c ∈ doubleText x, c ≠ '\n' ∧ isSpace c = false ∧ c ≠ '[' ∧ c ≠ ']' ∧ c ≠ ' ' ∧ c ≠ 'P' ∧ c ≠ 'B' ∧ c ≠ 'K' := by
  rw [← doubleLit_text]; exact lit_chars

/-- The printed number is a nearest decimal number with six decimals. -/
class LawfulPrinter (K : Type) [Field K] [LinearOrder K] extends DecPrinter K where
  near : ∀ x : K, |(if neg x then -1 else 1) * ((mag x : K) / 10 ^ 6) - x| ≤ 1 / (2 * 10 ^ 6)

variable [LinearOrder K] [IsStrictOrderedRing K]

theorem rd_near [LawfulPrinter K] (x : K) : |rd x - x| ≤ 1 / (2 * 10 ^ 6) := LawfulPrinter.near x

/-- Rounding half up (of the magnitude). -/
@[instance_reducible] def halfUp (K : Type) [Field K] [LinearOrder K] [IsStrictOrderedRing K] [FloorRing K] : LawfulPrinter K where
  neg x := decide (x < 0)
  mag x := ⌊|x| * 10 ^ 6 + 1 / 2⌋.toNat
  near x := by
    have h0 : (0 : K) ≤ |x| * 10 ^ 6 + 1 / 2 := by positivity
    have hz : (0 : ℤ) ≤ ⌊|x| * 10 ^ 6 + 1 / 2⌋ := Int.floor_nonneg.2 h0
    have e : ((⌊|x| * 10 ^ 6 + 1 / 2⌋.toNat : ℕ) : K) = ((⌊|x| * 10 ^ 6 + 1 / 2⌋ : ℤ) : K) := by
      exact_mod_cast congrArg (Int.cast : ℤ → K) (Int.toNat_of_nonneg hz)
    rw [e]
    have h1 := Int.floor_le (|x| * 10 ^ 6 + 1 / 2)
    have h2 := Int.lt_floor_add_one (|x| * 10 ^ 6 + 1 / 2)
    generalize ((⌊|x| * 10 ^ 6 + 1 / 2⌋ : ℤ) : K) = m at *
    rw [abs_le]
    by_cases hx : x < 0
    · rw [abs_of_neg hx] at *
      simp only [hx, decide_true, if_true]
      constructor <;> linarith
    · rw [abs_of_nonneg (not_lt.1 hx)] at *
      simp only [hx, decide_false]
      constructor <;> (simp; linarith)

theorem truncate_nat [FloorRing K] (n : ℕ) : truncate (n : K) = n := by
  unfold truncate
  rw [if_pos (Nat.cast_nonneg n), Int.floor_natCast]

theorem read_nat (n : ℕ) (h : (natText n).length < 2 ^ 32) : stringToDouble K (natText n) = .ok (n : K) := by
  rw [← natLit_text] at h ⊢
  rw [C33_decimal_partial (K := K) (l := natLit n) ⟨natDigs_ne n, fun e he => by simp [natLit] at he, h⟩ (Or.inr rfl), natLit_value]

/-- A printed number, possibly with brackets around it, is read as the number that was printed. -/
theorem read_double [DecPrinter K] (x : K) {a b : List Char} (ha : ∀ c ∈ a, c = '[') (hb : ∀ c ∈ b, c = ']')
    (h : (doubleText x).length < 2 ^ 32) : stringToDouble K (trim (a ++ doubleText x ++ b)) = .ok (rd x) := by
  have ht : trim (a ++ doubleText x ++ b) = doubleText x := by
    refine stripped_trim ⟨a, b, rfl, fun c hc => Or.inr (ha c hc), fun c hc => Or.inr (hb c hc), ?_, ?_⟩
    · intro c hc hs
      obtain ⟨_, h2, h3, h4, _⟩ := doubleText_chars x c (List.mem_of_mem_head? hc)
      rcases hs with hs | hs
      · rw [h2] at hs; cases hs
      · exact h3 hs
    · intro c hc hs
      obtain ⟨_, h2, h3, h4, _⟩ := doubleText_chars x c (List.mem_of_mem_getLast? hc)
      rcases hs with hs | hs
      · rw [h2] at hs; cases hs
      · exact h4 hs
  rw [ht]
  rw [← doubleLit_text] at h ⊢
  rw [C33_decimal_partial (K := K) (l := doubleLit x) ⟨natDigs_ne _, fun e he => by simp [doubleLit] at he, h⟩ (Or.inl rfl), doubleLit_value]

end
end SplineLib
