import Verif.Model.Strings
import Verif.Spec.Literal
import Verif.Core.Elevate
import Mathlib.Tactic.FieldSimp
import Mathlib.Data.List.TakeWhile

/-!
# Strings (helper lemmas)
-/

namespace SplineLib
set_option linter.unusedSectionVars false
namespace Str

/-! ### Searching -/

theorem firstOfFrom_append_hit {p : Char → Bool} {c : Char} (hc : p c = true) (rest : List Char) : ∀ (l : List Char) (i : ℕ),
    (∀ x ∈ l, p x = false) → firstOfFrom p (l ++ c :: rest) i = i + l.length
  | [], i, _ => by simp [firstOfFrom, hc]
  | x :: l, i, h => by
    rw [List.cons_append, firstOfFrom, if_neg (by simp [h x (by simp)]), firstOfFrom_append_hit hc rest l (i + 1) (fun y hy => h y (by simp [hy])),
      List.length_cons]
    omega

theorem firstOfFrom_none {p : Char → Bool} : ∀ (l : List Char) (i : ℕ), (∀ x ∈ l, p x = false) → firstOfFrom p l i = npos
  | [], i, _ => rfl
  | x :: l, i, h => by
    rw [firstOfFrom, if_neg (by simp [h x (by simp)]), firstOfFrom_none l (i + 1) (fun y hy => h y (by simp [hy]))]

theorem firstOf_hit {p : Char → Bool} {l rest : List Char} {c : Char} (hl : ∀ x ∈ l, p x = false) (hc : p c = true) :
    firstOf p (l ++ c :: rest) = l.length := by
  unfold firstOf
  rw [firstOfFrom_append_hit hc rest l 0 hl, Nat.zero_add]

theorem firstOf_none {p : Char → Bool} {l : List Char} (hl : ∀ x ∈ l, p x = false) : firstOf p l = npos := firstOfFrom_none l 0 hl

/-- `find_first_of` returns the first position with a character of the set, or `npos`. -/
theorem firstOf_cases (p : Char → Bool) (s : List Char) :
    (firstOf p s = npos ∧ ∀ x ∈ s, p x = false) ∨
      ∃ l c rest, s = l ++ c :: rest ∧ (∀ x ∈ l, p x = false) ∧ p c = true ∧ firstOf p s = l.length := by
  by_cases h : ∀ x ∈ s, p x = false
  · exact Or.inl ⟨firstOf_none h, h⟩
  · right
    refine ⟨s.takeWhile (fun x => !p x), ?_⟩
    have hne : s.dropWhile (fun x => !p x) ≠ [] := by
      intro hd
      rw [List.dropWhile_eq_nil_iff] at hd
      exact h fun x hx => by simpa using hd x hx
    obtain ⟨c, rest, hcr⟩ := List.exists_cons_of_ne_nil hne
    have hs : s = s.takeWhile (fun x => !p x) ++ c :: rest := by rw [← hcr, List.takeWhile_append_dropWhile]
    have hl : ∀ x ∈ s.takeWhile (fun x => !p x), p x = false := fun x hx => by simpa using List.mem_takeWhile_imp hx
    have hc : p c = true := by
      have := List.head_dropWhile_not (fun x => !p x) hne
      have e : (s.dropWhile (fun x => !p x)).head hne = c := by simp [hcr]
      rw [e] at this
      simpa using this
    refine ⟨c, rest, hs, hl, hc, ?_⟩
    conv_lhs => rw [hs]
    exact firstOf_hit hl hc

/-! ### Digits -/

theorem digitChar_isDigit (d : Fin 10) : (digitChar d).isDigit = true := by revert d; decide

theorem digitVal_digitChar (d : Fin 10) : digitVal (digitChar d) = d := by revert d; decide

theorem digitChar_not_space (d : Fin 10) : isSpace (digitChar d) = false := by revert d; decide

theorem digitChar_facts (d : Fin 10) : digitChar d ≠ '-' ∧ digitChar d ≠ '+' ∧ digitChar d ≠ '.' ∧ digitChar d ≠ 'E' ∧ digitChar d ≠ 'e' ∧
    digitChar d ≠ ',' ∧ digitChar d ≠ ';' ∧ digitChar d ≠ '[' ∧ digitChar d ≠ ']' ∧ digitChar d ≠ '\x00' ∧ digitChar d ≠ ' ' ∧
    digitChar d ≠ '\n' := by
  revert d; decide

theorem digitsVal_map : ∀ (ds : List (Fin 10)), digitsVal (ds.map digitChar) = digitsNum ds := by
  have key : ∀ (ds : List (Fin 10)) (a : ℕ), (ds.map digitChar).foldl (fun a c => 10 * a + digitVal c) a = a * 10 ^ ds.length + digitsNum ds := by
    intro ds
    induction ds with
    | nil => intro a; simp [digitsNum]
    | cons d ds ih =>
      intro a
      rw [List.map_cons, List.foldl_cons, ih, digitVal_digitChar, digitsNum, List.length_cons, pow_succ]
      ring
  intro ds
  unfold digitsVal
  rw [key]; simp

theorem takeWhile_digits (ds : List (Fin 10)) {rest : List Char} (hr : ∀ c, rest.head? = some c → c.isDigit = false) :
    (ds.map digitChar ++ rest).takeWhile Char.isDigit = ds.map digitChar := by
  induction ds with
  | nil =>
    cases rest with
    | nil => rfl
    | cons c rest => simp [hr c rfl]
  | cons d ds ih => simp [digitChar_isDigit, ih]

theorem stoi_digits {ds : List (Fin 10)} (h : ds ≠ []) {rest : List Char} (hr : ∀ c, rest.head? = some c → c.isDigit = false)
    (hv : digitsNum ds < 2 ^ 31) : stoi (ds.map digitChar ++ rest) = .ok (digitsNum ds : ℤ) := by
  obtain ⟨d, ds', rfl⟩ := List.exists_cons_of_ne_nil h
  obtain ⟨f1, f2, _⟩ := digitChar_facts d
  have hd : ((d :: ds').map digitChar ++ rest).dropWhile isSpace = (d :: ds').map digitChar ++ rest := by
    simp [digitChar_not_space]
  have hh : ((d :: ds').map digitChar ++ rest).head? = some (digitChar d) := by simp
  unfold stoi
  simp only [hd, hh]
  have e1 : (some (digitChar d) == some '-') = false := by simp [f1]
  have e2 : (some (digitChar d) == some '+') = false := by simp [f2]
  simp only [e1, e2, Bool.or_self, Bool.false_eq_true, if_false]
  rw [takeWhile_digits _ hr, digitsVal_map, if_neg (by simp), if_pos ⟨by omega, by exact_mod_cast hv⟩]

/-- A sign in front of the digits. -/
theorem stoi_signed {ds : List (Fin 10)} (h : ds ≠ []) {rest : List Char} (hr : ∀ c, rest.head? = some c → c.isDigit = false)
    (hv : digitsNum ds < 2 ^ 31) : stoi ('-' :: (ds.map digitChar ++ rest)) = .ok (-(digitsNum ds : ℤ)) ∧
      stoi ('+' :: (ds.map digitChar ++ rest)) = .ok (digitsNum ds : ℤ) := by
  have n1 : isSpace '-' = false := by decide
  have n2 : isSpace '+' = false := by decide
  have hne : (ds.map digitChar).isEmpty = false := by cases ds <;> simp_all
  constructor
  · unfold stoi
    simp only [List.dropWhile_cons, n1, Bool.false_eq_true, if_false, List.head?_cons, beq_self_eq_true, Bool.true_or, if_true, List.tail_cons]
    rw [takeWhile_digits _ hr, digitsVal_map, hne, if_neg (by simp), if_pos ⟨by omega, by omega⟩]
  · unfold stoi
    simp only [List.dropWhile_cons, n2, Bool.false_eq_true, if_false, List.head?_cons, beq_self_eq_true, Bool.or_true, if_true, List.tail_cons,
      show (some '+' == some '-') = false by decide]
    rw [takeWhile_digits _ hr, digitsVal_map, hne, if_neg (by simp), if_pos ⟨by omega, by omega⟩]

theorem stoi_digit (d : Fin 10) : stoi [digitChar d] = .ok ((d : ℕ) : ℤ) := by
  have := stoi_digits (ds := [d]) (by simp) (rest := []) (by simp) (by have := d.isLt; simp [digitsNum]; omega)
  simpa [digitsNum] using this

/-! ### The digit loop -/

section
variable {K : Type} [Field K] [CharZero K]

/-- A run of digits without a decimal point. -/
theorem digitLoop_digits {s : List Char} {found endNumber : ℕ} : ∀ (ds : List (Fin 10)) (i fuel : ℕ) (f r : K) (rest : List Char),
    s.drop i = ds.map digitChar ++ rest → i + ds.length ≤ s.length → (found < i ∨ i + ds.length ≤ found) →
    (ds ≠ [] → i + ds.length ≤ endNumber + 1) →
    digitLoop s found endNumber (fuel + ds.length) i (some f) r =
      digitLoop s found endNumber fuel (i + ds.length) (some (f / 10 ^ ds.length)) (r + digitsNum ds * (f * 10) / 10 ^ ds.length) := by
  intro ds
  induction ds with
  | nil => intro i fuel f r rest _ _ _ _; simp [digitsNum]
  | cons d ds ih =>
    intro i fuel f r rest hs hl hf he
    have hd : s.drop (i + 1) = ds.map digitChar ++ rest := by
      rw [← List.tail_drop, hs]; rfl
    have h10 : (10 : K) ≠ 0 := by norm_num
    rw [List.length_cons] at hl hf he ⊢
    have he := he (by simp)
    rw [show fuel + (ds.length + 1) = fuel + ds.length + 1 by omega, digitLoop, if_pos (by omega), if_pos (by omega)]
    have hsub : substr s i 1 = .ok [digitChar d] := by
      unfold substr
      rw [if_pos (by omega), hs]; simp
    rw [hsub, ok_bind, stoi_digit, ok_bind]
    simp only
    rw [ih (i + 1) fuel (f / 10) _ rest hd (by omega) (by omega) (fun _ => by omega), show i + 1 + ds.length = i + (ds.length + 1) by omega]
    congr 1
    · rw [pow_succ]; field_simp
    · rw [digitsNum, pow_succ]
      push_cast
      field_simp
      ring

theorem digitLoop_skip {s : List Char} {found endNumber fuel : ℕ} (h : found ≤ endNumber) (f : Option K) (r : K) :
    digitLoop s found endNumber (fuel + 1) found f r = digitLoop s found endNumber fuel (found + 1) f r := by
  rw [digitLoop, if_pos h, if_neg (by simp)]

theorem digitLoop_end {s : List Char} {found endNumber fuel i : ℕ} (h : endNumber < i) (f : Option K) (r : K) :
    digitLoop s found endNumber fuel i f r = .ok (f, r) := by
  cases fuel with
  | zero => rw [digitLoop, if_neg (by omega)]
  | succ n => rw [digitLoop, if_neg (by omega)]

theorem toSizeT_small {n : ℕ} (h : n < 2 ^ 64) : toSizeT (n : ℤ) = n := by
  unfold toSizeT
  rw [Int.emod_eq_of_lt (by omega) (by exact_mod_cast h)]; simp

theorem toSizeT_pred {n : ℕ} (h : 1 ≤ n) (h2 : n < 2 ^ 64) : toSizeT ((n : ℤ) - 1) = n - 1 := by
  rw [show (n : ℤ) - 1 = ((n - 1 : ℕ) : ℤ) by omega, toSizeT_small (by omega)]

/-- The digits of the mantissa `int[.frac]`, followed by `tail` (the exponent part). -/
theorem digitLoop_mantissa {ds : List (Fin 10)} (hds : ds ≠ []) (frac : Option (List (Fin 10))) (tail : List Char) (f : K) (extra : ℕ) :
    let m := ds.map digitChar ++ (match frac with | none => [] | some fs => '.' :: fs.map digitChar)
    m.length < 2 ^ 63 →
    digitLoop (m ++ tail) (match frac with | none => npos | some _ => ds.length) (m.length - 1) (m.length + extra) 0 (some f) 0 =
      .ok (some (f / 10 ^ (ds.length + (frac.getD []).length)),
        (digitsNum ds + (match frac with | none => 0 | some fs => (digitsNum fs : K) / 10 ^ fs.length)) * (f * 10) / 10 ^ ds.length) := by
  intro m hm
  have hd1 : 1 ≤ ds.length := List.length_pos_iff.2 hds
  cases frac with
  | none =>
    have hml : m.length = ds.length := by simp [m]
    have hdrop : (m ++ tail).drop 0 = ds.map digitChar ++ tail := by simp [m]
    rw [hml, show ds.length + extra = extra + ds.length by omega]
    simp only
    rw [digitLoop_digits ds 0 extra f 0 tail hdrop (by rw [List.length_append, hml]; omega) (by unfold npos; omega) (fun _ => by omega),
      digitLoop_end (by omega)]
    simp
  | some fs =>
    have hml : m.length = ds.length + 1 + fs.length := by simp [m]; omega
    have hdrop : (m ++ tail).drop 0 = ds.map digitChar ++ ('.' :: fs.map digitChar ++ tail) := by simp [m]
    have hdrop2 : (m ++ tail).drop (ds.length + 1) = fs.map digitChar ++ tail := by
      have : m ++ tail = (ds.map digitChar ++ ['.']) ++ (fs.map digitChar ++ tail) := by simp [m]
      rw [this, List.drop_left' (by simp)]
    have hl : (m ++ tail).length = ds.length + 1 + fs.length + tail.length := by rw [List.length_append, hml]
    simp only
    rw [hml, show ds.length + 1 + fs.length + extra = (extra + fs.length + 1) + ds.length by omega,
      digitLoop_digits ds 0 (extra + fs.length + 1) f 0 _ hdrop (by omega) (by omega) (fun _ => by omega), Nat.zero_add,
      digitLoop_skip (by omega),
      digitLoop_digits fs (ds.length + 1) extra _ _ tail hdrop2 (by omega) (by omega) (fun h => by omega), digitLoop_end (by omega)]
    have h10 : (10 : K) ≠ 0 := by norm_num
    simp only [Option.getD_some]
    congr 2
    · rw [pow_add]; field_simp
    · field_simp
      ring

theorem mantissa_no_exp (l : DecLit) : ∀ c ∈ l.mantissa, (c == 'E' || c == 'e') = false := by
  intro c hc
  unfold DecLit.mantissa at hc
  rcases List.mem_append.1 hc with h | h
  · obtain ⟨d, _, rfl⟩ := List.mem_map.1 h
    obtain ⟨_, _, _, h1, h2, _⟩ := digitChar_facts d
    simp [h1, h2]
  · cases hf : l.frac with
    | none => simp [hf] at h
    | some fs =>
      rw [hf] at h
      rcases List.mem_cons.1 h with rfl | h
      · decide
      · obtain ⟨d, _, rfl⟩ := List.mem_map.1 h
        obtain ⟨_, _, _, h1, h2, _⟩ := digitChar_facts d
        simp [h1, h2]

theorem expText_no_point (l : DecLit) : ∀ c ∈ l.expText, (c == '.') = false := by
  intro c hc
  unfold DecLit.expText at hc
  cases he : l.exp with
  | none => simp [he] at hc
  | some e =>
    rw [he] at hc
    simp only [ExpPart.text] at hc
    rcases List.mem_cons.1 hc with rfl | hc
    · split <;> decide
    · rcases List.mem_append.1 hc with h | h
      · rcases hs : e.sign with _ | (_ | _) <;> rw [hs] at h <;> simp at h <;> subst h <;> decide
      · obtain ⟨d, _, rfl⟩ := List.mem_map.1 h
        obtain ⟨_, _, h1, _⟩ := digitChar_facts d
        simp [h1]

theorem digits_no_point (ds : List (Fin 10)) : ∀ c ∈ ds.map digitChar, (c == '.') = false := by
  intro c hc
  obtain ⟨d, _, rfl⟩ := List.mem_map.1 hc
  obtain ⟨_, _, h1, _⟩ := digitChar_facts d
  simp [h1]

theorem mantissa_found (l : DecLit) :
    firstOf (fun c => c == '.') (l.mantissa ++ l.expText) = (match l.frac with | none => npos | some _ => l.int.length) := by
  cases hf : l.frac with
  | none =>
    refine firstOf_none fun c hc => ?_
    rcases List.mem_append.1 hc with h | h
    · unfold DecLit.mantissa at h
      rw [hf] at h
      simp only [List.append_nil] at h
      exact digits_no_point _ c h
    · exact expText_no_point l c h
  | some fs =>
    have e : l.mantissa ++ l.expText = l.int.map digitChar ++ '.' :: (fs.map digitChar ++ l.expText) := by
      unfold DecLit.mantissa; rw [hf]; simp
    rw [e, firstOf_hit (digits_no_point _) (by decide)]; simp

/-- The factor by which the value that is read differs from the value of the literal. -/
def readFactor (K : Type) [Field K] (l : DecLit) : K := if l.frac.isNone then 10 ^ l.expText.length else 1

theorem stringToDouble_literal {l : DecLit} (hv : l.Valid) : stringToDouble K l.text = .ok (l.value K * readFactor K l) := by
  have h10 : (10 : K) ≠ 0 := by norm_num
  obtain ⟨d0, ds0, hd0⟩ := List.exists_cons_of_ne_nil hv.int
  obtain ⟨fm, -⟩ := digitChar_facts d0
  have hm1 : 1 ≤ l.int.length := List.length_pos_iff.2 hv.int
  have hshort : (l.mantissa ++ l.expText).length < 2 ^ 32 := by
    have := hv.short
    unfold DecLit.text at this
    rw [List.length_append] at this
    omega
  have hml : l.mantissa.length = l.int.length + (match l.frac with | none => 0 | some fs => fs.length + 1) := by
    unfold DecLit.mantissa
    cases l.frac <;> simp
  have hsl : (l.mantissa ++ l.expText).length = l.mantissa.length + l.expText.length := List.length_append
  have hhead : (l.mantissa ++ l.expText).head? = some (digitChar d0) := by
    unfold DecLit.mantissa; rw [hd0]; simp
  -- the sign is stripped
  have hstrip : (if l.text.head? == some '-' then l.text.tail else l.text) = l.mantissa ++ l.expText := by
    unfold DecLit.text
    cases l.neg with
    | true => simp
    | false => simp only [Bool.false_eq_true, if_false, List.nil_append, hhead]; simp [fm]
  have hsign : (if l.text.head? == some '-' then (-1 : K) else 1) = if l.neg then -1 else 1 := by
    unfold DecLit.text
    cases l.neg with
    | true => simp
    | false => simp only [Bool.false_eq_true, if_false, List.nil_append, hhead]; simp [fm]
  unfold stringToDouble
  simp only [hstrip, hsign, mantissa_found]
  -- the factor
  have hfac : ∃ f : K, pow10 K (if (match l.frac with | none => npos | some _ => l.int.length) ≠ npos
      then toSizeT (((match l.frac with | none => npos | some _ => l.int.length : ℕ) : ℤ) - 1)
      else toSizeT (((l.mantissa ++ l.expText).length : ℤ) - 1)) = some f ∧ f * 10 / 10 ^ l.int.length = readFactor K l := by
    unfold readFactor
    cases hf : l.frac with
    | none =>
      rw [hf] at hml
      simp only [Nat.add_zero] at hml
      refine ⟨10 ^ ((l.mantissa ++ l.expText).length - 1), ?_, ?_⟩
      · simp only [ne_eq, not_true, if_false]
        rw [toSizeT_pred (by omega) (by omega), pow10, if_neg (by unfold npos; omega)]
      · simp only [Option.isNone_none, if_true]
        rw [← pow_succ, show (l.mantissa ++ l.expText).length - 1 + 1 = l.expText.length + l.int.length by omega, pow_add,
          mul_div_assoc, div_self (pow_ne_zero _ h10), mul_one]
    | some fs =>
      rw [hf] at hml
      simp only at hml
      refine ⟨10 ^ (l.int.length - 1), ?_, ?_⟩
      · simp only
        rw [if_pos (by unfold npos; omega), toSizeT_pred (by omega) (by omega), pow10, if_neg (by unfold npos; omega)]
      · simp only [Option.isNone_some, Bool.false_eq_true, if_false]
        rw [← pow_succ, show l.int.length - 1 + 1 = l.int.length by omega, div_self (pow_ne_zero _ h10)]
  obtain ⟨f, hf1, hf2⟩ := hfac
  rw [hf1]
  have hloop := digitLoop_mantissa (K := K) hv.int l.frac l.expText f (l.expText.length + 1) (by
    have : l.mantissa.length < 2 ^ 63 := by omega
    exact this)
  rw [show (l.int.map digitChar ++ (match l.frac with | none => [] | some fs => '.' :: fs.map digitChar)) = l.mantissa from rfl,
    mul_div_assoc, hf2] at hloop
  have hfuel : (l.mantissa ++ l.expText).length + 1 = l.mantissa.length + (l.expText.length + 1) := by omega
  rw [hfuel]
  cases he : l.exp with
  | none =>
    have het : l.expText = [] := by unfold DecLit.expText; rw [he]
    have hex : firstOf (fun c => c == 'E' || c == 'e') (l.mantissa ++ l.expText) = npos := by
      rw [het, List.append_nil]; exact firstOf_none (mantissa_no_exp l)
    rw [hex, if_pos rfl, toSizeT_pred (by omega) (by omega), show (l.mantissa ++ l.expText).length - 1 = l.mantissa.length - 1 by rw [het]; simp,
      hloop, ok_bind]
    simp only [ne_eq, not_true, if_false, DecLit.value, he, mul_one]
    rw [pure_ok]
    congr 1
    rcases l.frac with _ | fs <;> ring
  | some e =>
    obtain ⟨hed, hev⟩ := hv.exp e he
    obtain ⟨x, xs, hx⟩ := List.exists_cons_of_ne_nil hed
    obtain ⟨x1, x2, -⟩ := digitChar_facts x
    have het : l.expText = e.text := by unfold DecLit.expText; rw [he]
    have hex : firstOf (fun c => c == 'E' || c == 'e') (l.mantissa ++ l.expText) = l.mantissa.length := by
      rw [het]; unfold ExpPart.text
      exact firstOf_hit (mantissa_no_exp l) (by split <;> decide)
    rw [hex, if_neg (by unfold npos; omega), toSizeT_pred (by omega) (by omega), hloop, ok_bind]
    dsimp only
    rw [if_pos (by unfold npos; omega)]
    have hnil : ∀ c, ([] : List Char).head? = some c → c.isDigit = false := by simp
    -- the text from the exponent letter on
    rcases hs : e.sign with _ | (_ | _)
    · have ht : l.mantissa ++ l.expText = (l.mantissa ++ [if e.upper then 'E' else 'e']) ++ e.digits.map digitChar := by
        rw [het]; unfold ExpPart.text; rw [hs]; simp
      have hc : (l.mantissa ++ l.expText).getD (l.mantissa.length + 1) '\x00' = digitChar x := by
        rw [ht, hx, List.getD_eq_getElem?_getD, List.getElem?_append_right (by simp)]; simp
      have htl : (l.mantissa ++ l.expText).length = l.mantissa.length + 1 + e.digits.length := by rw [ht]; simp; omega
      have hsub : substr (l.mantissa ++ l.expText) (l.mantissa.length + 1) ((l.mantissa ++ l.expText).length - l.mantissa.length) =
          .ok (e.digits.map digitChar) := by
        unfold substr
        rw [if_pos (by omega), htl, ht, List.drop_left' (by simp), List.take_of_length_le (by simp; omega)]
      have hst := stoi_digits hed hnil hev
      rw [List.append_nil] at hst
      simp only [hc]
      have b1 : (digitChar x == '-') = false := by simp [x1]
      have b2 : (digitChar x == '+') = false := by simp [x2]
      simp only [b1, b2, Bool.or_self, Bool.false_eq_true, if_false]
      rw [hsub, ok_bind, hst, ok_bind, pure_ok]
      simp only [DecLit.value, he, ExpPart.value, hs]
      congr 1
      rcases l.frac with _ | fs <;> rcases l.neg <;> simp <;> ring
    · have ht : l.mantissa ++ l.expText = (l.mantissa ++ [if e.upper then 'E' else 'e', '+']) ++ e.digits.map digitChar := by
        rw [het]; unfold ExpPart.text; rw [hs]; simp
      have hc : (l.mantissa ++ l.expText).getD (l.mantissa.length + 1) '\x00' = '+' := by
        rw [het]; unfold ExpPart.text; rw [hs, List.getD_eq_getElem?_getD, List.getElem?_append_right (by simp)]; simp
      have htl : (l.mantissa ++ l.expText).length = l.mantissa.length + 2 + e.digits.length := by rw [ht]; simp; omega
      have hsub : substr (l.mantissa ++ l.expText) (l.mantissa.length + 1 + 1) ((l.mantissa ++ l.expText).length - (l.mantissa.length + 1)) =
          .ok (e.digits.map digitChar) := by
        unfold substr
        rw [if_pos (by omega), htl, ht, List.drop_left' (by simp), List.take_of_length_le (by simp; omega)]
      have hst := stoi_digits hed hnil hev
      rw [List.append_nil] at hst
      simp only [hc]
      have b1 : ('+' == '-') = false := by decide
      simp only [b1, BEq.rfl, Bool.false_or, if_true, Bool.false_eq_true, if_false]
      rw [hsub, ok_bind, hst, ok_bind, pure_ok]
      simp only [DecLit.value, he, ExpPart.value, hs]
      congr 1
      rcases l.frac with _ | fs <;> rcases l.neg <;> simp <;> ring
    · have ht : l.mantissa ++ l.expText = (l.mantissa ++ [if e.upper then 'E' else 'e', '-']) ++ e.digits.map digitChar := by
        rw [het]; unfold ExpPart.text; rw [hs]; simp
      have hc : (l.mantissa ++ l.expText).getD (l.mantissa.length + 1) '\x00' = '-' := by
        rw [het]; unfold ExpPart.text; rw [hs, List.getD_eq_getElem?_getD, List.getElem?_append_right (by simp)]; simp
      have htl : (l.mantissa ++ l.expText).length = l.mantissa.length + 2 + e.digits.length := by rw [ht]; simp; omega
      have hsub : substr (l.mantissa ++ l.expText) (l.mantissa.length + 1 + 1) ((l.mantissa ++ l.expText).length - (l.mantissa.length + 1)) =
          .ok (e.digits.map digitChar) := by
        unfold substr
        rw [if_pos (by omega), htl, ht, List.drop_left' (by simp), List.take_of_length_le (by simp; omega)]
      have hst := stoi_digits hed hnil hev
      rw [List.append_nil] at hst
      simp only [hc]
      simp only [BEq.rfl, Bool.true_or, if_true]
      rw [hsub, ok_bind, hst, ok_bind, pure_ok]
      simp only [DecLit.value, he, ExpPart.value, hs]
      congr 1
      rcases l.frac with _ | fs <;> rcases l.neg <;> simp <;> ring

end
end Str
end SplineLib
