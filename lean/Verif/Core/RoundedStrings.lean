import Verif.Model.RoundedStrings
import Verif.Core.Rounded
import Verif.Core.Strings
import Verif.Core.General

/-!
# Reading numbers with rounded arithmetic (helper lemmas)
-/

namespace SplineLib
set_option linter.unusedSectionVars false
open Str Rounding
variable {K : Type} [LinearOrder K] [Field K] [IsStrictOrderedRing K]

/-- Factor and sum after some digits. -/
def flDigits (r : Rounding K) : List (Fin 10) → K → K → K × K
  | [], f, s => (f, s)
  | d :: ds, f, s => flDigits r ds (r.rnd (f / 10)) (r.rnd (s + r.rnd ((((d : ℕ) : ℤ) : K) * f)))

theorem flDigits_append (r : Rounding K) : ∀ (a b : List (Fin 10)) (f s : K),
    flDigits r (a ++ b) f s = flDigits r b (flDigits r a f s).1 (flDigits r a f s).2
  | [], _, _, _ => rfl
  | _ :: a, b, _, _ => flDigits_append r a b _ _

theorem flLoop_digits {r : Rounding K} {s : List Char} {found endNumber : ℕ} : ∀ (ds : List (Fin 10)) (i fuel : ℕ) (f x : K) (rest : List Char),
    s.drop i = ds.map digitChar ++ rest → i + ds.length ≤ s.length → (found < i ∨ i + ds.length ≤ found) →
    (ds ≠ [] → i + ds.length ≤ endNumber + 1) →
    Fl.digitLoop r s found endNumber (fuel + ds.length) i (some f) x =
      Fl.digitLoop r s found endNumber fuel (i + ds.length) (some (flDigits r ds f x).1) (flDigits r ds f x).2 := by
  intro ds
  induction ds with
  | nil => intro i fuel f x rest _ _ _ _; simp [flDigits]
  | cons d ds ih =>
    intro i fuel f x rest hs hl hf he
    have hd : s.drop (i + 1) = ds.map digitChar ++ rest := by
      rw [← List.tail_drop, hs]; rfl
    rw [List.length_cons] at hl hf he ⊢
    have he := he (by simp)
    rw [show fuel + (ds.length + 1) = fuel + ds.length + 1 by omega, Fl.digitLoop, if_pos (by omega), if_pos (by omega)]
    have hsub : substr s i 1 = .ok [digitChar d] := by
      unfold substr
      rw [if_pos (by omega), hs]; simp
    rw [hsub, ok_bind, stoi_digit, ok_bind]
    simp only
    rw [ih (i + 1) fuel _ _ rest hd (by omega) (by omega) (fun _ => by omega), show i + 1 + ds.length = i + (ds.length + 1) by omega]
    rfl

theorem flLoop_skip {r : Rounding K} {s : List Char} {found endNumber fuel : ℕ} (h : found ≤ endNumber) (f : Option K) (x : K) :
    Fl.digitLoop r s found endNumber (fuel + 1) found f x = Fl.digitLoop r s found endNumber fuel (found + 1) f x := by
  rw [Fl.digitLoop, if_pos h, if_neg (by simp)]

theorem flLoop_end {r : Rounding K} {s : List Char} {found endNumber fuel i : ℕ} (h : endNumber < i) (f : Option K) (x : K) :
    Fl.digitLoop r s found endNumber fuel i f x = .ok (f, x) := by
  cases fuel with
  | zero => rw [Fl.digitLoop, if_neg (by omega)]
  | succ n => rw [Fl.digitLoop, if_neg (by omega)]

theorem flLoop_mantissa {r : Rounding K} {ds : List (Fin 10)} (hds : ds ≠ []) (frac : Option (List (Fin 10))) (tail : List Char) (f : K) (extra : ℕ) :
    let m := ds.map digitChar ++ (match frac with | none => [] | some fs => '.' :: fs.map digitChar)
    m.length < 2 ^ 63 →
    Fl.digitLoop r (m ++ tail) (match frac with | none => npos | some _ => ds.length) (m.length - 1) (m.length + extra) 0 (some f) 0 =
      .ok (some (flDigits r (ds ++ frac.getD []) f 0).1, (flDigits r (ds ++ frac.getD []) f 0).2) := by
  intro m hm
  have hd1 : 1 ≤ ds.length := List.length_pos_iff.2 hds
  cases frac with
  | none =>
    have hml : m.length = ds.length := by simp [m]
    have hdrop : (m ++ tail).drop 0 = ds.map digitChar ++ tail := by simp [m]
    rw [hml, show ds.length + extra = extra + ds.length by omega]
    simp only
    rw [flLoop_digits ds 0 extra f 0 tail hdrop (by rw [List.length_append, hml]; omega) (by unfold npos; omega) (fun _ => by omega),
      flLoop_end (by omega)]
    simp
  | some fs =>
    have hml : m.length = ds.length + 1 + fs.length := by simp [m]; omega
    have hdrop : (m ++ tail).drop 0 = ds.map digitChar ++ ('.' :: fs.map digitChar ++ tail) := by simp [m]
    have hdrop2 : (m ++ tail).drop (ds.length + 1) = fs.map digitChar ++ tail := by
      have : m ++ tail = (ds.map digitChar ++ ['.']) ++ (fs.map digitChar ++ tail) := by simp [m]
      rw [this, List.drop_left' (by simp)]
    have hl : (m ++ tail).length = ds.length + 1 + fs.length + tail.length := by rw [List.length_append, hml]
    simp only
    rw [hml, show ds.length + 1 + fs.length + extra = (extra + fs.length + 1) + ds.length by omega,
      flLoop_digits ds 0 (extra + fs.length + 1) f 0 _ hdrop (by omega) (by omega) (fun _ => by omega), Nat.zero_add,
      flLoop_skip (by omega),
      flLoop_digits fs (ds.length + 1) extra _ _ tail hdrop2 (by omega) (by omega) (fun h => by omega), flLoop_end (by omega)]
    simp only [Option.getD_some]
    rw [flDigits_append]

/-- The exponent of the first digit's factor. -/
def firstExp (l : DecLit) : ℕ := match l.frac with | none => l.int.length + l.expText.length - 1 | some _ => l.int.length - 1

/-- What is read from a literal. -/
def flLit (r : Rounding K) (P : Fl.PowTen r) (l : DecLit) : K :=
  let x := (flDigits r (l.int ++ l.frac.getD []) (P.val (firstExp l)) 0).2
  (if l.neg then -1 else 1) * (match l.exp with
    | none => x
    | some e => r.rnd (x * (if e.sign = some true then r.rnd (1 / P.val (digitsNum e.digits)) else P.val (digitsNum e.digits))))

theorem flRead_literal (r : Rounding K) (P : Fl.PowTen r) {l : DecLit} (hv : l.Valid) : Fl.stringToDouble r P l.text = .ok (flLit r P l) := by
  obtain ⟨d0, ds0, hd0⟩ := List.exists_cons_of_ne_nil hv.int
  obtain ⟨fm, -⟩ := digitChar_facts d0
  have hm1 : 1 ≤ l.int.length := List.length_pos_iff.2 hv.int
  have hshort : (l.mantissa ++ l.expText).length < 2 ^ 32 := by
    have := hv.short
    unfold DecLit.text at this
    rw [List.length_append] at this
    omega
  have hml : l.mantissa.length = l.int.length + (match l.frac with | none => 0 | some fs => fs.length + 1) := by
    unfold DecLit.mantissa
    cases l.frac <;> simp
  have hsl : (l.mantissa ++ l.expText).length = l.mantissa.length + l.expText.length := List.length_append
  have hhead : (l.mantissa ++ l.expText).head? = some (digitChar d0) := by
    unfold DecLit.mantissa; rw [hd0]; simp
  have hstrip : (if l.text.head? == some '-' then l.text.tail else l.text) = l.mantissa ++ l.expText := by
    unfold DecLit.text
    cases l.neg with
    | true => simp
    | false => simp only [Bool.false_eq_true, if_false, List.nil_append, hhead]; simp [fm]
  have hsign : (if l.text.head? == some '-' then (-1 : K) else 1) = if l.neg then -1 else 1 := by
    unfold DecLit.text
    cases l.neg with
    | true => simp
    | false => simp only [Bool.false_eq_true, if_false, List.nil_append, hhead]; simp [fm]
  unfold Fl.stringToDouble
  simp only [hstrip, hsign]
  have hsize : (if firstOf (fun c => c == '.') (l.mantissa ++ l.expText) ≠ npos
      then toSizeT ((firstOf (fun c => c == '.') (l.mantissa ++ l.expText) : ℤ) - 1)
      else toSizeT (((l.mantissa ++ l.expText).length : ℤ) - 1)) = firstExp l := by
    rw [mantissa_found]
    unfold firstExp
    cases hf : l.frac with
    | none =>
      rw [hf] at hml
      simp only [Nat.add_zero] at hml
      simp only [ne_eq, not_true, if_false]
      rw [toSizeT_pred (by omega) (by omega)]; omega
    | some fs =>
      rw [hf] at hml
      simp only at hml
      simp only
      rw [if_pos (by unfold npos; omega), toSizeT_pred (by omega) (by omega)]
  have hne : firstExp l ≠ npos := by
    unfold firstExp npos
    cases hf : l.frac with
    | none => rw [hf] at hml; simp only at hml ⊢; omega
    | some fs => rw [hf] at hml; simp only at hml ⊢; omega
  rw [hsize, if_neg hne]
  have hloop : Fl.digitLoop r (l.mantissa ++ l.expText) (firstOf (fun c => c == '.') (l.mantissa ++ l.expText)) (l.mantissa.length - 1)
      (l.mantissa.length + (l.expText.length + 1)) 0 (some (P.val (firstExp l))) 0 =
      .ok (some (flDigits r (l.int ++ l.frac.getD []) (P.val (firstExp l)) 0).1,
        (flDigits r (l.int ++ l.frac.getD []) (P.val (firstExp l)) 0).2) := by
    rw [mantissa_found]
    exact flLoop_mantissa (r := r) hv.int l.frac l.expText (P.val (firstExp l)) (l.expText.length + 1) (by
      have : l.mantissa.length < 2 ^ 63 := by omega
      exact this)
  have hfuel : (l.mantissa ++ l.expText).length + 1 = l.mantissa.length + (l.expText.length + 1) := by omega
  rw [hfuel]
  cases he : l.exp with
  | none =>
    have het : l.expText = [] := by unfold DecLit.expText; rw [he]
    have hex : firstOf (fun c => c == 'E' || c == 'e') (l.mantissa ++ l.expText) = npos := by
      rw [het, List.append_nil]; exact firstOf_none (mantissa_no_exp l)
    rw [hex, if_pos rfl, toSizeT_pred (by omega) (by omega), show (l.mantissa ++ l.expText).length - 1 = l.mantissa.length - 1 by rw [het]; simp,
      hloop, ok_bind]
    simp only [ne_eq, not_true, if_false, flLit, he]
    rfl
  | some e =>
    obtain ⟨hed, hev⟩ := hv.exp e he
    obtain ⟨x, xs, hx⟩ := List.exists_cons_of_ne_nil hed
    obtain ⟨x1, x2, -⟩ := digitChar_facts x
    have het : l.expText = e.text := by unfold DecLit.expText; rw [he]
    have hex : firstOf (fun c => c == 'E' || c == 'e') (l.mantissa ++ l.expText) = l.mantissa.length := by
      rw [het]; unfold ExpPart.text
      exact firstOf_hit (mantissa_no_exp l) (by split <;> decide)
    rw [hex, if_neg (by unfold npos; omega), toSizeT_pred (by omega) (by omega), hloop, ok_bind]
    dsimp only
    rw [if_pos (by unfold npos; omega)]
    have hnil : ∀ c, ([] : List Char).head? = some c → c.isDigit = false := by simp
    rcases hs : e.sign with _ | (_ | _)
    · have ht : l.mantissa ++ l.expText = (l.mantissa ++ [if e.upper then 'E' else 'e']) ++ e.digits.map digitChar := by
        rw [het]; unfold ExpPart.text; rw [hs]; simp
      have hc : (l.mantissa ++ l.expText).getD (l.mantissa.length + 1) '\x00' = digitChar x := by
        rw [ht, hx, List.getD_eq_getElem?_getD, List.getElem?_append_right (by simp)]; simp
      have htl : (l.mantissa ++ l.expText).length = l.mantissa.length + 1 + e.digits.length := by rw [ht]; simp; omega
      have hsub : substr (l.mantissa ++ l.expText) (l.mantissa.length + 1) ((l.mantissa ++ l.expText).length - l.mantissa.length) =
          .ok (e.digits.map digitChar) := by
        unfold substr
        rw [if_pos (by omega), htl, ht, List.drop_left' (by simp), List.take_of_length_le (by simp; omega)]
      have hst := stoi_digits hed hnil hev
      rw [List.append_nil] at hst
      simp only [hc]
      have b1 : (digitChar x == '-') = false := by simp [x1]
      have b2 : (digitChar x == '+') = false := by simp [x2]
      simp only [b1, b2, Bool.or_self, Bool.false_eq_true, if_false]
      rw [hsub, ok_bind, hst, ok_bind, pure_ok]
      simp [flLit, he, hs]
    · have ht : l.mantissa ++ l.expText = (l.mantissa ++ [if e.upper then 'E' else 'e', '+']) ++ e.digits.map digitChar := by
        rw [het]; unfold ExpPart.text; rw [hs]; simp
      have hc : (l.mantissa ++ l.expText).getD (l.mantissa.length + 1) '\x00' = '+' := by
        rw [het]; unfold ExpPart.text; rw [hs, List.getD_eq_getElem?_getD, List.getElem?_append_right (by simp)]; simp
      have htl : (l.mantissa ++ l.expText).length = l.mantissa.length + 2 + e.digits.length := by rw [ht]; simp; omega
      have hsub : substr (l.mantissa ++ l.expText) (l.mantissa.length + 1 + 1) ((l.mantissa ++ l.expText).length - (l.mantissa.length + 1)) =
          .ok (e.digits.map digitChar) := by
        unfold substr
        rw [if_pos (by omega), htl, ht, List.drop_left' (by simp), List.take_of_length_le (by simp; omega)]
      have hst := stoi_digits hed hnil hev
      rw [List.append_nil] at hst
      simp only [hc]
      have b1 : ('+' == '-') = false := by decide
      simp only [b1, BEq.rfl, Bool.false_or, if_true, Bool.false_eq_true, if_false]
      rw [hsub, ok_bind, hst, ok_bind, pure_ok]
      simp [flLit, he, hs]
    · have ht : l.mantissa ++ l.expText = (l.mantissa ++ [if e.upper then 'E' else 'e', '-']) ++ e.digits.map digitChar := by
        rw [het]; unfold ExpPart.text; rw [hs]; simp
      have hc : (l.mantissa ++ l.expText).getD (l.mantissa.length + 1) '\x00' = '-' := by
        rw [het]; unfold ExpPart.text; rw [hs, List.getD_eq_getElem?_getD, List.getElem?_append_right (by simp)]; simp
      have htl : (l.mantissa ++ l.expText).length = l.mantissa.length + 2 + e.digits.length := by rw [ht]; simp; omega
      have hsub : substr (l.mantissa ++ l.expText) (l.mantissa.length + 1 + 1) ((l.mantissa ++ l.expText).length - (l.mantissa.length + 1)) =
          .ok (e.digits.map digitChar) := by
        unfold substr
        rw [if_pos (by omega), htl, ht, List.drop_left' (by simp), List.take_of_length_le (by simp; omega)]
      have hst := stoi_digits hed hnil hev
      rw [List.append_nil] at hst
      simp only [hc]
      simp only [BEq.rfl, Bool.true_or, if_true]
      rw [hsub, ok_bind, hst, ok_bind, pure_ok]
      simp [flLit, he, hs]

/-! ### The error -/

theorem PowTen_near {r : Rounding K} (P : Fl.PowTen r) (n : ℤ) : r.Near P.units (P.val n) (10 ^ n) := by
  have h1 : 0 < 1 - r.u := by have := r.u_lt; linarith
  have hp := pow_pos h1 P.units
  have e : r.t ^ P.units = 1 / (1 - r.u) ^ P.units := by unfold Rounding.t; rw [div_pow, one_pow]
  constructor
  · rw [e, one_div_mul_eq_div, le_div_iff₀ hp]; exact P.upper n
  · rw [e, one_div_mul_eq_div, le_div_iff₀ hp]; exact P.lower n

/-- The error of factor and sum. -/
theorem flDigits_near (r : Rounding K) : ∀ (ds : List (Fin 10)) {k : ℕ} {f F s S : K}, 0 ≤ F → 0 ≤ S → r.Near k f F → r.Near (k + 1) s S →
    r.Near (k + ds.length + 1) (flDigits r ds f s).2 (S + digitsNum ds * (F * 10) / 10 ^ ds.length) := by
  intro ds
  induction ds with
  | nil =>
    intro k f F s S _ _ _ h
    simpa [flDigits, digitsNum] using h
  | cons d ds ih =>
    intro k f F s S hF hS hf hs
    have h10 : (10 : K) ≠ 0 := by norm_num
    have hd : (0 : K) ≤ (((d : ℕ) : ℤ) : K) := by positivity
    have h1 : r.Near (k + 1) (r.rnd (f / 10)) (F / 10) := by
      have := (hf.mul (Near.refl (1 / 10 : K) (by norm_num)) hF (by norm_num)).rnd (by positivity)
      rwa [mul_one_div, mul_one_div, Nat.add_zero] at this
    have h2 : r.Near (k + 1) (r.rnd ((((d : ℕ) : ℤ) : K) * f)) ((((d : ℕ) : ℤ) : K) * F) := by
      have := ((Near.refl (((d : ℕ) : ℤ) : K) hd).mul hf hd hF).rnd (by positivity)
      simpa using this
    have h3 := (hs.add h2).rnd (by positivity)
    have := ih (k := k + 1) (by positivity) (by positivity) h1 h3
    rw [flDigits]
    have e1 : k + (d :: ds).length + 1 = k + 1 + ds.length + 1 := by rw [List.length_cons]; omega
    have e2 : S + (digitsNum (d :: ds) : K) * (F * 10) / 10 ^ (d :: ds).length =
        S + (((d : ℕ) : ℤ) : K) * F + digitsNum ds * (F / 10 * 10) / 10 ^ ds.length := by
      rw [digitsNum, List.length_cons, pow_succ]
      push_cast
      field_simp
      ring
    rw [e1, e2]
    exact this

theorem flLit_near (r : Rounding K) (P : Fl.PowTen r) {l : DecLit} (hv : l.Valid) (h : l.frac.isSome ∨ l.exp = none) :
    ∃ x X : K, 0 ≤ X ∧ flLit r P l = (if l.neg then -1 else 1) * x ∧ l.value K = (if l.neg then -1 else 1) * X ∧
      r.Near (l.int.length + (l.frac.getD []).length + P.units + 1 + (if l.exp = none then 0 else P.units + 2)) x X := by
  have h10 : (10 : K) ≠ 0 := by norm_num
  have hm1 : 1 ≤ l.int.length := List.length_pos_iff.2 hv.int
  have hm : r.Near (l.int.length + (l.frac.getD []).length + P.units + 1)
      (flDigits r (l.int ++ l.frac.getD []) (P.val (firstExp l)) 0).2
      ((digitsNum l.int : K) + (match l.frac with | none => 0 | some fs => (digitsNum fs : K) / 10 ^ fs.length)) := by
    have h1 := flDigits_near r (l.int ++ l.frac.getD []) (F := 10 ^ (l.int.length - 1)) (S := 0) (s := 0) (by positivity) le_rfl
      (f := P.val (firstExp l)) (k := P.units) (by
        have := PowTen_near P (firstExp l)
        have e : firstExp l = l.int.length - 1 := by
          unfold firstExp
          rcases h with h | h
          · obtain ⟨fs, hf⟩ := Option.isSome_iff_exists.1 h
            rw [hf]
          · have het : l.expText = [] := by unfold DecLit.expText; rw [h]
            rw [het]; cases l.frac <;> simp
        rw [e] at this ⊢
        rwa [zpow_natCast] at this) (by simp [Near])
    have e : (0 : K) + (digitsNum (l.int ++ l.frac.getD []) : K) * (10 ^ (l.int.length - 1) * 10) / 10 ^ (l.int ++ l.frac.getD []).length =
        (digitsNum l.int : K) + (match l.frac with | none => 0 | some fs => (digitsNum fs : K) / 10 ^ fs.length) := by
      rw [← pow_succ, show l.int.length - 1 + 1 = l.int.length by omega, List.length_append]
      cases l.frac with
      | none => simp
      | some fs =>
        simp only [Option.getD_some]
        rw [digitsNum_append, pow_add]
        push_cast
        field_simp
        ring
    rw [e, List.length_append] at h1
    convert h1 using 1
    omega
  have hX : (0 : K) ≤ (digitsNum l.int : K) + (match l.frac with | none => 0 | some fs => (digitsNum fs : K) / 10 ^ fs.length) := by
    cases l.frac <;> simp only <;> positivity
  generalize hx : (flDigits r (l.int ++ l.frac.getD []) (P.val (firstExp l)) 0).2 = x at hm
  unfold flLit DecLit.value
  rw [hx]
  generalize ((digitsNum l.int : K) + (match l.frac with | none => 0 | some fs => (digitsNum fs : K) / 10 ^ fs.length)) = X at hm hX
  cases he : l.exp with
  | none => exact ⟨x, X, hX, rfl, by simp, by simpa using hm⟩
  | some e =>
    simp only
    have hP := PowTen_near P (digitsNum e.digits : ℤ)
    have hpos : (0 : K) < 10 ^ (digitsNum e.digits : ℤ) := zpow_pos (by norm_num) _
    by_cases hs : e.sign = some true
    · rw [if_pos hs]
      refine ⟨_, X * 10 ^ e.value, mul_nonneg hX (zpow_nonneg (by norm_num) _), rfl, by ring, ?_⟩
      have h1 := (hP.inv hpos).rnd (by positivity)
      have h2 := (hm.mul h1 hX (by positivity)).rnd (by positivity)
      have e1 : (10 : K) ^ e.value = 1 / 10 ^ (digitsNum e.digits : ℤ) := by
        unfold ExpPart.value
        rw [if_pos hs, zpow_neg, one_div]
      rw [e1]
      exact h2.mono (by positivity) (by rw [if_neg (by simp)]; omega)
    · rw [if_neg hs]
      refine ⟨_, X * 10 ^ e.value, mul_nonneg hX (zpow_nonneg (by norm_num) _), rfl, by ring, ?_⟩
      have h2 := (hm.mul hP hX hpos.le).rnd (by positivity)
      have e1 : (10 : K) ^ e.value = 10 ^ (digitsNum e.digits : ℤ) := by
        unfold ExpPart.value
        rw [if_neg hs]
      rw [e1]
      exact h2.mono (by positivity) (by rw [if_neg (by simp)]; omega)

/-! ### Integers -/

/-- Integers up to `N` and powers of ten up to `10^m` are not rounded. -/
structure ExactInts (r : Rounding K) (P : Fl.PowTen r) (N m : ℕ) : Prop where
  ints : ∀ n : ℕ, n ≤ N → r.rnd n = n
  tens : ∀ k : ℕ, k ≤ m → P.val k = 10 ^ k ∧ r.rnd (10 ^ k) = 10 ^ k

theorem flDigits_int {r : Rounding K} {P : Fl.PowTen r} {N m : ℕ} (h : ExactInts r P N m) : ∀ (ds : List (Fin 10)) (f : K) (s : ℕ),
    (ds ≠ [] → f = 10 ^ (ds.length - 1)) → ds.length ≤ m + 1 → s + digitsNum ds ≤ N →
    (flDigits r ds f s).2 = ((s + digitsNum ds : ℕ) : K) := by
  intro ds
  induction ds with
  | nil => intro f s _ _ _; simp [flDigits, digitsNum]
  | cons d ds ih =>
    intro f s hf hm hN
    rw [digitsNum] at hN
    rw [List.length_cons] at hm
    have hf := hf (by simp)
    rw [List.length_cons, Nat.add_sub_cancel] at hf
    rw [flDigits]
    have e1 : r.rnd ((((d : ℕ) : ℤ) : K) * f) = ((d * 10 ^ ds.length : ℕ) : K) := by
      rw [hf, ← h.ints (d * 10 ^ ds.length) (by omega)]
      push_cast; rfl
    have e2 : r.rnd ((s : K) + ((d * 10 ^ ds.length : ℕ) : K)) = ((s + d * 10 ^ ds.length : ℕ) : K) := by
      rw [← Nat.cast_add]; exact h.ints _ (by omega)
    rw [e1, e2, ih]
    · rw [digitsNum, add_assoc]
    · intro hne
      have h1 : 1 ≤ ds.length := List.length_pos_iff.2 hne
      have e3 : f / 10 = 10 ^ (ds.length - 1) := by
        rw [hf, div_eq_iff (by norm_num), ← pow_succ]
        congr 1; omega
      rw [e3]
      exact (h.tens _ (by omega)).2
    · omega
    · omega

theorem flDigits_zeros {r : Rounding K} {P : Fl.PowTen r} {N m : ℕ} (h : ExactInts r P N m) {n : ℕ} (hn : n ≤ N) : ∀ (ds : List (Fin 10)) (f : K),
    (∀ d ∈ ds, d = 0) → (flDigits r ds f n).2 = n := by
  intro ds
  induction ds with
  | nil => intro f _; rfl
  | cons d ds ih =>
    intro f hd
    have h0 : d = 0 := hd d (by simp)
    subst h0
    rw [flDigits]
    have : r.rnd ((n : K) + r.rnd ((((0 : Fin 10) : ℕ) : ℤ) * f)) = n := by
      simp [r.rnd_zero, h.ints n hn]
    rw [this]
    exact ih _ fun x hx => hd x (by simp [hx])

theorem digitsNum_eq_zero : ∀ (ds : List (Fin 10)), digitsNum ds = 0 → ∀ d ∈ ds, d = 0 := by
  intro ds
  induction ds with
  | nil => intro _ d hd; simp at hd
  | cons d ds ih =>
    intro h
    rw [digitsNum] at h
    have h1 : (d : ℕ) * 10 ^ ds.length = 0 := by omega
    have h2 : (d : ℕ) = 0 := by
      rcases Nat.mul_eq_zero.1 h1 with h | h
      · exact h
      · exact absurd h (by positivity)
    refine List.forall_mem_cons.2 ⟨Fin.ext h2, ih (by omega)⟩

theorem value_noExp {l : DecLit} (he : l.exp = none) : l.value K =
    (if l.neg then -1 else 1) * ((digitsNum l.int : K) + (digitsNum (l.frac.getD []) : K) / 10 ^ (l.frac.getD []).length) := by
  unfold DecLit.value
  rw [he]
  cases l.frac <;> simp [digitsNum]

/-- A literal without exponent whose value is an integer is read exactly. -/
theorem flLit_int {r : Rounding K} {P : Fl.PowTen r} {N m : ℕ} (h : ExactInts r P N m) {l : DecLit} (hv : l.Valid) (he : l.exp = none)
    (hm : l.int.length ≤ m + 1) {z : ℤ} (hz : l.value K = z) (hN : z.natAbs ≤ N) : flLit r P l = z := by
  have hm1 : 1 ≤ l.int.length := List.length_pos_iff.2 hv.int
  have h10 : (10 : K) ≠ 0 := by norm_num
  have het : l.expText = [] := by unfold DecLit.expText; rw [he]
  have hfe : firstExp l = l.int.length - 1 := by
    unfold firstExp; rw [het]; cases l.frac <;> simp
  -- the digits
  have hd : digitsNum l.int = z.natAbs ∧ ∀ d ∈ l.frac.getD [], d = 0 := by
    have hval : (digitsNum l.int : K) + (digitsNum (l.frac.getD []) : K) / 10 ^ (l.frac.getD []).length = (z.natAbs : K) := by
      have h1 : |l.value K| = (digitsNum l.int : K) + (digitsNum (l.frac.getD []) : K) / 10 ^ (l.frac.getD []).length := by
        have h2 : (0 : K) ≤ (digitsNum l.int : K) + (digitsNum (l.frac.getD []) : K) / 10 ^ (l.frac.getD []).length := by positivity
        rw [value_noExp he, abs_mul, abs_of_nonneg h2]
        cases l.neg <;> simp
      rw [← h1, hz, ← Int.cast_abs, Int.abs_eq_natAbs]; simp
    have hlt := digitsNum_lt (l.frac.getD [])
    generalize l.frac.getD [] = fs at hval hlt ⊢
    have hnat : digitsNum l.int * 10 ^ fs.length + digitsNum fs = z.natAbs * 10 ^ fs.length := by
      have : (((digitsNum l.int * 10 ^ fs.length + digitsNum fs : ℕ)) : K) = ((z.natAbs * 10 ^ fs.length : ℕ) : K) := by
        push_cast
        rw [← hval]
        field_simp
      exact_mod_cast this
    have h0 : digitsNum fs = 0 := by
      have hdvd : 10 ^ fs.length ∣ digitsNum fs := by
        refine (Nat.dvd_add_right (Dvd.intro_left (digitsNum l.int) rfl)).1 ?_
        rw [hnat]; exact Dvd.intro_left _ rfl
      exact Nat.eq_zero_of_dvd_of_lt hdvd hlt
    refine ⟨?_, digitsNum_eq_zero fs h0⟩
    rw [h0, Nat.add_zero] at hnat
    exact Nat.eq_of_mul_eq_mul_right (by positivity) hnat
  have hx : (flDigits r (l.int ++ l.frac.getD []) (P.val (firstExp l)) 0).2 = (z.natAbs : K) := by
    rw [flDigits_append]
    have h1 := flDigits_int h l.int (P.val (firstExp l)) 0 (fun _ => by rw [hfe]; exact (h.tens _ (by omega)).1) hm (by omega)
    rw [Nat.cast_zero, Nat.zero_add, hd.1] at h1
    rw [h1]
    exact flDigits_zeros h hN _ _ hd.2
  have hsgn : ((if l.neg then -1 else 1 : K)) * (z.natAbs : K) = z := by
    rw [← hz, value_noExp he, ← hd.1]
    have hall : ∀ (gs : List (Fin 10)), (∀ d ∈ gs, d = 0) → digitsNum gs = 0 := by
      intro gs
      induction gs with
      | nil => intro _; rfl
      | cons d gs ih =>
        intro hg
        rw [digitsNum, ih fun x hx => hg x (by simp [hx]), hg d (by simp)]; simp
    rw [hall _ hd.2]; simp
  unfold flLit
  rw [he]
  simp only
  rw [hx, hsgn]

end SplineLib
