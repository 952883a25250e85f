import Verif.Core.General
import Verif.Core.Xml
import Verif.Props.Xml

/-!
# The texts in an IGES file: numbers, fields and lines (helper lemmas)
-/

namespace SplineLib
set_option linter.unusedSectionVars false
open Str Prn

/-! ### Printed numbers -/

theorem natDigs_length_le {n k : ℕ} (h : n < 10 ^ (k + 1)) : (natDigs n).length ≤ k + 1 := by
  have := natText_length (n := n) (k := k) h
  rwa [natText_eq, List.length_map] at this

theorem trimZeros_length (ds : List (Fin 10)) : (trimZeros ds).length ≤ ds.length := by
  obtain ⟨k, hk⟩ := trimZeros_split ds
  conv_rhs => rw [hk]
  simp

theorem text_length (n : Bool) (i f : List (Fin 10)) (x : Option ExpPart) {a b c : ℕ} (hi : i.length ≤ a) (hf : f.length ≤ b)
    (hx : (DecLit.expText ⟨n, i, optFrac f, x⟩).length ≤ c) : (DecLit.text ⟨n, i, optFrac f, x⟩).length ≤ 1 + (a + (1 + b) + c) := by
  have h1 : (if n = true then ['-'] else []).length ≤ 1 := by split <;> simp
  have h2 : (Iges.pointed (f.map digitChar)).length ≤ 1 + b := by
    unfold Iges.pointed
    split
    · simp
    · simp; omega
  unfold DecLit.text
  rw [mantissa_optFrac, List.length_append, List.length_append, List.length_append, List.length_map]
  dsimp only
  omega

theorem digitsLit_length (n : Bool) {ds : List (Fin 10)} (hl : ds.length = 18) {e : ℤ} (he : e.natAbs < 1000) :
    (digitsLit n ds e).text.length ≤ 25 := by
  unfold digitsLit
  by_cases h1 : 0 ≤ e ∧ e < 18
  · rw [if_pos h1]
    have := trimZeros_length (ds.drop (e.toNat + 1))
    rw [List.length_drop, hl] at this
    refine (text_length n _ _ none (a := e.toNat + 1) (b := 18 - (e.toNat + 1)) (c := 0) (by simp) this (by simp [DecLit.expText])).trans ?_
    omega
  · rw [if_neg h1]
    by_cases h2 : -4 ≤ e ∧ e < 0
    · rw [if_pos h2]
      have := trimZeros_length (List.replicate (-e - 1).toNat 0 ++ ds)
      rw [List.length_append, List.length_replicate, hl] at this
      have h3 : (trimZeros (List.replicate (-e - 1).toNat 0 ++ ds)).length ≤ 21 := by omega
      exact (text_length n [0] _ none (a := 1) (b := 21) (c := 0) (by simp) h3 (by simp [DecLit.expText])).trans (by norm_num)
    · rw [if_neg h2]
      have := trimZeros_length (ds.drop 1)
      rw [List.length_drop, hl] at this
      refine text_length n _ _ (some (genExp e)) (a := 1) (b := 17) (c := 5) (by simp) (by omega) ?_
      have h3 : (genExp e).digits.length ≤ 3 := by
        unfold genExp
        rw [List.length_append]
        by_cases h10 : e.natAbs < 10
        · have := natDigs_length_le (n := e.natAbs) (k := 0) (by omega)
          rw [if_pos h10]; simp; omega
        · have := natDigs_length_le (n := e.natAbs) (k := 2) (by omega)
          rw [if_neg h10]; simp; omega
      have h4 : (DecLit.expText ⟨n, ds.take 1, optFrac (trimZeros (ds.drop 1)), some (genExp e)⟩).length =
          2 + (genExp e).digits.length := by
        simp only [DecLit.expText, ExpPart.text, List.length_cons, List.length_append, List.length_map]
        have : (genExp e).sign = some (decide (e < 0)) := rfl
        rw [this]
        cases decide (e < 0) <;> simp <;> omega
      omega

section
variable {K : Type} [Field K] [LinearOrder K] [IsStrictOrderedRing K] [LawfulGen K]

/-- The exponent has at most three digits. -/
def ShortExp (x : K) : Prop := x = 0 ∨ (GenPrinter.expo x).natAbs < 1000

theorem generalText_length {x : K} (h : ShortExp x) : (Iges.generalText x).length ≤ 25 := by
  rw [← generalLit_text]
  unfold generalLit
  by_cases hm : GenPrinter.mant x = 0
  · rw [if_pos hm]
    have : (if GenPrinter.neg x = true then ['-'] else []).length ≤ 1 := by split <;> simp
    simp only [DecLit.text, DecLit.mantissa, DecLit.expText, List.length_append, List.length_map, List.length_singleton, List.length_nil]
    omega
  · rw [if_neg hm]
    exact digitsLit_length _ (natDigs_mant hm) (h.resolve_left fun h0 => hm ((LawfulGen.zero x).2 h0))

theorem generalLit_valid {x : K} (h : ShortExp x) : (generalLit x).Valid := by
  refine ⟨?_, ?_, ?_⟩
  · unfold generalLit
    split
    · simp
    · rename_i hm
      have hl := natDigs_mant hm
      unfold digitsLit
      have hne : natDigs (GenPrinter.mant x) ≠ [] := natDigs_ne _
      split
      · simp [hne]
      · split <;> simp [hne]
  · intro e he
    unfold generalLit at he
    split at he
    · cases he
    · rename_i hm
      have h3 := h.resolve_left fun h0 => hm ((LawfulGen.zero x).2 h0)
      unfold digitsLit at he
      split at he
      · cases he
      · split at he
        · cases he
        · cases he
          refine ⟨by unfold genExp; simp [natDigs_ne], ?_⟩
          have h4 := genExp_value (GenPrinter.expo x)
          unfold ExpPart.value at h4
          split at h4 <;> omega
  · rw [generalLit_text]
    exact lt_of_le_of_lt (generalText_length h) (by norm_num)

/-- The printed number has a decimal point or no exponent. -/
def IgesReadable (x : K) : Prop := '.' ∈ Iges.generalText x ∨ 'e' ∉ Iges.generalText x

theorem lit_point {l : DecLit} : '.' ∈ l.text → l.frac.isSome := by
  have hd : ∀ ds : List (Fin 10), '.' ∉ ds.map digitChar := fun ds h => by
    have := digits_no_point ds _ h
    simp at this
  intro h
  cases hf : l.frac with
  | some f => rfl
  | none =>
    exfalso
    unfold DecLit.text DecLit.mantissa at h
    rw [hf] at h
    simp only [List.append_nil, List.mem_append] at h
    rcases h with h | h | h
    · split at h <;> simp at h
    · exact hd _ h
    · have := expText_no_point l _ h
      simp at this

theorem lit_exp {l : DecLit} (h : l.exp.isSome) (hu : ∀ e, l.exp = some e → e.upper = false) : 'e' ∈ l.text := by
  obtain ⟨e, he⟩ := Option.isSome_iff_exists.1 h
  unfold DecLit.text DecLit.expText ExpPart.text
  rw [he]
  simp [hu e he]

theorem generalLit_exp {x : K} {e : ExpPart} (h : (generalLit x).exp = some e) : e.upper = false := by
  unfold generalLit digitsLit at h
  split at h
  · cases h
  · split at h
    · cases h
    · split at h
      · cases h
      · cases h; rfl

theorem readable_iff (x : K) : IgesReadable x ↔ (generalLit x).frac.isSome ∨ (generalLit x).exp = none := by
  unfold IgesReadable
  rw [← generalLit_text]
  constructor
  · rintro (h | h)
    · exact Or.inl (lit_point h)
    · right
      by_contra hx
      exact h (lit_exp (Option.ne_none_iff_isSome.1 hx) fun e he => generalLit_exp he)
  · rintro (h | h)
    · left
      obtain ⟨f, hf⟩ := Option.isSome_iff_exists.1 h
      unfold DecLit.text DecLit.mantissa
      rw [hf]; simp
    · right
      intro hm
      unfold DecLit.text DecLit.mantissa DecLit.expText at hm
      rw [h] at hm
      have hd : ∀ ds : List (Fin 10), 'e' ∉ ds.map digitChar := fun ds hx => by
        obtain ⟨d, _, hd⟩ := List.mem_map.1 hx
        exact (digitChar_facts d).2.2.2.2.1 hd
      simp only [List.append_nil, List.mem_append] at hm
      rcases hm with hm | hm | hm
      · split at hm <;> simp at hm
      · exact hd _ hm
      · split at hm
        · simp at hm
        · rcases List.mem_cons.1 hm with hm | hm
          · simp at hm
          · exact hd _ hm

theorem read_general {x : K} (h : ShortExp x) (hr : IgesReadable x) : stringToDouble K (Iges.generalText x) = .ok (gd x) := by
  rw [← generalLit_text, C33_decimal_partial (generalLit_valid h) ((readable_iff x).1 hr), generalLit_value]

/-- A number that is printed with an exponent and without a point is read wrongly. -/
theorem read_general_wrong {x : K} (h : ShortExp x) (hr : ¬ IgesReadable x) : stringToDouble K (Iges.generalText x) ≠ .ok (gd x) := by
  rw [readable_iff, not_or] at hr
  rw [← generalLit_text, ← generalLit_value]
  refine C33_integer_with_exponent_wrong (generalLit_valid h) (by simpa using hr.1) (Option.ne_none_iff_isSome.1 hr.2) ?_
  intro h0
  -- the first digit is not zero
  have hm : GenPrinter.mant x ≠ 0 := by
    intro hm
    apply hr.2
    unfold generalLit
    rw [if_pos hm]
  have hg : (generalLit x).value K ≠ 0 := by
    rw [generalLit_value]
    unfold gd
    refine mul_ne_zero (mul_ne_zero ?_ (by exact_mod_cast hm)) (zpow_ne_zero _ (by norm_num))
    split <;> norm_num
  apply hg
  unfold DecLit.value
  have hf : (generalLit x).frac = none := by simpa using hr.1
  rw [hf, h0]; simp

theorem generalText_chars (x : K) : ∀ c ∈ Iges.generalText x, c ≠ '\n' ∧ ¬ listSep c ∧ isSpace c = false ∧ c ≠ '[' ∧ c ≠ ']' := by
  rw [← generalLit_text]
  intro c hc
  rcases DecLit.text_chars c hc with ⟨d, rfl⟩ | rfl | rfl | rfl | rfl | rfl
  · clear hc; revert d; unfold listSep; decide
  all_goals (clear hc; unfold listSep; decide)

theorem generalText_ne (x : K) : Iges.generalText x ≠ [] := by
  rw [← generalLit_text]
  refine lit_ne ?_
  unfold generalLit
  split
  · simp
  · rename_i hm
    have hne : natDigs (GenPrinter.mant x) ≠ [] := natDigs_ne _
    unfold digitsLit
    split
    · simp [hne]
    · split <;> simp [hne]

/-- The range of the numbers of type `double`. -/
def DoubleRange (x : K) : Prop := x = 0 ∨ (1 / 2 ^ 1074 ≤ |x| ∧ |x| ≤ 2 ^ 1024)

theorem shortExp_of_double {x : K} (h : DoubleRange x) : ShortExp x := by
  rcases h with h | ⟨h1, h2⟩
  · exact Or.inl h
  by_cases hx : x = 0
  · exact Or.inl hx
  right
  have p1 : ∀ n : ℕ, (2 : K) ^ (3 * n) ≤ 10 ^ n := fun n => by
    rw [pow_mul]; exact pow_le_pow_left₀ (by norm_num) (by norm_num) n
  have a1 : (2 : K) ^ 1074 ≤ 10 ^ 358 := p1 358
  have a2 : (2 : K) ^ 1024 ≤ 10 ^ 342 := (pow_le_pow_right₀ (by norm_num) (by norm_num : 1024 ≤ 3 * 342)).trans (p1 342)
  have b1 : (10 : K) ^ (-358 : ℤ) ≤ |x| := by
    refine le_trans ?_ h1
    have : (10 : K) ^ (-358 : ℤ) = 1 / 10 ^ 358 := by
      rw [show (-358 : ℤ) = -((358 : ℕ) : ℤ) by norm_num, zpow_neg, zpow_natCast, one_div]
    rw [this]
    exact one_div_le_one_div_of_le (pow_pos (by norm_num) _) a1
  have b2 : |x| ≤ (10 : K) ^ (342 : ℤ) := by
    refine h2.trans (a2.trans (le_of_eq ?_))
    rw [show (342 : ℤ) = ((342 : ℕ) : ℤ) by norm_num, zpow_natCast]
  have := expo_bounds hx b1 b2
  omega

/-- Numbers of ordinary size are printed without exponent. -/
theorem readable_of_ordinary {x : K} (h : x = 0 ∨ (1 / 10 ^ 4 ≤ |x| ∧ |x| ≤ 10 ^ 17)) : IgesReadable x := by
  rw [readable_iff]
  right
  unfold generalLit
  by_cases hm : GenPrinter.mant x = 0
  · rw [if_pos hm]
  · have hx : x ≠ 0 := fun h0 => hm ((LawfulGen.zero x).2 h0)
    obtain ⟨h1, h2⟩ := h.resolve_left hx
    have := expo_bounds hx (a := -4) (b := 17) (by
      refine le_of_eq_of_le ?_ h1
      rw [show (-4 : ℤ) = -((4 : ℕ) : ℤ) by norm_num, zpow_neg, zpow_natCast, one_div]) (by
      refine h2.trans (le_of_eq ?_)
      rw [show (17 : ℤ) = ((17 : ℕ) : ℤ) by norm_num, zpow_natCast])
    rw [if_neg hm]
    unfold digitsLit
    by_cases h0 : 0 ≤ GenPrinter.expo x ∧ GenPrinter.expo x < 18
    · rw [if_pos h0]
    · rw [if_neg h0, if_pos (by omega)]
end

/-! ### Fields -/

/-- Fields separated by ',' and ended by ';'. -/
def joinFields : List (List Char) → List Char
  | [] => [';']
  | [t] => t ++ [';']
  | t :: ts => t ++ ',' :: joinFields ts

theorem joinFields_cons (t : List Char) {ts : List (List Char)} (h : ts ≠ []) : joinFields (t :: ts) = t ++ ',' :: joinFields ts := by
  cases ts with
  | nil => exact absurd rfl h
  | cons u us => rfl

theorem joinFields_append (ts : List (List Char)) {us : List (List Char)} (h : us ≠ []) :
    joinFields (ts ++ us) = (ts.flatMap fun t => t ++ [',']) ++ joinFields us := by
  induction ts with
  | nil => rfl
  | cons t ts ih =>
    rw [List.cons_append, joinFields_cons t (by simp [h]), ih, List.flatMap_cons]; simp

theorem joinFields_eq : ∀ (ts : List (List Char)), ts ≠ [] → ∃ fs : List (List Char × Char), joinFields ts = fieldsText fs ∧
    fs.map Prod.fst = ts ∧ ∀ f ∈ fs, listSep f.2
  | [], h => absurd rfl h
  | [t], _ => ⟨[(t, ';')], by simp [joinFields, fieldsText], rfl, by simp [listSep]⟩
  | t :: u :: us, _ => by
    obtain ⟨fs, h1, h2, h3⟩ := joinFields_eq (u :: us) (by simp)
    refine ⟨(t, ',') :: fs, ?_, by simp [h2], ?_⟩
    · rw [joinFields_cons t (by simp), h1]; simp [fieldsText]
    · intro f hf
      rcases List.mem_cons.1 hf with rfl | hf
      · exact Or.inl rfl
      · exact h3 f hf

theorem joinFields_length (ts : List (List Char)) (b : ℕ) (h : ∀ t ∈ ts, t.length ≤ b) : (joinFields ts).length ≤ (b + 1) * ts.length + 1 := by
  induction ts with
  | nil => simp [joinFields]
  | cons t ts ih =>
    have h1 := h t (by simp)
    have h2 := ih fun u hu => h u (by simp [hu])
    by_cases hn : ts = []
    · subst hn; simp [joinFields]; omega
    · rw [joinFields_cons t hn, List.length_append, List.length_cons, List.length_cons, Nat.mul_add]; omega

theorem joinFields_ne (ts : List (List Char)) : joinFields ts ≠ [] := by
  match ts with
  | [] => simp [joinFields]
  | [t] => simp [joinFields]
  | t :: u :: us => simp [joinFields]

section
variable {K : Type} [Field K] [LinearOrder K] [IsStrictOrderedRing K]

/-- A field and the number it is read as. -/
structure FieldOf (t : List Char) (x : K) : Prop where
  ne : t ≠ []
  chars : ∀ c ∈ t, c ≠ '\n' ∧ ¬ listSep c ∧ isSpace c = false ∧ c ≠ '[' ∧ c ≠ ']'
  read : stringToDouble K t = .ok x

theorem trim_plain {t : List Char} (h : ∀ c ∈ t, isSpace c = false ∧ c ≠ '[' ∧ c ≠ ']') {a b : List Char} (ha : ∀ c ∈ a, c = ' ')
    (hb : ∀ c ∈ b, c = ' ') : trim (a ++ t ++ b) = t := by
  refine stripped_trim ⟨a, b, rfl, ?_, ?_, ?_, ?_⟩
  · intro c hc; rw [ha c hc]; unfold stripL; decide
  · intro c hc; rw [hb c hc]; unfold stripR; decide
  · intro c hc hs
    have := h c (List.mem_of_head? hc)
    rcases hs with hs | hs
    · rw [this.1] at hs; cases hs
    · exact this.2.1 hs
  · intro c hc hs
    have := h c (List.mem_of_getLast? hc)
    rcases hs with hs | hs
    · rw [this.1] at hs; cases hs
    · exact this.2.2 hs

theorem read_fields {ts : List (List Char)} {xs : List K} (h : List.Forall₂ FieldOf ts xs) (hne : ts ≠ []) (n : ℕ)
    (hl : (joinFields ts).length + n < 2 ^ 64 - 1) :
    delimitedStringToVector K (joinFields ts ++ List.replicate n ' ') = .ok xs := by
  obtain ⟨fs, h1, h2, h3⟩ := joinFields_eq ts hne
  have hns : ∀ c : Char, ¬ listSep c → c ≠ ',' ∧ c ≠ ';' := fun c h => ⟨fun e => h (Or.inl e), fun e => h (Or.inr e)⟩
  have hall : ∀ t ∈ ts, t ≠ [] ∧ (∀ c ∈ t, c ≠ '\n' ∧ ¬ listSep c ∧ isSpace c = false ∧ c ≠ '[' ∧ c ≠ ']') := by
    intro t ht
    obtain ⟨i, hi, rfl⟩ := List.mem_iff_getElem.1 ht
    have := h.get (i := i) hi (by rw [← h.length_eq]; exact hi)
    exact ⟨this.ne, this.chars⟩
  rw [h1, C35_delimited_fields (fs := fs) (tail := List.replicate n ' ')]
  · rw [h2]
    have hf : ts.filter (fun f => !f.isEmpty) = ts := List.filter_eq_self.2 fun t ht => by
      have := (hall t ht).1
      cases t
      · exact absurd rfl this
      · rfl
    rw [hf]
    clear h1 h2 h3 hf hl hne
    induction h with
    | nil => rfl
    | @cons t x ts xs htx _ ih =>
      rw [List.mapM_cons]
      have ht := trim_plain (t := t) (fun c hc => (htx.chars c hc).2.2) (a := []) (b := []) (by simp) (by simp)
      rw [List.nil_append, List.append_nil] at ht
      rw [ht, htx.read, ok_bind, ih fun u hu => hall u (by simp [hu]), ok_bind]; rfl
  · intro f hf
    have hm : f.1 ∈ ts := by rw [← h2]; exact List.mem_map_of_mem hf
    exact ⟨fun c hc => hns c ((hall _ hm).2 c hc).2.1, h3 f hf⟩
  · intro c hc
    rw [List.eq_of_mem_replicate hc]; decide
  · rw [← h1, List.length_append, List.length_replicate]; exact hl

theorem field_nat {n : ℕ} (h : n < 2 ^ 31) : FieldOf (natText n) (n : K) := by
  refine ⟨natText_ne n, ?_, ?_⟩
  · rw [← natLit_text]
    intro c hc
    rcases DecLit.text_chars c hc with ⟨d, rfl⟩ | rfl | rfl | rfl | rfl | rfl
    · clear hc; revert d; unfold listSep; decide
    all_goals (clear hc; unfold listSep; decide)
  · refine read_nat n (lt_of_le_of_lt (natText_length (k := 9) (by omega)) (by norm_num))

theorem field_general [LawfulGen K] {x : K} (h : ShortExp x) (hr : IgesReadable x) : FieldOf (Iges.generalText x) (gd x) :=
  ⟨generalText_ne x, generalText_chars x, read_general h hr⟩
end
end SplineLib
