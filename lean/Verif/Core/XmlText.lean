import Verif.Core.Pugi
import Verif.Spec.XmlText
import Mathlib.Tactic.IntervalCases
import Mathlib.Tactic.NormNum
import Mathlib.Tactic.Ring

/-!
# The XML parser reads the texts of the grammar

Values are decoded as the grammar says (`Decodes`, `Lines`), tags and contents give the nodes that the grammar assigns to them, and the text
that `save` writes belongs to the grammar.
-/

namespace SplineLib
namespace Pugi
open Xml XmlText

/-! ## Characters -/

theorem isWs_iff (c : Char) : isWs c = true ↔ Blank c := by
  simp [isWs, Blank, or_assoc]

theorem isStart_iff (c : Char) : isStart c = true ↔ NameStart c := by
  have h1 : ('a' ≤ c ∧ c ≤ 'z') ↔ c.isLower = true := by simp [Char.isLower, Char.le_def]
  have h2 : ('A' ≤ c ∧ c ≤ 'Z') ↔ c.isUpper = true := by simp [Char.isUpper, Char.le_def]
  simp only [isStart, NameStart, Char.isAlpha, h1, h2, Bool.or_eq_true, beq_iff_eq, decide_eq_true_eq]
  tauto

theorem isSymbol_iff (c : Char) : isSymbol c = true ↔ NameChar c := by
  have h1 : ('0' ≤ c ∧ c ≤ '9') ↔ c.isDigit = true := by simp [Char.isDigit, Char.le_def]
  simp only [isSymbol, NameChar, h1, Bool.or_eq_true, beq_iff_eq, isStart_iff]
  tauto

theorem isStart_isSymbol {c : Char} (h : isStart c = true) : isSymbol c = true := by
  simp [isSymbol, h]

theorem blank_not_symbol {c : Char} (h : Blank c) : isSymbol c = false := by
  rcases h with rfl | rfl | rfl | rfl <;> decide

theorem blank_not_start {c : Char} (h : Blank c) : isStart c = false := by
  rcases h with rfl | rfl | rfl | rfl <;> decide

/-! ## Values -/

theorem refDigits_numeral {digit : Char → ℕ → Prop} {val : Char → Option ℕ} {base : ℕ} (hv : ∀ c d, digit c d → val c = some d)
    (hs : val ';' = none) {a n : ℕ} {cs : List Char} (h : Numeral digit base a cs n) (r : List Char) :
    refDigits val base (a % 2 ^ 32) (cs ++ ';' :: r) = some (n % 2 ^ 32, r) := by
  induction h with
  | nil a =>
    rw [List.nil_append, refDigits, hs]
    simp
  | @cons a d n c cs hd _ ih =>
    rw [List.cons_append, refDigits, hv _ _ hd]
    dsimp only
    rw [← ih]
    congr 1
    rw [Nat.add_mod, Nat.mul_mod, Nat.mod_mod, ← Nat.mul_mod, ← Nat.add_mod]

theorem decVal_digit (c : Char) (d : ℕ) (h : DecDigit c d) : decVal c = some d := by
  obtain ⟨hd, rfl⟩ := h
  interval_cases d <;> decide

theorem hexVal_digit (c : Char) (d : ℕ) (h : HexDigit c d) : hexVal c = some d := by
  rcases h with ⟨hd, rfl⟩ | ⟨h1, h2, rfl | rfl⟩
  · interval_cases d <;> decide
  · interval_cases d <;> decide
  · interval_cases d <;> decide

theorem utf8_bytes (c : Char) : utf8 c.toNat = bytes c := by
  have hc : c.toNat < 1114112 := by
    rcases c.valid with h | ⟨_, h⟩
    · have : c.toNat < 55296 := h
      omega
    · exact h
  have e : c.val.toNat = c.toNat := rfl
  rw [utf8, bytes, String.utf8EncodeChar, e]
  generalize c.toNat = n at hc
  have m : ∀ k, k < 256 → (UInt8.ofNat k).toNat = k := fun k hk => by
    rw [UInt8.toNat_ofNat']
    exact Nat.mod_eq_of_lt hk
  by_cases h1 : n < 128
  · rw [if_pos h1, if_pos (show n ≤ 127 by omega), List.map_singleton, m _ (by omega)]
  rw [if_neg h1, if_neg (show ¬ n ≤ 127 by omega)]
  by_cases h2 : n < 2048
  · rw [if_pos h2, if_pos (show n ≤ 2047 by omega)]
    simp only [List.map_cons, List.map_nil]
    rw [m _ (by omega), m _ (by omega)]
    have e1 : 192 + n / 64 = n / 64 % 32 + 192 := by omega
    rw [e1, Nat.add_comm 128]
  rw [if_neg h2, if_neg (show ¬ n ≤ 2047 by omega)]
  by_cases h3 : n < 65536
  · rw [if_pos h3, if_pos (show n ≤ 65535 by omega)]
    simp only [List.map_cons, List.map_nil]
    rw [m _ (by omega), m _ (by omega), m _ (by omega)]
    have e1 : 224 + n / 4096 = n / 4096 % 16 + 224 := by omega
    rw [e1, Nat.add_comm 128, Nat.add_comm 128]
  rw [if_neg h3, if_neg (show ¬ n ≤ 65535 by omega)]
  simp only [List.map_cons, List.map_nil]
  rw [m _ (by omega), m _ (by omega), m _ (by omega), m _ (by omega)]
  have e1 : (240 ||| n / 2 ^ 18) % 256 = n / 262144 % 8 + 240 := by
    have : n / 2 ^ 18 < 5 := by omega
    rw [show (262144 : ℕ) = 2 ^ 18 by norm_num]
    generalize n / 2 ^ 18 = k at this
    interval_cases k <;> rfl
  rw [e1, Nat.add_comm 128, Nat.add_comm 128, Nat.add_comm 128]

theorem ofNat_ne_zero : ∀ k < 256, 0 < k → Char.ofNat k ≠ '\x00' := by decide +kernel

theorem bytes_ne_zero {c : Char} (h : c ≠ '\x00') : ∀ b ∈ bytes c, b ≠ '\x00' := by
  have h0 : 0 < c.toNat := by
    rcases Nat.eq_zero_or_pos c.toNat with h0 | h0
    · exact absurd (Char.toNat_inj.1 (h0.trans (show (0 : ℕ) = '\x00'.toNat from rfl))) h
    · exact h0
  rw [← utf8_bytes]
  generalize c.toNat = n at h0
  intro b hb
  unfold utf8 at hb
  split at hb
  · simp only [List.mem_cons, List.not_mem_nil, or_false] at hb
    subst hb
    exact ofNat_ne_zero _ (by omega) (by omega)
  split at hb
  · simp only [List.mem_cons, List.not_mem_nil, or_false] at hb
    rcases hb with rfl | rfl
    · exact ofNat_ne_zero _ (by omega) (by omega)
    · exact ofNat_ne_zero _ (by omega) (by omega)
  split at hb
  · simp only [List.mem_cons, List.not_mem_nil, or_false] at hb
    rcases hb with rfl | rfl | rfl
    · exact ofNat_ne_zero _ (by omega) (by omega)
    · exact ofNat_ne_zero _ (by omega) (by omega)
    · exact ofNat_ne_zero _ (by omega) (by omega)
  · simp only [List.mem_cons, List.not_mem_nil, or_false] at hb
    rcases hb with rfl | rfl | rfl | rfl
    · refine ofNat_ne_zero _ (by omega) ?_
      have e : (240 ||| n / 2 ^ 18) % 256 = 240 ||| (n / 2 ^ 18 % 256) := by
        have := Nat.or_mod_two_pow (a := 240) (b := n / 2 ^ 18) (n := 8)
        simpa using this
      rw [e]
      have := Nat.left_le_or (n := 240) (m := n / 2 ^ 18 % 256)
      omega
    · exact ofNat_ne_zero _ (by omega) (by omega)
    · exact ofNat_ne_zero _ (by omega) (by omega)
    · exact ofNat_ne_zero _ (by omega) (by omega)

theorem escape_entity {e : List Char × Char} (he : e ∈ entities) (r : List Char) : escape (e.1 ++ ';' :: r) = ([e.2], r) := by
  simp only [entities, List.mem_cons, List.not_mem_nil, or_false] at he
  rcases he with rfl | rfl | rfl | rfl | rfl <;> rfl

theorem escape_decimal {cs : List Char} {c : Char} (h : cs ≠ []) (hn : Numeral DecDigit 10 0 cs c.toNat) (r : List Char) :
    escape ('#' :: cs ++ ';' :: r) = (bytes c, r) := by
  have hd := refDigits_numeral (val := decVal) decVal_digit (by decide) hn r
  have hc : c.toNat % 2 ^ 32 = c.toNat := Nat.mod_eq_of_lt c.val.toNat_lt
  rw [hc, Nat.zero_mod] at hd
  obtain ⟨d, cs', rfl⟩ := List.exists_cons_of_ne_nil h
  have hx : d ≠ 'x' ∧ d ≠ ';' := by
    cases hn with
    | cons hdig _ =>
      obtain ⟨hk, rfl⟩ := hdig
      rename_i k _
      constructor <;> interval_cases k <;> decide
  rw [← utf8_bytes]
  simp only [List.cons_append] at hd ⊢
  unfold escape
  split
  · rename_i heq; simp at heq; exact absurd heq.1 hx.1
  · rename_i heq; simp at heq; exact absurd heq.1 hx.1
  · rename_i heq; simp at heq; exact absurd heq.1 hx.2
  · rename_i r' _ _ _ heq
    simp only [List.cons.injEq, true_and] at heq
    subst heq
    rw [hd]
  all_goals simp_all

theorem escape_hex {cs : List Char} {c : Char} (h : cs ≠ []) (hn : Numeral HexDigit 16 0 cs c.toNat) (r : List Char) :
    escape ('#' :: 'x' :: cs ++ ';' :: r) = (bytes c, r) := by
  have hd := refDigits_numeral (val := hexVal) hexVal_digit (by decide) hn r
  have hc : c.toNat % 2 ^ 32 = c.toNat := Nat.mod_eq_of_lt c.val.toNat_lt
  rw [hc, Nat.zero_mod] at hd
  obtain ⟨d, cs', rfl⟩ := List.exists_cons_of_ne_nil h
  have hx : d ≠ ';' := by
    cases hn with
    | cons hdig _ =>
      rename_i k _
      rcases hdig with ⟨hk, rfl⟩ | ⟨h1, h2, rfl | rfl⟩
      · interval_cases k <;> decide
      · interval_cases k <;> decide
      · interval_cases k <;> decide
  rw [← utf8_bytes]
  simp only [List.cons_append] at hd ⊢
  unfold escape
  split
  · rename_i heq; simp at heq; exact absurd heq.1 hx
  · rename_i r' _ heq
    simp only [List.cons.injEq, true_and] at heq
    subst heq
    rw [hd]
  · simp_all
  · rename_i hne _ heq
    simp only [List.cons.injEq, true_and] at heq
    exact absurd heq.symm (hne _)
  all_goals simp_all

theorem convText_eq {raw v : List Char} (h : Decodes false raw v) : ∀ n, raw.length ≤ n → convText n raw = v := by
  induction h with
  | nil => intro n _; cases n <;> rfl
  | @char c r v h1 h2 _ _ _ ih =>
    intro n hn
    obtain ⟨n, rfl⟩ : ∃ k, n = k + 1 := ⟨n - 1, by simp at hn; omega⟩
    rw [convText, if_neg h2, if_neg h1, ih n (by simpa using hn)]
  | white h => cases h
  | @crlf r v _ ih =>
    intro n hn
    simp only [List.length_cons] at hn
    obtain ⟨n, rfl⟩ : ∃ k, n = k + 1 := ⟨n - 1, by omega⟩
    rw [convText, if_pos rfl, if_pos (show ('\n' :: r).head? = some '\n' from rfl), List.tail_cons, ih n (by omega)]
    rfl
  | @cr r v hr _ ih =>
    intro n hn
    simp only [List.length_cons] at hn
    obtain ⟨n, rfl⟩ : ∃ k, n = k + 1 := ⟨n - 1, by omega⟩
    rw [convText, if_pos rfl, if_neg hr, ih n (by omega)]
    rfl
  | @entity e r v he _ ih =>
    intro n hn
    simp only [List.cons_append, List.length_cons, List.length_append] at hn ⊢
    obtain ⟨n, rfl⟩ : ∃ k, n = k + 1 := ⟨n - 1, by omega⟩
    rw [convText, if_neg (by decide), if_pos rfl, escape_entity he, ih n (by omega)]
    rfl
  | @decimal cs r v c h _ hn' _ ih =>
    intro n hn
    have e := escape_decimal h hn' r
    simp only [List.cons_append, List.length_cons, List.length_append] at hn e ⊢
    obtain ⟨n, rfl⟩ : ∃ k, n = k + 1 := ⟨n - 1, by omega⟩
    rw [convText, if_neg (by decide), if_pos rfl, e, ih n (by omega)]
  | @hex cs r v c h _ hn' _ ih =>
    intro n hn
    have e := escape_hex h hn' r
    simp only [List.cons_append, List.length_cons, List.length_append] at hn e ⊢
    obtain ⟨n, rfl⟩ : ∃ k, n = k + 1 := ⟨n - 1, by omega⟩
    rw [convText, if_neg (by decide), if_pos rfl, e, ih n (by omega)]

theorem convAttr_eq {raw v : List Char} (h : Decodes true raw v) : ∀ n, raw.length ≤ n → convAttr n raw = v := by
  induction h with
  | nil => intro n _; cases n <;> rfl
  | @char c r v h1 h2 _ h4 _ ih =>
    intro n hn
    obtain ⟨n, rfl⟩ : ∃ k, n = k + 1 := ⟨n - 1, by simp at hn; omega⟩
    rw [convAttr, if_neg h2, ih n (by simpa using hn), if_neg h1]
    split
    · rename_i hw
      rcases (isWs_iff c).1 hw with rfl | rfl | rfl | rfl
      · rfl
      · exact absurd rfl (h4 rfl).1
      · exact absurd rfl (h4 rfl).2
      · exact absurd rfl h2
    · rfl
  | @white c r v _ hc _ ih =>
    intro n hn
    obtain ⟨n, rfl⟩ : ∃ k, n = k + 1 := ⟨n - 1, by simp at hn; omega⟩
    rw [convAttr, if_neg (by rcases hc with rfl | rfl <;> decide), if_pos (by rcases hc with rfl | rfl <;> decide), ih n (by simpa using hn)]
  | @crlf r v _ ih =>
    intro n hn
    simp only [List.length_cons] at hn
    obtain ⟨n, rfl⟩ : ∃ k, n = k + 1 := ⟨n - 1, by omega⟩
    rw [convAttr, if_pos rfl, if_pos (show ('\n' :: r).head? = some '\n' from rfl), List.tail_cons, ih n (by omega)]
    rfl
  | @cr r v hr _ ih =>
    intro n hn
    simp only [List.length_cons] at hn
    obtain ⟨n, rfl⟩ : ∃ k, n = k + 1 := ⟨n - 1, by omega⟩
    rw [convAttr, if_pos rfl, if_neg hr, ih n (by omega)]
    rfl
  | @entity e r v he _ ih =>
    intro n hn
    simp only [List.cons_append, List.length_cons, List.length_append] at hn ⊢
    obtain ⟨n, rfl⟩ : ∃ k, n = k + 1 := ⟨n - 1, by omega⟩
    rw [convAttr, if_neg (by decide), if_neg (by decide), if_pos rfl, escape_entity he, ih n (by omega)]
    rfl
  | @decimal cs r v c h _ hn' _ ih =>
    intro n hn
    have e := escape_decimal h hn' r
    simp only [List.cons_append, List.length_cons, List.length_append] at hn e ⊢
    obtain ⟨n, rfl⟩ : ∃ k, n = k + 1 := ⟨n - 1, by omega⟩
    rw [convAttr, if_neg (by decide), if_neg (by decide), if_pos rfl, e, ih n (by omega)]
  | @hex cs r v c h _ hn' _ ih =>
    intro n hn
    have e := escape_hex h hn' r
    simp only [List.cons_append, List.length_cons, List.length_append] at hn e ⊢
    obtain ⟨n, rfl⟩ : ∃ k, n = k + 1 := ⟨n - 1, by omega⟩
    rw [convAttr, if_neg (by decide), if_neg (by decide), if_pos rfl, e, ih n (by omega)]

theorem convLines_eq {raw v : List Char} (h : Lines raw v) : ∀ n, raw.length ≤ n → convLines n raw = v := by
  induction h with
  | nil => intro n _; cases n <;> rfl
  | @char c r v h2 _ _ ih =>
    intro n hn
    obtain ⟨n, rfl⟩ : ∃ k, n = k + 1 := ⟨n - 1, by simp at hn; omega⟩
    rw [convLines, if_neg h2, ih n (by simpa using hn)]
  | @crlf r v _ ih =>
    intro n hn
    simp only [List.length_cons] at hn
    obtain ⟨n, rfl⟩ : ∃ k, n = k + 1 := ⟨n - 1, by omega⟩
    rw [convLines, if_pos rfl, if_pos (show ('\n' :: r).head? = some '\n' from rfl), List.tail_cons, ih n (by omega)]
  | @cr r v hr _ ih =>
    intro n hn
    simp only [List.length_cons] at hn
    obtain ⟨n, rfl⟩ : ∃ k, n = k + 1 := ⟨n - 1, by omega⟩
    rw [convLines, if_pos rfl, if_neg hr, ih n (by omega)]

theorem cstr_eq {v : List Char} (h : ∀ c ∈ v, c ≠ '\x00') : cstr v = v := by
  have := List.takeWhile_append_of_pos (p := fun c => decide (c ≠ '\x00')) (l₁ := v) (l₂ := []) (fun c hc => by simpa using h c hc)
  simpa [cstr] using this

theorem decodes_ne_zero {attr : Bool} {raw v : List Char} (h : Decodes attr raw v) : ∀ c ∈ v, c ≠ '\x00' := by
  have nl : (if attr then ' ' else '\n') ≠ '\x00' := by cases attr <;> decide
  induction h with
  | nil => simp
  | char _ _ h _ _ ih => simpa using ⟨h, ih⟩
  | white _ _ _ ih => simpa using ih
  | crlf _ ih => exact List.forall_mem_cons.2 ⟨nl, ih⟩
  | cr _ _ ih => exact List.forall_mem_cons.2 ⟨nl, ih⟩
  | @entity e r v he _ ih =>
    refine List.forall_mem_cons.2 ⟨?_, ih⟩
    simp only [entities, List.mem_cons, List.not_mem_nil, or_false] at he
    rcases he with rfl | rfl | rfl | rfl | rfl <;> simp
  | decimal _ hc _ _ ih => exact List.forall_mem_append.2 ⟨bytes_ne_zero hc, ih⟩
  | hex _ hc _ _ ih => exact List.forall_mem_append.2 ⟨bytes_ne_zero hc, ih⟩

theorem lines_ne_zero {raw v : List Char} (h : Lines raw v) : ∀ c ∈ v, c ≠ '\x00' := by
  induction h with
  | nil => simp
  | char _ h _ ih => simpa using ⟨h, ih⟩
  | crlf _ ih => simpa using ih
  | cr _ _ ih => simpa using ih

theorem text_value {raw v : List Char} (h : Decodes false raw v) : cstr (convText raw.length raw) = v := by
  rw [convText_eq h _ le_rfl, cstr_eq (decodes_ne_zero h)]

theorem attr_value {raw v : List Char} (h : Decodes true raw v) : cstr (convAttr raw.length raw) = v := by
  rw [convAttr_eq h _ le_rfl, cstr_eq (decodes_ne_zero h)]

theorem cdata_value {raw v : List Char} (h : Lines raw v) : cstr (convLines raw.length raw) = v := by
  rw [convLines_eq h _ le_rfl, cstr_eq (lines_ne_zero h)]

/-! ## Tags -/

theorem name_symbols {n : List Char} (h : IsName n) : ∀ c ∈ n, isSymbol c = true := by
  obtain ⟨c, r, rfl, hc, hr⟩ := h
  exact List.forall_mem_cons.2 ⟨isStart_isSymbol ((isStart_iff c).2 hc), fun d hd => (isSymbol_iff d).2 (hr d hd)⟩

theorem takeWhile_stop {α : Type} {p : α → Bool} {n x : List α} (hn : ∀ c ∈ n, p c = true) (hx : ∀ c, x.head? = some c → p c = false) :
    (n ++ x).takeWhile p = n := by
  rw [List.takeWhile_append_of_pos hn]
  cases x with
  | nil => simp
  | cons c x => rw [List.takeWhile_cons, if_neg (by simp [hx c rfl]), List.append_nil]

theorem dropWhile_stop {α : Type} {p : α → Bool} {n x : List α} (hn : ∀ c ∈ n, p c = true) (hx : ∀ c, x.head? = some c → p c = false) :
    (n ++ x).dropWhile p = x := by
  rw [List.dropWhile_append_of_pos hn]
  cases x with
  | nil => simp
  | cons c x => rw [List.dropWhile_cons, if_neg (by simp [hx c rfl])]

theorem blanks_ws {w : List Char} (h : ∀ c ∈ w, Blank c) : ∀ c ∈ w, isWs c = true := fun c hc => (isWs_iff c).2 (h c hc)

/-- What follows white space and a character that is neither white space nor part of a name begins with no symbol. -/
theorem head_blanks {w x : List Char} {d : Char} (h : ∀ c ∈ w, Blank c) (hd : isSymbol d = false) :
    ∀ c, (w ++ d :: x).head? = some c → isSymbol c = false := by
  intro c hc
  cases w with
  | nil =>
    simp only [List.nil_append, List.head?_cons, Option.some.injEq] at hc
    exact hc ▸ hd
  | cons b w =>
    simp only [List.cons_append, List.head?_cons, Option.some.injEq] at hc
    exact hc ▸ blank_not_symbol (h b (by simp))

theorem scanTo_char {q : Char} {raw : List Char} (h : q ∉ raw) (t : List Char) : scanTo [q] (raw ++ q :: t) = some (raw, t) := by
  have := scanTo_first (pat := [q]) (by simp) raw t (by
    intro x y hxy hy hp
    obtain ⟨c, y', rfl⟩ := List.exists_cons_of_ne_nil hy
    have hc : q = c := by simpa using hp
    exact h (by rw [hxy, hc]; simp))
  simpa using this

theorem oneAttr_eq {n w₁ w₂ raw v t : List Char} {q : Char} (hn : IsName n) (h₁ : ∀ c ∈ w₁, Blank c) (h₂ : ∀ c ∈ w₂, Blank c)
    (hq : q = '"' ∨ q = '\'') (hr : q ∉ raw) (hv : Decodes true raw v) (ht : ∀ c, t.head? = some c → isStart c = false) :
    oneAttr (n ++ (w₁ ++ '=' :: (w₂ ++ q :: (raw ++ q :: t)))) = .ok ((n, v), t) := by
  have hs : ∀ c, (w₁ ++ '=' :: (w₂ ++ q :: (raw ++ q :: t))).head? = some c → isSymbol c = false := head_blanks h₁ (by decide)
  have e3 : ('=' :: (w₂ ++ q :: (raw ++ q :: t))).head? = some '=' := rfl
  have hq' : isWs q = false := by rcases hq with rfl | rfl <;> decide
  unfold oneAttr
  dsimp only
  rw [takeWhile_stop (name_symbols hn) hs, dropWhile_stop (name_symbols hn) hs,
    dropWhile_stop (blanks_ws h₁) (by intro c hc; rw [e3] at hc; cases hc; decide)]
  simp only
  rw [dropWhile_stop (blanks_ws h₂) (by intro c hc; simp only [List.head?_cons, Option.some.injEq] at hc; exact hc ▸ hq')]
  dsimp only
  rw [if_pos hq, scanTo_char hr]
  dsimp only
  rw [attr_value hv]
  cases t with
  | nil => rfl
  | cons c t => simp [ht c rfl]

theorem attributes_ws {c : Char} (h : isWs c = true) (n : ℕ) (s : List Char) (acc : List (List Char × List Char)) :
    attributes n (c :: s) acc = attributes n s acc := by
  cases n with
  | zero => rfl
  | succ n =>
    rw [attributes, attributes, List.dropWhile_cons, if_pos h]

theorem attributes_blanks {w : List Char} (h : ∀ c ∈ w, Blank c) (n : ℕ) (s : List Char) (acc : List (List Char × List Char)) :
    attributes n (w ++ s) acc = attributes n s acc := by
  induction w with
  | nil => rfl
  | cons c w ih =>
    rw [List.cons_append, attributes_ws ((isWs_iff c).2 (h c (by simp))), ih fun d hd => h d (by simp [hd])]

/-- What follows the attributes. -/
def tagEnd (closed : Bool) : List Char := if closed then "/>".toList else ">".toList

theorem attrs_head {a w s : List Char} {as : List (List Char × List Char)} (ha : Attrs a as) (hw : ∀ c ∈ w, Blank c) (closed : Bool) :
    ∀ c, (a ++ (w ++ (tagEnd closed ++ s))).head? = some c → isSymbol c = false := by
  cases ha with
  | nil =>
    cases closed
    · exact head_blanks hw (by decide)
    · exact head_blanks hw (by decide)
  | @cons w' n w₁ w₂ raw v r q as hne hw' =>
    intro c hc
    obtain ⟨b, w', rfl⟩ := List.exists_cons_of_ne_nil hne
    simp only [List.cons_append, List.head?_cons, Option.some.injEq] at hc
    exact hc ▸ blank_not_symbol (hw' b (by simp))

theorem not_start_of_not_symbol {c : Char} (h : isSymbol c = false) : isStart c = false := by
  by_contra hc
  rw [isStart_isSymbol (by simpa using hc)] at h
  cases h

theorem attributes_eq {a w s : List Char} {as : List (List Char × List Char)} (ha : Attrs a as) (hw : ∀ c ∈ w, Blank c) (closed : Bool) :
    ∀ (n : ℕ) (acc : List (List Char × List Char)), (a ++ (w ++ (tagEnd closed ++ s))).length < n →
      attributes n (a ++ (w ++ (tagEnd closed ++ s))) acc = .ok (acc ++ as, closed, s) := by
  induction ha with
  | nil =>
    intro n acc hn
    rw [List.nil_append, attributes_blanks hw, List.append_nil]
    obtain ⟨n, rfl⟩ : ∃ k, n = k + 1 := ⟨n - 1, by omega⟩
    cases closed <;> rfl
  | @cons w' n w₁ w₂ raw v r q as hne hw' hnm h₁ h₂ hq hr hv hrest ih =>
    intro k acc hk
    obtain ⟨k, rfl⟩ : ∃ j, k = j + 1 := ⟨k - 1, by omega⟩
    have e : w' ++ n ++ w₁ ++ '=' :: w₂ ++ q :: raw ++ q :: r ++ (w ++ (tagEnd closed ++ s)) =
        w' ++ (n ++ (w₁ ++ '=' :: (w₂ ++ q :: (raw ++ q :: (r ++ (w ++ (tagEnd closed ++ s))))))) := by simp
    rw [e] at hk ⊢
    have one := oneAttr_eq (t := r ++ (w ++ (tagEnd closed ++ s))) hnm h₁ h₂ hq hr hv
      (fun c hc => not_start_of_not_symbol (attrs_head hrest hw closed c hc))
    rw [attributes_blanks hw', attributes]
    obtain ⟨c, n', rfl, hc, -⟩ := hnm
    have hst := (isStart_iff c).2 hc
    rw [List.cons_append] at one ⊢
    rw [List.dropWhile_cons, if_neg (by
      intro hws
      rw [blank_not_start ((isWs_iff c).1 hws)] at hst
      cases hst)]
    dsimp only
    rw [if_pos hst, one]
    change attributes k (r ++ (w ++ (tagEnd closed ++ s))) (acc ++ [(c :: n', v)]) = _
    rw [ih k _ (by simp only [List.length_append, List.length_cons] at hk ⊢; omega)]
    simp

theorem attributes_fuel (n : ℕ) : ∀ (m : ℕ) (s : List Char) (acc : List (List Char × List Char)), s.length < n → s.length < m →
    attributes n s acc = attributes m s acc := by
  induction n with
  | zero => intro m s acc h; omega
  | succ n ih =>
    intro m s acc h h'
    obtain ⟨m, rfl⟩ : ∃ k, m = k + 1 := ⟨m - 1, by omega⟩
    rw [attributes, attributes]
    have l1 := dropWhile_length_le isWs s
    cases hs : s.dropWhile isWs with
    | nil => rfl
    | cons c r =>
      rw [hs] at l1
      dsimp only
      split
      · cases ho : oneAttr (c :: r) with
        | error e => rfl
        | ok x =>
          have := (oneAttr_spec (c :: r)).2 x.1 x.2 ho
          exact ih m x.2 _ (by omega) (by omega)
      · rfl

theorem attrs_nil {as : List (List Char × List Char)} (h : Attrs [] as) : as = [] := by
  generalize hx : ([] : List Char) = x at h
  cases h with
  | nil => rfl
  | cons => simp at hx

theorem startTag_eq {n a w s : List Char} {as : List (List Char × List Char)} (hn : IsName n) (ha : Attrs a as) (hw : ∀ c ∈ w, Blank c)
    (closed : Bool) (st : St) : startTag (n ++ (a ++ (w ++ (tagEnd closed ++ s)))) st =
      .more s (if closed then st.add (.elem n as []) else st.push n as) := by
  have hh := attrs_head (s := s) ha hw closed
  unfold startTag
  dsimp only
  rw [takeWhile_stop (name_symbols hn) hh, dropWhile_stop (name_symbols hn) hh]
  have cases2 : (a = [] ∧ w = []) ∨ ∃ b x, Blank b ∧ a ++ (w ++ (tagEnd closed ++ s)) = b :: x := by
    cases ha with
    | nil =>
      cases w with
      | nil => exact .inl ⟨rfl, rfl⟩
      | cons b w => exact .inr ⟨b, w ++ (tagEnd closed ++ s), hw b (by simp), rfl⟩
    | @cons w' n w₁ w₂ raw v r q as hne hw' =>
      obtain ⟨b', w', rfl⟩ := List.exists_cons_of_ne_nil hne
      exact .inr ⟨b', _, hw' b' (by simp), by simp only [List.cons_append]; rfl⟩
  rcases cases2 with ⟨rfl, rfl⟩ | ⟨b, x, hb, hbx⟩
  · obtain rfl := attrs_nil ha
    cases closed <;> rfl
  · have hws := (isWs_iff b).2 hb
    have key := attributes_eq ha hw closed (s := s) (x.length + 2) [] (by rw [hbx]; simp)
    rw [hbx, attributes_ws hws, attributes_fuel _ (x.length + 1) x [] (by omega) (by omega)] at key
    rw [hbx]
    dsimp only
    rw [if_neg (by rintro rfl; revert hb; simp [Blank]), if_pos hws, key]
    rfl

theorem endTag_eq {n w s : List Char} {as : List (List Char × List Char)} {kids root : List Node} {os : List Open} (hn : IsName n)
    (hw : ∀ c ∈ w, Blank c) : endTag (n ++ (w ++ '>' :: s)) ⟨root, ⟨n, as, kids⟩ :: os⟩ = .more s (St.add ⟨root, os⟩ (.elem n as kids)) := by
  have hh : ∀ c, (w ++ '>' :: s).head? = some c → isSymbol c = false := head_blanks hw (by decide)
  unfold endTag
  dsimp only
  rw [takeWhile_stop (name_symbols hn) hh, dropWhile_stop (name_symbols hn) hh, if_pos rfl,
    dropWhile_stop (blanks_ws hw) (by intro c hc; simp only [List.head?_cons, Option.some.injEq] at hc; exact hc ▸ by decide)]
  rfl

/-! ## Contents -/

theorem add_stack_isEmpty (st : St) (n : Node) : (st.add n).stack.isEmpty = st.stack.isEmpty := by
  unfold St.add
  split
  · rfl
  · rename_i h
    rw [h]
    rfl

theorem add_foldl_open (kids : List Node) : ∀ (root : List Node) (o : Open) (os : List Open),
    kids.foldl St.add ⟨root, o :: os⟩ = ⟨root, { o with kids := o.kids ++ kids } :: os⟩ := by
  induction kids with
  | nil => intro root o os; simp
  | cons k ks ih =>
    intro root o os
    rw [List.foldl_cons]
    change ks.foldl St.add ⟨root, { o with kids := o.kids ++ [k] } :: os⟩ = _
    rw [ih]
    simp

theorem add_foldl_root (ns : List Node) : ∀ root : List Node, ns.foldl St.add ⟨root, []⟩ = ⟨root ++ ns, []⟩ := by
  induction ns with
  | nil => intro root; simp
  | cons k ks ih =>
    intro root
    rw [List.foldl_cons]
    change ks.foldl St.add ⟨root ++ [k], []⟩ = _
    rw [ih]
    simp

theorem run_more {s t : List Char} {st st' : St} (h : step s st = .more t st') : run s st = run t st' := by
  rw [run_step, h]

theorem step_lt (s : List Char) (st : St) : step ('<' :: s) st = tag s st := by
  rw [step, if_pos rfl]

theorem tag_start {n : List Char} (hn : IsName n) (s : List Char) (st : St) : tag (n ++ s) st = startTag (n ++ s) st := by
  obtain ⟨c, r, rfl, hc, -⟩ := hn
  rw [List.cons_append, tag, if_pos ((isStart_iff c).2 hc)]

theorem scan_comment {c : List Char} (h : ¬ "--".toList <:+: c) (r : List Char) :
    scanTo "-->".toList (c ++ "-->".toList ++ r) = some (c, r) := by
  refine scanTo_first (by decide) c r ?_
  intro x y hxy hy hp
  obtain ⟨a, y, rfl⟩ := List.exists_cons_of_ne_nil hy
  cases y with
  | nil =>
    simp at hp
  | cons b y =>
    have hab : '-' = a ∧ '-' = b := by
      simp at hp
      exact ⟨hp.1, hp.2.1⟩
    exact h ⟨x, y, by rw [hxy, ← hab.1, ← hab.2]; simp⟩

theorem scan_question {b : List Char} (h : ¬ "?>".toList <:+: b) (r : List Char) :
    scanTo "?>".toList (b ++ "?>".toList ++ r) = some (b, r) := by
  refine scanTo_first (by decide) b r ?_
  intro x y hxy hy hp
  obtain ⟨a, y, rfl⟩ := List.exists_cons_of_ne_nil hy
  cases y with
  | nil => simp at hp
  | cons c y =>
    have hab : '?' = a ∧ '>' = c := by simpa using hp
    exact h ⟨x, y, by rw [hxy, ← hab.1, ← hab.2]; simp⟩

theorem scan_cdata {b : List Char} (h : ¬ "]]>".toList <:+: b) (r : List Char) :
    scanTo "]]>".toList (b ++ "]]>".toList ++ r) = some (b, r) := by
  refine scanTo_first (by decide) b r ?_
  intro x y hxy hy hp
  obtain ⟨a, y, rfl⟩ := List.exists_cons_of_ne_nil hy
  cases y with
  | nil => simp at hp
  | cons c y =>
    cases y with
    | nil => simp at hp
    | cons d y =>
      have hab : ']' = a ∧ ']' = c ∧ '>' = d := by simpa using hp
      exact h ⟨x, y, by rw [hxy, ← hab.1, ← hab.2.1, ← hab.2.2]; simp⟩

theorem doctype_eq {d : List Char} (h : ∀ c ∈ d, c ≠ '<' ∧ c ≠ '>' ∧ c ≠ '"' ∧ c ≠ '\'') (s : List Char) :
    ∀ n, d.length < n → doctypeGroup n (d ++ '>' :: s) 0 = .ok s := by
  induction d with
  | nil =>
    intro n hn
    obtain ⟨n, rfl⟩ : ∃ k, n = k + 1 := ⟨n - 1, by omega⟩
    rfl
  | cons c d ih =>
    intro n hn
    obtain ⟨n, rfl⟩ : ∃ k, n = k + 1 := ⟨n - 1, by omega⟩
    obtain ⟨h1, h2, h3, h4⟩ := h c (by simp)
    rw [doctypeGroup.eq_def]
    dsimp only [List.cons_append]
    split
    · rename_i heq; simp at heq
    · rename_i heq; simp at heq; exact absurd heq.1 h1
    · rename_i heq; simp at heq; exact absurd heq.1 h2
    · rename_i c' r _ _ heq
      simp only [List.cons.injEq] at heq
      obtain ⟨rfl, rfl⟩ := heq
      rw [if_neg (by simp [h1, h3, h4])]
      exact ih (fun c hc => h c (by simp [hc])) n (by simpa using hn)

/-- The parser reads a content of the grammar and goes on behind it. -/
theorem run_content {top : Bool} {s : List Char} {ns : List Node} (h : Content top s ns) : ∀ (rest : List Char) (st : St),
    (rest = [] ∨ rest.head? = some '<') → st.stack.isEmpty = top → run (s ++ rest) st = run rest (ns.foldl St.add st) := by
  induction h with
  | nil => intro rest st _ _; rfl
  | @blank top w s ns hw hs _ ih =>
    intro rest st hr ht
    rw [← ih rest st hr ht]
    have hd : ∀ c, (s ++ rest).head? = some c → isWs c = false := by
      intro c hc
      have : s ++ rest = [] ∨ (s ++ rest).head? = some '<' := by
        rcases hs with rfl | hs
        · simpa using hr
        · exact .inr (by rw [List.head?_append, hs]; rfl)
      rcases this with h | h
      · rw [h] at hc; cases hc
      · rw [h] at hc; cases hc; decide
    cases w with
    | nil => rfl
    | cons b w =>
      have hb := hw b (by simp)
      have e : (b :: w ++ s ++ rest).dropWhile isWs = s ++ rest := by
        rw [List.append_assoc]
        exact dropWhile_stop (blanks_ws hw) hd
      refine run_more ?_
      rw [step.eq_def]
      rw [e]
      simp only [List.cons_append]
      rw [if_neg (by rintro rfl; revert hb; simp [Blank]), if_pos]
      rcases hs with rfl | hs
      · rcases hr with rfl | hr
        · exact .inl rfl
        · exact .inr (by simpa using hr)
      · exact .inr (by rw [List.head?_append, hs]; rfl)
  | @text raw v s ns h1 h2 hv hs _ ih =>
    intro rest st hr ht
    rw [List.foldl_cons, ← ih rest _ hr (by rw [add_stack_isEmpty, ht])]
    have hl : ∀ c, (s ++ rest).head? = some c → decide (c ≠ '<') = false := by
      intro c hc
      have : s ++ rest = [] ∨ (s ++ rest).head? = some '<' := by
        rcases hs with rfl | hs
        · simpa using hr
        · exact .inr (by rw [List.head?_append, hs]; rfl)
      rcases this with h | h
      · rw [h] at hc; cases hc
      · rw [h] at hc; cases hc; decide
    have hraw : ∀ c ∈ raw, decide (c ≠ '<') = true := by
      intro c hc
      simp only [ne_eq, decide_eq_true_eq]
      rintro rfl
      exact h1 hc
    refine run_more ?_
    rw [List.append_assoc, step.eq_def]
    have hne : raw ≠ [] := by rintro rfl; simp at h2
    rw [takeWhile_stop hraw hl, dropWhile_stop hraw hl]
    dsimp only
    rw [text_value hv]
    obtain ⟨b, raw', hbr⟩ := List.exists_cons_of_ne_nil hne
    obtain ⟨x, hx, hxb⟩ := h2
    have hdw : ∃ c y, (raw ++ (s ++ rest)).dropWhile isWs = c :: y ∧ c ≠ '<' := by
      clear hv hne hbr hraw
      induction raw with
      | nil => simp at hx
      | cons c r ih' =>
        by_cases hc : isWs c
        · rw [List.cons_append, List.dropWhile_cons, if_pos hc]
          refine ih' (fun hm => h1 (by simp [hm])) ?_
          rcases List.mem_cons.1 hx with rfl | hx
          · exact absurd ((isWs_iff x).1 hc) hxb
          · exact hx
        · exact ⟨c, r ++ (s ++ rest), by rw [List.cons_append, List.dropWhile_cons, if_neg hc], fun h => h1 (by simp [h])⟩
    obtain ⟨c, y, hcy, hc⟩ := hdw
    rw [hcy]
    rw [hbr]
    simp only [List.cons_append]
    rw [if_neg (by rintro rfl; exact h1 (by simp [hbr])), if_neg (by simp [hc]), if_neg (by simp [ht])]
  | @cdata raw v s ns h1 hv _ ih =>
    intro rest st hr ht
    rw [List.foldl_cons, ← ih rest _ hr (by rw [add_stack_isEmpty, ht])]
    refine run_more ?_
    have e : "<![CDATA[".toList ++ raw ++ "]]>".toList ++ s ++ rest =
        '<' :: '!' :: '[' :: 'C' :: 'D' :: 'A' :: 'T' :: 'A' :: '[' :: (raw ++ "]]>".toList ++ (s ++ rest)) := by simp
    rw [e, step_lt, tag, if_neg (by decide), if_neg (by decide), if_neg (by decide), if_pos rfl]
    simp only [exclamation]
    rw [scan_cdata h1]
    dsimp only
    rw [cdata_value hv]
  | @comment top c s ns h1 _ _ ih =>
    intro rest st hr ht
    rw [← ih rest _ hr ht]
    refine run_more ?_
    have e : "<!--".toList ++ c ++ "-->".toList ++ s ++ rest = '<' :: '!' :: '-' :: '-' :: (c ++ "-->".toList ++ (s ++ rest)) := by simp
    rw [e, step_lt, tag, if_neg (by decide), if_neg (by decide), if_neg (by decide), if_pos rfl]
    simp only [exclamation]
    rw [scan_comment h1]
  | @instruction top n b s ns hn hb h1 _ ih =>
    intro rest st hr ht
    rw [← ih rest _ hr ht]
    refine run_more ?_
    have e : "<?".toList ++ n ++ b ++ "?>".toList ++ s ++ rest = '<' :: '?' :: (n ++ (b ++ "?>".toList ++ (s ++ rest))) := by simp
    have hh : ∀ c, (b ++ "?>".toList ++ (s ++ rest)).head? = some c → isSymbol c = false := by
      intro c hc
      rcases hb with rfl | ⟨d, r, rfl, hd⟩
      · simp at hc
        exact hc ▸ by decide
      · simp only [List.cons_append, List.head?_cons, Option.some.injEq] at hc
        exact hc ▸ blank_not_symbol hd
    rw [e, step_lt, tag, if_neg (by decide), if_neg (by decide), if_pos rfl, question.eq_def,
      dropWhile_stop (name_symbols hn) hh, scan_question h1]
    obtain ⟨c, r, rfl, hc, -⟩ := hn
    dsimp only [List.cons_append]
    rw [if_pos ((isStart_iff c).2 hc)]
  | @doctype d s ns hd _ ih =>
    intro rest st hr ht
    rw [← ih rest _ hr ht]
    refine run_more ?_
    have e : "<!DOCTYPE".toList ++ d ++ ">".toList ++ s ++ rest =
        '<' :: '!' :: 'D' :: 'O' :: 'C' :: 'T' :: 'Y' :: 'P' :: 'E' :: (d ++ '>' :: (s ++ rest)) := by simp
    rw [e, step_lt, tag, if_neg (by decide), if_neg (by decide), if_neg (by decide), if_pos rfl]
    simp only [exclamation]
    rw [if_pos ht]
    have := doctype_eq (d := 'D' :: 'O' :: 'C' :: 'T' :: 'Y' :: 'P' :: 'E' :: d) (by
      intro c hc
      simp only [List.mem_cons] at hc
      rcases hc with rfl | rfl | rfl | rfl | rfl | rfl | rfl | hc <;> first | decide | exact hd c hc) (s ++ rest)
      (('D' :: 'O' :: 'C' :: 'T' :: 'Y' :: 'P' :: 'E' :: (d ++ '>' :: (s ++ rest))).length + 1)
      (by simp only [List.length_cons, List.length_append]; omega)
    simp only [List.cons_append] at this
    rw [this]
  | @empty top n a w s as ns hn ha hw _ ih =>
    intro rest st hr ht
    rw [List.foldl_cons, ← ih rest _ hr (by rw [add_stack_isEmpty, ht])]
    refine run_more ?_
    have e : '<' :: n ++ a ++ w ++ "/>".toList ++ s ++ rest = '<' :: (n ++ (a ++ (w ++ (tagEnd true ++ (s ++ rest))))) := by simp [tagEnd]
    rw [e, step_lt, tag_start hn, startTag_eq hn ha hw true]
    rfl
  | @elem top n a w b w' s as kids ns hn ha hw _ hw' _ ihb ih =>
    intro rest st hr ht
    rw [List.foldl_cons, ← ih rest _ hr (by rw [add_stack_isEmpty, ht])]
    have e : '<' :: n ++ a ++ w ++ '>' :: b ++ "</".toList ++ n ++ w' ++ '>' :: s ++ rest =
        '<' :: (n ++ (a ++ (w ++ (tagEnd false ++ (b ++ '<' :: '/' :: (n ++ (w' ++ '>' :: (s ++ rest)))))))) := by simp [tagEnd]
    rw [e]
    have h1 : step ('<' :: (n ++ (a ++ (w ++ (tagEnd false ++ (b ++ '<' :: '/' :: (n ++ (w' ++ '>' :: (s ++ rest))))))))) st =
        .more (b ++ '<' :: '/' :: (n ++ (w' ++ '>' :: (s ++ rest)))) (st.push n as) := by
      rw [step_lt, tag_start hn, startTag_eq hn ha hw false]
      rfl
    rw [run_more h1, ihb _ _ (.inr rfl) rfl, St.push, add_foldl_open]
    refine run_more ?_
    rw [step_lt, tag, if_neg (by decide), if_pos rfl]
    simp only [List.nil_append]
    rw [endTag_eq hn hw']

theorem skipBom_lt {s : List Char} (h : ∀ c, s.head? = some c → c ≠ 'ï') : skipBom s = s := by
  unfold skipBom
  split
  · exact absurd rfl (h 'ï' rfl)
  · rfl

theorem content_head {s : List Char} {ns : List Node} (h : Content true s ns) : ∀ c, s.head? = some c → Blank c ∨ c = '<' := by
  generalize ht : true = top at h
  cases h with
  | nil => simp
  | @blank _ w s _ hw hs _ =>
    intro c hc
    cases w with
    | nil =>
      rcases hs with rfl | hs
      · simp at hc
      · rw [List.nil_append, hs] at hc
        cases hc
        exact .inr rfl
    | cons b w =>
      simp only [List.cons_append, List.head?_cons, Option.some.injEq] at hc
      exact .inl (hc ▸ hw b (by simp))
  | text => cases ht
  | cdata => cases ht
  | comment => intro c hc; simp at hc; exact .inr hc.symm
  | instruction => intro c hc; simp at hc; exact .inr hc.symm
  | doctype => intro c hc; simp at hc; exact .inr hc.symm
  | empty => intro c hc; simp at hc; exact .inr hc.symm
  | elem => intro c hc; simp at hc; exact .inr hc.symm

theorem content_elems {s : List Char} {ns : List Node} (h : Content true s ns) : ∀ n ∈ ns, isElem n = true := by
  generalize ht : true = top at h
  induction h with
  | nil => simp
  | blank _ _ _ ih => exact ih ht
  | text => cases ht
  | cdata => cases ht
  | comment _ _ _ ih => exact ih ht
  | instruction _ _ _ _ ih => exact ih ht
  | doctype _ _ ih => exact ih ht
  | empty _ _ _ _ ih => exact List.forall_mem_cons.2 ⟨by rw [← ht]; rfl, ih ht⟩
  | elem _ _ _ _ _ _ _ ih => exact List.forall_mem_cons.2 ⟨by rw [← ht]; rfl, ih ht⟩

theorem load_of_run {s : List Char} {ns : List Node} (h : Content true s ns) (hn : ns ≠ []) {text : List Char} (ht : skipBom (cstr text) = s) :
    load text = .ok ns := by
  have hr : run s ⟨[], []⟩ = .ok ns := by
    have := run_content h [] ⟨[], []⟩ (.inl rfl) rfl
    rw [List.append_nil, add_foldl_root, List.nil_append] at this
    rw [this, run_step]
    rfl
  unfold load
  dsimp only
  rw [ht]
  change (match run s ⟨[], []⟩ with | .error e => _ | .ok doc => _) = _
  rw [hr]
  dsimp only
  rw [if_pos]
  obtain ⟨n, ns, rfl⟩ := List.exists_cons_of_ne_nil hn
  rw [List.any_cons, content_elems h n (by simp), Bool.true_or]

theorem load_content {s : List Char} {ns : List Node} (h : Content true s ns) (h0 : ∀ c ∈ s, c ≠ '\x00') (hn : ns ≠ []) : load s = .ok ns := by
  refine load_of_run h hn ?_
  rw [cstr_eq h0]
  refine skipBom_lt fun c hc => ?_
  rcases content_head h c hc with (rfl | rfl | rfl | rfl) | rfl <;> decide

theorem load_content_bom {s : List Char} {ns : List Node} (h : Content true s ns) (h0 : ∀ c ∈ s, c ≠ '\x00') (hn : ns ≠ []) :
    load ('ï' :: '»' :: '¿' :: s) = .ok ns := by
  refine load_of_run h hn ?_
  rw [cstr_eq]
  · rfl
  · intro c hc
    simp only [List.mem_cons] at hc
    rcases hc with rfl | rfl | rfl | hc
    · decide
    · decide
    · decide
    · exact h0 c hc

/-! ## Saved documents -/

theorem digit_dec (k : ℕ) (h : k < 10) : DecDigit (Prn.digit k) k := by
  interval_cases k <;> exact ⟨by norm_num, rfl⟩

theorem bytes_of_lt {c : Char} (h : c.toNat < 128) : bytes c = [c] := by
  rw [← utf8_bytes, utf8, if_pos h, Char.ofNat_toNat]

/-- An escaped character stands for the character. -/
theorem decodes_escapeChar {attr : Bool} {c : Char} (h0 : c ≠ '\x00') (ha : attr = true → c ≠ '\t') (ht : attr = false → c ≠ '\r') {r v : List Char}
    (h : Decodes attr r v) : Decodes attr (escapeChar attr c ++ r) (c :: v) := by
  unfold escapeChar
  split
  · rename_i e; subst e
    exact Decodes.entity (e := ("amp".toList, '&')) (by simp [entities]) h
  split
  · rename_i e; subst e
    exact Decodes.entity (e := ("lt".toList, '<')) (by simp [entities]) h
  split
  · rename_i e; subst e
    exact Decodes.entity (e := ("gt".toList, '>')) (by simp [entities]) h
  split
  · rename_i e; obtain ⟨_, rfl⟩ := e
    exact Decodes.entity (e := ("quot".toList, '"')) (by simp [entities]) h
  split
  · rename_i hc
    have hlt : c.toNat < 32 := hc.1
    have hnum : Numeral DecDigit 10 0 [Prn.digit (c.toNat / 10), Prn.digit (c.toNat % 10)] c.toNat := by
      refine Numeral.cons (digit_dec _ (by omega)) (Numeral.cons (digit_dec _ (Nat.mod_lt _ (by norm_num))) ?_)
      have : 10 * (10 * 0 + c.toNat / 10) + c.toNat % 10 = c.toNat := by omega
      rw [this]
      exact Numeral.nil _
    have := Decodes.decimal (attr := attr) (by simp) h0 hnum h
    rw [bytes_of_lt (by omega)] at this
    simpa using this
  · rename_i h1 h2 h3 h4 h5
    refine Decodes.char h1 ?_ h0 ?_ h
    · rintro rfl
      cases attr with
      | true => exact h5 ⟨by decide, by decide, .inl rfl⟩
      | false => exact ht rfl rfl
    · intro hat
      refine ⟨ha hat, ?_⟩
      rintro rfl
      exact h5 ⟨by decide, by decide, .inl hat⟩

theorem decodes_escapeText {attr : Bool} {v : List Char} (h0 : ∀ c ∈ v, c ≠ '\x00') (ha : attr = true → ∀ c ∈ v, c ≠ '\t')
    (ht : attr = false → ∀ c ∈ v, c ≠ '\r') : Decodes attr (escapeText attr v) v := by
  induction v with
  | nil => exact Decodes.nil
  | cons c v ih =>
    rw [escapeText, List.flatMap_cons]
    exact decodes_escapeChar (h0 c (by simp)) (fun h => ha h c (by simp)) (fun h => ht h c (by simp))
      (ih (fun c hc => h0 c (by simp [hc])) (fun h c hc => ha h c (by simp [hc])) (fun h c hc => ht h c (by simp [hc])))

theorem digit_char (k : ℕ) (h : k < 10) : Prn.digit k ≠ '<' ∧ Prn.digit k ≠ '"' ∧ Prn.digit k ≠ '\x00' := by
  interval_cases k <;> decide

/-- An escaped character has no markup, and it is blank only for blank characters. -/
theorem escapeChar_mem {attr : Bool} {c : Char} : ∀ d ∈ escapeChar attr c, d ≠ '<' ∧ (attr = true → d ≠ '"') ∧ (c ≠ '\x00' → d ≠ '\x00') := by
  intro d hd
  unfold escapeChar at hd
  split at hd
  · simp at hd; rcases hd with rfl | rfl | rfl | rfl | rfl <;> simp
  split at hd
  · simp at hd; rcases hd with rfl | rfl | rfl | rfl <;> simp
  split at hd
  · simp at hd; rcases hd with rfl | rfl | rfl | rfl <;> simp
  split at hd
  · simp at hd; rcases hd with rfl | rfl | rfl | rfl | rfl | rfl <;> simp
  split at hd
  · rename_i hc
    simp only [List.mem_cons, List.not_mem_nil, or_false] at hd
    rcases hd with rfl | rfl | rfl | rfl | rfl
    · simp
    · simp
    · have := digit_char (c.toNat / 10) (by omega)
      exact ⟨this.1, fun _ => this.2.1, fun _ => this.2.2⟩
    · have := digit_char (c.toNat % 10) (by omega)
      exact ⟨this.1, fun _ => this.2.1, fun _ => this.2.2⟩
    · simp
  · rename_i h1 h2 h3 h4 h5
    simp only [List.mem_cons, List.not_mem_nil, or_false] at hd
    subst hd
    exact ⟨h2, fun ha hq => h4 ⟨ha, hq⟩, fun h => h⟩

theorem escapeText_mem {attr : Bool} {v : List Char} : ∀ d ∈ escapeText attr v, d ≠ '<' ∧ (attr = true → d ≠ '"') ∧
    ((∀ c ∈ v, c ≠ '\x00') → d ≠ '\x00') := by
  intro d hd
  obtain ⟨c, hc, hd⟩ := List.mem_flatMap.1 hd
  obtain ⟨h1, h2, h3⟩ := escapeChar_mem d hd
  exact ⟨h1, h2, fun h => h3 (h c hc)⟩

theorem escapeText_not_blank {attr : Bool} {v : List Char} (h : ∃ c ∈ v, ¬ Blank c) : ∃ c ∈ escapeText attr v, ¬ Blank c := by
  obtain ⟨c, hc, hb⟩ := h
  have : ∃ d ∈ escapeChar attr c, ¬ Blank d := by
    unfold escapeChar
    split
    · exact ⟨'&', by simp, by simp [Blank]⟩
    split
    · exact ⟨'&', by simp, by simp [Blank]⟩
    split
    · exact ⟨'&', by simp, by simp [Blank]⟩
    split
    · exact ⟨'&', by simp, by simp [Blank]⟩
    split
    · exact ⟨'&', by simp, by simp [Blank]⟩
    · exact ⟨c, by simp, hb⟩
  obtain ⟨d, hd, hdb⟩ := this
  exact ⟨d, List.mem_flatMap.2 ⟨c, hc, hd⟩, hdb⟩

theorem indent_blank (d : ℕ) : ∀ c ∈ indent d, Blank c := by
  intro c hc
  exact .inl (List.eq_of_mem_replicate hc)

theorem lineBreak_blank (b : Bool) (d : ℕ) : ∀ c ∈ lineBreak b d, Blank c := by
  intro c hc
  unfold lineBreak at hc
  split at hc
  · rcases List.mem_cons.1 hc with rfl | hc
    · exact .inr (.inr (.inl rfl))
    · exact indent_blank d c hc
  · cases hc

theorem attrs_attrsText (depth : ℕ) {as : List (List Char × List Char)} (h : ∀ a ∈ as, IsName a.1 ∧ ∀ c ∈ a.2, c ≠ '\x00' ∧ c ≠ '\t') :
    Attrs (attrsText depth as) as := by
  induction as with
  | nil => exact Attrs.nil
  | cons a as ih =>
    obtain ⟨h1, h2⟩ := h a (by simp)
    have := Attrs.cons (w := '\n' :: indent (depth + 1)) (n := a.1) (w₁ := []) (w₂ := []) (q := '"') (raw := escapeText true a.2) (v := a.2)
      (by simp) (by
        intro c hc
        rcases List.mem_cons.1 hc with rfl | hc
        · exact .inr (.inr (.inl rfl))
        · exact indent_blank _ c hc) h1 (by simp) (by simp) (.inl rfl) (fun hm => (escapeText_mem _ hm).2.1 rfl rfl)
      (decodes_escapeText (fun c hc => (h2 c hc).1) (fun _ c hc => (h2 c hc).2) (fun h => by cases h)) (ih fun b hb => h b (by simp [hb]))
    rw [attrsText, List.flatMap_cons]
    simpa [attrsText] using this

/-- Whether a text may stand before `s`. -/
def Bounded (s : List Char) : Prop := s = [] ∨ s.head? = some '<'

theorem nodesText_bounded {depth : ℕ} {kids : List Node} (h : ∀ n, kids.head? = some n → isElem n = true) (d : ℕ) :
    Bounded (nodesText depth false kids ++ lineBreak (endsElem false kids) d) := by
  cases kids with
  | nil => exact .inl rfl
  | cons n ns =>
    cases n with
    | pcdata v => cases h _ rfl
    | elem name as cs =>
      right
      simp [nodesText, nodeText, lineBreak]

theorem chain_tail {α : Type} {R : α → α → Prop} {a : α} {l : List α} (h : (a :: l).IsChain R) : l.IsChain R := by
  cases h with
  | singleton => exact .nil
  | cons_cons _ h => exact h

theorem chain_elems {l : List Node} (h : ∀ n ∈ l, isElem n = true) :
    l.IsChain (fun k l => ¬ ((∃ v, k = .pcdata v) ∧ ∃ v, l = .pcdata v)) := by
  induction l with
  | nil => exact .nil
  | cons a l ih =>
    have ih := ih fun n hn => h n (by simp [hn])
    cases l with
    | nil => exact .singleton a
    | cons b l =>
      refine .cons_cons ?_ ih
      rintro ⟨⟨v, rfl⟩, -⟩
      cases h (.pcdata v) (by simp)

/-- Sibling nodes, given the statement for each of them. -/
theorem content_nodes {top : Bool} {kids : List Node}
    (hk : ∀ k ∈ kids, ∀ (depth : ℕ) (nl : Bool) (s : List Char) (ns : List Node), (isElem k = false → Bounded s) → (top = true → isElem k = true) →
      Content top s ns → Content top (nodeText depth nl k ++ s) (k :: ns))
    (hc : kids.IsChain (fun k l => ¬ ((∃ v, k = .pcdata v) ∧ ∃ v, l = .pcdata v))) (ht : top = true → ∀ k ∈ kids, isElem k = true) (depth d : ℕ) :
    ∀ nl, Content top (nodesText depth nl kids ++ lineBreak (endsElem nl kids) d) kids := by
  induction kids with
  | nil =>
    intro nl
    have := Content.blank (top := top) (w := lineBreak nl d) (s := []) (lineBreak_blank nl d) (.inl rfl) Content.nil
    simpa [nodesText, endsElem] using this
  | cons k ks ih =>
    intro nl
    rw [nodesText, endsElem, List.append_assoc]
    refine hk k (by simp) depth nl _ ks ?_ (fun h => ht h k (by simp))
      (ih (fun j hj => hk j (by simp [hj])) (chain_tail hc) (fun h j hj => ht h j (by simp [hj])) _)
    intro hkt
    rw [hkt]
    refine nodesText_bounded ?_ d
    intro n hn
    cases ks with
    | nil => cases hn
    | cons j js =>
      simp only [List.head?_cons, Option.some.injEq] at hn
      subst hn
      cases j with
      | elem => rfl
      | pcdata v =>
        cases k with
        | elem => cases hkt
        | pcdata u => exact absurd ⟨⟨u, rfl⟩, v, rfl⟩ (List.isChain_cons_cons.1 hc).1

theorem content_node {k : Node} (h : Storable k) : ∀ (top : Bool) (depth : ℕ) (nl : Bool) (s : List Char) (ns : List Node), (isElem k = false → Bounded s) →
    (top = true → isElem k = true) → Content top s ns → Content top (nodeText depth nl k ++ s) (k :: ns) := by
  induction h with
  | @text v h1 h2 =>
    intro top depth nl s ns hb ht hs
    cases top with
    | true => cases ht rfl
    | false =>
      rw [nodeText]
      exact Content.text (fun hm => (escapeText_mem _ hm).1 rfl) (escapeText_not_blank h2)
        (decodes_escapeText (fun c hc => (h1 c hc).1) (fun h => by cases h) (fun _ c hc => (h1 c hc).2)) (hb rfl) hs
  | @elem n as kids hn ha _ hc ih =>
    intro top depth nl s ns _ _ hs
    rw [nodeText]
    have inner : Content top ('<' :: n ++ attrsText depth as ++ (if kids.isEmpty then " />".toList
        else '>' :: nodesText (depth + 1) true kids ++ lineBreak (endsElem true kids) depth ++ "</".toList ++ n ++ ['>']) ++ s)
        (.elem n as kids :: ns) := by
      cases kids with
      | nil =>
        have := Content.empty (top := top) (w := [' ']) hn (attrs_attrsText depth ha) (by simp [Blank]) hs
        simpa using this
      | cons k ks =>
        have hb := content_nodes (top := false) (fun k hk depth nl s ns hb ht => ih k hk false depth nl s ns hb ht) hc (fun h => by cases h)
          (depth + 1) depth true
        have := Content.elem (top := top) (w := []) (w' := []) hn (attrs_attrsText depth ha) (by simp) hb (by simp) hs
        simpa using this
    have := Content.blank (lineBreak_blank nl depth) (.inr (by simp)) inner
    simpa using this

theorem content_declaration {s : List Char} {ns : List Node} (hb : Bounded s) (h : Content true s ns) :
    Content true (declaration ++ s) ns := by
  have hn : IsName ['x', 'm', 'l'] :=
    ⟨'x', ['m', 'l'], rfl, (.inl (by decide)), by intro d hd; rw [← isSymbol_iff]; revert d; decide⟩
  have hq : ¬ "?>".toList <:+: [' ', 'v', 'e', 'r', 's', 'i', 'o', 'n', '=', '"', '1', '.', '0', '"'] := by
    intro hq
    have : '?' ∈ [' ', 'v', 'e', 'r', 's', 'i', 'o', 'n', '=', '"', '1', '.', '0', '"'] := hq.subset (by simp)
    simp at this
  have := Content.instruction (top := true) hn (.inr ⟨' ', _, rfl, .inl rfl⟩) hq (Content.blank (w := ['\n']) (by simp [Blank]) hb h)
  unfold declaration
  simpa using this

theorem content_save {doc : List Node} (h : ∀ n ∈ doc, Storable n ∧ isElem n = true) : Content true (save doc) doc := by
  have body := content_nodes (top := true) (kids := doc) (fun k hk depth nl s ns hb ht => content_node (h k hk).1 true depth nl s ns hb ht)
    (chain_elems fun n hn => (h n hn).2) (fun _ k hk => (h k hk).2) 0 0 false
  have hb := nodesText_bounded (depth := 0) (kids := doc) (fun n hn => (h n (List.mem_of_mem_head? hn)).2) 0
  have e : (if endsElem false doc then ['\n'] else []) = lineBreak (endsElem false doc) 0 := by
    unfold lineBreak indent
    cases endsElem false doc <;> rfl
  rw [save, e, List.append_assoc]
  exact content_declaration hb body

end Pugi
end SplineLib
