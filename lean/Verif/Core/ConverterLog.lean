import Verif.Model.ConverterLog
import Verif.Core.IgesRead

/-!
# Reading log files (helper lemmas)
-/

namespace SplineLib
namespace Log
set_option linter.unusedSectionVars false
open Str Prn

/-- The stream with the lines `ls` left; `t` tells whether the last one is terminated. -/
def strm (ls : List (List Char)) (t : Bool) : Stream := ⟨ls, t, !ls.isEmpty || t⟩

/-- The stream behind the end. -/
def eof (t : Bool) : Stream := ⟨[], t, false⟩

theorem getline_cons (l : List Char) (ls : List (List Char)) (t : Bool) (str : List Char) :
    getline (strm (l :: ls) t) str = (true, l, strm ls t) := by
  cases ls <;> simp [getline, strm]

theorem getline_nil (t : Bool) (str : List Char) : getline (strm [] t) str = (false, if t then [] else str, eof t) := by
  cases t <;> simp [getline, strm, eof]

theorem getline_eof (t : Bool) (str : List Char) : getline (eof t) str = (false, str, eof t) := rfl

/-! ## Lines of a text -/

/-- The text of lines that are all terminated. -/
def unlines (ls : List (List Char)) : List Char := ls.flatMap fun t => t ++ ['\n']

/-- `text` consists of the lines `ls`; the last line may lack its line end. -/
def TextOf (ls : List (List Char)) (text : List Char) : Prop :=
  text = unlines ls ∨ ∃ init last, ls = init ++ [last] ∧ last ≠ [] ∧ text = unlines init ++ last

theorem unlines_getLast (ls : List (List Char)) : (unlines ls).getLast?.getD '\n' = '\n' := by
  rcases List.eq_nil_or_concat ls with rfl | ⟨init, l, rfl⟩
  · rfl
  · simp [unlines, List.flatMap_append]

theorem getlinesFrom_append_lines : ∀ (ls : List (List Char)) (r : List Char), (∀ l ∈ ls, '\n' ∉ l) →
    getlines '\n' (unlines ls ++ r) = ls ++ getlines '\n' r
  | [], _, _ => rfl
  | l :: ls, r, h => by
    have h1 : ∀ c ∈ l, c ≠ '\n' := fun c hc e => h l (by simp) (e ▸ hc)
    have ih := getlinesFrom_append_lines ls r fun l' hl => h l' (by simp [hl])
    unfold getlines unlines at ih ⊢
    rw [List.flatMap_cons, List.append_assoc, List.append_assoc, getlinesFrom_run l [] _ h1, List.nil_append, List.singleton_append,
      getlinesFrom]
    simp [ih]

theorem getlines_one {l : List Char} (h : '\n' ∉ l) (hne : l ≠ []) : getlines '\n' l = [l] := by
  have h1 : ∀ c ∈ l, c ≠ '\n' := fun c hc e => h (e ▸ hc)
  have := getlinesFrom_run (d := '\n') l [] [] h1
  unfold getlines
  rw [List.append_nil] at this
  rw [this]
  simp [getlinesFrom, hne]

theorem openText_of {ls : List (List Char)} {text : List Char} (h : TextOf ls text) (hn : ∀ l ∈ ls, '\n' ∉ l) :
    ∃ t, openText text = strm ls t := by
  rcases h with rfl | ⟨init, last, rfl, hne, rfl⟩
  · refine ⟨true, ?_⟩
    have := getlinesFrom_append_lines ls [] hn
    rw [List.append_nil] at this
    have h0 : getlines '\n' [] = [] := rfl
    rw [h0, List.append_nil] at this
    simp [openText, strm, this, unlines_getLast]
  · refine ⟨false, ?_⟩
    have h1 := getlinesFrom_append_lines init last fun l hl => hn l (by simp [hl])
    have h2 := getlines_one (hn last (by simp)) hne
    rw [h2] at h1
    unfold openText strm
    rw [h1]
    have h3 : (unlines init ++ last).getLast?.getD '\n' ≠ '\n' := by
      rw [List.getLast?_append_of_ne_nil _ hne, List.getLast?_eq_some_getLast hne]
      intro e
      exact hn last (by simp) (by simpa using e ▸ List.getLast_mem hne)
    have h4 : ((unlines init ++ last).getLast?.getD '\n' == '\n') = false := by simpa only [beq_eq_false_iff_ne, ne_eq] using h3
    rw [h4]
    simp

/-- Every text consists of its lines. -/
theorem textOf_lines (text : List Char) : TextOf (getlines '\n' text) text ∧ ∀ l ∈ getlines '\n' text, '\n' ∉ l := by
  have key : ∀ (s cur : List Char), '\n' ∉ cur → TextOf (getlinesFrom '\n' cur s) (cur ++ s) ∧
      ∀ l ∈ getlinesFrom '\n' cur s, '\n' ∉ l := by
    intro s
    induction s with
    | nil =>
      intro cur hc
      rw [getlinesFrom]
      by_cases hcur : cur = []
      · subst hcur; exact ⟨Or.inl rfl, by simp⟩
      · rw [if_neg (by simpa using hcur)]
        exact ⟨Or.inr ⟨[], cur, rfl, hcur, by simp [unlines]⟩, by simpa using hc⟩
    | cons c s ih =>
      intro cur hc
      rw [getlinesFrom]
      by_cases hcn : c = '\n'
      · subst hcn
        rw [if_pos (by simp)]
        obtain ⟨h1, h2⟩ := ih [] (by simp)
        refine ⟨?_, by simpa using ⟨hc, h2⟩⟩
        rw [List.nil_append] at h1
        rcases h1 with h1 | ⟨init, last, h1, h3, h4⟩
        · left
          rw [unlines, List.flatMap_cons, ← unlines, ← h1]; simp
        · right
          refine ⟨cur :: init, last, by rw [h1]; rfl, h3, ?_⟩
          rw [unlines, List.flatMap_cons, ← unlines, h4]; simp
      · rw [if_neg (by simpa using hcn)]
        have := ih (cur ++ [c]) (by simp [hc, Ne.symm hcn])
        simpa using this
  simpa [getlines] using key text [] (by simp)

theorem openText_lines (text : List Char) : ∃ t, openText text = strm (getlines '\n' text) t :=
  openText_of (textOf_lines text).1 (textOf_lines text).2

/-- The text of a log file and its lines when something that starts with a line end is appended. -/
theorem openText_append (text more : List Char) : ∃ t pre, (∀ l ∈ pre, l = []) ∧
    openText (text ++ '\n' :: '\n' :: more) = strm (getlines '\n' text ++ [] :: (pre ++ getlines '\n' more)) t := by
  obtain ⟨h1, h2⟩ := textOf_lines text
  have h3 := openText_lines (text ++ '\n' :: '\n' :: more)
  obtain ⟨t, ht⟩ := h3
  rcases h1 with h1 | ⟨init, last, h1, h4, h5⟩
  · refine ⟨t, [[]], by simp, ?_⟩
    rw [ht]
    congr 1
    conv_lhs => rw [h1]
    rw [getlinesFrom_append_lines _ _ h2]
    simp [getlines, getlinesFrom]
  · refine ⟨t, [], by simp, ?_⟩
    rw [ht]
    congr 1
    have : text ++ '\n' :: '\n' :: more = unlines (getlines '\n' text) ++ '\n' :: more := by
      conv_lhs => rw [h5]
      rw [h1]
      simp [unlines]
    rw [this, getlinesFrom_append_lines _ _ h2]
    simp [getlines, getlinesFrom]

/-! ## Lines inside and outside of sections -/

/-- A line that starts no section. -/
def Neutral (l : List Char) : Prop :=
  startsWith l "input:".toList = false ∧ startsWith l "output:".toList = false ∧ startsWith l "options:".toList = false ∧
    startsWith l "scattering:".toList = false

/-- The empty line ends a section: `EndsWith("", ":")` is true (C34). -/
theorem blank_ends : endsWith (trim []) ":".toList = true := by decide

theorem neutral_nil : Neutral [] := by
  refine ⟨?_, ?_, ?_, ?_⟩ <;> decide

/-- A line without a colon and with a character that is not stripped does not end a section. -/
theorem no_end {l : List Char} (h1 : ':' ∉ l) {c : Char} (hc : c ∈ l) (h2 : isSpace c = false ∧ c ≠ '[' ∧ c ≠ ']')
    (hl : l.length < 2 ^ 63) : endsWith (trim l) ":".toList = false := by
  obtain ⟨a, b, e, ha, hb, _, _⟩ := trim_stripped l
  have htl := trim_length l
  rw [← Bool.not_eq_true, endsWith_iff (by omega) (by decide)]
  rintro (⟨h, _⟩ | h)
  · have : ':' ∈ trim l := h.subset (by decide)
    exact h1 (by rw [e]; simp [this])
  · have h0 : trim l = [] := by
      have : (":".toList : List Char).length = 1 := by decide
      exact List.length_eq_zero_iff.1 (by omega)
    rw [h0] at e
    rw [e] at hc
    simp only [List.append_nil, List.mem_append] at hc
    rcases hc with hc | hc
    · rcases ha c hc with h | h
      · rw [h2.1] at h; exact absurd h (by simp)
      · exact h2.2.1 h
    · rcases hb c hc with h | h
      · rw [h2.1] at h; exact absurd h (by simp)
      · exact h2.2.2 h

/-! ### Numbers -/

theorem intText_stoi {p : ℤ} (h : -2 ^ 31 < p ∧ p < 2 ^ 31) : stoi (intText p) = .ok p := by
  unfold intText
  have hd : digitsNum (natDigs p.natAbs) < 2 ^ 31 := by rw [natDigs_num]; omega
  split
  · next hp =>
    have := (stoi_signed (natDigs_ne p.natAbs) (rest := []) (by simp) hd).1
    rw [List.append_nil, ← natText_eq, natDigs_num] at this
    rw [this]; congr 1; omega
  · next hp =>
    have := stoi_digits (natDigs_ne p.natAbs) (rest := []) (by simp) hd
    rw [List.append_nil, ← natText_eq, natDigs_num] at this
    rw [this]; congr 1; omega

theorem digit_mem (n : ℕ) : ∃ d : Fin 10, digitChar d ∈ natText n := by
  rw [natText_eq]
  obtain ⟨d, ds, h⟩ := List.exists_cons_of_ne_nil (natDigs_ne n)
  exact ⟨d, by rw [h]; simp⟩

theorem natText_digits (n : ℕ) : ∀ c ∈ natText n, ∃ d : Fin 10, c = digitChar d := by
  rw [natText_eq]
  intro c hc
  obtain ⟨d, _, rfl⟩ := List.mem_map.1 hc
  exact ⟨d, rfl⟩

theorem digitChar_plain (d : Fin 10) : isSpace (digitChar d) = false ∧ digitChar d ≠ '[' ∧ digitChar d ≠ ']' ∧ digitChar d ≠ ':' ∧
    digitChar d ≠ '\n' ∧ digitChar d ≠ ' ' ∧ digitChar d ≠ 'a' ∧ digitChar d ≠ 'l' := by revert d; decide

theorem intText_chars (p : ℤ) : ∀ c ∈ intText p, c = '-' ∨ ∃ d : Fin 10, c = digitChar d := by
  unfold intText
  split
  · intro c hc
    rcases List.mem_cons.1 hc with h | h
    · exact Or.inl h
    · exact Or.inr (natText_digits _ c h)
  · exact fun c hc => Or.inr (natText_digits _ c hc)

theorem intText_digit (p : ℤ) : ∃ d : Fin 10, digitChar d ∈ intText p := by
  obtain ⟨d, hd⟩ := digit_mem p.natAbs
  refine ⟨d, ?_⟩
  unfold intText
  split <;> simp [hd]

theorem intText_length {p : ℤ} (h : -2 ^ 31 < p ∧ p < 2 ^ 31) : (intText p).length < 2 ^ 63 := by
  have h1 := natText_le (n := p.natAbs) (k := 9) (by omega)
  unfold intText
  split <;> simp <;> omega

theorem intText_no_end {p : ℤ} (h : -2 ^ 31 < p ∧ p < 2 ^ 31) : endsWith (trim (intText p)) ":".toList = false := by
  obtain ⟨d, hd⟩ := intText_digit p
  have hp := digitChar_plain d
  refine no_end (fun hc => ?_) hd ⟨hp.1, hp.2.1, hp.2.2.1⟩ (intText_length h)
  rcases intText_chars p _ hc with h | ⟨e, h⟩
  · exact absurd h (by decide)
  · exact (digitChar_plain e).2.2.2.1 h.symm

theorem intText_not_all (p : ℤ) : intText p ≠ "all".toList := by
  intro h
  have : 'a' ∈ intText p := by rw [h]; decide
  rcases intText_chars p _ this with h | ⟨e, h⟩
  · exact absurd h (by decide)
  · exact (digitChar_plain e).2.2.2.2.2.2.1 h.symm

/-- The numbers of a row, separated by spaces. -/
def rowText : List ℕ → List Char
  | [] => []
  | [n] => natText n
  | n :: l => natText n ++ ' ' :: rowText l

theorem rowText_chars : ∀ (r : List ℕ), ∀ c ∈ rowText r, c = ' ' ∨ ∃ d : Fin 10, c = digitChar d
  | [] => by simp [rowText]
  | [n] => fun c hc => Or.inr (natText_digits n c hc)
  | n :: m :: l => by
    intro c hc
    rw [rowText] at hc
    · rcases List.mem_append.1 hc with hc | hc
      · exact Or.inr (natText_digits n c hc)
      · rcases List.mem_cons.1 hc with hc | hc
        · exact Or.inl hc
        · exact rowText_chars (m :: l) c hc
    · simp

theorem rowText_digit {r : List ℕ} (h : r ≠ []) : ∃ d : Fin 10, digitChar d ∈ rowText r := by
  obtain ⟨n, l, rfl⟩ := List.exists_cons_of_ne_nil h
  obtain ⟨d, hd⟩ := digit_mem n
  refine ⟨d, ?_⟩
  cases l <;> simp [rowText, hd]

theorem rowText_no_end {r : List ℕ} (h : r ≠ []) (hl : (rowText r).length < 2 ^ 63) :
    endsWith (trim (rowText r)) ":".toList = false := by
  obtain ⟨d, hd⟩ := rowText_digit h
  have hp := digitChar_plain d
  refine no_end (fun hc => ?_) hd ⟨hp.1, hp.2.1, hp.2.2.1⟩ hl
  rcases rowText_chars r _ hc with h | ⟨e, h⟩
  · exact absurd h (by decide)
  · exact (digitChar_plain e).2.2.2.1 h.symm

theorem rowText_no_newline (r : List ℕ) : '\n' ∉ rowText r := by
  intro hc
  rcases rowText_chars r _ hc with h | ⟨e, h⟩
  · exact absurd h (by decide)
  · exact (digitChar_plain e).2.2.2.2.1 h.symm

theorem intText_no_newline (p : ℤ) : '\n' ∉ intText p := by
  intro hc
  rcases intText_chars p _ hc with h | ⟨e, h⟩
  · exact absurd h (by decide)
  · exact (digitChar_plain e).2.2.2.2.1 h.symm

theorem rowText_tokens : ∀ (r : List ℕ), Tokens (fun c => c = '\n' ∨ c = ' ') (rowText r) (r.map natText)
  | [] => Tokens.nil
  | [n] => Tokens.last (natText_ne n) fun c hc => by
      obtain ⟨d, rfl⟩ := natText_digits n c hc
      have := digitChar_plain d
      simp [this.2.2.2.2.1, this.2.2.2.2.2.1]
  | n :: m :: l => by
    have ih := rowText_tokens (m :: l)
    rw [List.map_cons, rowText]
    · refine Tokens.tok (natText_ne n) (fun c hc => ?_) (Or.inr rfl) ih
      obtain ⟨d, rfl⟩ := natText_digits n c hc
      have := digitChar_plain d
      simp [this.2.2.2.2.1, this.2.2.2.2.2.1]
    · simp

section
variable {K : Type} [Field K] [LinearOrder K] [IsStrictOrderedRing K] [FloorRing K]

theorem mapM_ok {α β : Type} {f : α → M β} {g : α → β} : ∀ (l : List α), (∀ a ∈ l, f a = .ok (g a)) → l.mapM f = .ok (l.map g)
  | [], _ => rfl
  | a :: l, h => by
    rw [List.mapM_cons, h a (by simp), ok_bind, mapM_ok l fun b hb => h b (by simp [hb]), ok_bind, pure_ok, List.map_cons]

theorem readRow_rowText {r : List ℕ} (h : ∀ n ∈ r, n < 2 ^ 31) : readRow K (rowText r) = .ok (r.map fun n : ℕ => (n : ℤ)) := by
  unfold readRow
  rw [C35_split.2 (rowText_tokens r)]
  rw [mapM_ok (g := fun t => ((digitsVal t : ℕ) : ℤ))]
  · congr 1
    rw [List.map_map]
    refine List.map_congr_left fun n _ => ?_
    simp only [Function.comp]
    rw [natText_eq, digitsVal_map, natDigs_num]
  · intro t ht
    obtain ⟨n, hn, rfl⟩ := List.mem_map.1 ht
    have h1 := h n hn
    rw [read_nat n (lt_of_le_of_lt (natText_le (k := 9) (by omega)) (by norm_num)), ok_bind]
    unfold toInt
    simp only [truncate_nat]
    rw [if_pos ⟨by omega, by omega⟩, natText_eq, digitsVal_map, natDigs_num]

/-! ## The inner loops on written sections -/

theorem readOptions_text (ps : List ℤ) (hps : ∀ p ∈ ps, -2 ^ 31 < p ∧ p < 2 ^ 31) (rest : List (List Char)) (t : Bool) :
    ∀ (fuel : ℕ) (line : List Char) (acc : List ℤ), ps.length < fuel →
      readOptions fuel (strm (ps.map intText ++ [] :: rest) t) line acc = .ok (acc ++ ps, [], strm rest t) := by
  induction ps with
  | nil =>
    intro fuel line acc hf
    obtain ⟨f, rfl⟩ : ∃ f, fuel = f + 1 := ⟨fuel - 1, by simp at hf; omega⟩
    rw [List.map_nil, List.nil_append, readOptions, getline_cons]
    simp only [blank_ends, if_true, List.append_nil]
  | cons p ps ih =>
    intro fuel line acc hf
    obtain ⟨f, rfl⟩ : ∃ f, fuel = f + 1 := ⟨fuel - 1, by simp at hf; omega⟩
    have hp := hps p (by simp)
    rw [List.map_cons, List.cons_append, readOptions, getline_cons]
    simp only [intText_no_end hp, Bool.false_eq_true, if_false, intText_not_all p, intText_stoi hp, ok_bind]
    rw [ih (fun q hq => hps q (by simp [hq])) f _ _ (by simp at hf; omega), List.append_assoc]
    rfl

/-- The same with the end of the file instead of the empty line. -/
theorem readOptions_end (ps : List ℤ) (hps : ∀ p ∈ ps, -2 ^ 31 < p ∧ p < 2 ^ 31) (t : Bool) :
    ∀ (fuel : ℕ) (line : List Char) (acc : List ℤ), ps.length < fuel →
      ∃ l, readOptions fuel (strm (ps.map intText) t) line acc = .ok (acc ++ ps, l, eof t) ∧ (l = [] ∨ l = line ∨ ∃ p, l = intText p) := by
  induction ps with
  | nil =>
    intro fuel line acc hf
    obtain ⟨f, rfl⟩ : ∃ f, fuel = f + 1 := ⟨fuel - 1, by simp at hf; omega⟩
    rw [List.map_nil, readOptions, getline_nil]
    refine ⟨_, by rw [List.append_nil], ?_⟩
    cases t <;> simp
  | cons p ps ih =>
    intro fuel line acc hf
    obtain ⟨f, rfl⟩ : ∃ f, fuel = f + 1 := ⟨fuel - 1, by simp at hf; omega⟩
    have hp := hps p (by simp)
    rw [List.map_cons, readOptions, getline_cons]
    simp only [intText_no_end hp, Bool.false_eq_true, if_false, intText_not_all p, intText_stoi hp, ok_bind]
    obtain ⟨l, h1, h2⟩ := ih (fun q hq => hps q (by simp [hq])) f (intText p) (acc ++ [p]) (by simp at hf; omega)
    refine ⟨l, by rw [h1, List.append_assoc]; rfl, ?_⟩
    rcases h2 with h | h | h
    · exact Or.inl h
    · exact Or.inr (Or.inr ⟨p, h⟩)
    · exact Or.inr (Or.inr h)

/-- Rows that can be written in a log file. -/
def RowOK (r : List ℕ) : Prop := r ≠ [] ∧ (rowText r).length < 2 ^ 63 ∧ ∀ n ∈ r, n < 2 ^ 31

/-- The rows as integers. -/
def intRows (rows : List (List ℕ)) : List (List ℤ) := rows.map fun r => r.map fun n : ℕ => (n : ℤ)

theorem readScattering_text (rows : List (List ℕ)) (hr : ∀ r ∈ rows, RowOK r) (rest : List (List Char)) (t : Bool) :
    ∀ (fuel : ℕ) (line : List Char) (acc : List (List ℤ)), rows.length < fuel →
      readScattering K fuel (strm (rows.map rowText ++ [] :: rest) t) line acc = .ok (acc ++ intRows rows, [], strm rest t) := by
  induction rows with
  | nil =>
    intro fuel line acc hf
    obtain ⟨f, rfl⟩ : ∃ f, fuel = f + 1 := ⟨fuel - 1, by simp at hf; omega⟩
    rw [List.map_nil, List.nil_append, readScattering, getline_cons]
    simp only [blank_ends, if_true, intRows, List.map_nil, List.append_nil]
  | cons r rows ih =>
    intro fuel line acc hf
    obtain ⟨f, rfl⟩ : ∃ f, fuel = f + 1 := ⟨fuel - 1, by simp at hf; omega⟩
    obtain ⟨h1, h2, h3⟩ := hr r (by simp)
    rw [List.map_cons, List.cons_append, readScattering, getline_cons]
    simp only [rowText_no_end h1 h2, Bool.false_eq_true, if_false, readRow_rowText h3, ok_bind]
    rw [ih (fun q hq => hr q (by simp [hq])) f _ _ (by simp at hf; omega), List.append_assoc]
    rfl

theorem readScattering_end (rows : List (List ℕ)) (hr : ∀ r ∈ rows, RowOK r) (t : Bool) :
    ∀ (fuel : ℕ) (line : List Char) (acc : List (List ℤ)), rows.length < fuel →
      ∃ l, readScattering K fuel (strm (rows.map rowText) t) line acc = .ok (acc ++ intRows rows, l, eof t) := by
  induction rows with
  | nil =>
    intro fuel line acc hf
    obtain ⟨f, rfl⟩ : ∃ f, fuel = f + 1 := ⟨fuel - 1, by simp at hf; omega⟩
    rw [List.map_nil, readScattering, getline_nil]
    exact ⟨if t then [] else line, by simp only [intRows, List.map_nil, List.append_nil]⟩
  | cons r rows ih =>
    intro fuel line acc hf
    obtain ⟨f, rfl⟩ : ∃ f, fuel = f + 1 := ⟨fuel - 1, by simp at hf; omega⟩
    obtain ⟨h1, h2, h3⟩ := hr r (by simp)
    rw [List.map_cons, readScattering, getline_cons]
    simp only [rowText_no_end h1 h2, Bool.false_eq_true, if_false, readRow_rowText h3, ok_bind]
    obtain ⟨l, h4⟩ := ih (fun q hq => hr q (by simp [hq])) f (rowText r) (acc ++ [r.map fun n : ℕ => (n : ℤ)]) (by simp at hf; omega)
    exact ⟨l, by rw [h4, List.append_assoc]; rfl⟩

/-! ## The outer loop -/

variable (K) in
/-- The loop on the lines `ls` turns `c` into `r`. -/
def Parses (ls : List (List Char)) (t : Bool) (c : ConverterLog) (r : M ConverterLog) : Prop :=
  ∀ fuel line, ls.length + 1 < fuel → readLoop K fuel (strm ls t) line c = r

theorem readLoop_eof (t : Bool) (fuel : ℕ) (hf : 0 < fuel) (line : List Char) (c : ConverterLog) :
    readLoop K fuel (eof t) line c = .ok c := by
  obtain ⟨f, rfl⟩ : ∃ f, fuel = f + 1 := ⟨fuel - 1, by omega⟩
  rw [readLoop, getline_eof]

theorem parses_nil (t : Bool) (c : ConverterLog) : Parses K [] t c (.ok c) := by
  intro fuel line hf
  obtain ⟨f, rfl⟩ : ∃ f, fuel = f + 1 := ⟨fuel - 1, by omega⟩
  rw [readLoop, getline_nil]

theorem parses_neutral {l : List Char} (h : Neutral l) {ls : List (List Char)} {t : Bool} {c : ConverterLog} {r : M ConverterLog}
    (hp : Parses K ls t c r) : Parses K (l :: ls) t c r := by
  intro fuel line hf
  obtain ⟨f, rfl⟩ : ∃ f, fuel = f + 1 := ⟨fuel - 1, by omega⟩
  rw [readLoop, getline_cons]
  obtain ⟨h1, h2, h3, h4⟩ := h
  simp only [readPaths, optionsBranch, scatteringBranch, h1, h2, h3, h4, Bool.false_eq_true, if_false, ok_bind]
  exact hp f _ (by simp at hf; omega)

theorem parses_neutrals {js : List (List Char)} (h : ∀ l ∈ js, Neutral l) {ls : List (List Char)} {t : Bool} {c : ConverterLog}
    {r : M ConverterLog} (hp : Parses K ls t c r) : Parses K (js ++ ls) t c r := by
  induction js with
  | nil => exact hp
  | cons j js ih => exact parses_neutral (h j (by simp)) (ih fun l hl => h l (by simp [hl]))

theorem headers : (startsWith "input:".toList "output:".toList = false ∧ startsWith "input:".toList "options:".toList = false ∧
    startsWith "input:".toList "scattering:".toList = false ∧ startsWith "input:".toList "input:".toList = true) ∧
    (startsWith "output:".toList "input:".toList = false ∧ startsWith "output:".toList "options:".toList = false ∧
    startsWith "output:".toList "scattering:".toList = false ∧ startsWith "output:".toList "output:".toList = true) ∧
    (startsWith "options:".toList "input:".toList = false ∧ startsWith "options:".toList "output:".toList = false ∧
    startsWith "options:".toList "scattering:".toList = false ∧ startsWith "options:".toList "options:".toList = true) ∧
    (startsWith "scattering:".toList "input:".toList = false ∧ startsWith "scattering:".toList "output:".toList = false ∧
    startsWith "scattering:".toList "options:".toList = false ∧ startsWith "scattering:".toList "scattering:".toList = true) := by
  decide

theorem parses_input {p : List Char} {ls : List (List Char)} {t : Bool} {c : ConverterLog} {r : M ConverterLog}
    (hp : Parses K ls t { c with input := p } r) : Parses K ("input:".toList :: p :: ls) t c r := by
  intro fuel line hf
  obtain ⟨f, rfl⟩ : ∃ f, fuel = f + 1 := ⟨fuel - 1, by omega⟩
  rw [readLoop, getline_cons]
  obtain ⟨⟨h1, h2, h3, h4⟩, _⟩ := headers
  simp only [readPaths, optionsBranch, scatteringBranch, h1, h2, h3, h4, Bool.false_eq_true, if_false, if_true, ok_bind, getline_cons]
  exact hp f _ (by simp at hf; omega)

theorem parses_output {p : List Char} {ls : List (List Char)} {t : Bool} {c : ConverterLog} {r : M ConverterLog}
    (hp : Parses K ls t { c with output := p } r) : Parses K ("output:".toList :: p :: ls) t c r := by
  intro fuel line hf
  obtain ⟨f, rfl⟩ : ∃ f, fuel = f + 1 := ⟨fuel - 1, by omega⟩
  rw [readLoop, getline_cons]
  obtain ⟨_, ⟨h1, h2, h3, h4⟩, _⟩ := headers
  simp only [readPaths, optionsBranch, scatteringBranch, h1, h2, h3, h4, Bool.false_eq_true, if_false, if_true, ok_bind, getline_cons]
  exact hp f _ (by simp at hf; omega)

theorem all_facts : endsWith (trim "all".toList) ":".toList = false ∧ startsWith "all".toList "scattering:".toList = false := by decide

theorem parses_all {ls : List (List Char)} {t : Bool} {c : ConverterLog} {r : M ConverterLog}
    (hp : Parses K ls t { c with positions := [-1] } r) : Parses K ("options:".toList :: "all".toList :: ls) t c r := by
  intro fuel line hf
  obtain ⟨f, rfl⟩ : ∃ f, fuel = f + 1 := ⟨fuel - 1, by omega⟩
  obtain ⟨g, rfl⟩ : ∃ g, f = g + 1 := ⟨f - 1, by simp at hf; omega⟩
  rw [readLoop, getline_cons]
  obtain ⟨_, _, ⟨h1, h2, h3, h4⟩, _⟩ := headers
  simp only [readPaths, optionsBranch, h1, h2, h4, Bool.false_eq_true, if_false, if_true]
  rw [readOptions, getline_cons]
  simp only [all_facts.1, Bool.false_eq_true, if_false, if_true, ok_bind, pure_ok, scatteringBranch, all_facts.2]
  exact hp _ _ (by simp at hf; omega)

theorem parses_options {ps : List ℤ} (hps : ∀ p ∈ ps, -2 ^ 31 < p ∧ p < 2 ^ 31) {ls : List (List Char)} {t : Bool} {c : ConverterLog}
    {r : M ConverterLog} (hp : Parses K ls t { c with positions := c.positions ++ ps } r) :
    Parses K ("options:".toList :: (ps.map intText ++ [] :: ls)) t c r := by
  intro fuel line hf
  simp only [List.length_cons, List.length_append, List.length_map] at hf
  obtain ⟨f, rfl⟩ : ∃ f, fuel = f + 1 := ⟨fuel - 1, by omega⟩
  rw [readLoop, getline_cons]
  obtain ⟨_, _, ⟨h1, h2, h3, h4⟩, _⟩ := headers
  simp only [readPaths, optionsBranch, h1, h2, h4, Bool.false_eq_true, if_false, if_true]
  rw [readOptions_text ps hps ls t f _ _ (by omega)]
  simp only [ok_bind, pure_ok, scatteringBranch, neutral_nil.2.2.2, Bool.false_eq_true, if_false]
  exact hp _ _ (by omega)

theorem parses_options_end {ps : List ℤ} (hps : ∀ p ∈ ps, -2 ^ 31 < p ∧ p < 2 ^ 31) {t : Bool} {c : ConverterLog} :
    Parses K ("options:".toList :: ps.map intText) t c (.ok { c with positions := c.positions ++ ps }) := by
  intro fuel line hf
  simp only [List.length_cons, List.length_map] at hf
  obtain ⟨f, rfl⟩ : ∃ f, fuel = f + 1 := ⟨fuel - 1, by omega⟩
  rw [readLoop, getline_cons]
  obtain ⟨_, _, ⟨h1, h2, h3, h4⟩, _⟩ := headers
  simp only [readPaths, optionsBranch, h1, h2, h4, Bool.false_eq_true, if_false, if_true]
  obtain ⟨l, h5, h6⟩ := readOptions_end ps hps t f "options:".toList c.positions (by omega)
  rw [h5]
  have h7 : startsWith l "scattering:".toList = false := by
    rcases h6 with rfl | rfl | ⟨p, rfl⟩
    · exact neutral_nil.2.2.2
    · exact h3
    · refine startsWith_false (c := ':') (by decide) fun hc => ?_
      rcases intText_chars p _ hc with h | ⟨e, h⟩
      · exact absurd h (by decide)
      · exact (digitChar_plain e).2.2.2.1 h.symm
  simp only [ok_bind, pure_ok, scatteringBranch, h7, Bool.false_eq_true, if_false]
  exact readLoop_eof t f (by omega) _ _

theorem parses_scattering_aux {hd : List Char} (h1 : startsWith hd "input:".toList = false) (h2 : startsWith hd "output:".toList = false)
    (h3 : startsWith hd "options:".toList = false) (h4 : startsWith hd "scattering:".toList = true) {rows : List (List ℕ)}
    (hr : ∀ r ∈ rows, RowOK r) {ls : List (List Char)} {t : Bool} {c : ConverterLog}
    {r : M ConverterLog} (hp : Parses K ls t { c with scattering := c.scattering ++ intRows rows } r) :
    Parses K (hd :: (rows.map rowText ++ [] :: ls)) t c r := by
  intro fuel line hf
  simp only [List.length_cons, List.length_append, List.length_map] at hf
  obtain ⟨f, rfl⟩ : ∃ f, fuel = f + 1 := ⟨fuel - 1, by omega⟩
  rw [readLoop, getline_cons]
  simp only [readPaths, optionsBranch, scatteringBranch, h1, h2, h3, h4, Bool.false_eq_true, if_false, if_true, ok_bind]
  rw [readScattering_text rows hr ls t f _ _ (by omega)]
  simp only [ok_bind, pure_ok]
  exact hp f [] (by omega)

theorem parses_scattering_end_aux {hd : List Char} (h1 : startsWith hd "input:".toList = false)
    (h2 : startsWith hd "output:".toList = false) (h3 : startsWith hd "options:".toList = false)
    (h4 : startsWith hd "scattering:".toList = true) {rows : List (List ℕ)} (hr : ∀ r ∈ rows, RowOK r) {t : Bool} {c : ConverterLog} :
    Parses K (hd :: rows.map rowText) t c (.ok { c with scattering := c.scattering ++ intRows rows }) := by
  intro fuel line hf
  simp only [List.length_cons, List.length_map] at hf
  obtain ⟨f, rfl⟩ : ∃ f, fuel = f + 1 := ⟨fuel - 1, by omega⟩
  rw [readLoop, getline_cons]
  simp only [readPaths, optionsBranch, scatteringBranch, h1, h2, h3, h4, Bool.false_eq_true, if_false, if_true, ok_bind]
  obtain ⟨l, h5⟩ := readScattering_end (K := K) rows hr t f hd c.scattering (by omega)
  rw [h5]
  simp only [ok_bind, pure_ok]
  exact readLoop_eof t f (by omega) _ _

theorem parses_scattering {rows : List (List ℕ)} (hr : ∀ r ∈ rows, RowOK r) {ls : List (List Char)} {t : Bool} {c : ConverterLog}
    {r : M ConverterLog} (hp : Parses K ls t { c with scattering := c.scattering ++ intRows rows } r) :
    Parses K ("scattering:".toList :: (rows.map rowText ++ [] :: ls)) t c r :=
  parses_scattering_aux headers.2.2.2.1 headers.2.2.2.2.1 headers.2.2.2.2.2.1 headers.2.2.2.2.2.2 hr hp

theorem parses_scattering_end {rows : List (List ℕ)} (hr : ∀ r ∈ rows, RowOK r) {t : Bool} {c : ConverterLog} :
    Parses K ("scattering:".toList :: rows.map rowText) t c (.ok { c with scattering := c.scattering ++ intRows rows }) :=
  parses_scattering_end_aux headers.2.2.2.1 headers.2.2.2.2.1 headers.2.2.2.2.2.1 headers.2.2.2.2.2.2 hr

/-! ## Appending to a log file -/

theorem stoi_header {l : List Char} {p : ℤ} (h : stoi l = .ok p) : startsWith l "scattering:".toList = false := by
  rw [← Bool.not_eq_true, startsWith_iff]
  rintro ⟨r, rfl⟩
  have : stoi ("scattering:".toList ++ r) = .error (.thrown .invalidArgument) := by
    simp [stoi, isSpace, List.takeWhile]
  rw [this] at h
  exact absurd h (by simp)

/-- The section "options:" of a file that is continued by an empty line and more. -/
theorem readOptions_append (more : List (List Char)) (t t' : Bool) : ∀ (ls : List (List Char)) (f f' : ℕ) (line : List Char)
    (acc : List ℤ), ls.length < f → ls.length < f' →
    (∃ e, readOptions f (strm ls t) line acc = .error e ∧ readOptions f' (strm (ls ++ [] :: more) t') line acc = .error e) ∨
    (∃ a l rest, readOptions f (strm ls t) line acc = .ok (a, l, strm rest t) ∧
      readOptions f' (strm (ls ++ [] :: more) t') line acc = .ok (a, l, strm (rest ++ [] :: more) t') ∧ rest <:+ ls ∧
      rest.length < ls.length) ∨
    (∃ a l, readOptions f (strm ls t) line acc = .ok (a, l, eof t) ∧
      readOptions f' (strm (ls ++ [] :: more) t') line acc = .ok (a, [], strm more t') ∧
      (startsWith line "scattering:".toList = false → startsWith l "scattering:".toList = false)) := by
  intro ls
  induction ls with
  | nil =>
    intro f f' line acc hf hf'
    obtain ⟨f, rfl⟩ : ∃ g, f = g + 1 := ⟨f - 1, by omega⟩
    obtain ⟨f', rfl⟩ : ∃ g, f' = g + 1 := ⟨f' - 1, by omega⟩
    right; right
    refine ⟨acc, if t then [] else line, ?_, ?_, ?_⟩
    · rw [readOptions, getline_nil]
    · rw [List.nil_append, readOptions, getline_cons]
      simp only [blank_ends, if_true]
    · intro h
      cases t
      · exact h
      · exact neutral_nil.2.2.2
  | cons l ls ih =>
    intro f f' line acc hf hf'
    obtain ⟨f, rfl⟩ : ∃ g, f = g + 1 := ⟨f - 1, by omega⟩
    obtain ⟨f', rfl⟩ : ∃ g, f' = g + 1 := ⟨f' - 1, by omega⟩
    rw [List.cons_append, readOptions, readOptions, getline_cons, getline_cons]
    dsimp only
    by_cases h1 : endsWith (trim l) ":".toList = true
    · rw [if_pos h1, if_pos h1]
      exact Or.inr (Or.inl ⟨acc, l, ls, rfl, rfl, ⟨[l], rfl⟩, by simp⟩)
    · rw [if_neg h1, if_neg h1]
      by_cases h2 : l = "all".toList
      · rw [if_pos h2, if_pos h2]
        exact Or.inr (Or.inl ⟨[-1], l, ls, rfl, rfl, ⟨[l], rfl⟩, by simp⟩)
      · rw [if_neg h2, if_neg h2]
        cases hs : stoi l with
        | error e => exact Or.inl ⟨e, rfl, rfl⟩
        | ok p =>
          rw [ok_bind, ok_bind]
          have hh := stoi_header hs
          rcases ih f f' l (acc ++ [p]) (by simp at hf; omega) (by simp at hf'; omega) with h | ⟨a, m, rest, e1, e2, e3, e4⟩ | ⟨a, m, e1, e2, e3⟩
          · exact Or.inl h
          · exact Or.inr (Or.inl ⟨a, m, rest, e1, e2, e3.trans ⟨[l], rfl⟩, by simp; omega⟩)
          · exact Or.inr (Or.inr ⟨a, m, e1, e2, fun _ => e3 hh⟩)

theorem readScattering_append (more : List (List Char)) (t t' : Bool) : ∀ (ls : List (List Char)) (f f' : ℕ) (line : List Char)
    (acc : List (List ℤ)), ls.length < f → ls.length < f' →
    (∃ e, readScattering K f (strm ls t) line acc = .error e ∧ readScattering K f' (strm (ls ++ [] :: more) t') line acc = .error e) ∨
    (∃ a l rest, readScattering K f (strm ls t) line acc = .ok (a, l, strm rest t) ∧
      readScattering K f' (strm (ls ++ [] :: more) t') line acc = .ok (a, l, strm (rest ++ [] :: more) t') ∧ rest <:+ ls ∧
      rest.length < ls.length) ∨
    (∃ a l, readScattering K f (strm ls t) line acc = .ok (a, l, eof t) ∧
      readScattering K f' (strm (ls ++ [] :: more) t') line acc = .ok (a, [], strm more t')) := by
  intro ls
  induction ls with
  | nil =>
    intro f f' line acc hf hf'
    obtain ⟨f, rfl⟩ : ∃ g, f = g + 1 := ⟨f - 1, by omega⟩
    obtain ⟨f', rfl⟩ : ∃ g, f' = g + 1 := ⟨f' - 1, by omega⟩
    right; right
    refine ⟨acc, if t then [] else line, ?_, ?_⟩
    · rw [readScattering, getline_nil]
    · rw [List.nil_append, readScattering, getline_cons]
      simp only [blank_ends, if_true]
  | cons l ls ih =>
    intro f f' line acc hf hf'
    obtain ⟨f, rfl⟩ : ∃ g, f = g + 1 := ⟨f - 1, by omega⟩
    obtain ⟨f', rfl⟩ : ∃ g, f' = g + 1 := ⟨f' - 1, by omega⟩
    rw [List.cons_append, readScattering, readScattering, getline_cons, getline_cons]
    dsimp only
    by_cases h1 : endsWith (trim l) ":".toList = true
    · rw [if_pos h1, if_pos h1]
      exact Or.inr (Or.inl ⟨acc, l, ls, rfl, rfl, ⟨[l], rfl⟩, by simp⟩)
    · rw [if_neg h1, if_neg h1]
      cases hs : readRow K l with
      | error e => exact Or.inl ⟨e, rfl, rfl⟩
      | ok p =>
        rw [ok_bind, ok_bind]
        rcases ih f f' l (acc ++ [p]) (by simp at hf; omega) (by simp at hf'; omega) with h | ⟨a, m, rest, e1, e2, e3, e4⟩ | ⟨a, m, e1, e2⟩
        · exact Or.inl h
        · exact Or.inr (Or.inl ⟨a, m, rest, e1, e2, e3.trans ⟨[l], rfl⟩, by simp; omega⟩)
        · exact Or.inr (Or.inr ⟨a, m, e1, e2⟩)

/-- The last line of a file is terminated or starts neither "input:" nor "output:". -/
def GoodEnd (ls : List (List Char)) (t : Bool) : Prop :=
  t = true ∨ ∀ l, ls.getLast? = some l → startsWith l "input:".toList = false ∧ startsWith l "output:".toList = false

theorem goodEnd_suffix {rest ls : List (List Char)} {t : Bool} (h : GoodEnd ls t) (hs : rest <:+ ls) : GoodEnd rest t := by
  rcases h with h | h
  · exact Or.inl h
  · refine Or.inr fun l hl => h l ?_
    obtain ⟨a, rfl⟩ := hs
    have : rest ≠ [] := by rintro rfl; simp at hl
    rw [List.getLast?_append_of_ne_nil _ this, hl]

theorem startsWith_two {l a b : List Char} (h1 : startsWith l a = true) (h2 : startsWith l b = true) : a <+: b ∨ b <+: a :=
  List.prefix_or_prefix_of_prefix (startsWith_iff.1 h1) (startsWith_iff.1 h2)

theorem readLoop_append (more : List (List Char)) (hm : ∀ l ∈ more, Neutral l) (t t' : Bool) : ∀ (n : ℕ) (ls : List (List Char)),
    ls.length ≤ n → GoodEnd ls t → ∀ (f f' : ℕ) (line line' : List Char) (c : ConverterLog), ls.length + 1 < f →
    ls.length + more.length + 2 < f' →
    readLoop K f' (strm (ls ++ [] :: more) t') line' c = readLoop K f (strm ls t) line c := by
  intro n
  induction n with
  | zero =>
    intro ls hn hg f f' line line' c hf hf'
    have : ls = [] := List.length_eq_zero_iff.1 (by omega)
    subst this
    rw [parses_nil t c f line hf, List.nil_append]
    have := parses_neutrals (K := K) (js := [] :: more) (by intro l hl; rcases List.mem_cons.1 hl with rfl | h; exacts [neutral_nil, hm l h])
      (parses_nil t' c)
    rw [List.append_nil] at this
    exact this f' line' (by simp at hf' ⊢; omega)
  | succ n ih =>
    intro ls hn hg f f' line line' c hf hf'
    cases ls with
    | nil => exact ih [] (by simp) hg f f' line line' c hf hf'
    | cons l ls =>
      simp only [List.length_cons] at hn hf hf'
      obtain ⟨f, rfl⟩ : ∃ g, f = g + 1 := ⟨f - 1, by omega⟩
      obtain ⟨f', rfl⟩ : ∃ g, f' = g + 1 := ⟨f' - 1, by omega⟩
      have hg' : GoodEnd ls t := goodEnd_suffix hg ⟨[l], rfl⟩
      have hmore : Parses K more t' = fun c r => Parses K more t' c r := rfl
      have hdone : ∀ (c : ConverterLog) (line' : List Char) (g g' : ℕ) (line : List Char), 0 < g → more.length + 1 < g' →
          readLoop K g' (strm more t') line' c = readLoop K g (eof t) line c := by
        intro c line' g g' line h1 h2
        rw [readLoop_eof t g h1]
        have := parses_neutrals (K := K) hm (parses_nil t' c)
        rw [List.append_nil] at this
        exact this g' line' h2
      rw [List.cons_append, readLoop, readLoop, getline_cons, getline_cons]
      dsimp only
      -- paths
      by_cases hin : startsWith l "input:".toList = true ∨ startsWith l "output:".toList = true
      · have ho : startsWith l "options:".toList = false := by
          rw [← Bool.not_eq_true]; intro h
          rcases hin with h1 | h1 <;> rcases startsWith_two h1 h with h | h <;> revert h <;> decide
        have hs : startsWith l "scattering:".toList = false := by
          rw [← Bool.not_eq_true]; intro h
          rcases hin with h1 | h1 <;> rcases startsWith_two h1 h with h | h <;> revert h <;> decide
        simp only [optionsBranch, scatteringBranch, ho, hs, Bool.false_eq_true, if_false, ok_bind]
        rcases ls with _ | ⟨p, ls⟩
        · -- the end of the file
          have ht : t = true := by
            rcases hg with h | h
            · exact h
            · have := h l (by simp)
              rcases hin with h1 | h1
              · rw [this.1] at h1; exact absurd h1 (by simp)
              · rw [this.2] at h1; exact absurd h1 (by simp)
          subst ht
          rw [List.nil_append]
          rcases hin with h1 | h1
          · have h2 : startsWith l "output:".toList = false := by
              rw [← Bool.not_eq_true]; intro h
              rcases startsWith_two h1 h with h | h <;> revert h <;> decide
            simp only [readPaths, h1, h2, if_true, Bool.false_eq_true, if_false, getline_cons, getline_nil]
            exact hdone _ _ _ _ _ (by omega) (by simp at hf'; omega)
          · have h2 : startsWith l "input:".toList = false := by
              rw [← Bool.not_eq_true]; intro h
              rcases startsWith_two h1 h with h | h <;> revert h <;> decide
            simp only [readPaths, h1, h2, if_true, Bool.false_eq_true, if_false, getline_cons, getline_nil]
            exact hdone _ _ _ _ _ (by omega) (by simp at hf'; omega)
        · have hg'' : GoodEnd ls t := goodEnd_suffix hg' ⟨[p], rfl⟩
          simp only [List.length_cons] at hn hf hf'
          rw [List.cons_append]
          rcases hin with h1 | h1
          · have h2 : startsWith l "output:".toList = false := by
              rw [← Bool.not_eq_true]; intro h
              rcases startsWith_two h1 h with h | h <;> revert h <;> decide
            simp only [readPaths, h1, h2, if_true, Bool.false_eq_true, if_false, getline_cons]
            exact ih ls (by omega) hg'' _ _ _ _ _ (by omega) (by omega)
          · have h2 : startsWith l "input:".toList = false := by
              rw [← Bool.not_eq_true]; intro h
              rcases startsWith_two h1 h with h | h <;> revert h <;> decide
            simp only [readPaths, h1, h2, if_true, Bool.false_eq_true, if_false, getline_cons]
            exact ih ls (by omega) hg'' _ _ _ _ _ (by omega) (by omega)
      · have hi1 : startsWith l "input:".toList = false := by rw [← Bool.not_eq_true]; exact fun h => hin (Or.inl h)
        have hi2 : startsWith l "output:".toList = false := by rw [← Bool.not_eq_true]; exact fun h => hin (Or.inr h)
        simp only [readPaths, hi1, hi2, Bool.false_eq_true, if_false]
        -- the branch of the scattering, from any point
        have hscat : ∀ (ls : List (List Char)) (l : List Char) (c : ConverterLog), ls.length ≤ n → GoodEnd ls t → ls.length + 1 < f →
            ls.length + more.length + 2 < f' →
            (scatteringBranch K f' c l (strm (ls ++ [] :: more) t') >>= fun d => readLoop K f' d.2.2 d.2.1 d.1) =
            (scatteringBranch K f c l (strm ls t) >>= fun d => readLoop K f d.2.2 d.2.1 d.1) := by
          intro ls l c hn hg hf hf'
          unfold scatteringBranch
          by_cases hs : startsWith l "scattering:".toList = true
          · rw [if_pos hs, if_pos hs]
            rcases readScattering_append (K := K) more t t' ls f f' l c.scattering (by omega) (by omega) with
              ⟨e, e1, e2⟩ | ⟨a, m, rest, e1, e2, e3, e4⟩ | ⟨a, m, e1, e2⟩
            · rw [e1, e2]; rfl
            · rw [e1, e2]
              simp only [ok_bind, pure_ok]
              exact ih rest (by omega) (goodEnd_suffix hg e3) _ _ _ _ _ (by omega) (by omega)
            · rw [e1, e2]
              simp only [ok_bind, pure_ok]
              exact hdone _ _ _ _ _ (by omega) (by omega)
          · rw [if_neg hs, if_neg hs, ok_bind, ok_bind]
            exact ih ls hn hg _ _ _ _ _ hf hf'
        unfold optionsBranch
        by_cases ho : startsWith l "options:".toList = true
        · rw [if_pos ho, if_pos ho]
          have hs : startsWith l "scattering:".toList = false := by
            rw [← Bool.not_eq_true]; intro h
            rcases startsWith_two ho h with h | h <;> revert h <;> decide
          rcases readOptions_append more t t' ls f f' l c.positions (by omega) (by omega) with
            ⟨e, e1, e2⟩ | ⟨a, m, rest, e1, e2, e3, e4⟩ | ⟨a, m, e1, e2, e3⟩
          · rw [e1, e2]; rfl
          · rw [e1, e2]
            simp only [ok_bind, pure_ok]
            exact hscat rest m _ (by omega) (goodEnd_suffix hg' e3) (by omega) (by omega)
          · rw [e1, e2]
            simp only [ok_bind, pure_ok, scatteringBranch, e3 hs, neutral_nil.2.2.2, Bool.false_eq_true, if_false]
            exact hdone _ _ _ _ _ (by omega) (by omega)
        · rw [if_neg ho, if_neg ho, ok_bind, ok_bind]
          exact hscat ls l c (by omega) hg' (by omega) (by omega)

end
end Log
end SplineLib
