import Verif.Core.Strings
import Verif.Spec.Text

/-!
# Searching, splitting and stripping text (helper lemmas)
-/

namespace SplineLib
set_option linter.unusedSectionVars false
namespace Str

/-! ### `find` -/

theorem findFrom_cases (t : List Char) : ∀ (s : List Char) (i : ℕ),
    (findFrom t s i = npos ∧ ∀ j, j ≤ s.length → ¬ t <+: s.drop j) ∨
      ∃ k ≤ s.length, findFrom t s i = i + k ∧ t <+: s.drop k ∧ ∀ j < k, ¬ t <+: s.drop j
  | [], i => by
    by_cases h : t.isPrefixOf [] = true
    · right
      exact ⟨0, le_refl _, by simp [findFrom, h], by simpa using h, by simp⟩
    · left
      refine ⟨by simp only [findFrom]; rw [if_neg h], fun j hj hp => h ?_⟩
      have : j = 0 := by simpa using hj
      subst this
      simpa using hp
  | c :: s, i => by
    by_cases h : t.isPrefixOf (c :: s) = true
    · right
      exact ⟨0, Nat.zero_le _, by simp [findFrom, h], by simpa using h, by simp⟩
    · have e : findFrom t (c :: s) i = findFrom t s (i + 1) := by simp only [findFrom]; rw [if_neg h]
      have h0 : ¬ t <+: c :: s := fun hp => h (by simpa using hp)
      rw [e]
      rcases findFrom_cases t s (i + 1) with ⟨h1, h2⟩ | ⟨k, hk, h1, h2, h3⟩
      · refine Or.inl ⟨h1, fun j hj => ?_⟩
        cases j with
        | zero => exact h0
        | succ j => exact h2 j (by simpa using hj)
      · refine Or.inr ⟨k + 1, by simpa using hk, by rw [h1]; omega, h2, fun j hj => ?_⟩
        cases j with
        | zero => exact h0
        | succ j => exact h3 j (by omega)

theorem suffix_iff_drop {s t : List Char} : t <:+ s ↔ t.length ≤ s.length ∧ t <+: s.drop (s.length - t.length) := by
  constructor
  · rintro ⟨a, rfl⟩
    refine ⟨by simp, ?_⟩
    have : (a ++ t).length - t.length = a.length := by simp
    rw [this, List.drop_left]
  · rintro ⟨h1, h2⟩
    have h3 := List.IsPrefix.eq_of_length h2 (by rw [List.length_drop]; omega)
    rw [h3]; exact List.drop_suffix _ _

/-- `EndsWith(s, t)`: `t` is a suffix that does not occur earlier, or `t` is one character longer than `s`. -/
theorem endsWith_iff {s t : List Char} (hs : s.length < 2 ^ 63) (ht : t.length < 2 ^ 63) :
    endsWith s t = true ↔ (t <:+ s ∧ ∀ j < s.length - t.length, ¬ t <+: s.drop j) ∨ t.length = s.length + 1 := by
  unfold endsWith find
  rw [beq_iff_eq]
  have hlong : s.length < t.length → ∀ j, ¬ t <+: s.drop j := fun h j hp => by
    have := hp.length_le
    rw [List.length_drop] at this; omega
  by_cases hlt : s.length < t.length
  · have hf : findFrom t s 0 = npos := by
      rcases findFrom_cases t s 0 with ⟨h, _⟩ | ⟨k, _, _, h, _⟩
      · exact h
      · exact absurd h (hlong hlt k)
    have hno : ¬ t <:+ s := fun h => by have := h.length_le; omega
    have hz : toSizeT ((s.length : ℤ) - t.length) = 2 ^ 64 - (t.length - s.length) := by
      unfold toSizeT
      rw [← Int.add_emod_right, Int.emod_eq_of_lt (by omega) (by omega)]
      omega
    rw [hf, hz]
    simp only [hno, false_and, false_or]
    unfold npos
    omega
  · have hz : toSizeT ((s.length : ℤ) - t.length) = s.length - t.length := by
      rw [show (s.length : ℤ) - t.length = ((s.length - t.length : ℕ) : ℤ) by omega, toSizeT_small (by omega)]
    rw [hz]
    have hne : ¬ t.length = s.length + 1 := by omega
    simp only [hne, or_false]
    rcases findFrom_cases t s 0 with ⟨h1, h2⟩ | ⟨k, hk, h1, h2, h3⟩
    · rw [h1]
      constructor
      · intro h; unfold npos at h; omega
      · rintro ⟨h, _⟩
        exact absurd (suffix_iff_drop.1 h).2 (h2 _ (by omega))
    · rw [h1, Nat.zero_add]
      constructor
      · rintro rfl
        exact ⟨suffix_iff_drop.2 ⟨by omega, h2⟩, h3⟩
      · rintro ⟨h4, h5⟩
        have h6 := (suffix_iff_drop.1 h4).2
        rcases Nat.lt_trichotomy k (s.length - t.length) with h | h | h
        · exact absurd h2 (h5 k h)
        · exact h
        · exact absurd h6 (h3 _ h)

theorem endsWith_iff_of_length {s t : List Char} (hs : s.length < 2 ^ 63) (ht : t.length ≤ s.length) :
    endsWith s t = true ↔ t <:+ s ∧ ∀ j < s.length - t.length, ¬ t <+: s.drop j := by
  rw [endsWith_iff hs (by omega)]
  constructor
  · rintro (h | h)
    · exact h
    · omega
  · exact Or.inl

/-! ### `trim` -/

theorem stripLeft_eq {p : Char → Bool} {a m : List Char} (ha : ∀ c ∈ a, p c = true) (hm : ∀ c, m.head? = some c → p c = false) :
    (a ++ m).dropWhile p = m := by
  induction a with
  | nil =>
    cases m with
    | nil => rfl
    | cons c m => simp [hm c rfl]
  | cons x a ih =>
    rw [List.cons_append, List.dropWhile_cons_of_pos (ha x (by simp)), ih (fun c hc => ha c (by simp [hc]))]

theorem dropWhile_split (p : Char → Bool) (s : List Char) :
    ∃ a, s = a ++ s.dropWhile p ∧ (∀ c ∈ a, p c = true) ∧ ∀ c, (s.dropWhile p).head? = some c → p c = false := by
  refine ⟨s.takeWhile p, (List.takeWhile_append_dropWhile).symm, fun c hc => List.mem_takeWhile_imp hc, fun c hc => ?_⟩
  have hne : s.dropWhile p ≠ [] := by intro h; rw [h] at hc; cases hc
  have h := List.head_dropWhile_not p hne
  rw [List.head?_eq_some_head hne, Option.some_inj] at hc
  rw [← hc]; exact h

def stripL (c : Char) : Prop := isSpace c = true ∨ c = '['
def stripR (c : Char) : Prop := isSpace c = true ∨ c = ']'

theorem stripL_iff (c : Char) : (isSpace c || c == '[') = true ↔ stripL c := by simp [stripL]
theorem stripR_iff (c : Char) : (isSpace c || c == ']') = true ↔ stripR c := by simp [stripR]

theorem trim_stripped (s : List Char) : Stripped stripL stripR s (trim s) := by
  obtain ⟨a, h1, h2, h3⟩ := dropWhile_split (fun c => isSpace c || c == '[') s
  obtain ⟨b, h4, h5, h6⟩ := dropWhile_split (fun c => isSpace c || c == ']') (s.dropWhile fun c => isSpace c || c == '[').reverse
  have e : trim s = ((s.dropWhile fun c => isSpace c || c == '[').reverse.dropWhile fun c => isSpace c || c == ']').reverse := rfl
  have h7 : (s.dropWhile fun c => isSpace c || c == '[') = trim s ++ b.reverse := by
    have := congrArg List.reverse h4
    rw [List.reverse_reverse, List.reverse_append] at this
    rw [e]; exact this
  refine ⟨a, b.reverse, ?_, fun c hc => (stripL_iff c).1 (h2 c hc), fun c hc => (stripR_iff c).1 (h5 c (by simpa using hc)), ?_, ?_⟩
  · rw [List.append_assoc, ← h7]; exact h1
  · intro c hc hl
    have hh : (s.dropWhile fun c => isSpace c || c == '[').head? = some c := by
      rw [h7]
      cases ht : trim s with
      | nil => rw [ht] at hc; cases hc
      | cons x xs => rw [ht] at hc; simpa using hc
    have := h3 c hh
    rw [(stripL_iff c).2 hl] at this
    cases this
  · intro c hc hr
    have hh := h6 c (by rw [e] at hc; simpa using hc)
    rw [(stripR_iff c).2 hr] at hh
    cases hh

theorem stripped_trim {s m : List Char} (h : Stripped stripL stripR s m) : trim s = m := by
  obtain ⟨a, b, rfl, ha, hb, hl, hr⟩ := h
  have hL : ∀ c, ¬ stripL c → (isSpace c || c == '[') = false := fun c hc => by
    rw [← Bool.not_eq_true]; exact fun h => hc ((stripL_iff c).1 h)
  have hR : ∀ c, ¬ stripR c → (isSpace c || c == ']') = false := fun c hc => by
    rw [← Bool.not_eq_true]; exact fun h => hc ((stripR_iff c).1 h)
  unfold trim
  rcases m with _ | ⟨x, m⟩
  · obtain ⟨a', h1, h2, h3⟩ := dropWhile_split (fun c => isSpace c || c == '[') (a ++ [] ++ b)
    have hsub : ∀ c ∈ (a ++ [] ++ b).dropWhile (fun c => isSpace c || c == '['), c ∈ b := by
      intro c hc
      rw [List.append_nil, List.dropWhile_append] at hc
      have : a.dropWhile (fun c => isSpace c || c == '[') = [] := by
        rw [List.dropWhile_eq_nil_iff]; exact fun c hc => (stripL_iff c).2 (ha c hc)
      rw [this] at hc
      simp only [List.isEmpty_nil, if_true] at hc
      exact (List.dropWhile_suffix _).subset hc
    have : ((a ++ [] ++ b).dropWhile fun c => isSpace c || c == '[').reverse.dropWhile (fun c => isSpace c || c == ']') = [] := by
      rw [List.dropWhile_eq_nil_iff]
      exact fun c hc => (stripR_iff c).2 (hb c (hsub c (by simpa using hc)))
    simp only [this, List.reverse_nil]
  · have e1 : (a ++ (x :: m) ++ b).dropWhile (fun c => isSpace c || c == '[') = (x :: m) ++ b := by
      rw [List.append_assoc]
      exact stripLeft_eq (fun c hc => (stripL_iff c).2 (ha c hc)) (fun c hc => hL c (hl c (by simpa using hc)))
    simp only [e1]
    rw [List.reverse_append]
    have e2 : (b.reverse ++ (x :: m).reverse).dropWhile (fun c => isSpace c || c == ']') = (x :: m).reverse :=
      stripLeft_eq (fun c hc => (stripR_iff c).2 (hb c (by simpa using hc)))
        (fun c hc => hR c (hr c (by rw [List.head?_reverse] at hc; exact hc)))
    rw [e2, List.reverse_reverse]

/-! ### `split` -/

theorem getlinesFrom_run {d : Char} : ∀ (a cur r : List Char), (∀ c ∈ a, c ≠ d) → getlinesFrom d cur (a ++ r) = getlinesFrom d (cur ++ a) r
  | [], cur, r, _ => by simp
  | x :: a, cur, r, h => by
    rw [List.cons_append, getlinesFrom, if_neg (by simpa using h x (by simp)),
      getlinesFrom_run a (cur ++ [x]) r (fun c hc => h c (by simp [hc])), List.append_assoc, List.singleton_append]

theorem getlinesFrom_cur {d : Char} : ∀ (s cur : List Char), cur ≠ [] → ∃ l ls, getlinesFrom d cur s = (cur ++ l) :: ls ∧
    ((s = [] ∧ l = [] ∧ ls = []) ∨ (getlinesFrom d [] s = l :: ls))
  | [], cur, h => ⟨[], [], by simp [getlinesFrom, h], Or.inl ⟨rfl, rfl, rfl⟩⟩
  | c :: s, cur, h => by
    by_cases hc : c = d
    · exact ⟨[], getlinesFrom d [] s, by simp [getlinesFrom, hc], Or.inr (by simp [getlinesFrom, hc])⟩
    · obtain ⟨l, ls, h1, h2⟩ := getlinesFrom_cur s (cur ++ [c]) (by simp)
      obtain ⟨l', ls', h3, h4⟩ := getlinesFrom_cur s [c] (by simp)
      refine ⟨c :: l, ls, by rw [getlinesFrom, if_neg (by simpa using hc), h1]; simp, Or.inr ?_⟩
      rw [getlinesFrom, if_neg (by simpa using hc), List.nil_append, h3]
      rcases h2 with ⟨rfl, rfl, rfl⟩ | h2 <;> rcases h4 with ⟨e, rfl, rfl⟩ | h4
      · rfl
      · simp [getlinesFrom] at h4
      · subst e; simp [getlinesFrom] at h2
      · rw [h2] at h4
        injection h4 with e1 e2
        subst e1 e2; rfl

/-- The tokens of one line. -/
def lineTokens (d : Char) (l : List Char) : List (List Char) := (getlines d l).filter fun v => !v.isEmpty

theorem split_def (s : List Char) (d : Char) : split s d = (getlines '\n' s).flatMap (lineTokens d) := rfl

theorem split_prefix {d : Char} {a : List Char} {X : List (List Char)} (ha : a ≠ []) (hn : ∀ c ∈ a, c ≠ '\n')
    (hX : ∀ l, lineTokens d (a ++ l) = X ++ lineTokens d l) (s : List Char) : split (a ++ s) d = X ++ split s d := by
  have hnil : lineTokens d [] = [] := rfl
  rw [split_def, split_def, getlines, getlines, getlinesFrom_run a [] s hn, List.nil_append]
  obtain ⟨l, ls, h1, h2⟩ := getlinesFrom_cur (d := '\n') s a ha
  rw [h1, List.flatMap_cons, hX]
  rcases h2 with ⟨rfl, rfl, rfl⟩ | h2
  · simp [getlinesFrom, hnil]
  · rw [h2, List.flatMap_cons, List.append_assoc]

theorem lineTokens_token {d : Char} {t : List Char} (ht : t ≠ []) (hd : ∀ c ∈ t, c ≠ d) : lineTokens d t = [t] := by
  have := getlinesFrom_run t [] [] hd
  rw [List.append_nil, List.nil_append] at this
  unfold lineTokens getlines
  rw [this]
  simp [getlinesFrom, ht]

theorem lineTokens_token_cons {d : Char} {t : List Char} (ht : t ≠ []) (hd : ∀ c ∈ t, c ≠ d) (l : List Char) :
    lineTokens d (t ++ d :: l) = t :: lineTokens d l := by
  unfold lineTokens getlines
  rw [getlinesFrom_run t [] (d :: l) hd, getlinesFrom]
  simp [ht]

/-- The separators of `split`. -/
def splitSep (d c : Char) : Prop := c = '\n' ∨ c = d

theorem split_newline (s : List Char) (d : Char) : split ('\n' :: s) d = split s d := by
  rw [split_def, split_def, getlines, getlinesFrom]
  simp only [BEq.rfl, if_true, List.flatMap_cons]
  rfl

theorem split_token_newline {d : Char} {t : List Char} (ht : t ≠ []) (hd : ∀ c ∈ t, ¬ splitSep d c) (s : List Char) :
    split (t ++ '\n' :: s) d = t :: split s d := by
  have h1 : ∀ c ∈ t, c ≠ '\n' := fun c hc h => hd c hc (Or.inl h)
  have h2 : ∀ c ∈ t, c ≠ d := fun c hc h => hd c hc (Or.inr h)
  rw [split_def, split_def, getlines, getlinesFrom_run t [] _ h1, getlinesFrom]
  simp only [BEq.rfl, if_true, List.flatMap_cons, List.nil_append]
  rw [lineTokens_token ht h2]
  rfl

theorem tokens_split {d : Char} {s : List Char} {ts : List (List Char)} (h : Tokens (splitSep d) s ts) : split s d = ts := by
  induction h with
  | nil => rfl
  | @sep c s ts hc _ ih =>
    rcases hc with rfl | rfl
    · rw [split_newline, ih]
    · by_cases hn : c = '\n'
      · rw [← ih, hn, split_newline]
      · rw [← ih]
        refine split_prefix (a := [c]) (X := []) (by simp) (by simpa using hn) (fun l => ?_) s
        unfold lineTokens getlines
        simp [getlinesFrom]
  | @last t ht hd =>
    have h1 : ∀ c ∈ t, c ≠ '\n' := fun c hc h => hd c hc (Or.inl h)
    have h2 : ∀ c ∈ t, c ≠ d := fun c hc h => hd c hc (Or.inr h)
    have := getlinesFrom_run t [] [] h1
    rw [List.append_nil, List.nil_append] at this
    rw [split_def, getlines, this]
    simp [getlinesFrom, ht, lineTokens_token ht h2]
  | @tok t c s ts ht hd hc _ ih =>
    have h1 : ∀ c ∈ t, c ≠ '\n' := fun c hc h => hd c hc (Or.inl h)
    have h2 : ∀ c ∈ t, c ≠ d := fun c hc h => hd c hc (Or.inr h)
    rcases hc with rfl | rfl
    · rw [split_token_newline ht hd, ih]
    · by_cases hn : c = '\n'
      · rw [← ih, hn]
        rw [hn] at hd
        exact split_token_newline ht hd s
      · rw [← ih, show t ++ c :: s = (t ++ [c]) ++ s by simp]
        refine split_prefix (X := [t]) (by simp) ?_ (fun l => ?_) s
        · intro x hx
          rcases List.mem_append.1 hx with hx | hx
          · exact h1 x hx
          · rw [List.mem_singleton.1 hx]; exact hn
        · rw [List.append_assoc, List.singleton_append, lineTokens_token_cons ht h2]
          rfl

theorem tokens_exist (p : Char → Prop) [DecidablePred p] : ∀ (n : ℕ) (s : List Char), s.length ≤ n → ∃ ts, Tokens p s ts
  | 0, s, h => ⟨[], by rw [List.length_eq_zero_iff.1 (Nat.le_zero.1 h)]; exact .nil⟩
  | n + 1, [], _ => ⟨[], .nil⟩
  | n + 1, c :: s, h => by
    have hs : s.length ≤ n := by simpa using h
    by_cases hc : p c
    · obtain ⟨ts, hts⟩ := tokens_exist p n s hs
      exact ⟨ts, .sep hc hts⟩
    · by_cases hall : ∀ x ∈ c :: s, ¬ p x
      · exact ⟨_, .last (by simp) hall⟩
      · obtain ⟨a, h1, h2, h3⟩ := dropWhile_split (fun x => !decide (p x)) (c :: s)
        have hne : (c :: s).dropWhile (fun x => !decide (p x)) ≠ [] := by
          intro hd
          rw [List.dropWhile_eq_nil_iff] at hd
          exact hall fun x hx => by simpa using hd x hx
        obtain ⟨x, r, hxr⟩ := List.exists_cons_of_ne_nil hne
        rw [hxr] at h1 h3
        have ha : a ≠ [] := by
          rintro rfl
          have hx : c = x := by injection h1
          have := h3 x rfl
          rw [hx] at hc
          simp [hc] at this
        have hr : r.length ≤ n := by
          have := congrArg List.length h1
          rw [List.length_append, List.length_cons, List.length_cons] at this
          have := List.length_pos_iff.2 ha
          omega
        obtain ⟨ts, hts⟩ := tokens_exist p n r hr
        rw [h1]
        exact ⟨_, .tok ha (fun y hy => by simpa using h2 y hy) (by simpa using h3 x rfl) hts⟩

theorem split_iff {d : Char} {s : List Char} {ts : List (List Char)} : split s d = ts ↔ Tokens (splitSep d) s ts := by
  classical
  refine ⟨?_, tokens_split⟩
  rintro rfl
  obtain ⟨ts, h⟩ := tokens_exist (splitSep d) s.length s (le_refl _)
  rwa [tokens_split h]

/-! ### `DelimitedStringToVector` -/

section
variable {K : Type} [Field K]

/-- The separators of delimited lists. -/
def listSep (c : Char) : Prop := c = ',' ∨ c = ';'

theorem listSep_find {f : List Char} (hf : ∀ c ∈ f, ¬ listSep c) {x : Char} (hx : listSep x) (r : List Char)
    (hlen : (f ++ x :: r).length < npos) :
    (x = ',' ∧ firstOf (fun c => c == ',') (f ++ x :: r) = f.length ∧ f.length < firstOf (fun c => c == ';') (f ++ x :: r)) ∨
      (x = ';' ∧ firstOf (fun c => c == ';') (f ++ x :: r) = f.length ∧ f.length < firstOf (fun c => c == ',') (f ++ x :: r)) := by
  have h1 : ∀ c ∈ f, (c == ',') = false := fun c hc => by
    have := hf c hc; simp only [listSep, not_or] at this; simp [this.1]
  have h2 : ∀ c ∈ f, (c == ';') = false := fun c hc => by
    have := hf c hc; simp only [listSep, not_or] at this; simp [this.2]
  have key : ∀ (p : Char → Bool), (∀ c ∈ f, p c = false) → p x = false → f.length < firstOf p (f ++ x :: r) := by
    intro p hp hpx
    rcases firstOf_cases p (f ++ x :: r) with ⟨h, _⟩ | ⟨l, c, r', h3, h4, h5, h6⟩
    · rw [h]; rw [List.length_append] at hlen; omega
    · rw [h6]
      by_contra hle
      push Not at hle
      have hget : (f ++ x :: r)[l.length]? = some c := by rw [h3, List.getElem?_append_right (le_refl _)]; simp
      rcases Nat.lt_or_ge l.length f.length with hlt | hge
      · rw [List.getElem?_append_left hlt, List.getElem?_eq_getElem hlt, Option.some_inj] at hget
        have := hp c (hget ▸ List.getElem_mem hlt)
        rw [h5] at this; cases this
      · have he : l.length = f.length := by omega
        rw [he, List.getElem?_append_right (le_refl _)] at hget
        simp at hget
        rw [← hget, hpx] at h5; cases h5
  rcases hx with rfl | rfl
  · exact Or.inl ⟨rfl, firstOf_hit h1 (by decide), key _ h2 (by decide)⟩
  · exact Or.inr ⟨rfl, firstOf_hit h2 (by decide), key _ h1 (by decide)⟩

theorem delimitedLoop_tail : ∀ (n : ℕ) (s : List Char), s.length ≤ n → (∀ c ∈ s, ¬ listSep c) → delimitedLoop K n s = .ok []
  | n, [], _, _ => by unfold delimitedLoop; rfl
  | 0, c :: s, h, _ => by simp at h
  | n + 1, c :: s, h, hs => by
    have h1 : firstOf (fun c => c == ',') (c :: s) = npos := firstOf_none fun x hx => by
      have := hs x hx; simp only [listSep, not_or] at this; simp [this.1]
    have h2 : firstOf (fun c => c == ';') (c :: s) = npos := firstOf_none fun x hx => by
      have := hs x hx; simp only [listSep, not_or] at this; simp [this.2]
    rw [delimitedLoop]
    simp only [List.isEmpty_cons, Bool.false_eq_true, if_false, h1, h2, lt_irrefl, false_and]
    exact delimitedLoop_tail n s (by simpa using h) (fun x hx => hs x (by simp [hx]))

theorem delimitedLoop_field {n : ℕ} {f r : List Char} {x : Char} (hf : ∀ c ∈ f, ¬ listSep c) (hx : listSep x)
    (hlen : (f ++ x :: r).length < npos) :
    delimitedLoop K (n + 1) (f ++ x :: r) =
      if f = [] then delimitedLoop K n r
      else (do
        let v ← stringToDouble K (trim f)
        let l ← delimitedLoop K n r
        return v :: l) := by
  have hne : (f ++ x :: r).isEmpty = false := by cases f <;> rfl
  have ht : (f ++ x :: r).take f.length = f := by simp
  have hd : (f ++ x :: r).drop (f.length + 1) = r := by
    rw [show f ++ x :: r = (f ++ [x]) ++ r by simp, List.drop_left' (by simp)]
  rw [delimitedLoop]
  simp only [hne, Bool.false_eq_true, if_false]
  by_cases h0 : f = []
  · subst h0
    rw [if_pos rfl]
    rcases listSep_find hf hx r hlen with ⟨_, h1, h2⟩ | ⟨_, h1, h2⟩
    · rw [if_neg (by rw [h1]; simp), if_neg (by rw [h1]; simp)]; rfl
    · rw [if_neg (by rw [h1]; simp), if_neg (by rw [h1]; simp)]; rfl
  · have hpos : f.length ≠ 0 := fun h => h0 (List.length_eq_zero_iff.1 h)
    rw [if_neg h0]
    rcases listSep_find hf hx r hlen with ⟨_, h1, h2⟩ | ⟨_, h1, h2⟩
    · rw [if_pos (by rw [h1]; exact ⟨h2, hpos⟩), h1, ht, hd]
    · rw [if_neg (by rw [h1]; intro h; omega), if_pos (by rw [h1]; exact ⟨h2, hpos⟩), h1, ht, hd]

theorem delimitedLoop_fields : ∀ (fs : List (List Char × Char)) (n : ℕ) (tail : List Char),
    (∀ f ∈ fs, (∀ c ∈ f.1, ¬ listSep c) ∧ listSep f.2) → (∀ c ∈ tail, ¬ listSep c) → (fieldsText fs ++ tail).length ≤ n → n < npos →
    delimitedLoop K n (fieldsText fs ++ tail) =
      ((fs.map Prod.fst).filter fun f => !f.isEmpty).mapM fun f => stringToDouble K (trim f)
  | [], n, tail, _, ht, hn, _ => by
    simp only [fieldsText, List.flatMap_nil, List.nil_append] at hn ⊢
    rw [delimitedLoop_tail n tail hn ht]; rfl
  | f :: fs, n, tail, hf, ht, hn, hlt => by
    have e : fieldsText (f :: fs) ++ tail = f.1 ++ f.2 :: (fieldsText fs ++ tail) := by simp [fieldsText]
    rw [e] at hn ⊢
    have hl : (f.1 ++ f.2 :: (fieldsText fs ++ tail)).length = f.1.length + (fieldsText fs ++ tail).length + 1 := by
      simp only [List.length_append, List.length_cons]; omega
    obtain ⟨m, rfl⟩ : ∃ m, n = m + 1 := ⟨n - 1, by omega⟩
    rw [delimitedLoop_field (hf f (by simp)).1 (hf f (by simp)).2 (by omega),
      delimitedLoop_fields fs m tail (fun g hg => hf g (by simp [hg])) ht (by omega) (by omega)]
    by_cases h0 : f.1 = []
    · rw [if_pos h0]; simp [h0]
    · have : (List.map Prod.fst (f :: fs)).filter (fun f => !f.isEmpty) =
          f.1 :: (List.map Prod.fst fs).filter (fun f => !f.isEmpty) := by simp [h0]
      rw [if_neg h0, this, List.mapM_cons]

theorem fields_exist : ∀ (n : ℕ) (s : List Char), s.length ≤ n → ∃ fs tail,
    s = fieldsText fs ++ tail ∧ (∀ f ∈ fs, (∀ c ∈ f.1, ¬ listSep c) ∧ listSep f.2) ∧ ∀ c ∈ tail, ¬ listSep c
  | 0, s, h => ⟨[], [], by rw [List.length_eq_zero_iff.1 (Nat.le_zero.1 h)]; rfl, by simp, by simp⟩
  | n + 1, s, h => by
    rcases firstOf_cases (fun c => c == ',' || c == ';') s with ⟨_, h1⟩ | ⟨l, c, r, h1, h2, h3, _⟩
    · exact ⟨[], s, rfl, by simp, fun c hc hs => by have := h1 c hc; rcases hs with rfl | rfl <;> simp at this⟩
    · obtain ⟨fs, tail, h4, h5, h6⟩ := fields_exist n r (by rw [h1] at h; simp at h; omega)
      refine ⟨(l, c) :: fs, tail, by rw [h1, h4]; simp [fieldsText], ?_, h6⟩
      intro f hf
      rcases List.mem_cons.1 hf with rfl | hf
      · exact ⟨fun x hx hs => by have := h2 x hx; rcases hs with rfl | rfl <;> simp at this, by simpa [listSep] using h3⟩
      · exact h5 f hf

/-! ### No endless loop -/

theorem stoi_nil : stoi [] = .error (.thrown .invalidArgument) := rfl

theorem stoi_not_diverges (s : List Char) : stoi s ≠ .error .diverges := by
  unfold stoi
  dsimp only
  generalize (List.takeWhile Char.isDigit _) = ds
  split
  · exact fun h => by cases h
  · split_ifs <;> exact fun h => by cases h

theorem substr_not_diverges (s : List Char) (i n : ℕ) : substr s i n ≠ .error .diverges := by
  unfold substr; split <;> simp

theorem bind_not_diverges {α β : Type} {x : M α} {f : α → M β} (hx : x ≠ .error .diverges) (hf : ∀ a, f a ≠ .error .diverges) :
    (x >>= f) ≠ .error .diverges := by
  cases x with
  | ok a => exact hf a
  | error e => rw [error_bind]; intro h; exact hx (by injection h with h; rw [h])

theorem digitLoop_not_diverges {s : List Char} {found endNumber : ℕ} (hf : found ≠ s.length) : ∀ (fuel i : ℕ) (f : Option K) (r : K),
    i ≤ s.length → s.length + 1 ≤ fuel + i → digitLoop s found endNumber fuel i f r ≠ .error .diverges
  | 0, i, _, _, h1, h2 => by omega
  | fuel + 1, i, f, r, h1, h2 => by
    rw [digitLoop]
    split
    · split
      · rcases Nat.lt_or_ge i s.length with hi | hi
        · refine bind_not_diverges (substr_not_diverges _ _ _) fun c => bind_not_diverges (stoi_not_diverges _) fun v => ?_
          cases f with
          | none => simp
          | some f => exact digitLoop_not_diverges hf fuel (i + 1) _ _ (by omega) (by omega)
        · have he : i = s.length := by omega
          have : substr s i 1 = .ok [] := by unfold substr; rw [if_pos h1, he]; simp
          rw [this, ok_bind, stoi_nil]; simp [error_bind]
      · rename_i hne
        push Not at hne
        have : i ≠ s.length := fun h => hf (by rw [← hne, h])
        exact digitLoop_not_diverges hf fuel (i + 1) _ _ (by omega) (by omega)
    · simp

theorem stringToDouble_not_diverges {s : List Char} (hs : s.length < npos) : stringToDouble K s ≠ .error .diverges := by
  unfold stringToDouble
  dsimp only
  generalize hs' : (if s.head? == some '-' then s.tail else s) = s'
  have hl : s'.length < npos := by
    rw [← hs']; split
    · rw [List.length_tail]; omega
    · exact hs
  have hfound : firstOf (fun c => c == '.') s' ≠ s'.length := by
    rcases firstOf_cases (fun c => c == '.') s' with ⟨h, _⟩ | ⟨l, c, r, h1, _, _, h2⟩
    · rw [h]; omega
    · rw [h2, h1]; simp
  refine bind_not_diverges (digitLoop_not_diverges hfound _ _ _ _ (by omega) (by omega)) fun a => ?_
  split
  · refine bind_not_diverges (substr_not_diverges _ _ _) fun c => bind_not_diverges (stoi_not_diverges _) fun v => ?_
    simp [pure_ok]
  · simp [pure_ok]

theorem mapM_not_diverges {α β : Type} {f : α → M β} : ∀ (l : List α), (∀ x ∈ l, f x ≠ .error .diverges) → l.mapM f ≠ .error .diverges
  | [], _ => by simp [pure_ok]
  | x :: l, h => by
    rw [List.mapM_cons]
    refine bind_not_diverges (h x (by simp)) fun a => bind_not_diverges (mapM_not_diverges l fun y hy => h y (by simp [hy])) fun b => ?_
    simp [pure_ok]

theorem trim_length (s : List Char) : (trim s).length ≤ s.length := by
  obtain ⟨a, b, h, _⟩ := trim_stripped s
  conv_rhs => rw [h]
  simp; omega

theorem mapM_ok {α β : Type} {f : α → M β} {g : α → β} : ∀ (l : List α), (∀ x ∈ l, f x = .ok (g x)) → l.mapM f = .ok (l.map g)
  | [], _ => rfl
  | x :: l, h => by
    rw [List.mapM_cons, h x (by simp), ok_bind, mapM_ok l fun y hy => h y (by simp [hy]), ok_bind]; rfl

end
end Str
end SplineLib
