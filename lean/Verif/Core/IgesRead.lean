import Verif.Core.IgesWrite

/-!
# Reading a written IGES file (helper lemmas)
-/

namespace SplineLib
set_option linter.unusedSectionVars false
open Str Prn

theorem getlines_lines : ∀ (ls : List (List Char)), (∀ l ∈ ls, '\n' ∉ l) → getlines '\n' (ls.flatMap fun t => t ++ ['\n']) = ls
  | [], _ => rfl
  | l :: ls, h => by
    have h1 : ∀ c ∈ l, c ≠ '\n' := fun c hc e => h l (by simp) (e ▸ hc)
    have ih := getlines_lines ls fun l' hl => h l' (by simp [hl])
    unfold getlines at ih ⊢
    rw [List.flatMap_cons, List.append_assoc, getlinesFrom_run l [] _ h1, List.nil_append, List.singleton_append, getlinesFrom]
    simp [ih]

/-! ### Sorting the lines -/

theorem readLines_append {b d2 p2 : List (List Char)} (hb : Iges.readLines b = .ok (d2, p2)) : ∀ (a d1 p1 : List (List Char)),
    Iges.readLines a = .ok (d1, p1) → Iges.readLines (a ++ b) = .ok (d1 ++ d2, p1 ++ p2)
  | [], d1, p1, ha => by
    simp only [Iges.readLines, Except.ok.injEq, Prod.mk.injEq] at ha
    rw [← ha.1, ← ha.2]; exact hb
  | l :: a, d1, p1, ha => by
    rw [Iges.readLines] at ha
    cases hc : Iges.column73 l with
    | error e => rw [hc] at ha; cases ha
    | ok c =>
    cases hd : Iges.readLines a with
    | error e => rw [hc, hd] at ha; cases ha
    | ok dp =>
    obtain ⟨d, p⟩ := dp
    rw [hc, hd, ok_bind, ok_bind] at ha
    simp only [pure_ok, Except.ok.injEq, Prod.mk.injEq] at ha
    obtain ⟨rfl, rfl⟩ := ha
    rw [List.cons_append, Iges.readLines, hc, ok_bind, readLines_append hb a d p hd, ok_bind]
    simp only [pure_ok]
    split <;> split <;> simp

theorem readLines_section {letter : Char} : ∀ (ls : List (List Char)) (line : ℕ), Numbered letter line ls →
    Iges.readLines ls = .ok (if letter = 'D' then ls.map fun l => l.take 72 else [], if letter = 'P' then ls.map fun l => l.take 64 else [])
  | [], _, _ => by simp [Iges.readLines]
  | l :: ls, line, h => by
    have h1 : Numbered letter (line + 1) ls := fun i hi => by
      obtain ⟨t, ht, he⟩ := h (i + 1) (by simpa using hi)
      exact ⟨t, ht, by rw [List.getElem_cons_succ] at he; rw [he, show line + (i + 1) + 1 = line + 1 + i + 1 by omega]⟩
    obtain ⟨t, ht, he⟩ := h 0 (by simp)
    rw [List.getElem_cons_zero] at he
    have hc : Iges.column73 l = .ok letter := by
      unfold Iges.column73
      rw [he, if_neg (by simp [ht]), List.getD_eq_getElem?_getD, List.getElem?_append_right (by omega), ht]; rfl
    rw [Iges.readLines, hc, ok_bind, readLines_section ls (line + 1) h1, ok_bind]
    simp only [pure_ok]
    by_cases hD : letter = 'D'
    · have hP : letter ≠ 'P' := by rw [hD]; decide
      simp [hD]
    · by_cases hP : letter = 'P' <;> simp [hD, hP]

section
variable {K : Type} [LinearOrder K] [Field K] [IsStrictOrderedRing K] [GenPrinter K]

theorem readLines_file {c : List Char} {ss : List (Spl K)} (hc : pieces 72 c < 10 ^ 7) (hn : 2 * ss.length + 1 < 10 ^ 7)
    (hp : pTotal ss + 1 < 10 ^ 7) :
    Iges.readLines (igesLines c ss) = .ok ((secD ss 0 0).map fun l => l.take 72, (secP ss 0 0).map fun l => l.take 64) := by
  have hS := readLines_section _ _ numbered_start
  have hG := readLines_section _ _ (numbered_72 'G' c 0 (pieces 72 c))
  have hD := readLines_section _ _ (numbered_secD ss 0 0 (by omega))
  have hP := readLines_section _ _ (numbered_secP ss 0 0 (by omega))
  have hT := readLines_section _ _ (numbered_terminate (s := 1) (g := pieces 72 c) (d := 2 * ss.length) (p := pTotal ss) (by norm_num) hc
    (by omega) (by omega))
  have := readLines_append hT _ _ _ (readLines_append hP _ _ _ (readLines_append hD _ _ _ (readLines_append hG _ _ _ hS)))
  unfold igesLines globalLines
  rw [this]
  simp

/-! ### One entity -/

theorem substr_ok {s : List Char} {i n : ℕ} (h : i ≤ s.length) : substr s i n = .ok ((s.drop i).take n) := by
  unfold substr; rw [if_pos h]

theorem natText_plain (n : ℕ) : ∀ c ∈ natText n, isSpace c = false ∧ c ≠ '[' ∧ c ≠ ']' := by
  rw [← natLit_text]
  intro c hc
  rcases DecLit.text_chars c hc with ⟨d, rfl⟩ | rfl | rfl | rfl | rfl | rfl
  · clear hc; revert d; decide
  all_goals (clear hc; decide)

theorem trim_padR (n w : ℕ) : trim (padR (natText n) w) = natText n := by
  have := trim_plain (natText_plain n) (a := List.replicate (w - (natText n).length) ' ') (b := []) (by simp) (by simp)
  rwa [List.append_nil] at this

theorem trim_natText (n : ℕ) : trim (natText n) = natText n := by
  have := trim_plain (natText_plain n) (a := []) (b := []) (by simp) (by simp)
  rwa [List.append_nil, List.nil_append] at this

theorem secD_first (a : List (Spl K)) (s : Spl K) (b : List (Spl K)) :
    getN ((secD (a ++ s :: b) 0 0).map fun l => l.take 72) (a.length * 2) =
      .ok ((entryA (pTotal a + 1) s ++ 'D' :: padR (natText (2 * a.length + 1)) 7).take 72) := by
  have hl : (secD a 0 0).length = 2 * a.length := secD_length a 0 0
  refine getN_some ?_
  rw [secD_append, List.getElem?_map, List.getElem?_append_right (by omega), hl, show a.length * 2 - 2 * a.length = 0 by omega, secD]
  simp [dLines]

theorem secD_second (a : List (Spl K)) (s : Spl K) (b : List (Spl K)) :
    getN ((secD (a ++ s :: b) 0 0).map fun l => l.take 72) (a.length * 2 + 1) =
      .ok ((entryB (pCount s) s ++ 'D' :: padR (natText (2 * a.length + 2)) 7).take 72) := by
  have hl : (secD a 0 0).length = 2 * a.length := secD_length a 0 0
  refine getN_some ?_
  rw [secD_append, List.getElem?_map, List.getElem?_append_right (by omega), hl, show a.length * 2 + 1 - 2 * a.length = 1 by omega, secD]
  simp [dLines]

theorem pTotal_append (a b : List (Spl K)) : pTotal (a ++ b) = pTotal a + pTotal b := by simp [pTotal]

theorem pTotal_cons (s : Spl K) (b : List (Spl K)) : pTotal (s :: b) = pCount s + pTotal b := by simp [pTotal]

theorem read_pointers {a : List (Spl K)} {s : Spl K} {b : List (Spl K)} (ht : pTotal (a ++ s :: b) + 1 < 10 ^ 7) :
    Iges.pointers ((secD (a ++ s :: b) 0 0).map fun l => l.take 72) a.length =
      .ok (((pTotal a + 1 : ℕ) : ℤ), ((pTotal a + 1 : ℕ) : ℤ) + (pCount s : ℕ) - 1) := by
  rw [pTotal_append, pTotal_cons] at ht
  have hA := entryA_length (start := pTotal a + 1) (by omega) s
  have hB := entryB_length (count := pCount s) (by omega) s
  have h0 : (padR (natText 0) 8).length = 8 := padR_length (natText8 (by norm_num))
  have h1 : (padR (natText (entityNo s)) 8).length = 8 := padR_length (natText8 (by have := entityNo_lt s; omega))
  have h2 : (padR (natText (pTotal a + 1)) 8).length = 8 := padR_length (natText8 (by omega))
  have h3 : (padR (natText (pCount s)) 8).length = 8 := padR_length (natText8 (by omega))
  have e1 : ((entryA (pTotal a + 1) s).drop 8).take 8 = padR (natText (pTotal a + 1)) 8 := by
    unfold entryA
    rw [List.drop_append_of_le_length (by omega), List.drop_of_length_le (by omega), List.nil_append, List.take_append_of_le_length (by omega),
      List.take_of_length_le (by omega)]
  have e2 : ((entryB (pCount s) s).drop 24).take 8 = padR (natText (pCount s)) 8 := by
    unfold entryB
    have h24 : (padR (natText (entityNo s)) 8 ++ (List.replicate 2 (padR (natText 0) 8)).flatten).length = 24 := by simp [h0, h1]
    rw [← List.append_assoc, List.drop_append_of_le_length (by omega), List.drop_of_length_le (by omega), List.nil_append,
      List.take_append_of_le_length (by omega), List.take_of_length_le (by omega)]
  unfold Iges.pointers
  rw [secD_first, ok_bind, List.take_append_of_le_length (by omega), List.take_of_length_le (by omega), substr_ok (by omega), ok_bind, e1,
    secD_second, ok_bind, List.take_append_of_le_length (by omega), List.take_of_length_le (by omega), substr_ok (by omega), ok_bind, e2,
    trim_padR, trim_natText, stoi_natText (by omega), ok_bind, trim_padR, trim_natText, stoi_natText (by omega), ok_bind]
  rfl

theorem read_kind {a : List (Spl K)} {s : Spl K} {b : List (Spl K)} (ht : pTotal (a ++ s :: b) + 1 < 10 ^ 7) :
    ∃ l t, getN ((secD (a ++ s :: b) 0 0).map fun l => l.take 72) (a.length * 2) = .ok l ∧ substr l 5 3 = .ok t ∧
      stoi (trim t) = .ok (entityNo s : ℤ) := by
  rw [pTotal_append, pTotal_cons] at ht
  have hA := entryA_length (start := pTotal a + 1) (by omega) s
  refine ⟨_, natText (entityNo s), secD_first a s b, ?_, ?_⟩
  · rw [List.take_append_of_le_length (by omega), List.take_of_length_le (by omega), substr_ok (by omega)]
    have hl : (natText (entityNo s)).length = 3 := by
      unfold entityNo
      split <;> decide +kernel
    have : padR (natText (entityNo s)) 8 = List.replicate 5 ' ' ++ natText (entityNo s) := by unfold padR; rw [hl]
    unfold entryA
    rw [this, List.append_assoc, List.drop_append_of_le_length (by simp), List.drop_of_length_le (by simp), List.nil_append,
      List.take_append_of_le_length (by omega), List.take_of_length_le (by omega)]
  · rw [trim_natText, stoi_natText (by have := entityNo_lt s; omega)]

theorem param_text_read {a : List (Spl K)} {s : Spl K} {b : List (Spl K)} :
    buildList (fun i => getI ((secP (a ++ s :: b) 0 0).map fun l => l.take 64) (((pTotal a + 1 : ℕ) : ℤ) - 1 + i))
      (((pTotal a + 1 : ℕ) : ℤ) + (pCount s : ℕ) - 1 - ((pTotal a + 1 : ℕ) : ℤ) + 1).toNat =
      .ok ((List.range (pCount s)).map (piece 64 (paramText s))) := by
  rw [show (((pTotal a + 1 : ℕ) : ℤ) + (pCount s : ℕ) - 1 - ((pTotal a + 1 : ℕ) : ℤ) + 1).toNat = pCount s by omega]
  refine buildList_eq fun i hi => ?_
  have hl : (secP a 0 0).length = pTotal a := secP_length a 0 0
  rw [show ((pTotal a + 1 : ℕ) : ℤ) - 1 + i = ((pTotal a + i : ℕ) : ℤ) by push_cast; ring, getI_nat]
  refine getN_some ?_
  rw [secP_append, List.getElem?_map, List.getElem?_append_right (by omega), hl, show pTotal a + i - pTotal a = i by omega, secP,
    List.getElem?_append_left (by simp [pLines, hi])]
  simp only [pLines, List.getElem?_map, List.getElem?_range hi, Option.map_some, line64]
  have := piece_length 64 (paramText s) i
  rw [List.take_append_of_le_length (by omega), List.take_of_length_le (by omega)]
end

section
variable {K : Type} [LinearOrder K] [Field K] [IsStrictOrderedRing K] [LawfulGen K]

/-- The numbers that are read back. -/
def backNums (s : Spl K) : List K := (headNats s).map (fun n : ℕ => (n : K)) ++ (bodyNums s).map gd

theorem headNats_lt {s : Spl K} (h : WFSpl s) (hk : s.ps.knots.flatten.length < 10 ^ 7) : ∀ n ∈ headNats s, n < 10 ^ 7 := by
  have hkn := h.knots
  intro n hn
  unfold headNats at hn
  have hr : (if s.ph.weights.isSome then 0 else 1 : ℕ) ≤ 1 := by split <;> omega
  generalize (if s.ph.weights.isSome then 0 else 1 : ℕ) = r at hn hr
  simp only at hn
  split at hn
  · rename_i n' p e1 e2
    obtain ⟨U, hU⟩ : ∃ U, s.ps.knots = [U] := List.length_eq_one_iff.1 (by rw [hkn.length_eq, e2]; rfl)
    rw [hU, e2] at hkn
    have hsz := (List.forall₂_cons.1 hkn).1.size
    rw [npts_eq, hU, e2] at e1
    simp only [nptsOf, List.zipWith_cons_cons, List.zipWith_nil_left, List.cons.injEq, and_true] at e1
    rw [hU] at hk
    simp only [List.flatten_cons, List.flatten_nil, List.append_nil] at hk
    simp only [List.mem_cons, List.not_mem_nil, or_false] at hn
    omega
  · rename_i n' m' p q e1 e2
    obtain ⟨U, V, hU⟩ : ∃ U V, s.ps.knots = [U, V] := List.length_eq_two.1 (by rw [hkn.length_eq, e2]; rfl)
    rw [hU, e2] at hkn
    obtain ⟨hs1, hkn⟩ := List.forall₂_cons.1 hkn
    have hs2 := (List.forall₂_cons.1 hkn).1.size
    have hs1 := hs1.size
    rw [npts_eq, hU, e2] at e1
    simp only [nptsOf, List.zipWith_cons_cons, List.zipWith_nil_left, List.cons.injEq, and_true] at e1
    rw [hU] at hk
    simp only [List.flatten_cons, List.flatten_nil, List.append_nil, List.length_append] at hk
    simp only [List.mem_cons, List.not_mem_nil, or_false] at hn
    omega
  · cases hn

theorem forall₂_map_self {α β γ : Type} {R : β → γ → Prop} {f : α → β} {g : α → γ} {l : List α} (h : ∀ x ∈ l, R (f x) (g x)) :
    List.Forall₂ R (l.map f) (l.map g) := by
  rw [List.forall₂_map_left_iff, List.forall₂_map_right_iff]
  exact List.forall₂_same.2 h

theorem fields_read {s : Spl K} (h : WFSpl s) (hk : s.ps.knots.flatten.length < 10 ^ 7)
    (hr : ∀ x ∈ bodyNums s, ShortExp x ∧ IgesReadable x) : List.Forall₂ FieldOf (fieldTexts s) (backNums s) := by
  unfold fieldTexts backNums
  refine List.rel_append (forall₂_map_self fun n hn => ?_) (forall₂_map_self fun x hx => ?_)
  · exact field_nat ((headNats_lt h hk n hn).trans (by norm_num))
  · exact field_general (hr x hx).1 (hr x hx).2

theorem bodyNums_ne {s : Spl K} (h : WFSpl s) : bodyNums s ≠ [] := by
  unfold bodyNums
  intro h0
  exact points3_ne h (List.append_eq_nil_iff.1 (List.append_eq_nil_iff.1 h0).2).2

theorem read_parameters {a : List (Spl K)} {s : Spl K} {b : List (Spl K)} (h : IgesOne s)
    (hr : ∀ x ∈ bodyNums s, ShortExp x ∧ IgesReadable x) :
    Iges.parameterVector K ((secP (a ++ s :: b) 0 0).map fun l => l.take 64)
      (((pTotal a + 1 : ℕ) : ℤ), ((pTotal a + 1 : ℕ) : ℤ) + (pCount s : ℕ) - 1) = .ok (backNums s) := by
  unfold Iges.parameterVector
  dsimp only
  rw [param_text_read, ok_bind]
  have hne : paramText s ≠ [] := joinFields_ne _
  have hfill := pieces_fill (w := 64) (by norm_num) hne
  unfold pCount
  rw [pieces_flatten (by norm_num) _ _ le_rfl hne]
  refine read_fields (fields_read h.wf h.knots hr) ?_ _ ?_
  · unfold fieldTexts
    intro h0
    exact bodyNums_ne h.wf (List.map_eq_nil_iff.1 (List.append_eq_nil_iff.1 h0).2)
  · have := h.short
    unfold paramText at this hfill ⊢
    omega
end
end SplineLib
