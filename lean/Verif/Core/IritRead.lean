import Verif.Core.IritWrite

/-!
# Reading the entries of a written IRIT file (helper lemmas)
-/

namespace SplineLib
set_option linter.unusedSectionVars false
open Str Prn

theorem startsWith_iff {s t : List Char} : startsWith s t = true ↔ t <+: s := by
  unfold startsWith find
  rw [beq_iff_eq]
  rcases findFrom_cases t s 0 with ⟨h1, h2⟩ | ⟨k, hk, h1, h2, h3⟩
  · rw [h1]
    constructor
    · intro h; simp [npos] at h
    · intro h; exact absurd (by simpa using h) (h2 0 (by omega))
  · rw [h1]
    constructor
    · intro h
      have : k = 0 := by omega
      subst this; simpa using h2
    · intro h
      by_contra hk0
      exact h3 0 (by omega) (by simpa using h)

theorem startsWith_false {s t : List Char} {c : Char} (hc : c ∈ t) (hs : c ∉ s) : startsWith s t = false := by
  rw [← Bool.not_eq_true, startsWith_iff]
  exact fun h => hs (h.subset hc)

theorem endsWith_bracket {a : List Char} (ha : ']' ∉ a) (hl : a.length < 2 ^ 32) : endsWith (a ++ [']']) [']'] = true := by
  rw [endsWith_iff (by simp; omega) (by simp)]
  refine Or.inl ⟨⟨a, rfl⟩, fun j hj h => ha ?_⟩
  simp only [List.length_append, List.length_singleton, Nat.add_sub_cancel] at hj
  rw [List.drop_append_of_le_length (by omega)] at h
  obtain ⟨u, hu⟩ := h
  have : (a.drop j) ≠ [] := by simp; omega
  obtain ⟨x, xs, hx⟩ := List.exists_cons_of_ne_nil this
  rw [hx] at hu
  injection hu with h1 _
  exact List.mem_of_mem_drop (i := j) (by rw [hx, ← h1]; simp)

theorem endsWith_no_bracket {a : List Char} (ha : ']' ∉ a) (hne : a ≠ []) (hl : a.length < 2 ^ 32) : endsWith a [']'] = false := by
  rw [← Bool.not_eq_true, endsWith_iff (by omega) (by simp)]
  rintro (⟨⟨u, hu⟩, _⟩ | h)
  · exact ha (by rw [← hu]; simp)
  · simp at h; exact hne h

section
variable {K : Type} [LinearOrder K] [Field K] [IsStrictOrderedRing K] [DecPrinter K]

theorem num_mem {x : K} {a : List Char} {c : Char} (ha : ∀ d ∈ a, d = '[') (hc : c = ']' ∨ c = 'K' ∨ c = 'P' ∨ c = 'B') :
    c ∉ a ++ doubleText x := by
  intro h
  rcases List.mem_append.1 h with h | h
  · rw [ha c h] at hc; revert hc; decide
  · obtain ⟨_, _, _, h4, _, h5, h6, h7⟩ := doubleText_chars x c h
    rcases hc with rfl | rfl | rfl | rfl
    · exact h4 rfl
    · exact h7 rfl
    · exact h5 rfl
    · exact h6 rfl

/-- All entries are short. -/
def Short (ts : List (List Char)) : Prop := ∀ t ∈ ts, t.length < 2 ^ 32

theorem Short.left {a b : List (List Char)} (h : Short (a ++ b)) : Short a := fun t ht => h t (by simp [ht])
theorem Short.right {a b : List (List Char)} (h : Short (a ++ b)) : Short b := fun t ht => h t (by simp [ht])

/-- What the reader sees of the entries of a sequence of numbers. -/
theorem listToks_cases {a : List Char} (ha : ∀ d ∈ a, d = '[') (x : K) (xs : List K) (hs : Short (listToks a (x :: xs))) :
    (xs = [] ∧ ∃ t, listToks a (x :: xs) = [t] ∧ Irit.readNumber K t = .ok (rd x) ∧ endsWith t [']'] = true ∧
        (∃ u, t = a ++ u ∧ '[' ∉ u ∧ 'K' ∉ u ∧ 'B' ∉ u)) ∨
      (xs ≠ [] ∧ ∃ t, listToks a (x :: xs) = t :: listToks [] xs ∧ Irit.readNumber K t = .ok (rd x) ∧ endsWith t [']'] = false ∧
        (∃ u, t = a ++ u ∧ '[' ∉ u ∧ 'K' ∉ u ∧ 'B' ∉ u)) := by
  have hno : ∀ {c : Char}, c = '[' ∨ c = 'K' ∨ c = 'B' → c ∉ doubleText x := by
    intro c hc h
    obtain ⟨_, _, h3, _, _, _, h6, h7⟩ := doubleText_chars x c h
    rcases hc with rfl | rfl | rfl
    · exact h3 rfl
    · exact h7 rfl
    · exact h6 rfl
  cases xs with
  | nil =>
    refine Or.inl ⟨rfl, _, rfl, ?_, ?_, doubleText x ++ [']'], by simp, ?_, ?_, ?_⟩
    · refine read_double x ha (by simp) ?_
      have := hs (a ++ doubleText x ++ [']']) (by simp [listToks])
      simp at this ⊢; omega
    · refine endsWith_bracket (num_mem ha (Or.inl rfl)) ?_
      have := hs (a ++ doubleText x ++ [']']) (by simp [listToks])
      simp at this ⊢; omega
    all_goals
      intro h
      rcases List.mem_append.1 h with h | h
      · exact hno (by decide) h
      · revert h; decide
  | cons y ys =>
    have := hs (a ++ doubleText x ++ []) (by simp [listToks])
    refine Or.inr ⟨by simp, _, rfl, ?_, ?_, doubleText x ++ [], by simp, ?_, ?_, ?_⟩
    · refine read_double x ha (by simp) ?_
      simp at this ⊢; omega
    · rw [List.append_nil] at *
      exact endsWith_no_bracket (num_mem ha (Or.inl rfl)) (by simp [doubleText_ne]) this
    all_goals rw [List.append_nil]; exact hno (by decide)

theorem readKnots_eq {e : List Char} (he : startsWith e ['['] = true) (rest : List (List Char)) :
    ∀ (U : List K), Short (listToks [] U) → Irit.readKnots K (listToks [] U ++ e :: rest) = .ok (U.map rd, e :: rest) := by
  intro U
  induction U with
  | nil => intro _; simp [listToks, Irit.readKnots, he]
  | cons x xs ih =>
    intro hs
    rcases listToks_cases (by simp) x xs hs with ⟨rfl, t, h1, h2, _, u, rfl, h3, _⟩ | ⟨_, t, h1, h2, _, u, rfl, h3, _⟩
    · rw [h1, List.singleton_append, Irit.readKnots, startsWith_false (c := '[') (by simp) (by simpa using h3), h2]
      simp only [Bool.false_eq_true, if_false, ok_bind]
      rw [Irit.readKnots, he]; rfl
    · rw [h1] at hs ⊢
      rw [List.cons_append, Irit.readKnots, startsWith_false (c := '[') (by simp) (by simpa using h3), h2]
      simp only [Bool.false_eq_true, if_false, ok_bind]
      rw [ih (fun t ht => hs t (by simp [ht]))]; rfl

theorem skipBehind_eq {stop : List Char → Bool} {e : List Char} (he : stop e = true) (rest : List (List Char)) :
    ∀ pre : List (List Char), (∀ t ∈ pre, stop t = false) → Irit.skipBehind stop (pre ++ e :: rest) = .ok rest := by
  intro pre
  induction pre with
  | nil => intro _; simp [Irit.skipBehind, he]
  | cons t pre ih =>
    intro h
    rw [List.cons_append, Irit.skipBehind, h t (by simp)]
    exact ih fun t ht => h t (by simp [ht])

theorem readKnotVectors_eq {e : List Char} (he : startsWith e ['['] = true) (rest : List (List Char)) :
    ∀ (Us : List (List K)) (pre : List (List Char)), (∀ t ∈ pre, startsWith t "[KV".toList = false) → Short (kvToks Us) →
      Irit.readKnotVectors K Us.length (pre ++ (kvToks Us ++ e :: rest)) = .ok (Us.map fun U => U.map rd) := by
  intro Us
  induction Us with
  | nil => intro pre _ _; rfl
  | cons U Us ih =>
    intro pre hpre hs
    have hs1 : Short (listToks [] U) := fun t ht => hs t (by simp [kvToks, ht])
    have hs2 : Short (kvToks Us) := fun t ht => hs t (by
      unfold kvToks at ht ⊢
      rw [List.flatMap_cons]; exact List.mem_append_right _ ht)
    have e1 : kvToks (U :: Us) ++ e :: rest = "[KV".toList :: (listToks [] U ++ (kvToks Us ++ e :: rest)) := by simp [kvToks]
    rw [e1, List.length_cons, Irit.readKnotVectors, skipBehind_eq (stop := fun e => startsWith e "[KV".toList) (e := "[KV".toList)
      (startsWith_iff.2 ⟨[], by simp⟩) _ pre hpre]
    simp only [ok_bind]
    have e2 : ∃ e' r', kvToks Us ++ e :: rest = e' :: r' ∧ startsWith e' ['['] = true := by
      cases Us with
      | nil => exact ⟨e, rest, rfl, he⟩
      | cons V Vs => exact ⟨"[KV".toList, listToks [] V ++ (kvToks Vs ++ e :: rest), by simp [kvToks], startsWith_iff.2 ⟨['K', 'V'], by decide⟩⟩
    obtain ⟨e', r', e2, e3⟩ := e2
    have := ih [] (by simp) hs2
    rw [List.nil_append] at this
    rw [e2] at this ⊢
    rw [readKnots_eq e3 r' U hs1]
    simp only [ok_bind, this]
    rfl

theorem firstPoint_eq {e : List Char} (he : startsWith e ['['] = true) (he' : startsWith e "[KV".toList = false)
    (rest : List (List Char)) : ∀ pre : List (List Char), (∀ t ∈ pre, startsWith t ['['] = false ∨ startsWith t "[KV".toList = true) →
    Irit.firstPoint (pre ++ e :: rest) = .ok (e :: rest) := by
  intro pre
  induction pre with
  | nil => intro _; rw [List.nil_append, Irit.firstPoint, if_neg (by rw [he, he']; decide)]
  | cons t pre ih =>
    intro h
    rw [List.cons_append, Irit.firstPoint, if_pos, ih fun t ht => h t (by simp [ht])]
    rcases h t (by simp) with h | h <;> rw [h] <;> simp

theorem listToks_numbers {a : List Char} (ha : ∀ d ∈ a, d = '[') : ∀ (xs : List K), Short (listToks a xs) →
    ∀ t ∈ (listToks a xs).tail, '[' ∉ t ∧ 'B' ∉ t := by
  intro xs
  induction xs generalizing a with
  | nil => intro _ t ht; simp [listToks] at ht
  | cons x xs ih =>
    intro hs t ht
    rcases listToks_cases ha x xs hs with ⟨rfl, t', h1, _⟩ | ⟨hne, t', h1, _⟩
    · rw [h1] at ht; simp at ht
    · rw [h1, List.tail_cons] at ht
      have hs' : Short (listToks [] xs) := fun t ht => hs t (by rw [h1]; simp [ht])
      cases xs with
      | nil => exact absurd rfl hne
      | cons y ys =>
        rcases listToks_cases (by simp) y ys hs' with ⟨rfl, s, h2, _, _, u, rfl, h3, _, h4⟩ | ⟨_, s, h2, _, _, u, rfl, h3, _, h4⟩
        · rw [h2] at ht; simp at ht; subst ht; exact ⟨h3, h4⟩
        · have hh := ih (a := []) (by simp) hs' t
          rw [h2] at ht hh
          rcases List.mem_cons.1 ht with rfl | ht
          · exact ⟨by simpa using h3, by simpa using h4⟩
          · exact hh ht

theorem listToks_nil_numbers (xs : List K) (hs : Short (listToks [] xs)) : ∀ t ∈ listToks [] xs, '[' ∉ t ∧ 'B' ∉ t := by
  cases xs with
  | nil => intro t ht; simp [listToks] at ht
  | cons y ys =>
    intro t ht
    have hh := listToks_numbers (a := []) (by simp) (y :: ys) hs t
    rcases listToks_cases (by simp) y ys hs with ⟨rfl, s, h2, _, _, u, rfl, h3, _, h4⟩ | ⟨_, s, h2, _, _, u, rfl, h3, _, h4⟩
    · rw [h2] at ht; simp at ht; subst ht; exact ⟨h3, h4⟩
    · rw [h2] at ht hh
      rcases List.mem_cons.1 ht with rfl | ht
      · exact ⟨by simpa using h3, by simpa using h4⟩
      · exact hh ht

theorem kvToks_facts (Us : List (List K)) (hs : Short (kvToks Us)) :
    ∀ t ∈ kvToks Us, (startsWith t ['['] = false ∨ startsWith t "[KV".toList = true) ∧ 'B' ∉ t := by
  intro t ht
  unfold kvToks at ht hs
  rw [List.mem_flatMap] at ht
  obtain ⟨U, hU, ht⟩ := ht
  rcases List.mem_cons.1 ht with rfl | ht
  · exact ⟨Or.inr (startsWith_iff.2 ⟨[], by simp⟩), by decide⟩
  · have := listToks_nil_numbers U (fun t ht => hs t (List.mem_flatMap.2 ⟨U, hU, by simp [ht]⟩)) t ht
    exact ⟨Or.inl (startsWith_false (by simp) this.1), this.2⟩

theorem skip_row {rest : List (List Char)} : ∀ (xs : List K) (a : List Char), (∀ d ∈ a, d = '[') → xs ≠ [] → Short (listToks a xs) →
    Irit.skipBehind (fun e => endsWith e [']']) (listToks a xs ++ rest) = .ok rest := by
  intro xs
  induction xs with
  | nil => intro a _ h; exact absurd rfl h
  | cons x xs ih =>
    intro a ha _ hs
    rcases listToks_cases ha x xs hs with ⟨rfl, t, h1, _, h2, _⟩ | ⟨hne, t, h1, _, h2, _⟩
    · rw [h1]; simp [Irit.skipBehind, h2]
    · rw [h1] at hs ⊢
      rw [List.cons_append, Irit.skipBehind, if_neg (by simp [h2])]
      exact ih [] (by simp) hne fun t ht => hs t (by simp [ht])

theorem readWeights_eq {rest : List (List Char)} : ∀ (rows : List (K × List K)), (∀ r ∈ rows, r.2 ≠ []) →
    Short (rowToks (rows.map fun r => r.1 :: r.2)) →
    Irit.readWeights K rows.length (rowToks (rows.map fun r => r.1 :: r.2) ++ rest) = .ok (rows.map fun r => rd r.1) := by
  intro rows
  induction rows with
  | nil => intro _ _; rfl
  | cons r rows ih =>
    intro hne hs
    obtain ⟨w, q⟩ := r
    have hq : q ≠ [] := hne (w, q) (by simp)
    have e1 : rowToks (((w, q) :: rows).map fun r => r.1 :: r.2) = listToks ['['] (w :: q) ++ rowToks (rows.map fun r => r.1 :: r.2) := rfl
    rw [e1] at hs ⊢
    rcases listToks_cases (a := ['[']) (by simp) w q hs.left with ⟨h, _⟩ | ⟨_, t, h1, h2, _⟩
    · exact absurd h hq
    · have hs1 := hs.left
      rw [h1] at hs1 ⊢
      rw [List.length_cons, Irit.readWeights]
      simp only [List.cons_append, getN, List.getElem?_cons_zero, ok_bind, h2, List.drop_succ_cons, List.drop_zero, List.append_assoc]
      rw [skip_row q [] (by simp) hq fun t ht => hs1 t (by simp [ht])]
      simp only [ok_bind]
      rw [ih (fun r hr => hne r (by simp [hr])) hs.right]
      rfl

theorem readCoords_eq {w : K} (hw : w ≠ 0) {rest : List (List Char)} : ∀ (xs : List K) (a : List Char), (∀ d ∈ a, d = '[') → xs ≠ [] →
    Short (listToks a xs) → Irit.readCoords w (listToks a xs ++ rest) = .ok (xs.map (fun x => rd x / w), rest) := by
  intro xs
  induction xs with
  | nil => intro a _ h; exact absurd rfl h
  | cons x xs ih =>
    intro a ha _ hs
    have hf : fdiv (rd x) w = .ok (rd x / w) := by simp [fdiv, hw]
    rcases listToks_cases ha x xs hs with ⟨rfl, t, h1, h3, h2, _⟩ | ⟨hne, t, h1, h3, h2, _⟩
    · rw [h1]; simp only [List.singleton_append, Irit.readCoords, h2, if_true, h3, ok_bind, hf]; rfl
    · rw [h1] at hs ⊢
      rw [List.cons_append, Irit.readCoords, if_neg (by simp [h2])]
      simp only [h3, ok_bind, hf]
      rw [ih [] (by simp) hne fun t ht => hs t (by simp [ht])]
      rfl

theorem readPoints_eq {rational : Bool} {rest : List (List Char)} : ∀ (ws : List K) (rows : List (List K)), ws.length = rows.length →
    (∀ w ∈ ws, w ≠ 0) → (∀ r ∈ rows, r ≠ []) → Short (rowToks rows) →
    Irit.readPoints rational ws (rowToks rows ++ rest) =
      .ok (List.zipWith (fun w r => if rational then (r.map fun x => rd x / w).tail else r.map fun x => rd x / w) ws rows) := by
  intro ws
  induction ws with
  | nil => intro rows _ _ _ _; rfl
  | cons w ws ih =>
    intro rows hl hw hr hs
    cases rows with
    | nil => simp at hl
    | cons r rows =>
      have e1 : rowToks (r :: rows) = listToks ['['] r ++ rowToks rows := rfl
      rw [e1] at hs ⊢
      rw [Irit.readPoints, List.append_assoc, readCoords_eq (hw w (by simp)) r ['['] (by simp) (hr r (by simp)) hs.left]
      simp only [ok_bind]
      rw [ih rows (by simpa using hl) (fun v hv => hw v (by simp [hv])) (fun v hv => hr v (by simp [hv])) hs.right]
      rfl

end
end SplineLib
