import Verif.Model.Pugi

/-!
# The loops of the XML parser end

Every round of a loop of the parser uses up at least one character.
-/

namespace SplineLib
namespace Pugi
open Xml

theorem scanTo_eq {pat s a b : List Char} (h : scanTo pat s = some (a, b)) : s = a ++ pat ++ b := by
  induction s generalizing a b with
  | nil => simp [scanTo] at h
  | cons c s ih =>
    rw [scanTo] at h
    split at h
    · rename_i hp
      simp only [Option.some.injEq, Prod.mk.injEq] at h
      obtain ⟨rfl, rfl⟩ := h
      obtain ⟨t, ht⟩ := List.isPrefixOf_iff_prefix.1 hp
      rw [← ht]
      simp
    · cases hs : scanTo pat s with
      | none => simp [hs] at h
      | some r =>
        obtain ⟨a', b'⟩ := r
        simp only [hs, Option.map_some, Option.some.injEq, Prod.mk.injEq] at h
        obtain ⟨rfl, rfl⟩ := h
        rw [ih hs]
        simp

theorem scanTo_length {pat s a b : List Char} (h : scanTo pat s = some (a, b)) : b.length + pat.length ≤ s.length := by
  rw [scanTo_eq h]
  simp only [List.length_append]
  omega

theorem dropWhile_length_le {α : Type} (p : α → Bool) (s : List α) : (s.dropWhile p).length ≤ s.length :=
  (List.dropWhile_suffix p).length_le

/-- The first occurrence is found. -/
theorem scanTo_first {pat : List Char} (hp : pat ≠ []) (a r : List Char) (h : ∀ x y, a = x ++ y → y ≠ [] → ¬ pat <+: y ++ pat ++ r) :
    scanTo pat (a ++ pat ++ r) = some (a, r) := by
  induction a with
  | nil =>
    obtain ⟨c, t, rfl⟩ := List.exists_cons_of_ne_nil hp
    simp [scanTo]
  | cons c a ih =>
    have h0 : ¬ pat <+: c :: a ++ pat ++ r := h [] (c :: a) rfl (by simp)
    have e : c :: a ++ pat ++ r = c :: (a ++ pat ++ r) := by simp
    rw [e, scanTo, if_neg (by rw [List.isPrefixOf_iff_prefix]; rw [e] at h0; exact h0), ih (fun x y hxy => h (c :: x) y (by simp [hxy]))]
    rfl

/-- Outcomes of the parser: a result or the exception of the reader. -/
def Fine {α : Type} (r : M α) : Prop := ∀ e, r = .error e → e = .thrown .runtimeError

theorem fine_bad {α : Type} : Fine (bad : M α) := by
  intro e h
  simp only [bad, Except.error.injEq] at h
  exact h.symm

theorem fine_ok {α : Type} (a : α) : Fine (Except.ok a : M α) := by
  intro e h
  cases h

theorem doctypePrimitive_spec (s : List Char) : Fine (doctypePrimitive s) ∧ ∀ t, doctypePrimitive s = .ok t → t.length < s.length := by
  have key : ∀ (pat r : List Char), pat ≠ [] → r.length < s.length →
      Fine (match scanTo pat r with | some (_, t) => (Except.ok t : M (List Char)) | none => bad) ∧
      ∀ t, (match scanTo pat r with | some (_, t) => (Except.ok t : M (List Char)) | none => bad) = .ok t → t.length < s.length := by
    intro pat r _ hl
    cases h : scanTo pat r with
    | none => exact ⟨fine_bad, fun t ht => by simp [bad] at ht⟩
    | some x =>
      obtain ⟨a, b⟩ := x
      refine ⟨fine_ok b, fun t ht => ?_⟩
      simp only [Except.ok.injEq] at ht
      subst ht
      have := scanTo_length h
      omega
  unfold doctypePrimitive
  dsimp only
  split
  · exact key _ _ (by simp) (by simp)
  · exact key _ _ (by simp) (by simp)
  · exact key _ _ (by simp) (by simp; omega)
  · exact key _ _ (by simp) (by simp; omega)
  · exact ⟨fine_bad, fun t ht => by simp [bad] at ht⟩

theorem doctypeIgnore_spec (n : ℕ) : ∀ (s : List Char) (depth : ℕ), s.length < n →
    Fine (doctypeIgnore n s depth) ∧ ∀ t, doctypeIgnore n s depth = .ok t → t.length ≤ s.length := by
  induction n with
  | zero => intro s depth h; omega
  | succ n ih =>
    intro s depth h
    rw [doctypeIgnore.eq_def]
    dsimp only
    split
    · exact ⟨fine_bad, fun t ht => by simp [bad] at ht⟩
    · rename_i r
      obtain ⟨h1, h2⟩ := ih r (depth + 1) (by simp at h; omega)
      exact ⟨h1, fun t ht => by have := h2 t ht; simp; omega⟩
    · rename_i r
      split
      · exact ⟨fine_ok _, fun t ht => by simp only [Except.ok.injEq] at ht; subst ht; simp; omega⟩
      · obtain ⟨h1, h2⟩ := ih r (depth - 1) (by simp at h; omega)
        exact ⟨h1, fun t ht => by have := h2 t ht; simp; omega⟩
    · rename_i r _ _
      obtain ⟨h1, h2⟩ := ih r depth (by simp at h; omega)
      exact ⟨h1, fun t ht => by have := h2 t ht; simp; omega⟩

theorem fine_bind {α β : Type} {x : M α} {f : α → M β} (hx : Fine x) (hf : ∀ a, x = .ok a → Fine (f a)) : Fine (x >>= f) := by
  cases x with
  | error e => intro e' h; exact hx e' (by simpa [bind, Except.bind] using h)
  | ok a => exact hf a rfl

theorem bind_ok_iff {α β : Type} {x : M α} {f : α → M β} {b : β} (h : (x >>= f) = .ok b) : ∃ a, x = .ok a ∧ f a = .ok b := by
  cases x with
  | error e => simp [bind, Except.bind] at h
  | ok a => exact ⟨a, rfl, h⟩

theorem doctypeGroup_spec (n : ℕ) : ∀ (s : List Char) (depth : ℕ), s.length < n →
    Fine (doctypeGroup n s depth) ∧ ∀ t, doctypeGroup n s depth = .ok t → t.length < s.length := by
  induction n with
  | zero => intro s depth h; omega
  | succ n ih =>
    intro s depth h
    have prim : Fine (doctypePrimitive s >>= fun t => doctypeGroup n t depth) ∧
        ∀ t, (doctypePrimitive s >>= fun t => doctypeGroup n t depth) = .ok t → t.length < s.length := by
      obtain ⟨h1, h2⟩ := doctypePrimitive_spec s
      refine ⟨fine_bind h1 fun a ha => (ih a depth (by have := h2 a ha; omega)).1, fun t ht => ?_⟩
      obtain ⟨a, ha, hb⟩ := bind_ok_iff ht
      have := h2 a ha
      have := (ih a depth (by omega)).2 t hb
      omega
    rw [doctypeGroup.eq_def]
    dsimp only
    split
    · exact ⟨fine_bad, fun t ht => by simp [bad] at ht⟩
    · rename_i r
      split
      · exact prim
      · rename_i t0
        obtain ⟨h1, h2⟩ := doctypeIgnore_spec (t0.length + 1) t0 0 (by omega)
        simp only [List.length_cons] at h
        refine ⟨fine_bind h1 fun a ha => (ih a depth (by have := h2 a ha; omega)).1, fun t ht => ?_⟩
        obtain ⟨a, ha, hb⟩ := bind_ok_iff ht
        have := h2 a ha
        have := (ih a depth (by omega)).2 t hb
        simp only [List.length_cons]
        omega
      · simp only [List.length_cons] at h
        obtain ⟨h1, h2⟩ := ih r (depth + 1) (by omega)
        exact ⟨h1, fun t ht => by have := h2 t ht; simp only [List.length_cons]; omega⟩
    · rename_i r
      split
      · exact ⟨fine_ok _, fun t ht => by simp only [Except.ok.injEq] at ht; subst ht; simp⟩
      · simp only [List.length_cons] at h
        obtain ⟨h1, h2⟩ := ih r (depth - 1) (by omega)
        exact ⟨h1, fun t ht => by have := h2 t ht; simp only [List.length_cons]; omega⟩
    · rename_i c r _ _
      split
      · exact prim
      · simp only [List.length_cons] at h
        obtain ⟨h1, h2⟩ := ih r depth (by omega)
        exact ⟨h1, fun t ht => by have := h2 t ht; simp only [List.length_cons]; omega⟩

theorem oneAttr_spec (s : List Char) : Fine (oneAttr s) ∧ ∀ a t, oneAttr s = .ok (a, t) → t.length < s.length := by
  unfold oneAttr
  dsimp only
  have l1 := dropWhile_length_le isSymbol s
  have l2 := dropWhile_length_le isWs (s.dropWhile isSymbol)
  split
  · rename_i r hr
    rw [hr] at l2
    simp only [List.length_cons] at l2
    have l3 := dropWhile_length_le isWs r
    split
    · rename_i q v hv
      rw [hv] at l3
      simp only [List.length_cons] at l3
      split
      · split
        · exact ⟨fine_bad, fun a t ht => by simp [bad] at ht⟩
        · rename_i raw t ht
          have l4 := scanTo_length ht
          split
          · refine ⟨fine_ok _, fun a t ht => ?_⟩
            simp only [Except.ok.injEq, Prod.mk.injEq] at ht
            obtain ⟨_, rfl⟩ := ht
            simp only [List.length_nil]
            omega
          · split
            · exact ⟨fine_bad, fun a t ht => by simp [bad] at ht⟩
            · refine ⟨fine_ok _, fun a t ht => ?_⟩
              simp only [Except.ok.injEq, Prod.mk.injEq] at ht
              obtain ⟨_, rfl⟩ := ht
              simp only [List.length_cons] at l4 ⊢
              omega
      · exact ⟨fine_bad, fun a t ht => by simp [bad] at ht⟩
    · exact ⟨fine_bad, fun a t ht => by simp [bad] at ht⟩
  · exact ⟨fine_bad, fun a t ht => by simp [bad] at ht⟩

theorem attributes_spec (n : ℕ) : ∀ (s : List Char) (acc : List (List Char × List Char)), s.length < n →
    Fine (attributes n s acc) ∧ ∀ as b t, attributes n s acc = .ok (as, b, t) → t.length < s.length := by
  induction n with
  | zero => intro s acc h; omega
  | succ n ih =>
    intro s acc h
    rw [attributes]
    have l1 := dropWhile_length_le isWs s
    split
    · exact ⟨fine_bad, fun as b t ht => by simp [bad] at ht⟩
    · rename_i c r hr
      rw [hr] at l1
      split
      · obtain ⟨h1, h2⟩ := oneAttr_spec (c :: r)
        refine ⟨fine_bind h1 fun a ha => (ih a.2 _ (by have := h2 a.1 a.2 ha; omega)).1, fun as b t ht => ?_⟩
        obtain ⟨a, ha, hb⟩ := bind_ok_iff ht
        have := h2 a.1 a.2 ha
        have := (ih a.2 _ (by omega)).2 as b t hb
        omega
      · simp only [List.length_cons] at l1
        split
        · split
          · refine ⟨fine_ok _, fun as b t ht => ?_⟩
            simp only [Except.ok.injEq, Prod.mk.injEq] at ht
            obtain ⟨_, _, rfl⟩ := ht
            simp only [List.length_cons] at l1
            omega
          · exact ⟨fine_bad, fun as b t ht => by simp [bad] at ht⟩
        · split
          · refine ⟨fine_ok _, fun as b t ht => ?_⟩
            simp only [Except.ok.injEq, Prod.mk.injEq] at ht
            obtain ⟨_, _, rfl⟩ := ht
            omega
          · exact ⟨fine_bad, fun as b t ht => by simp [bad] at ht⟩

/-- A round ends with a result or the exception of the reader, or uses up a character. -/
def GoodStep (s : List Char) : Step St → Prop
  | .stop r => Fine r
  | .more t _ => t.length < s.length

theorem startTag_good (s : List Char) (st : St) : GoodStep s (startTag s st) := by
  unfold startTag
  dsimp only
  have l1 := dropWhile_length_le isSymbol s
  split
  · exact fine_bad
  · rename_i c r hr
    rw [hr] at l1
    simp only [List.length_cons] at l1
    split
    · simp only [GoodStep]; omega
    · split
      · split
        · rename_i e he
          exact (attributes_spec (r.length + 1) r [] (by omega)).1 e he ▸ fine_bad
        · rename_i as b t ht
          have := (attributes_spec (r.length + 1) r [] (by omega)).2 as b t ht
          simp only [GoodStep]
          omega
      · split
        · split
          · simp only [List.length_cons] at l1
            simp only [GoodStep]
            omega
          · exact fine_bad
        · exact fine_bad

theorem endTag_good (s : List Char) (st : St) : GoodStep s (endTag s st) := by
  unfold endTag
  have l1 := dropWhile_length_le isSymbol s
  have l2 := dropWhile_length_le isWs (s.dropWhile isSymbol)
  split
  · exact fine_bad
  · split
    · split
      · rename_i r hr
        rw [hr] at l2
        simp only [List.length_cons] at l2
        simp only [GoodStep]
        omega
      · exact fine_bad
    · exact fine_bad

theorem question_good (s : List Char) (st : St) : GoodStep s (question s st) := by
  unfold question
  split
  · exact fine_bad
  · rename_i c r
    have l1 := dropWhile_length_le isSymbol (c :: r)
    split
    · split
      · rename_i a t ht
        have l2 := scanTo_length ht
        have l3 : "?>".toList.length = 2 := rfl
        simp only [GoodStep]
        omega
      · exact fine_bad
    · exact fine_bad

theorem exclamation_good (s : List Char) (st : St) : GoodStep s (exclamation s st) := by
  unfold exclamation
  split
  · split
    · rename_i a t ht
      have l2 := scanTo_length ht
      simp only [GoodStep, List.length_cons]
      omega
    · exact fine_bad
  · split
    · rename_i a t ht
      have l2 := scanTo_length ht
      simp only [GoodStep, List.length_cons]
      omega
    · exact fine_bad
  · rename_i r
    split
    · obtain ⟨h1, h2⟩ := doctypeGroup_spec ((('D' :: 'O' :: 'C' :: 'T' :: 'Y' :: 'P' :: 'E' :: r : List Char)).length + 1) _ 0 (Nat.lt_succ_self _)
      split
      · rename_i t ht
        exact h2 t ht
      · rename_i e he
        exact h1 e he ▸ fine_bad
    · exact fine_bad
  · exact fine_bad

theorem GoodStep.cons {s : List Char} {x : Step St} (h : GoodStep s x) (c : Char) : GoodStep (c :: s) x := by
  cases x with
  | stop r => exact h
  | more t st =>
    simp only [GoodStep, List.length_cons] at h ⊢
    omega

theorem tag_good (s : List Char) (st : St) : GoodStep s (tag s st) := by
  unfold tag
  split
  · exact fine_bad
  · split
    · exact startTag_good _ st
    · split
      · exact (endTag_good _ st).cons _
      · split
        · exact (question_good _ st).cons _
        · split
          · exact (exclamation_good _ st).cons _
          · exact fine_bad

theorem step_good (s : List Char) (st : St) : GoodStep s (step s st) := by
  unfold step
  split
  · split
    · exact fine_ok _
    · exact fine_bad
  · rename_i c r
    have lt : ((c :: r).dropWhile (· ≠ '<')).length ≤ (c :: r).length := dropWhile_length_le _ _
    split
    · exact (tag_good r st).cons c
    · rename_i hc
      have drop : ((c :: r).dropWhile (· ≠ '<')).length < (c :: r).length := by
        rw [List.dropWhile_cons, if_pos (by simpa using hc)]
        exact Nat.lt_succ_of_le (dropWhile_length_le _ _)
      split
      · rename_i hw
        by_cases hb : isWs c
        · rw [List.dropWhile_cons, if_pos hb]
          exact Nat.lt_succ_of_le (dropWhile_length_le _ _)
        · rw [List.dropWhile_cons, if_neg hb] at hw
          simp [hc] at hw
      · split
        · exact drop
        · exact drop

theorem parseTree_fine (n : ℕ) : ∀ (s : List Char) (st : St), s.length < n → Fine (parseTree n s st) := by
  induction n with
  | zero => intro s st h; omega
  | succ n ih =>
    intro s st h
    rw [parseTree]
    have g := step_good s st
    split
    · rename_i r hr
      rw [hr] at g
      exact g
    · rename_i t st' ht
      rw [ht] at g
      exact ih t st' (by simp only [GoodStep] at g; omega)

theorem parseTree_fuel (n : ℕ) : ∀ (m : ℕ) (s : List Char) (st : St), s.length < n → s.length < m → parseTree n s st = parseTree m s st := by
  induction n with
  | zero => intro m s st h; omega
  | succ n ih =>
    intro m s st h h'
    obtain ⟨m, rfl⟩ : ∃ k, m = k + 1 := ⟨m - 1, by omega⟩
    rw [parseTree, parseTree]
    have g := step_good s st
    cases hs : step s st with
    | stop r => rfl
    | more t st' =>
      rw [hs] at g
      simp only [GoodStep] at g
      exact ih m t st' (by omega) (by omega)

/-- The loop of the parser. -/
def run (s : List Char) (st : St) : M (List Node) := parseTree (s.length + 1) s st

/-- The loop, unfolded once. -/
theorem run_step (s : List Char) (st : St) : run s st = match step s st with | .stop r => r | .more t st' => run t st' := by
  rw [run, parseTree]
  have g := step_good s st
  cases hs : step s st with
  | stop r => rfl
  | more t st' =>
    rw [hs] at g
    simp only [GoodStep] at g
    exact parseTree_fuel _ _ t st' (by omega) (by omega)

theorem load_fine (text : List Char) : Fine (load text) := by
  unfold load
  dsimp only
  have h := parseTree_fine ((skipBom (cstr text)).length + 1) (skipBom (cstr text)) ⟨[], []⟩ (by omega)
  cases hp : parseTree ((skipBom (cstr text)).length + 1) (skipBom (cstr text)) ⟨[], []⟩ with
  | error e =>
    rw [hp] at h
    exact h e rfl ▸ fine_bad
  | ok doc =>
    dsimp only
    split
    · exact fine_ok _
    · exact fine_bad

end Pugi
end SplineLib
