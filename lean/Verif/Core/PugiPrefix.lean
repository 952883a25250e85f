import Verif.Core.Pugi
import Mathlib.Data.List.TakeWhile

/-!
# The XML parser on a part of a text

If the parser accepts the beginning of a text, then on the whole text it reads the same nodes first.
-/

namespace SplineLib
namespace Pugi
open Xml

theorem takeWhile_ext {α : Type} {p : α → Bool} {s : List α} {c : α} {r : List α} (h : s.dropWhile p = c :: r) (q : List α) :
    (s ++ q).takeWhile p = s.takeWhile p ∧ (s ++ q).dropWhile p = c :: (r ++ q) := by
  induction s with
  | nil => simp at h
  | cons a s ih =>
    by_cases ha : p a
    · rw [List.dropWhile_cons, if_pos ha] at h
      obtain ⟨h1, h2⟩ := ih h
      rw [List.cons_append, List.takeWhile_cons, if_pos ha, List.takeWhile_cons, if_pos ha, List.dropWhile_cons, if_pos ha, h1, h2]
      exact ⟨rfl, rfl⟩
    · rw [List.dropWhile_cons, if_neg ha] at h
      obtain ⟨rfl, rfl⟩ := List.cons.inj h
      rw [List.cons_append, List.takeWhile_cons, if_neg ha, List.takeWhile_cons, if_neg ha, List.dropWhile_cons, if_neg ha]
      exact ⟨rfl, rfl⟩

theorem scanTo_ext {pat s a b : List Char} (h : scanTo pat s = some (a, b)) (q : List Char) : scanTo pat (s ++ q) = some (a, b ++ q) := by
  induction s generalizing a b with
  | nil => simp [scanTo] at h
  | cons c s ih =>
    rw [scanTo] at h
    rw [List.cons_append, scanTo]
    by_cases hp : pat.isPrefixOf (c :: s)
    · rw [if_pos hp] at h
      simp only [Option.some.injEq, Prod.mk.injEq] at h
      obtain ⟨rfl, rfl⟩ := h
      obtain ⟨t, ht⟩ := List.isPrefixOf_iff_prefix.1 hp
      have e : c :: (s ++ q) = pat ++ (t ++ q) := by rw [← List.cons_append, ← ht, List.append_assoc]
      rw [if_pos (by rw [List.isPrefixOf_iff_prefix, e]; exact List.prefix_append _ _), e, ← ht, List.drop_left, List.drop_left]
    · rw [if_neg hp] at h
      cases hs : scanTo pat s with
      | none => simp [hs] at h
      | some x =>
        obtain ⟨a', b'⟩ := x
        simp only [hs, Option.map_some, Option.some.injEq, Prod.mk.injEq] at h
        obtain ⟨rfl, rfl⟩ := h
        have hlen := scanTo_length hs
        have heq := scanTo_eq hs
        rw [ih hs, if_neg]
        · rfl
        · intro hp'
          apply hp
          rw [List.isPrefixOf_iff_prefix] at hp' ⊢
          rw [← List.cons_append] at hp'
          exact List.prefix_of_prefix_length_le hp' (List.prefix_append _ _) (by rw [List.length_cons]; omega)

theorem doctypePrimitive_ext {s t : List Char} (h : doctypePrimitive s = .ok t) (q : List Char) : doctypePrimitive (s ++ q) = .ok (t ++ q) := by
  have key : ∀ (pat r : List Char),
      (match scanTo pat r with | some (_, t) => (Except.ok t : M (List Char)) | none => bad) = .ok t →
      (match scanTo pat (r ++ q) with | some (_, t) => (Except.ok t : M (List Char)) | none => bad) = .ok (t ++ q) := by
    intro pat r hr
    cases hs : scanTo pat r with
    | none => rw [hs] at hr; simp [bad] at hr
    | some x =>
      obtain ⟨a, b⟩ := x
      rw [hs] at hr
      simp only [Except.ok.injEq] at hr
      rw [scanTo_ext hs, ← hr]
  unfold doctypePrimitive at h
  dsimp only at h
  split at h
  · exact key _ _ h
  · exact key _ _ h
  · exact key _ _ h
  · exact key _ _ h
  · simp [bad] at h

theorem doctypeIgnore_short (n : ℕ) {s t : List Char} {depth : ℕ} (h : doctypeIgnore n s depth = .ok t) : 3 ≤ s.length := by
  induction n generalizing s depth with
  | zero => simp [doctypeIgnore] at h
  | succ n ih =>
    rw [doctypeIgnore.eq_def] at h
    dsimp only at h
    split at h
    · simp [bad] at h
    · simp
    · simp
    · have := ih h
      simp
      omega

theorem doctypeIgnore_ext (n : ℕ) : ∀ (m : ℕ) (s t q : List Char) (depth : ℕ), n ≤ m → doctypeIgnore n s depth = .ok t →
    doctypeIgnore m (s ++ q) depth = .ok (t ++ q) := by
  induction n with
  | zero => intro m s t q depth _ h; simp [doctypeIgnore] at h
  | succ n ih =>
    intro m s t q depth hm h
    obtain ⟨m, rfl⟩ : ∃ k, m = k + 1 := ⟨m - 1, by omega⟩
    rw [doctypeIgnore.eq_def] at h
    dsimp only at h
    split at h
    · simp [bad] at h
    · rename_i r
      have := ih m r t q _ (by omega) h
      rw [doctypeIgnore.eq_def]
      exact this
    · rename_i r
      rw [doctypeIgnore.eq_def]
      change (if depth = 0 then Except.ok (r ++ q) else doctypeIgnore m (r ++ q) (depth - 1)) = _
      split at h
      · rename_i hd
        simp only [Except.ok.injEq] at h
        rw [if_pos hd, h]
      · rename_i hd
        rw [if_neg hd]
        exact ih m r t q _ (by omega) h
    · rename_i c r hn1 hn2
      have hs := doctypeIgnore_short n h
      have := ih m r t q _ (by omega) h
      rw [doctypeIgnore.eq_def]
      dsimp only [List.cons_append]
      match r, hs, hn1, hn2, this with
      | a :: b :: r, _, hn1, hn2, this =>
        split
        · rename_i heq; cases heq
        · rename_i heq
          simp only [List.cons_append, List.cons.injEq] at heq
          obtain ⟨rfl, rfl, rfl, _⟩ := heq
          exact (hn1 r rfl rfl).elim
        · rename_i heq
          simp only [List.cons_append, List.cons.injEq] at heq
          obtain ⟨rfl, rfl, rfl, _⟩ := heq
          exact (hn2 r rfl rfl).elim
        · rename_i heq
          obtain ⟨_, rfl⟩ := List.cons.inj heq
          exact this

theorem doctypeGroup_ext (n : ℕ) : ∀ (m : ℕ) (s t q : List Char) (depth : ℕ), n ≤ m → s.length < n → doctypeGroup n s depth = .ok t →
    doctypeGroup m (s ++ q) depth = .ok (t ++ q) := by
  induction n with
  | zero => intro m s t q depth _ _ h; simp [doctypeGroup] at h
  | succ n ih =>
    intro m s t q depth hm hl h
    obtain ⟨m, rfl⟩ : ∃ k, m = k + 1 := ⟨m - 1, by omega⟩
    have prim : (doctypePrimitive s >>= fun t => doctypeGroup n t depth) = .ok t →
        (doctypePrimitive (s ++ q) >>= fun t => doctypeGroup m t depth) = .ok (t ++ q) := by
      intro h
      obtain ⟨a, ha, hb⟩ := bind_ok_iff h
      have := (doctypePrimitive_spec s).2 a ha
      rw [doctypePrimitive_ext ha]
      exact ih m a t q depth (by omega) (by omega) hb
    rw [doctypeGroup.eq_def] at h
    dsimp only at h
    rw [doctypeGroup.eq_def]
    dsimp only
    split at h
    · simp [bad] at h
    · rename_i r
      split at h
      · exact prim h
      · rename_i t0
        obtain ⟨a, ha, hb⟩ := bind_ok_iff h
        have := (doctypeIgnore_spec (t0.length + 1) t0 0 (by omega)).2 a ha
        simp only [List.length_cons] at hl
        have e1 := doctypeIgnore_ext (t0.length + 1) ((t0 ++ q).length + 1) t0 a q 0 (by simp) ha
        have e2 := ih m a t q depth (by omega) (by omega) hb
        simp only [List.cons_append]
        rw [e1]
        exact e2
      · rename_i hn1 hn2
        have hr : r ≠ [] := by
          rintro rfl
          cases n with
          | zero => simp [doctypeGroup] at h
          | succ n => simp [doctypeGroup, bad] at h
        obtain ⟨c, r, rfl⟩ := List.exists_cons_of_ne_nil hr
        simp only [List.length_cons] at hl
        have := ih m (c :: r) t q _ (by omega) (by simp; omega) h
        simp only [List.cons_append]
        split
        · rename_i heq; cases heq; exact absurd rfl (hn1 _)
        · rename_i heq; cases heq; exact absurd rfl (hn2 _)
        · exact this
    · rename_i r
      simp only [List.cons_append]
      split at h
      · rename_i hd
        simp only [Except.ok.injEq] at h
        rw [if_pos hd, h]
      · rename_i hd
        rw [if_neg hd]
        simp only [List.length_cons] at hl
        exact ih m r t q _ (by omega) (by omega) h
    · rename_i c r hn1 hn2
      simp only [List.length_cons] at hl
      split at h
      · rename_i hc
        have hp := prim h
        have hnlt : c = '<' → r ≠ [] := by
          rintro rfl rfl
          obtain ⟨a, ha, _⟩ := bind_ok_iff h
          simp [doctypePrimitive, bad] at ha
        simp only [List.cons_append] at hp ⊢
        split
        · rename_i heq; cases heq
        · rename_i heq
          obtain ⟨hcl, heq⟩ := List.cons.inj heq
          obtain ⟨d, r', hr'⟩ := List.exists_cons_of_ne_nil (hnlt hcl)
          rw [hr'] at heq
          obtain ⟨hd, _⟩ := List.cons.inj heq
          exact (hn1 r' hcl (by rw [hr', hd])).elim
        · rename_i heq
          exact (hn2 (List.cons.inj heq).1).elim
        · rename_i heq
          obtain ⟨rfl, rfl⟩ := List.cons.inj heq
          rw [if_pos hc]
          exact hp
      · rename_i hc
        have := ih m r t q _ (by omega) (by omega) h
        simp only [List.cons_append]
        split
        · rename_i heq; cases heq
        · rename_i heq
          obtain ⟨rfl, heq⟩ := List.cons.inj heq
          simp at hc
        · rename_i heq
          exact (hn2 (List.cons.inj heq).1).elim
        · rename_i heq
          obtain ⟨rfl, rfl⟩ := List.cons.inj heq
          rw [if_neg hc]
          exact this

theorem oneAttr_ext {s t : List Char} {a : List Char × List Char} (h : oneAttr s = .ok (a, t)) (ht : t ≠ []) (q : List Char) :
    oneAttr (s ++ q) = .ok (a, t ++ q) := by
  unfold oneAttr at h ⊢
  dsimp only at h ⊢
  split at h
  · rename_i r hr
    have h1 : s.dropWhile isSymbol ≠ [] := by
      intro h0
      rw [h0] at hr
      cases hr
    obtain ⟨c, s', hs'⟩ := List.exists_cons_of_ne_nil h1
    obtain ⟨e1, e2⟩ := takeWhile_ext hs' q
    rw [hs'] at hr
    have e3 := (takeWhile_ext hr q).2
    rw [List.cons_append] at e3
    rw [e1, e2, e3]
    simp only
    split at h
    · rename_i x v hv
      rw [(takeWhile_ext hv q).2]
      dsimp only
      split at h
      · rename_i hx
        rw [if_pos hx]
        split at h
        · simp [bad] at h
        · rename_i raw b hb
          rw [scanTo_ext hb]
          dsimp only
          cases b with
          | nil =>
            simp only [Except.ok.injEq, Prod.mk.injEq] at h
            exact absurd h.2.symm ht
          | cons d b =>
            dsimp only at h
            rw [List.cons_append]
            dsimp only
            split at h
            · simp [bad] at h
            · rename_i hd
              simp only [Except.ok.injEq, Prod.mk.injEq] at h
              rw [if_neg hd, ← h.1, ← h.2]
              rfl
      · simp [bad] at h
    · simp [bad] at h
  · simp [bad] at h

theorem attributes_ext (n : ℕ) : ∀ (m : ℕ) (s t q : List Char) (acc as : List (List Char × List Char)) (b : Bool), n ≤ m →
    attributes n s acc = .ok (as, b, t) → attributes m (s ++ q) acc = .ok (as, b, t ++ q) := by
  induction n with
  | zero => intro m s t q acc as b _ h; simp [attributes] at h
  | succ n ih =>
    intro m s t q acc as b hm h
    obtain ⟨m, rfl⟩ : ∃ k, m = k + 1 := ⟨m - 1, by omega⟩
    rw [attributes] at h ⊢
    cases hs : s.dropWhile isWs with
    | nil => rw [hs] at h; simp [bad] at h
    | cons c r =>
      rw [hs] at h
      rw [(takeWhile_ext hs q).2]
      dsimp only at h ⊢
      split at h
      · rename_i hc
        rw [if_pos hc]
        obtain ⟨x, hx, hb⟩ := bind_ok_iff h
        have hne : x.2 ≠ [] := by
          intro h0
          rw [h0] at hb
          cases n with
          | zero => simp [attributes] at hb
          | succ n => simp [attributes, bad] at hb
        have e := oneAttr_ext (a := x.1) (t := x.2) hx hne q
        rw [List.cons_append] at e
        rw [e]
        exact ih m x.2 t q _ as b (by omega) hb
      · rename_i hc
        rw [if_neg hc]
        split at h
        · rename_i hsl
          rw [if_pos hsl]
          split at h
          · rename_i t'
            simp only [Except.ok.injEq, Prod.mk.injEq] at h
            obtain ⟨rfl, rfl, rfl⟩ := h
            rfl
          · simp [bad] at h
        · rename_i hsl
          rw [if_neg hsl]
          split at h
          · rename_i hgt
            rw [if_pos hgt]
            simp only [Except.ok.injEq, Prod.mk.injEq] at h
            obtain ⟨rfl, rfl, rfl⟩ := h
            rfl
          · simp [bad] at h

theorem startTag_ext {s t : List Char} {st st' : St} (h : startTag s st = .more t st') (q : List Char) : startTag (s ++ q) st = .more (t ++ q) st' := by
  unfold startTag at h ⊢
  dsimp only at h ⊢
  cases hs : s.dropWhile isSymbol with
  | nil => rw [hs] at h; cases h
  | cons c r =>
    obtain ⟨e1, e2⟩ := takeWhile_ext hs q
    rw [hs] at h
    rw [e1, e2]
    dsimp only at h ⊢
    split at h
    · rename_i hc
      rw [if_pos hc]
      cases h
      rfl
    · rename_i hc
      rw [if_neg hc]
      split at h
      · rename_i hw
        rw [if_pos hw]
        cases ha : attributes (r.length + 1) r [] with
        | error e => rw [ha] at h; cases h
        | ok x =>
          obtain ⟨as, b, t'⟩ := x
          rw [ha] at h
          dsimp only at h
          cases h
          rw [attributes_ext _ ((r ++ q).length + 1) r t q [] as b (by simp) ha]
      · rename_i hw
        rw [if_neg hw]
        split at h
        · rename_i hsl
          rw [if_pos hsl]
          split at h
          · cases h
            rfl
          · cases h
        · cases h

theorem endTag_ext {s t : List Char} {st st' : St} (h : endTag s st = .more t st') (q : List Char) : endTag (s ++ q) st = .more (t ++ q) st' := by
  unfold endTag at h ⊢
  split at h
  · cases h
  · rename_i o os hst
    split at h
    · rename_i hn
      split at h
      · rename_i r hr
        have h1 : s.dropWhile isSymbol ≠ [] := by
          intro h0
          rw [h0] at hr
          cases hr
        obtain ⟨c, s', hs'⟩ := List.exists_cons_of_ne_nil h1
        obtain ⟨e1, e2⟩ := takeWhile_ext hs' q
        rw [hs'] at hr
        have e3 := (takeWhile_ext hr q).2
        rw [List.cons_append] at e3
        rw [e1, if_pos hn, e2, e3]
        cases h
        rfl
      · cases h
    · cases h

theorem question_ext {s t : List Char} {st st' : St} (h : question s st = .more t st') (q : List Char) : question (s ++ q) st = .more (t ++ q) st' := by
  unfold question at h ⊢
  split at h
  · cases h
  · rename_i c r
    dsimp only [List.cons_append]
    split at h
    · rename_i hc
      rw [if_pos hc]
      split at h
      · rename_i a b hb
        have h1 : (c :: r).dropWhile isSymbol ≠ [] := by
          intro h0
          rw [h0] at hb
          simp [scanTo] at hb
        obtain ⟨d, s', hs'⟩ := List.exists_cons_of_ne_nil h1
        have e2 := (takeWhile_ext hs' q).2
        rw [List.cons_append] at e2
        rw [hs'] at hb
        have e3 := scanTo_ext hb q
        rw [List.cons_append] at e3
        rw [e2, e3]
        cases h
        rfl
      · cases h
    · cases h

theorem exclamation_ext {s t : List Char} {st st' : St} (h : exclamation s st = .more t st') (q : List Char) :
    exclamation (s ++ q) st = .more (t ++ q) st' := by
  unfold exclamation at h
  split at h
  · split at h
    · rename_i a b hb
      cases h
      simp only [List.cons_append, exclamation]
      rw [scanTo_ext hb]
    · cases h
  · split at h
    · rename_i a b hb
      cases h
      simp only [List.cons_append, exclamation]
      rw [scanTo_ext hb]
    · cases h
  · rename_i r
    split at h
    · rename_i hst
      split at h
      · rename_i t' ht
        cases h
        have := doctypeGroup_ext _ ((('D' :: 'O' :: 'C' :: 'T' :: 'Y' :: 'P' :: 'E' :: r : List Char) ++ q).length + 1) _ t q 0
          (by simp) (Nat.lt_succ_self _) ht
        simp only [List.cons_append] at this
        simp only [List.cons_append, exclamation]
        rw [if_pos hst, this]
      · cases h
    · cases h
  · cases h

theorem tag_ext {s t : List Char} {st st' : St} (h : tag s st = .more t st') (q : List Char) : tag (s ++ q) st = .more (t ++ q) st' := by
  unfold tag at h ⊢
  split at h
  · cases h
  · rename_i c r
    dsimp only [List.cons_append]
    split at h
    · rename_i hc
      rw [if_pos hc]
      exact startTag_ext h q
    · rename_i hc
      rw [if_neg hc]
      split at h
      · rename_i hc
        rw [if_pos hc]
        exact endTag_ext h q
      · rename_i hc
        rw [if_neg hc]
        split at h
        · rename_i hc
          rw [if_pos hc]
          exact question_ext h q
        · rename_i hc
          rw [if_neg hc]
          split at h
          · rename_i hc
            rw [if_pos hc]
            exact exclamation_ext h q
          · cases h

/-- A tag does not end the document. -/
def NoResult : Step St → Prop
  | .stop r => ∀ ns, r ≠ .ok ns
  | .more _ _ => True

theorem noResult_bad : NoResult (.stop bad) := by
  intro ns h
  simp [bad] at h

theorem noResult_error (e : Err) : NoResult (.stop (.error e)) := by
  intro ns h
  cases h

theorem startTag_noResult (s : List Char) (st : St) : NoResult (startTag s st) := by
  unfold startTag
  dsimp only
  split
  · exact noResult_bad
  · split
    · trivial
    · split
      · split
        · exact noResult_error _
        · trivial
      · split
        · split
          · trivial
          · exact noResult_bad
        · exact noResult_bad

theorem endTag_noResult (s : List Char) (st : St) : NoResult (endTag s st) := by
  unfold endTag
  split
  · exact noResult_bad
  · split
    · split
      · trivial
      · exact noResult_bad
    · exact noResult_bad

theorem question_noResult (s : List Char) (st : St) : NoResult (question s st) := by
  unfold question
  split
  · exact noResult_bad
  · split
    · split
      · trivial
      · exact noResult_bad
    · exact noResult_bad

theorem exclamation_noResult (s : List Char) (st : St) : NoResult (exclamation s st) := by
  unfold exclamation
  split
  · split
    · trivial
    · exact noResult_bad
  · split
    · trivial
    · exact noResult_bad
  · split
    · split
      · trivial
      · exact noResult_error _
    · exact noResult_bad
  · exact noResult_bad

theorem tag_noResult (s : List Char) (st : St) : NoResult (tag s st) := by
  unfold tag
  split
  · exact noResult_bad
  · split
    · exact startTag_noResult _ st
    · split
      · exact endTag_noResult _ st
      · split
        · exact question_noResult _ st
        · split
          · exact exclamation_noResult _ st
          · exact noResult_bad

/-- Outside of the elements, text is skipped. -/
theorem run_skip {s : List Char} {st : St} (h : st.stack = []) : run s st = run (s.dropWhile (· ≠ '<')) st := by
  cases s with
  | nil => rfl
  | cons c r =>
    by_cases hc : c = '<'
    · rw [List.dropWhile_cons, if_neg (by simp [hc])]
    · have hs : step (c :: r) st = .more ((c :: r).dropWhile (· ≠ '<')) st := by
        rw [step, if_neg hc]
        split
        · rename_i hw
          congr 1
          have hall : ∀ x : List Char, ((x.dropWhile isWs).isEmpty ∨ (x.dropWhile isWs).head? = some '<') →
              x.dropWhile isWs = x.dropWhile (· ≠ '<') := by
            intro x
            induction x with
            | nil => intro _; rfl
            | cons a x ih =>
              intro hx
              by_cases ha : isWs a
              · have hne : a ≠ '<' := by rintro rfl; revert ha; decide
                rw [List.dropWhile_cons, if_pos ha] at hx ⊢
                rw [List.dropWhile_cons, if_pos (by simpa using hne)]
                exact ih hx
              · rw [List.dropWhile_cons, if_neg ha] at hx ⊢
                have : a = '<' := by simpa using hx
                rw [List.dropWhile_cons, if_neg (by simp [this])]
          exact hall _ hw
        · rw [if_pos (by simp [h])]
      rw [run_step, hs]

theorem run_nil (st : St) : run [] st = if st.stack.isEmpty then .ok st.root else bad := rfl

theorem run_nil_ok {st : St} {ns : List Node} (h : run [] st = .ok ns) : st.stack = [] ∧ st.root = ns := by
  rw [run_nil] at h
  split at h
  · rename_i hs
    simp only [Except.ok.injEq] at h
    exact ⟨List.isEmpty_iff.1 hs, h⟩
  · simp [bad] at h

/-- If the beginning of a text is accepted, the parser reaches the rest of the text with the nodes of the beginning. -/
theorem run_ext (n : ℕ) : ∀ (p q : List Char) (st : St) (ns : List Node), p.length ≤ n → run p st = .ok ns → run (p ++ q) st = run q ⟨ns, []⟩ := by
  induction n with
  | zero =>
    intro p q st ns hp h
    obtain rfl : p = [] := List.length_eq_zero_iff.1 (by omega)
    obtain ⟨h1, h2⟩ := run_nil_ok h
    cases st
    simp only at h1 h2
    subst h1 h2
    rfl
  | succ n ih =>
    intro p q st ns hp h
    cases p with
    | nil => exact ih [] q st ns (by simp) h
    | cons c r =>
      have skip : st.stack = [] → (c :: r).dropWhile (· ≠ '<') = [] → run (c :: r ++ q) st = run q ⟨ns, []⟩ := by
        intro hst hd
        rw [run_skip hst, hd] at h
        obtain ⟨h1, h2⟩ := run_nil_ok h
        have hq : run q ⟨ns, []⟩ = run (q.dropWhile (· ≠ '<')) ⟨ns, []⟩ := run_skip rfl
        cases st
        simp only at h1 h2
        subst h1 h2
        rw [run_skip rfl, hq]
        congr 1
        have hall : ∀ x ∈ c :: r, (decide (x ≠ '<')) = true := by
          intro x hx
          exact List.dropWhile_eq_nil_iff.1 hd x hx
        exact List.dropWhile_append_of_pos hall
      have g := step_good (c :: r) st
      rw [run_step] at h
      by_cases hc : c = '<'
      · subst hc
        rw [step, if_pos rfl] at h g
        cases ht : tag r st with
        | stop x =>
          rw [ht] at h
          have := tag_noResult r st
          rw [ht] at this
          exact absurd h (this ns)
        | more t st' =>
          rw [ht] at h g
          simp only [GoodStep] at g
          rw [run_step, List.cons_append, step, if_pos rfl, tag_ext ht q]
          exact ih t q st' ns (by omega) h
      · rw [step, if_neg hc] at h
        by_cases hw : ((c :: r).dropWhile isWs).isEmpty ∨ ((c :: r).dropWhile isWs).head? = some '<'
        · rw [if_pos hw] at h
          cases hd : (c :: r).dropWhile isWs with
          | nil =>
            rw [hd] at h
            obtain ⟨h1, h2⟩ := run_nil_ok h
            refine skip h1 ?_
            rw [List.dropWhile_eq_nil_iff] at hd ⊢
            intro x hx
            have := hd x hx
            simp only [ne_eq, decide_eq_true_eq]
            rintro rfl
            revert this
            decide
          | cons d t =>
            have hdl : d = '<' := by rw [hd] at hw; simpa using hw
            rw [hd] at h
            have e := (takeWhile_ext hd q).2
            have hlen := dropWhile_length_le isWs (c :: r)
            have hlt : (d :: t).length ≤ r.length := by
              by_cases hb : isWs c
              · rw [List.dropWhile_cons, if_pos hb] at hd
                rw [← hd]
                exact dropWhile_length_le _ _
              · rw [List.dropWhile_cons, if_neg hb] at hd
                exact absurd ((List.cons.inj hd).1.trans hdl) hc
            rw [List.length_cons] at hp
            have hs : step (c :: r ++ q) st = .more (d :: (t ++ q)) st := by
              rw [List.cons_append] at e ⊢
              rw [step, if_neg hc, if_pos (by rw [e, hdl]; simp), e]
            rw [run_step, hs]
            exact ih (d :: t) q st ns (by omega) h
        · rw [if_neg hw] at h
          cases hd : (c :: r).dropWhile (· ≠ '<') with
          | nil =>
            by_cases hst : st.stack.isEmpty
            · exact skip (List.isEmpty_iff.1 hst) hd
            · rw [if_neg hst, hd] at h
              dsimp only at h
              obtain ⟨h1, -⟩ := run_nil_ok h
              exfalso
              cases hs : st.stack with
              | nil => rw [hs] at hst; simp at hst
              | cons o os => simp [St.add, hs] at h1
          | cons d t =>
            obtain ⟨e1, e2⟩ := takeWhile_ext hd q
            have hlt : (d :: t).length ≤ r.length := by
              rw [List.dropWhile_cons, if_pos (by simpa using hc)] at hd
              rw [← hd]
              exact dropWhile_length_le _ _
            rw [List.length_cons] at hp
            have hw' : ¬ (((c :: r ++ q).dropWhile isWs).isEmpty ∨ ((c :: r ++ q).dropWhile isWs).head? = some '<') := by
              cases hx : (c :: r).dropWhile isWs with
              | nil => rw [hx] at hw; simp at hw
              | cons a x =>
                rw [(takeWhile_ext hx q).2]
                rw [hx] at hw
                simpa using hw
            rw [List.cons_append] at e1 e2 hw' ⊢
            by_cases hst : st.stack.isEmpty
            · rw [if_pos hst, hd] at h
              have hs : step (c :: (r ++ q)) st = .more (d :: (t ++ q)) st := by
                rw [step, if_neg hc, if_neg hw', if_pos hst, e2]
              rw [run_step, hs]
              exact ih (d :: t) q st ns (by omega) h
            · rw [if_neg hst, hd] at h
              dsimp only at h
              rw [run_step, step, if_neg hc, if_neg hw', if_neg hst, e1, e2]
              exact ih (d :: t) q _ ns (by omega) h

/-! ## Nodes are only added -/

theorem add_root (st : St) (n : Node) : st.root <+: (st.add n).root := by
  unfold St.add
  split
  · exact List.prefix_append _ _
  · exact List.prefix_refl _

/-- A round keeps the nodes of the document. -/
def Keeps (st : St) : Step St → Prop
  | .stop r => ∀ ns, r = .ok ns → st.root <+: ns
  | .more _ st' => st.root <+: st'.root

theorem NoResult.keeps {x : Step St} (h : NoResult x) {st : St} (hm : ∀ t st', x = .more t st' → st.root <+: st'.root) : Keeps st x := by
  cases x with
  | stop r => exact fun ns hns => absurd hns (h ns)
  | more t st' => exact hm t st' rfl

theorem startTag_root {s t : List Char} {st st' : St} (h : startTag s st = .more t st') : st.root <+: st'.root := by
  unfold startTag at h
  dsimp only at h
  split at h
  · cases h
  · split at h
    · cases h; exact List.prefix_refl _
    · split at h
      · split at h
        · cases h
        · cases h
          split
          · exact add_root _ _
          · exact List.prefix_refl _
      · split at h
        · split at h
          · cases h; exact add_root _ _
          · cases h
        · cases h

theorem endTag_root {s t : List Char} {st st' : St} (h : endTag s st = .more t st') : st.root <+: st'.root := by
  unfold endTag at h
  split at h
  · cases h
  · split at h
    · split at h
      · rename_i os _ _ _ _ _
        simp only [Step.more.injEq] at h
        rw [← h.2]
        exact add_root ⟨st.root, os⟩ _
      · cases h
    · cases h

theorem question_root {s t : List Char} {st st' : St} (h : question s st = .more t st') : st.root <+: st'.root := by
  unfold question at h
  split at h
  · cases h
  · split at h
    · split at h
      · cases h; exact List.prefix_refl _
      · cases h
    · cases h

theorem exclamation_root {s t : List Char} {st st' : St} (h : exclamation s st = .more t st') : st.root <+: st'.root := by
  unfold exclamation at h
  split at h
  · split at h
    · cases h; exact List.prefix_refl _
    · cases h
  · split at h
    · cases h; exact add_root _ _
    · cases h
  · split at h
    · split at h
      · cases h; exact List.prefix_refl _
      · cases h
    · cases h
  · cases h

theorem tag_root {s t : List Char} {st st' : St} (h : tag s st = .more t st') : st.root <+: st'.root := by
  unfold tag at h
  split at h
  · cases h
  · split at h
    · exact startTag_root h
    · split at h
      · exact endTag_root h
      · split at h
        · exact question_root h
        · split at h
          · exact exclamation_root h
          · cases h

theorem step_keeps (s : List Char) (st : St) : Keeps st (step s st) := by
  unfold step
  split
  · intro ns h
    split at h
    · simp only [Except.ok.injEq] at h
      exact h ▸ List.prefix_refl _
    · simp [bad] at h
  · split
    · exact (tag_noResult _ st).keeps fun t st' h => tag_root h
    · split
      · exact List.prefix_refl _
      · split
        · exact List.prefix_refl _
        · exact add_root _ _

theorem run_keeps (n : ℕ) : ∀ (s : List Char) (st : St) (ns : List Node), s.length ≤ n → run s st = .ok ns → st.root <+: ns := by
  induction n with
  | zero =>
    intro s st ns hs h
    obtain rfl : s = [] := List.length_eq_zero_iff.1 (by omega)
    exact (run_nil_ok h).2 ▸ List.prefix_refl _
  | succ n ih =>
    intro s st ns hs h
    rw [run_step] at h
    have k := step_keeps s st
    have g := step_good s st
    cases hx : step s st with
    | stop r =>
      rw [hx] at h k
      exact k ns h
    | more t st' =>
      rw [hx] at h k g
      simp only [GoodStep] at g
      simp only [Keeps] at k
      exact k.trans (ih t st' ns (by omega) h)

theorem run_prefix {p q : List Char} {ns ms : List Node} (hp : run p ⟨[], []⟩ = .ok ns) (hs : run (p ++ q) ⟨[], []⟩ = .ok ms) : ns <+: ms := by
  rw [run_ext p.length p q _ ns le_rfl hp] at hs
  exact run_keeps q.length q ⟨ns, []⟩ ms le_rfl hs

theorem load_eq_run (text : List Char) : load text = match run (skipBom (cstr text)) ⟨[], []⟩ with
    | .error e => .error e
    | .ok doc => if doc.any isElem then .ok doc else bad := rfl

theorem load_ok {text : List Char} {ns : List Node} (h : load text = .ok ns) :
    run (skipBom (cstr text)) ⟨[], []⟩ = .ok ns ∧ ns.any isElem = true := by
  rw [load_eq_run] at h
  split at h
  · cases h
  · rename_i doc hd
    split at h
    · rename_i he
      simp only [Except.ok.injEq] at h
      subst h
      exact ⟨hd, he⟩
    · simp [bad] at h

theorem cstr_prefix {p s : List Char} (h : p <+: s) : cstr p <+: cstr s := by
  obtain ⟨q, rfl⟩ := h
  unfold cstr
  induction p with
  | nil => simp
  | cons c p ih =>
    rw [List.cons_append, List.takeWhile_cons, List.takeWhile_cons]
    split
    · exact List.cons_prefix_cons.2 ⟨rfl, ih⟩
    · exact List.prefix_refl _

theorem skipBom_prefix {p s : List Char} (h : p <+: s) (hne : ∃ ns, run (skipBom p) ⟨[], []⟩ = .ok ns ∧ ns ≠ []) : skipBom p <+: skipBom s := by
  obtain ⟨q, rfl⟩ := h
  obtain ⟨ns, hr, hn⟩ := hne
  by_cases hb : ∃ r, p = 'ï' :: '»' :: '¿' :: r
  · obtain ⟨r, rfl⟩ := hb
    exact List.prefix_append r q
  · have hp : skipBom p = p := by
      unfold skipBom
      split
      · exact absurd ⟨_, rfl⟩ hb
      · rfl
    rw [hp] at hr ⊢
    by_cases hs : ∃ r, p ++ q = 'ï' :: '»' :: '¿' :: r
    · obtain ⟨r, hs⟩ := hs
      exfalso
      match p, hs, hb, hr with
      | [], _, _, hr => exact hn (by cases hr; rfl)
      | [a], hs, _, hr =>
        obtain ⟨rfl, -⟩ := List.cons.inj hs
        have e : run ['ï'] ⟨[], []⟩ = .ok [] := rfl
        rw [e] at hr
        exact hn (by cases hr; rfl)
      | [a, b], hs, _, hr =>
        simp only [List.cons_append, List.nil_append, List.cons.injEq] at hs
        obtain ⟨rfl, rfl, -⟩ := hs
        have e : run ['ï', '»'] ⟨[], []⟩ = .ok [] := rfl
        rw [e] at hr
        exact hn (by cases hr; rfl)
      | a :: b :: c :: t, hs, hb, _ =>
        simp only [List.cons_append, List.cons.injEq] at hs
        obtain ⟨rfl, rfl, rfl, -⟩ := hs
        exact hb ⟨t, rfl⟩
    · have : skipBom (p ++ q) = p ++ q := by
        unfold skipBom
        split
        · rename_i r heq
          exact absurd ⟨r, heq⟩ hs
        · rfl
      rw [this]
      exact List.prefix_append p q

/-- The nodes read from the beginning of a text are the first nodes read from the whole text. -/
theorem load_prefix {p s : List Char} {ns ms : List Node} (h : p <+: s) (hp : load p = .ok ns) (hs : load s = .ok ms) : ns <+: ms := by
  obtain ⟨hp, he⟩ := load_ok hp
  obtain ⟨hs, -⟩ := load_ok hs
  have hn : ns ≠ [] := by
    rintro rfl
    simp at he
  obtain ⟨q, hq⟩ := skipBom_prefix (cstr_prefix h) ⟨ns, hp, hn⟩
  rw [← hq] at hs
  exact run_prefix hp hs

end Pugi
end SplineLib
