import Verif.Core.Strings

/-!
# A text is at most one decimal literal (helper lemmas)
-/

namespace SplineLib
open Str

theorem digitChar_inj : ∀ {a b : Fin 10}, digitChar a = digitChar b → a = b := by decide

/-- A text that does not start with a digit. -/
def NoDigit (x : List Char) : Prop := ∀ c, x.head? = some c → ∀ d : Fin 10, c ≠ digitChar d

theorem digits_prefix {a b : List (Fin 10)} {x y : List Char} (hx : NoDigit x) (hy : NoDigit y)
    (h : a.map digitChar ++ x = b.map digitChar ++ y) : a = b ∧ x = y := by
  induction a generalizing b with
  | nil =>
    cases b with
    | nil => exact ⟨rfl, h⟩
    | cons d b =>
      simp only [List.map_nil, List.nil_append] at h
      exact absurd rfl (hx (digitChar d) (by rw [h]; rfl) d)
  | cons d a ih =>
    cases b with
    | nil =>
      simp only [List.map_nil, List.nil_append] at h
      exact absurd rfl (hy (digitChar d) (by rw [← h]; rfl) d)
    | cons e b =>
      simp only [List.map_cons, List.cons_append, List.cons.injEq] at h
      obtain ⟨h1, h2⟩ := ih h.2
      exact ⟨by rw [digitChar_inj h.1, h1], h2⟩

theorem noDigit_nil : NoDigit [] := by intro c h; simp at h

theorem noDigit_cons {c : Char} (s : List Char) (h : ∀ d, c ≠ digitChar d) : NoDigit (c :: s) := by
  intro x hx
  simp only [List.head?_cons, Option.some.injEq] at hx
  rw [← hx]; exact h

theorem expText_noDigit (l : DecLit) : NoDigit l.expText := by
  unfold DecLit.expText
  cases l.exp with
  | none => exact noDigit_nil
  | some e =>
    show NoDigit e.text
    unfold ExpPart.text
    exact noDigit_cons _ (by cases e.upper <;> simp <;> decide)

theorem expPart_unique {a b : ExpPart} (h : a.text = b.text) : a = b := by
  obtain ⟨u, s, ds⟩ := a
  obtain ⟨u', s', ds'⟩ := b
  have hd : ∀ d : Fin 10, digitChar d ≠ '-' ∧ digitChar d ≠ '+' := by decide
  have hc : ∀ (ds : List (Fin 10)) (c : Char) (r : List Char), (∀ d, digitChar d ≠ c) → ds.map digitChar ≠ c :: r := by
    intro ds c r h1 h2
    cases ds with
    | nil => simp at h2
    | cons d ds => simp only [List.map_cons, List.cons.injEq] at h2; exact h1 d h2.1
  have hi : ∀ {x y : List (Fin 10)}, x.map digitChar = y.map digitChar → x = y := fun {x y} h =>
    (List.map_injective_iff.2 fun _ _ => digitChar_inj) h
  simp only [ExpPart.text, List.cons.injEq] at h
  obtain ⟨h1, h2⟩ := h
  have hu : u = u' := by cases u <;> cases u' <;> simp_all
  subst hu
  rcases s with _ | ⟨_ | _⟩ <;> rcases s' with _ | ⟨_ | _⟩ <;> simp only [List.nil_append, List.cons_append, List.cons.injEq] at h2
  · rw [hi h2]
  · exact absurd h2 (hc _ _ _ fun d => (hd d).2)
  · exact absurd h2 (hc _ _ _ fun d => (hd d).1)
  · exact absurd h2.symm (hc _ _ _ fun d => (hd d).2)
  · rw [hi h2.2]
  · exact absurd h2.1 (by decide)
  · exact absurd h2.symm (hc _ _ _ fun d => (hd d).1)
  · exact absurd h2.1 (by decide)
  · rw [hi h2.2]

theorem expText_unique {l l' : DecLit} (h : l.expText = l'.expText) : l.exp = l'.exp := by
  unfold DecLit.expText at h
  cases h1 : l.exp with
  | none =>
    cases h2 : l'.exp with
    | none => rfl
    | some e => rw [h1, h2] at h; simp [ExpPart.text] at h
  | some e =>
    cases h2 : l'.exp with
    | none => rw [h1, h2] at h; simp [ExpPart.text] at h
    | some e' => rw [h1, h2] at h; rw [expPart_unique h]

/-- The text determines the literal. -/
theorem lit_unique {l l' : DecLit} (h : l.text = l'.text) : l = l' := by
  have hfirst : ∀ (l : DecLit) (r : List Char), l.mantissa ++ l.expText ≠ '-' :: r := by
    intro l r hr
    unfold DecLit.mantissa DecLit.expText at hr
    rcases hi : l.int with _ | ⟨d, ds⟩
    · rw [hi] at hr
      rcases hf : l.frac with _ | fs
      · rw [hf] at hr
        rcases he : l.exp with _ | e
        · rw [he] at hr; simp at hr
        · rw [he] at hr
          simp only [List.map_nil, List.nil_append, ExpPart.text, List.cons.injEq] at hr
          have := hr.1
          revert this
          cases e.upper <;> simp
      · rw [hf] at hr; simp at hr
    · rw [hi] at hr
      simp only [List.map_cons, List.cons_append, List.cons.injEq] at hr
      exact (digitChar_facts d).1 hr.1
  have hneg : l.neg = l'.neg ∧ l.mantissa ++ l.expText = l'.mantissa ++ l'.expText := by
    unfold DecLit.text at h
    cases h1 : l.neg <;> cases h2 : l'.neg <;> rw [h1, h2] at h <;> simp at h
    · exact ⟨rfl, h⟩
    · exact absurd h (hfirst _ _)
    · exact absurd h.symm (hfirst _ _)
    · exact ⟨rfl, h⟩
  obtain ⟨h1, h2⟩ := hneg
  unfold DecLit.mantissa at h2
  rw [List.append_assoc, List.append_assoc] at h2
  have hnd : ∀ l : DecLit, NoDigit ((match l.frac with | none => [] | some fs => '.' :: fs.map digitChar) ++ l.expText) := by
    intro l
    cases l.frac with
    | none => exact expText_noDigit l
    | some fs => exact noDigit_cons _ fun d => Ne.symm (digitChar_facts d).2.2.1
  obtain ⟨h3, h4⟩ := digits_prefix (hnd l) (hnd l') h2
  have hdot : ∀ (l : DecLit) (r : List Char), l.expText ≠ '.' :: r := by
    intro l r hr
    have := expText_no_point l '.' (by rw [hr]; simp)
    simp at this
  have h5 : l.frac = l'.frac ∧ l.expText = l'.expText := by
    cases e1 : l.frac with
    | none =>
      cases e2 : l'.frac with
      | none => rw [e1, e2] at h4; exact ⟨rfl, h4⟩
      | some fs => rw [e1, e2] at h4; exact absurd h4 (hdot _ _)
    | some fs =>
      cases e2 : l'.frac with
      | none => rw [e1, e2] at h4; exact absurd h4.symm (hdot _ _)
      | some fs' =>
        rw [e1, e2] at h4
        simp only [List.cons_append, List.cons.injEq, true_and] at h4
        obtain ⟨h6, h7⟩ := digits_prefix (expText_noDigit l) (expText_noDigit l') h4
        exact ⟨by rw [h6], h7⟩
  have h6 := expText_unique h5.2
  obtain ⟨a, b, c, d⟩ := l
  obtain ⟨a', b', c', d'⟩ := l'
  simp only at h1 h3 h5 h6
  rw [h1, h3, h5.1, h6]

end SplineLib
