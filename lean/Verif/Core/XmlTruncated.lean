import Verif.Core.XmlText
import Verif.Core.PugiPrefix

/-!
# Truncated XML files
-/

namespace SplineLib
namespace Pugi
open Xml XmlText

theorem run_declaration {s : List Char} (st : St) (hs : s = [] ∨ s.head? = some '<') (ht : st.stack = []) : run (declaration ++ s) st = run s st := by
  have h : Content true (declaration ++ []) [] := content_declaration (.inl rfl) .nil
  rw [List.append_nil] at h
  exact run_content h s st hs (by rw [ht]; rfl)

/-- A tag that lacks its end is not accepted. -/
theorem tag_incomplete {r q : List Char} {st st' : St} (h : tag (r ++ q) st = .more [] st') (hq : q ≠ []) (ns : List Node) :
    run ('<' :: r) st ≠ .ok ns := by
  intro hr
  rw [run_step, step_lt] at hr
  cases hx : tag r st with
  | stop x =>
    rw [hx] at hr
    have := tag_noResult r st
    rw [hx] at this
    exact this ns hr
  | more t st'' =>
    rw [tag_ext hx q] at h
    simp only [Step.more.injEq, List.append_eq_nil_iff] at h
    exact hq h.1.2

theorem prefix_cases {p a b q : List Char} (h : p ++ q = a ++ b) : p <+: a ∨ ∃ r, p = a ++ r ∧ r ++ q = b := by
  rcases List.append_eq_append_iff.1 h with ⟨x, h1, h2⟩ | ⟨x, h1, h2⟩
  · exact .inl ⟨x, h1.symm⟩
  · exact .inr ⟨x, h1, h2.symm⟩

theorem run_declaration_prefix {p : List Char} (h : p <+: declaration) {n : Node} {ns : List Node} : run p ⟨[], []⟩ ≠ .ok (n :: ns) := by
  intro hp
  obtain ⟨q, hq⟩ := h
  have h1 := run_declaration (s := []) ⟨[], []⟩ (.inl rfl) rfl
  rw [List.append_nil, ← hq, run_ext p.length p q _ _ le_rfl hp] at h1
  have h2 : run [] ⟨[], []⟩ = .ok [] := rfl
  have h3 := run_keeps q.length q ⟨n :: ns, []⟩ [] le_rfl (h1.trans h2)
  exact absurd (List.prefix_nil.1 h3) (by simp)

/-- A part of the text of an element without its last character is not accepted as the element. -/
theorem run_truncated {n : Node} (h : Storable n) (he : isElem n = true) {p q : List Char} (hq : q ≠ [])
    (hp : p ++ q = declaration ++ nodeText 0 false n) : run p ⟨[], []⟩ ≠ .ok [n] := by
  intro hr
  cases h with
  | text => cases he
  | @elem name as kids hn ha hk hc =>
    rcases prefix_cases hp with hd | ⟨r, rfl, hr'⟩
    · exact run_declaration_prefix hd hr
    · rw [nodeText] at hr'
      change r ++ q = '<' :: name ++ attrsText 0 as ++ _ at hr'
      cases r with
      | nil =>
        rw [List.append_nil] at hr
        exact run_declaration_prefix (List.prefix_refl _) hr
      | cons c r =>
        simp only [List.cons_append, List.cons.injEq] at hr'
        obtain ⟨rfl, hr'⟩ := hr'
        rw [run_declaration _ (.inr rfl) rfl] at hr
        have hat := attrs_attrsText 0 ha
        cases kids with
        | nil =>
          refine tag_incomplete (st' := St.add ⟨[], []⟩ (.elem name as [])) (q := q) ?_ hq _ hr
          have e := startTag_eq (s := []) (w := [' ']) hn hat (by simp [Blank]) true ⟨[], []⟩
          rw [← tag_start hn] at e
          rw [hr']
          simpa [tagEnd] using e
        | cons k ks =>
          have hb := content_nodes (top := false) (kids := k :: ks) (fun k hk' depth nl s ns hb ht => content_node (hk k hk') false depth nl s ns hb ht)
            hc (fun h => by cases h) 1 0 true
          set inner := nodesText 1 true (k :: ks) ++ lineBreak (endsElem true (k :: ks)) 0 with hin
          have open_ : ∀ rest, (rest = [] ∨ rest.head? = some '<') → run ('<' :: (name ++ (attrsText 0 as ++ ('>' :: (inner ++ rest))))) ⟨[], []⟩ =
              run rest ⟨[], [⟨name, as, k :: ks⟩]⟩ := by
            intro rest hrest
            have e := startTag_eq (s := inner ++ rest) (w := []) hn hat (by simp) false ⟨[], []⟩
            rw [← tag_start hn] at e
            have h1 : step ('<' :: (name ++ (attrsText 0 as ++ ('>' :: (inner ++ rest))))) ⟨[], []⟩ = .more (inner ++ rest) ⟨[], [⟨name, as, []⟩]⟩ := by
              rw [step_lt]
              simpa [tagEnd, St.push] using e
            rw [run_more h1, run_content hb rest _ hrest rfl, add_foldl_open]
            rfl
          have close : ∀ (cs : List Node), tag ('/' :: (name ++ ['>'])) ⟨[], [⟨name, as, cs⟩]⟩ = .more [] ⟨[.elem name as cs], []⟩ := by
            intro cs
            rw [tag, if_neg (by decide), if_pos rfl]
            have := endTag_eq (s := []) (w := []) (as := as) (kids := cs) (root := []) (os := []) hn (by simp)
            simpa [St.add] using this
          have hr'' : '<' :: (r ++ q) = ('<' :: (name ++ (attrsText 0 as ++ ('>' :: inner)))) ++ ('<' :: '/' :: (name ++ ['>'])) := by
            rw [hr', hin]
            simp
          rcases prefix_cases (p := '<' :: r) hr'' with ⟨x, hx⟩ | ⟨t, ht, htq⟩
          · have h1 := open_ ("<a/>".toList ++ ('<' :: '/' :: (name ++ ['>']))) (.inr rfl)
            have h2 : Content false ("<a/>".toList) [.elem ['a'] [] []] := by
              have := Content.empty (top := false) (n := ['a']) (a := []) (w := []) (s := []) (as := []) (ns := [])
                ⟨'a', [], rfl, .inl (by decide), by simp⟩ .nil (by simp) .nil
              simpa using this
            rw [run_content h2 _ _ (.inr rfl) rfl, add_foldl_open] at h1
            have h3 : step ('<' :: '/' :: (name ++ ['>'])) ⟨[], [⟨name, as, k :: ks ++ [.elem ['a'] [] []]⟩]⟩ =
                .more [] ⟨[.elem name as (k :: ks ++ [.elem ['a'] [] []])], []⟩ := by
              rw [step_lt, close]
            rw [run_more h3] at h1
            have e : '<' :: (name ++ (attrsText 0 as ++ ('>' :: (inner ++ ("<a/>".toList ++ ('<' :: '/' :: (name ++ ['>']))))))) =
                '<' :: r ++ (x ++ ("<a/>".toList ++ ('<' :: '/' :: (name ++ ['>'])))) := by
              rw [← List.append_assoc ('<' :: r), hx]
              simp
            rw [e, run_ext _ _ _ _ _ le_rfl hr] at h1
            have h4 := run_keeps _ _ _ _ le_rfl (h1.trans rfl)
            have h5 := h4.eq_of_length (by simp)
            simp at h5
          · cases t with
            | nil =>
              rw [List.append_nil] at ht
              rw [ht] at hr
              have := open_ [] (.inl rfl)
              rw [List.append_nil] at this
              rw [this] at hr
              cases hr
            | cons c t =>
              simp only [List.cons_append, List.cons.injEq] at htq
              obtain ⟨rfl, htq⟩ := htq
              rw [ht] at hr
              have := open_ ('<' :: t) (.inr rfl)
              simp only [List.cons_append, List.append_assoc] at hr this
              rw [this] at hr
              exact tag_incomplete (q := q) (by rw [htq]; exact close _) hq _ hr

end Pugi
end SplineLib
