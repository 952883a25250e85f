import Verif.Core.XmlText
import Verif.Core.XmlTruncated
import Verif.Props.Xml

/-!
# C71, C72: XML files as texts

The parser and the printer of pugixml at the level of the characters of a file.
-/

namespace SplineLib
set_option linter.unusedSectionVars false
open Str Prn XmlText
variable {K : Type} [LinearOrder K] [Field K] [IsStrictOrderedRing K]

/-! ## The parser -/

/-- **C71** Every XML text is parsed to the tree that the grammar assigns to it. -/
theorem C71_reads_grammar {s : List Char} {ns : List Xml.Node} (h : Content true s ns) (h0 : '\x00' ∉ s) (hn : ns ≠ []) : Pugi.load s = .ok ns :=
  Pugi.load_content h (fun _ hc e => h0 (e ▸ hc)) hn

/-- **C71** The same with a byte order mark. -/
theorem C71_reads_grammar_bom {s : List Char} {ns : List Xml.Node} (h : Content true s ns) (h0 : '\x00' ∉ s) (hn : ns ≠ []) :
    Pugi.load ('ï' :: '»' :: '¿' :: s) = .ok ns :=
  Pugi.load_content_bom h (fun _ hc e => h0 (e ▸ hc)) hn

/-- **C71** A text has at most one tree. -/
theorem C71_grammar_unique {s : List Char} {ns ms : List Xml.Node} (h : Content true s ns) (h' : Content true s ms) (h0 : '\x00' ∉ s) (hn : ns ≠ [])
    (hm : ms ≠ []) : ns = ms := by
  have e := C71_reads_grammar h h0 hn
  rw [C71_reads_grammar h' h0 hm] at e
  exact (Except.ok.inj e).symm

/-- **C71** Every text whatsoever is parsed, or it is refused with `std::runtime_error`: the parser ends, and it does not read outside of the text. -/
theorem C71_outcome (text : List Char) : (∃ doc, Pugi.load text = .ok doc) ∨ Pugi.load text = .error (.thrown .runtimeError) := by
  cases h : Pugi.load text with
  | ok doc => exact .inl ⟨doc, rfl⟩
  | error e => exact .inr (by rw [Pugi.load_fine text e h])

/-- **C71** A text without any element is refused. -/
theorem C71_needs_element {text : List Char} {doc : List Xml.Node} (h : Pugi.load text = .ok doc) : ∃ n ∈ doc, ∃ name as kids, n = .elem name as kids := by
  obtain ⟨n, hn, he⟩ := List.any_eq_true.1 (Pugi.load_ok h).2
  cases n with
  | elem name as kids => exact ⟨_, hn, name, as, kids, rfl⟩
  | pcdata v => cases he

/-! ## The printer -/

theorem indent_noNul (d : ℕ) : '\x00' ∉ Pugi.indent d := by
  intro h
  have := List.eq_of_mem_replicate h
  revert this
  decide

theorem lineBreak_noNul (b : Bool) (d : ℕ) : '\x00' ∉ Pugi.lineBreak b d := by
  unfold Pugi.lineBreak
  split
  · intro h
    rcases List.mem_cons.1 h with h | h
    · revert h; decide
    · exact indent_noNul d h
  · simp

theorem name_noNul {n : List Char} (h : IsName n) : '\x00' ∉ n := by
  obtain ⟨c, r, rfl, h1, h2⟩ := h
  have hz : ¬ NameChar '\x00' := by
    unfold NameChar NameStart
    decide
  intro hm
  rcases List.mem_cons.1 hm with rfl | hm
  · exact hz (.inl h1)
  · exact hz (h2 _ hm)

theorem escapeText_noNul {attr : Bool} {v : List Char} (h : ∀ c ∈ v, c ≠ '\x00') : '\x00' ∉ Pugi.escapeText attr v :=
  fun hm => (Pugi.escapeText_mem _ hm).2.2 h rfl

theorem attrsText_noNul {d : ℕ} {as : List (List Char × List Char)} (h : ∀ a ∈ as, IsName a.1 ∧ ∀ c ∈ a.2, c ≠ '\x00' ∧ c ≠ '\t') :
    '\x00' ∉ Pugi.attrsText d as := by
  unfold Pugi.attrsText
  intro hm
  obtain ⟨a, ha, hm⟩ := List.mem_flatMap.1 hm
  have h1 := indent_noNul (d + 1)
  have h2 := name_noNul (h a ha).1
  have h3 := escapeText_noNul (attr := true) fun c hc => ((h a ha).2 c hc).1
  simp at hm
  tauto

theorem nodesText_noNul {kids : List Xml.Node} (h : ∀ k ∈ kids, ∀ d b, '\x00' ∉ Pugi.nodeText d b k) : ∀ d b, '\x00' ∉ Pugi.nodesText d b kids := by
  induction kids with
  | nil => intro d b; simp [Pugi.nodesText]
  | cons k ks ih =>
    intro d b hm
    rw [Pugi.nodesText, List.mem_append] at hm
    rcases hm with hm | hm
    · exact h k (by simp) d b hm
    · exact ih (fun j hj => h j (by simp [hj])) d _ hm

theorem nodeText_noNul {n : Xml.Node} (h : Storable n) : ∀ d b, '\x00' ∉ Pugi.nodeText d b n := by
  induction h with
  | text h1 h2 =>
    intro d b
    rw [Pugi.nodeText]
    exact escapeText_noNul fun c hc => (h1 c hc).1
  | @elem n as kids hn ha _ _ ih =>
    intro d b hm
    have h1 := lineBreak_noNul b d
    have h2 := name_noNul hn
    have h3 := attrsText_noNul (d := d) ha
    have h4 := nodesText_noNul ih (d + 1) true
    have h5 := lineBreak_noNul (Pugi.endsElem true kids) d
    rw [Pugi.nodeText] at hm
    split at hm <;> simp at hm <;> tauto

theorem save_noNul {doc : List Xml.Node} (h : ∀ n ∈ doc, Storable n) : '\x00' ∉ Pugi.save doc := by
  have h1 := nodesText_noNul (fun k hk => nodeText_noNul (h k hk)) 0 false
  have h2 : '\x00' ∉ Pugi.declaration := by
    unfold Pugi.declaration
    decide
  intro hm
  rw [Pugi.save, List.mem_append, List.mem_append] at hm
  rcases hm with (hm | hm) | hm
  · exact h2 hm
  · exact h1 hm
  · split at hm
    · revert hm; decide
    · cases hm

/-- **C71** What is saved is an XML text with the tree that was saved. -/
theorem C71_saves_grammar {doc : List Xml.Node} (h : ∀ n ∈ doc, Storable n ∧ Pugi.isElem n = true) :
    Content true (Pugi.save doc) doc ∧ '\x00' ∉ Pugi.save doc :=
  ⟨Pugi.content_save h, save_noNul fun n hn => (h n hn).1⟩

/-- **C71** A document that was saved is loaded again without a change. -/
theorem C71_saves_and_loads {doc : List Xml.Node} (h : ∀ n ∈ doc, Storable n ∧ Pugi.isElem n = true) (hn : doc ≠ []) :
    Pugi.load (Pugi.save doc) = .ok doc :=
  C71_reads_grammar (C71_saves_grammar h).1 (C71_saves_grammar h).2 hn

/-! ### The conditions are needed -/

/-- A carriage return in a text is loaded as a line feed. -/
theorem C71_carriage_return_lost : Pugi.load (Pugi.save [.elem ['a'] [] [.pcdata ['x', '\r', 'y']]]) = .ok [.elem ['a'] [] [.pcdata ['x', '\n', 'y']]] := by
  rfl

/-- A tab in an attribute is loaded as a blank. -/
theorem C71_attribute_tab_lost : Pugi.load (Pugi.save [.elem ['a'] [(['b'], ['\t'])] []]) = .ok [.elem ['a'] [(['b'], [' '])] []] := by
  rfl

/-- A text of white space is lost. -/
theorem C71_blank_text_lost : Pugi.load (Pugi.save [.elem ['a'] [] [.pcdata [' ']]]) = .ok [.elem ['a'] [] []] := by
  rfl

/-- Two texts become one. -/
theorem C71_adjacent_texts_joined :
    Pugi.load (Pugi.save [.elem ['a'] [] [.pcdata ['x'], .pcdata ['y']]]) = .ok [.elem ['a'] [] [.pcdata ['x', 'y']]] := by
  rfl

/-- A name with a blank is not loaded as a name: an attribute without a value is an error. -/
theorem C71_name_with_blank_refused : Pugi.load (Pugi.save [.elem ['a', ' ', 'b'] [] []]) = .error (.thrown .runtimeError) := by
  rfl

/-! ## Files of splines -/

theorem isName_of_letters {n : List Char} (h : LetterName n) : IsName n := by
  have key : ∀ c : Char, c.isAlpha = true → NameStart c := by
    intro c hc
    simp only [Char.isAlpha, Char.isUpper, Char.isLower, Bool.or_eq_true, Bool.and_eq_true, decide_eq_true_eq] at hc
    rcases hc with hc | hc
    · exact .inr (.inl ⟨hc.1, hc.2⟩)
    · exact .inl ⟨hc.1, hc.2⟩
  obtain ⟨c, r, rfl⟩ := List.exists_cons_of_ne_nil h.1
  exact ⟨c, r, rfl, key c (h.2 c (by simp)), fun d hd => .inl (key d (h.2 d (by simp [hd])))⟩

theorem plain_chars {v : List Char} (h : PlainText v) : ∀ c ∈ v, c ≠ '\x00' ∧ c ≠ '\t' ∧ c ≠ '\r' := by
  intro c hc
  rcases h c hc with h | rfl | rfl | rfl | rfl | rfl | rfl | rfl | rfl
  · refine ⟨?_, ?_, ?_⟩ <;> rintro rfl <;> revert h <;> decide
  all_goals decide

theorem not_blank_of_visible {c : Char} (h : isSpace c = false) : ¬ Blank c := by
  rintro (rfl | rfl | rfl | rfl) <;> revert h <;> decide

theorem storable_of_plain {n : Xml.Node} (h : Plain n) : Storable n := by
  induction h with
  | pcdata h1 h2 =>
    obtain ⟨c, hc, hs⟩ := h2
    exact .text (fun c hc => ⟨(plain_chars h1 c hc).1, (plain_chars h1 c hc).2.2⟩) ⟨c, hc, not_blank_of_visible hs⟩
  | elem h1 h2 _ h4 ih =>
    refine .elem (isName_of_letters h1)
      (fun a ha => ⟨isName_of_letters (h2 a ha).1, fun c hc => ⟨(plain_chars (h2 a ha).2 c hc).1, (plain_chars (h2 a ha).2 c hc).2.1⟩⟩) ih ?_
    rcases h4 with ⟨v, rfl⟩ | h4
    · exact List.isChain_singleton _
    · refine Pugi.chain_elems fun n hn => ?_
      obtain ⟨m, bs, ks, rfl⟩ := h4 n hn
      rfl

section
variable [DecPrinter K]

theorem writeFile_single {ss : List (Spl K)} {doc : List Xml.Node} (h : Xml.writeFile ss = .ok doc) :
    ∃ name as kids, doc = [.elem name as kids] := by
  unfold Xml.writeFile at h
  obtain ⟨nodes, _, h⟩ := bind_eq_ok.1 h
  exact ⟨_, _, _, (Except.ok.inj h).symm⟩

/-- **C71** Splines of dimension 1 to 4 are written as an XML text whose tree is the document, and reading the file reads that document. -/
theorem C71_written_text {ss : List (Spl K)} (h : ∀ s ∈ ss, WFSpl s) (hd : ∀ s ∈ ss, 1 ≤ s.ps.knots.length ∧ s.ps.knots.length ≤ 4) :
    ∃ doc text, Xml.writeFile ss = .ok doc ∧ Xml.writeText ss = .ok text ∧ Content true text doc ∧ '\x00' ∉ text ∧
      Xml.readText K text = Xml.readFile K doc := by
  obtain ⟨doc, h1, h2⟩ := C37_document_plain h hd
  obtain ⟨name, as, kids, rfl⟩ := writeFile_single h1
  have hs : ∀ n ∈ [Xml.Node.elem name as kids], Storable n ∧ Pugi.isElem n = true := by
    intro n hn
    refine ⟨storable_of_plain (h2 n hn), ?_⟩
    rw [List.mem_singleton] at hn
    subst hn
    rfl
  refine ⟨_, Pugi.save [.elem name as kids], h1, ?_, (C71_saves_grammar hs).1, (C71_saves_grammar hs).2, ?_⟩
  · unfold Xml.writeText
    rw [h1]
    rfl
  · unfold Xml.readText
    rw [C71_saves_and_loads hs (by simp)]
    rfl

/-- **C71** The reader gives the same splines for every text with the same tree, however it is laid out: indentation, quotes, references,
CDATA sections, comments and instructions do not matter. -/
theorem C71_layout_irrelevant {s t : List Char} {doc : List Xml.Node} (hs : Content true s doc) (ht : Content true t doc) (hs0 : '\x00' ∉ s)
    (ht0 : '\x00' ∉ t) (hn : doc ≠ []) : Xml.readText K s = Xml.readText K t := by
  unfold Xml.readText
  rw [C71_reads_grammar hs hs0 hn, C71_reads_grammar ht ht0 hn]

/-- Splines of other dimensions are rejected with `std::runtime_error`. -/
theorem C71_other_dimensions_rejected {K : Type} [LinearOrder K] [Field K] [IsStrictOrderedRing K] [LawfulPrinter K] {ss : List (Spl K)}
    (h : ∀ s ∈ ss, WFSpl s) (hd : ∃ s ∈ ss, s.ps.knots.length = 0 ∨ 4 < s.ps.knots.length) :
    Xml.writeText ss = .error (.thrown .runtimeError) := by
  unfold Xml.writeText
  rw [C37_other_dimensions_rejected h hd]
  rfl

end

section
variable [LawfulPrinter K]

/-- **C71** A file of splines is read back: the same number of splines in the same order, each one equal up to the six printed decimals. -/
theorem C71_round_trip {ss : List (Spl K)} (h : ∀ s ∈ ss, WFSpl s ∧ InDoubleRange s)
    (hd : ∀ s ∈ ss, 1 ≤ s.ps.knots.length ∧ s.ps.knots.length ≤ 4) (hi : ∀ s ∈ ss, (npts s).prod < 2 ^ 31 ∧ s.ph.dim < 2 ^ 31) :
    ∃ text, Xml.writeText ss = .ok text ∧ ∃ rs, Xml.readText K text = .ok rs ∧ List.Forall₂ SameUpToDecimals ss rs := by
  obtain ⟨doc, text, h1, h2, -, -, h3⟩ := C71_written_text (fun s hs => (h s hs).1) hd
  obtain ⟨doc', h1', rs, h4, h5⟩ := C37_round_trip h hd hi
  obtain rfl : doc = doc' := Except.ok.inj (h1.symm.trans h1')
  exact ⟨text, h2, rs, h3.trans h4, h5⟩

/-- **C71** Splines whose numbers have at most six decimals are read back exactly. -/
theorem C71_exact {ss : List (Spl K)} (h : ∀ s ∈ ss, WFSpl s ∧ InDoubleRange s)
    (hd : ∀ s ∈ ss, 1 ≤ s.ps.knots.length ∧ s.ps.knots.length ≤ 4) (hi : ∀ s ∈ ss, (npts s).prod < 2 ^ 31 ∧ s.ph.dim < 2 ^ 31)
    (h6 : ∀ s ∈ ss, (∀ U ∈ s.ps.knots, ∀ x ∈ U, SixDecimals x) ∧ (∀ x ∈ s.ph.cps, SixDecimals x) ∧
      ∀ w, s.ph.weights = some w → ∀ x ∈ w, SixDecimals x) :
    ∃ text, Xml.writeText ss = .ok text ∧ Xml.readText K text = .ok ss := by
  obtain ⟨doc, text, h1, h2, -, -, h3⟩ := C71_written_text (fun s hs => (h s hs).1) hd
  obtain ⟨doc', h1', h4⟩ := C37_exact h hd hi h6
  obtain rfl : doc = doc' := Except.ok.inj (h1.symm.trans h1')
  exact ⟨text, h2, h3.trans h4⟩

end

/-! ## Truncated files -/

/-- **C72** The nodes that are parsed from the beginning of a text are the first nodes of the whole text. -/
theorem C72_prefix {p s : List Char} {ns ms : List Xml.Node} (h : p <+: s) (hp : Pugi.load p = .ok ns) (hs : Pugi.load s = .ok ms) : ns <+: ms :=
  Pugi.load_prefix h hp hs

/-- **C72** The beginning of a file with one element is refused, or it is read like the whole file. -/
theorem C72_one_element {p s : List Char} {n : Xml.Node} (h : p <+: s) (hs : Pugi.load s = .ok [n]) :
    Pugi.load p = .error (.thrown .runtimeError) ∨ Pugi.load p = .ok [n] := by
  rcases C71_outcome p with ⟨ns, hp⟩ | hp
  · right
    obtain ⟨m, hm, -⟩ := C71_needs_element hp
    have hpre := C72_prefix h hp hs
    rw [hp]
    congr 1
    refine hpre.eq_of_length (Nat.le_antisymm hpre.length_le ?_)
    rw [List.length_singleton]
    exact List.length_pos_of_mem hm
  · exact .inl hp

/-- **C72** A truncated file of splines is refused with `std::runtime_error`, or nothing is lost: the reader never gives only some of the splines
or splines with fewer points. -/
theorem C72_truncated [DecPrinter K] {ss : List (Spl K)} (h : ∀ s ∈ ss, WFSpl s) (hd : ∀ s ∈ ss, 1 ≤ s.ps.knots.length ∧ s.ps.knots.length ≤ 4)
    {text p : List Char} (ht : Xml.writeText ss = .ok text) (hp : p <+: text) :
    Xml.readText K p = .error (.thrown .runtimeError) ∨ Xml.readText K p = Xml.readText K text := by
  obtain ⟨doc, text', h1, h2, h3, h4, -⟩ := C71_written_text h hd
  obtain rfl : text = text' := Except.ok.inj (ht.symm.trans h2)
  obtain ⟨name, as, kids, rfl⟩ := writeFile_single h1
  have hl := C71_reads_grammar h3 h4 (by simp)
  rcases C72_one_element hp hl with e | e
  · left
    unfold Xml.readText
    rw [e]
    rfl
  · right
    unfold Xml.readText
    rw [e, hl]

/-- **C72** A file with one element that lacks more than the line end behind the element is refused. -/
theorem C72_one_element_refused {n : Xml.Node} (h : Storable n) (he : Pugi.isElem n = true) {p : List Char} (hp : p <+: Pugi.save [n])
    (hl : p.length + 1 < (Pugi.save [n]).length) : Pugi.load p = .error (.thrown .runtimeError) := by
  have hs : ∀ m ∈ [n], Storable m ∧ Pugi.isElem m = true := by simp [h, he]
  rcases C72_one_element hp (C71_saves_and_loads hs (by simp)) with e | e
  · exact e
  · exfalso
    obtain ⟨hr, -⟩ := Pugi.load_ok e
    have hsave : Pugi.save [n] = Pugi.declaration ++ Pugi.nodeText 0 false n ++ ['\n'] := by
      cases n with
      | pcdata v => cases he
      | elem name as kids =>
        rw [Pugi.save, Pugi.nodesText, Pugi.nodesText, List.append_nil]
        rfl
    rw [hsave] at hp hl
    obtain ⟨q, hq⟩ : p <+: Pugi.declaration ++ Pugi.nodeText 0 false n :=
      List.prefix_of_prefix_length_le hp (List.prefix_append _ _) (by rw [List.length_append, List.length_singleton] at hl; omega)
    have hc : Pugi.cstr p = p := by
      refine Pugi.cstr_eq fun c hc e => (C71_saves_grammar hs).2 ?_
      rw [hsave]
      exact hp.subset (e ▸ hc)
    have hb : Pugi.skipBom p = p := by
      refine Pugi.skipBom_lt fun c hc => ?_
      cases p with
      | nil => cases hc
      | cons d p =>
        simp only [List.head?_cons, Option.some.injEq] at hc
        have : d = '<' := (List.cons.inj hq).1
        rw [← hc, this]
        decide
    rw [hc, hb] at hr
    refine Pugi.run_truncated h he (q := q) ?_ hq hr
    rintro rfl
    rw [List.append_nil] at hq
    rw [hq] at hl
    simp only [List.length_append, List.length_singleton] at hl
    omega

/-- **C72** A truncated file of splines is refused with `std::runtime_error`, if more than the line end at the end of the file is missing. -/
theorem C72_truncated_refused [DecPrinter K] {ss : List (Spl K)} (h : ∀ s ∈ ss, WFSpl s)
    (hd : ∀ s ∈ ss, 1 ≤ s.ps.knots.length ∧ s.ps.knots.length ≤ 4) {text p : List Char} (ht : Xml.writeText ss = .ok text) (hp : p <+: text)
    (hl : p.length + 1 < text.length) : Xml.readText K p = .error (.thrown .runtimeError) := by
  obtain ⟨doc, h1, h2⟩ := C37_document_plain h hd
  obtain ⟨name, as, kids, rfl⟩ := writeFile_single h1
  obtain rfl : text = Pugi.save [.elem name as kids] := by
    unfold Xml.writeText at ht
    rw [h1] at ht
    exact (Except.ok.inj ht).symm
  unfold Xml.readText
  rw [C72_one_element_refused (storable_of_plain (h2 _ (by simp))) rfl hp hl]
  rfl

/-! ## Examples -/

/-- The text `<a b = 'x&lt;&#x41;'><!--c-->t<![CDATA[<]]><d/></a>`. -/
def exXmlText : List Char :=
  '<' :: ['a'] ++ ([' '] ++ ['b'] ++ [' '] ++ '=' :: [' '] ++ '\'' :: ['x', '&', 'l', 't', ';', '&', '#', 'x', '4', '1', ';'] ++ '\'' :: []) ++ [] ++ '>' ::
    ("<!--".toList ++ ['c'] ++ "-->".toList ++ (['t'] ++ ("<![CDATA[".toList ++ ['<'] ++ "]]>".toList ++ ('<' :: ['d'] ++ [] ++ [] ++ "/>".toList ++ [])))) ++
    "</".toList ++ ['a'] ++ [] ++ '>' :: []

/-- Its tree. -/
def exXmlTree : Xml.Node := .elem ['a'] [(['b'], ['x', '<', 'A'])] [.pcdata ['t'], .pcdata ['<'], .elem ['d'] [] []]

theorem exXmlText_content : Content true exXmlText [exXmlTree] := by
  have name : ∀ c : Char, ('a' ≤ c ∧ c ≤ 'z') → IsName [c] := fun c hc => ⟨c, [], rfl, .inl hc, by simp⟩
  unfold exXmlText exXmlTree
  refine Content.elem (name 'a' (by decide)) (Attrs.cons (by simp) (by simp [Blank]) (name 'b' (by decide)) (by simp [Blank]) (by simp [Blank])
    (.inr rfl) (by simp) ?_ .nil) (by simp) ?_ (by simp) .nil
  · refine .char (by decide) (by decide) (by decide) (by decide) ?_
    refine .entity (e := ("lt".toList, '<')) (by simp [entities]) ?_
    refine .hex (cs := ['4', '1']) (c := 'A') (by simp) (by decide) ?_ .nil
    exact .cons (d := 4) (.inl (by decide)) (.cons (d := 1) (.inl (by decide)) (.nil _))
  · refine .comment ?_ (by simp) (.text (by simp) ⟨'t', by simp, by unfold Blank; decide⟩ ?_ (.inr rfl) (.cdata ?_ ?_ (.empty (name 'd' (by decide)) .nil (by simp) .nil)))
    · intro h
      have := h.length_le
      simp at this
    · exact .char (by decide) (by decide) (by decide) (by simp) .nil
    · intro h
      have := h.length_le
      simp at this
    · exact .char (by decide) (by decide) .nil

example : Pugi.load exXmlText = .ok [exXmlTree] := C71_reads_grammar exXmlText_content (by decide) (by simp)

example : Storable (.elem ['a'] [(['b'], ['<', '"', '\n'])] [.pcdata [' ', '&'], .elem ['c'] [] []]) := by
  refine .elem ⟨'a', [], rfl, .inl (by decide), by simp⟩ ?_ ?_ ?_
  · simp only [List.mem_singleton, forall_eq]
    exact ⟨⟨'b', [], rfl, .inl (by decide), by simp⟩, by decide⟩
  · simp only [List.mem_cons, List.not_mem_nil, or_false, forall_eq_or_imp, forall_eq]
    exact ⟨.text (by decide) ⟨'&', by simp, by unfold Blank; decide⟩, .elem ⟨'c', [], rfl, .inl (by decide), by simp⟩ (by simp) (by simp) .nil⟩
  · refine .cons_cons ?_ (.singleton _)
    rintro ⟨-, v, hv⟩
    cases hv

section
attribute [local instance] halfUp

example : ∃ text, Xml.writeText [exCurve, exNurbs, exNurbsSurface] = .ok text ∧ ∃ rs,
    Xml.readText ℚ text = .ok rs ∧ List.Forall₂ SameUpToDecimals [exCurve, exNurbs, exNurbsSurface] rs := by
  refine C71_round_trip (fun s hs => ⟨?_, exXml_range s hs⟩) (by decide +kernel) (by decide +kernel)
  revert s
  simp only [List.mem_cons, List.not_mem_nil, or_false, forall_eq_or_imp, forall_eq]
  exact ⟨exCurve_wf, exNurbs_wf, exNurbsSurface_wf⟩

end

end SplineLib
