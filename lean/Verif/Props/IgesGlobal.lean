import Verif.Props.Iges
import Verif.Model.IgesTime
import Verif.Spec.IgesGlobal

/-!
# C86: the global section of IGES files

What a program that follows the free format of IGES files finds in the global section. The code does not write the name of the file as a string and
turns the dates into strings twice, so that only part of the claim holds.
-/

namespace SplineLib
set_option linter.unusedSectionVars false
open Prn
variable {K : Type} [Field K] [LinearOrder K] [IsStrictOrderedRing K] [LawfulGen K]

/-! ## Items -/

theorem natText_isDigit (n : ℕ) : ∀ c ∈ natText n, c.isDigit = true := by
  rw [natText_eq]
  intro c hc
  obtain ⟨d, hd, rfl⟩ := List.mem_map.1 hc
  clear hd hc; revert d; decide

theorem igesDigits_natText (n : ℕ) : igesDigits (natText n) = n := by
  rw [natText_eq]
  exact (Str.digitsVal_map _).trans (natDigs_num n)

/-- A text that is read as the item, whatever follows the separator. -/
def ReadsAs (t : List Char) (i : IgesItem) : Prop := ∀ r, igesItem (t ++ ',' :: r) = (i, ',' :: r)

theorem readsAs_hollerith (t : List Char) : ReadsAs (Iges.hollerith t) (.str t) := by
  intro r
  unfold Iges.hollerith igesItem
  have hd : ∀ c ∈ natText t.length, Char.isDigit c = true := natText_isDigit _
  rw [List.append_assoc, List.takeWhile_append_of_pos hd, List.dropWhile_append_of_pos hd, List.cons_append,
    List.takeWhile_cons_of_neg (by decide), List.dropWhile_cons_of_neg (by decide), List.append_nil]
  have hv := igesDigits_natText t.length
  cases he : natText t.length with
  | nil => exact absurd he (natText_ne _)
  | cons d ds =>
    rw [he] at hv
    simp [hv]

theorem igesPlain_eq {t : List Char} (h : ',' ∉ t ∧ ';' ∉ t) (r : List Char) : igesPlain (t ++ ',' :: r) = (.text t, ',' :: r) := by
  have hp : ∀ c ∈ t, (c ≠ ',' && c ≠ ';') = true := by
    intro c hc
    have h1 : c ≠ ',' := fun e => h.1 (e ▸ hc)
    have h2 : c ≠ ';' := fun e => h.2 (e ▸ hc)
    simp [h1, h2]
  unfold igesPlain
  rw [List.takeWhile_append_of_pos hp, List.dropWhile_append_of_pos hp, List.takeWhile_cons_of_neg (by decide),
    List.dropWhile_cons_of_neg (by decide), List.append_nil]

/-- A text without separators that does not begin like a string: the digits at its beginning are not followed by `H`. -/
structure PlainName (t : List Char) : Prop where
  comma : ',' ∉ t
  semicolon : ';' ∉ t
  head : (t.dropWhile Char.isDigit).head? = some 'H' → t.head? = some 'H'

theorem readsAs_plain {t : List Char} (h : PlainName t) : ReadsAs t (.text t) := by
  intro r
  have key : (t ++ ',' :: r).dropWhile Char.isDigit = t.dropWhile Char.isDigit ++ ',' :: r := by
    rw [List.dropWhile_append]
    split
    · rename_i he
      rw [List.isEmpty_iff.1 he, List.dropWhile_cons_of_neg (by decide), List.nil_append]
    · rfl
  unfold igesItem
  split
  · rename_i d ds r' h1 h2
    exfalso
    rw [key] at h2
    have hh : (t.dropWhile Char.isDigit).head? = some 'H' := by
      cases hd : t.dropWhile Char.isDigit with
      | nil => rw [hd] at h2; simp at h2
      | cons a l => rw [hd] at h2; simp only [List.cons_append, List.cons.injEq] at h2; simp [h2.1]
    have := h.head hh
    cases t with
    | nil => simp at this
    | cons a l =>
      simp only [List.head?_cons, Option.some.injEq] at this
      subst this
      rw [List.cons_append, List.takeWhile_cons_of_neg (by decide)] at h1
      simp at h1
  · exact igesPlain_eq ⟨h.comma, h.semicolon⟩ r

theorem plainName_of_chars {t : List Char} (h : ∀ c ∈ t, c ≠ ',' ∧ c ≠ ';' ∧ c ≠ 'H') : PlainName t where
  comma hc := (h _ hc).1 rfl
  semicolon hc := (h _ hc).2.1 rfl
  head hd := by
    exfalso
    have hm : 'H' ∈ t.dropWhile Char.isDigit := List.mem_of_mem_head? (by rw [hd]; rfl)
    exact (h _ ((List.dropWhile_sublist _).subset hm)).2.2 rfl

theorem readsAs_nat (n : ℕ) : ReadsAs (natText n) (.text (natText n)) := by
  refine readsAs_plain (plainName_of_chars fun c hc => ?_)
  rw [natText_eq] at hc
  obtain ⟨d, hd, rfl⟩ := List.mem_map.1 hc
  clear hd hc; revert d; decide

theorem readsAs_general (x : K) : ReadsAs (Iges.generalText x) (.text (Iges.generalText x)) := by
  refine readsAs_plain (plainName_of_chars fun c hc => ?_)
  rw [← generalLit_text] at hc
  rcases DecLit.text_chars c hc with ⟨d, rfl⟩ | rfl | rfl | rfl | rfl | rfl
  · clear hc; revert d; decide
  all_goals (clear hc; decide)

theorem igesItems_list : ∀ (L : List (List Char × IgesItem)) (k : ℕ) (r : List Char), (∀ p ∈ L, ReadsAs p.1 p.2) →
    igesItems (L.length + k + 1) (Iges.addTo (L.map Prod.fst) [','] ++ ';' :: r) = some (L.map Prod.snd ++ [.text []])
  | [], k, r, _ => by simp [igesItems, igesItem, igesPlain, Iges.addTo]
  | p :: L, k, r, h => by
    have e : Iges.addTo ((p :: L).map Prod.fst) [','] ++ ';' :: r = p.1 ++ ',' :: (Iges.addTo (L.map Prod.fst) [','] ++ ';' :: r) := by
      simp [Iges.addTo]
    rw [e, show (p :: L).length + k + 1 = (L.length + k + 1) + 1 by simp; omega, igesItems, h p (by simp) _]
    show (igesItems (L.length + k + 1) (Iges.addTo (L.map Prod.fst) [','] ++ ';' :: r)).map (p.2 :: ·) = _
    rw [igesItems_list L k r fun q hq => h q (by simp [hq])]
    rfl

theorem addTo_count : ∀ L : List (List Char), L.length ≤ (Iges.addTo L [',']).length
  | [] => by simp [Iges.addTo]
  | t :: L => by
    have := addTo_count L
    unfold Iges.addTo at *
    simp only [List.flatMap_cons, List.length_append, List.length_cons, List.length_nil]
    omega

/-- The parameters of the global section if the name of the file is read as `name`; `m` is the largest coordinate. -/
def globalItems (name : IgesItem) (time1 time2 : List Char) (m : K) : List IgesItem :=
  [.str [','], .str [';'], .str "unknown".toList, name, .str "SplineLib".toList, .str "pre_release".toList, .text "31".toList, .text "128".toList,
    .text "24".toList, .text "1024".toList, .text "53".toList, .str "unknown".toList, .text (Iges.generalText (1 : K)), .text ['2'],
    .str "MM".toList, .text ['1'], .text (Iges.generalText (1 / 10 ^ 3 : K)), .str (Iges.hollerith time1), .text (Iges.generalText (1 / 10 ^ 6 : K)),
    .text (Iges.generalText m), .str "unknown".toList, .str "unknown".toList, .text "11".toList, .text ['0'], .str (Iges.hollerith time2), .text []]

theorem globalContents_items {filename : List Char} {name : IgesItem} (h : ReadsAs filename name) (time1 time2 : List Char) (m : K) (b : ℕ) :
    igesParameters (Iges.globalContents filename time1 time2 m ++ List.replicate b ' ') = some (globalItems name time1 time2 m) := by
  obtain ⟨L, hL⟩ : ∃ L : List (List Char × IgesItem), L =
    [(Iges.hollerith [','], .str [',']), (Iges.hollerith [';'], .str [';']), (Iges.hollerith "unknown".toList, .str "unknown".toList),
      (filename, name), (Iges.hollerith "SplineLib".toList, .str "SplineLib".toList),
      (Iges.hollerith "pre_release".toList, .str "pre_release".toList), (natText 31, .text (natText 31)), (natText 128, .text (natText 128)),
      (natText 24, .text (natText 24)), (natText 1024, .text (natText 1024)), (natText 53, .text (natText 53)),
      (Iges.hollerith "unknown".toList, .str "unknown".toList), (Iges.generalText (1 : K), .text (Iges.generalText (1 : K))),
      (natText 2, .text (natText 2)), (Iges.hollerith "MM".toList, .str "MM".toList), (natText 1, .text (natText 1)),
      (Iges.generalText (1 / 10 ^ 3 : K), .text (Iges.generalText (1 / 10 ^ 3 : K))), (Iges.hollerith (Iges.hollerith time1), .str (Iges.hollerith time1)),
      (Iges.generalText (1 / 10 ^ 6 : K), .text (Iges.generalText (1 / 10 ^ 6 : K))), (Iges.generalText m, .text (Iges.generalText m)),
      (Iges.hollerith "unknown".toList, .str "unknown".toList), (Iges.hollerith "unknown".toList, .str "unknown".toList),
      (natText 11, .text (natText 11)), (natText 0, .text (natText 0)), (Iges.hollerith (Iges.hollerith time2), .str (Iges.hollerith time2))] := ⟨_, rfl⟩
  have hlen : L.length = 25 := by rw [hL]; rfl
  have hr : ∀ p ∈ L, ReadsAs p.1 p.2 := by
    rw [hL]
    simp only [List.forall_mem_cons]
    exact ⟨readsAs_hollerith _, readsAs_hollerith _, readsAs_hollerith _, h, readsAs_hollerith _, readsAs_hollerith _, readsAs_nat _, readsAs_nat _,
      readsAs_nat _, readsAs_nat _, readsAs_nat _, readsAs_hollerith _, readsAs_general _, readsAs_nat _, readsAs_hollerith _, readsAs_nat _,
      readsAs_general _, readsAs_hollerith _, readsAs_general _, readsAs_general _, readsAs_hollerith _, readsAs_hollerith _, readsAs_nat _,
      readsAs_nat _, readsAs_hollerith _, by simp⟩
  have hc : Iges.globalContents filename time1 time2 m ++ List.replicate b ' ' =
      Iges.addTo (L.map Prod.fst) [','] ++ ';' :: List.replicate b ' ' := by
    rw [hL]; unfold Iges.globalContents; simp only [List.map_cons, List.map_nil, List.append_assoc, List.singleton_append]
  have hk : 25 ≤ (Iges.addTo (L.map Prod.fst) [',']).length := by
    have := addTo_count (L.map Prod.fst)
    rwa [List.length_map, hlen] at this
  unfold igesParameters
  rw [hc]
  obtain ⟨k, hk'⟩ : ∃ k, (Iges.addTo (L.map Prod.fst) [','] ++ ';' :: List.replicate b ' ').length = 25 + k := by
    refine ⟨(Iges.addTo (L.map Prod.fst) [','] ++ ';' :: List.replicate b ' ').length - 25, ?_⟩
    rw [List.length_append]; omega
  rw [hk', ← hlen, igesItems_list L k _ hr, hL]
  have e31 : natText 31 = "31".toList := by decide +kernel
  have e128 : natText 128 = "128".toList := by decide +kernel
  have e24 : natText 24 = "24".toList := by decide +kernel
  have e1024 : natText 1024 = "1024".toList := by decide +kernel
  have e53 : natText 53 = "53".toList := by decide +kernel
  have e2 : natText 2 = ['2'] := by decide +kernel
  have e1 : natText 1 = ['1'] := by decide +kernel
  have e11 : natText 11 = "11".toList := by decide +kernel
  have e0 : natText 0 = ['0'] := by decide +kernel
  rw [e31, e128, e24, e1024, e53, e2, e1, e11, e0]
  rfl

theorem expansion_spec (l : List K) : ∀ e : K, e ≤ l.foldl (fun e c => if c > e then c else e) e ∧
    (∀ c ∈ l, c ≤ l.foldl (fun e c => if c > e then c else e) e) ∧
    (l.foldl (fun e c => if c > e then c else e) e = e ∨ l.foldl (fun e c => if c > e then c else e) e ∈ l) := by
  induction l with
  | nil => intro e; simp
  | cons a l ih =>
    intro e
    simp only [List.foldl_cons]
    obtain ⟨h1, h2, h3⟩ := ih (if a > e then a else e)
    have ha : a ≤ (if a > e then a else e) := by split <;> [exact le_rfl; exact not_lt.1 ‹_›]
    have he : e ≤ (if a > e then a else e) := by split <;> [exact le_of_lt ‹_›; exact le_rfl]
    refine ⟨he.trans h1, ?_, ?_⟩
    · intro c hc
      rcases List.mem_cons.1 hc with rfl | hc
      · exact ha.trans h1
      · exact h2 c hc
    · rcases h3 with h3 | h3
      · rw [h3]
        split
        · exact Or.inr (by simp)
        · exact Or.inl rfl
      · exact Or.inr (List.mem_cons_of_mem _ h3)

theorem highestValue_spec : ∀ (ss : List (Spl K)) (h m : K), Iges.highestValue ss h = .ok m →
    h ≤ m ∧ (∀ s ∈ ss, ∀ c ∈ s.ph.cps, c ≤ m) ∧ (0 ≤ h → (m = h ∨ ∃ s ∈ ss, m ∈ s.ph.cps ∨ m = 0))
  | [], h, m, e => by
    unfold Iges.highestValue at e
    obtain rfl := Except.ok.inj e
    simp
  | s :: ss, h, m, e => by
    unfold Iges.highestValue at e
    obtain ⟨_, _, e⟩ := bind_eq_ok.1 e
    obtain ⟨h1, h2, h3⟩ := highestValue_spec ss _ m e
    obtain ⟨x1, x2, x3⟩ := expansion_spec s.ph.cps 0
    have hx : s.ph.expansion ≤ (if h < s.ph.expansion then s.ph.expansion else h) := by split <;> [exact le_rfl; exact not_lt.1 ‹_›]
    have hh : h ≤ (if h < s.ph.expansion then s.ph.expansion else h) := by split <;> [exact le_of_lt ‹_›; exact le_rfl]
    refine ⟨hh.trans h1, ?_, ?_⟩
    · intro t ht c hc
      rcases List.mem_cons.1 ht with rfl | ht
      · exact (x2 c hc).trans (hx.trans h1)
      · exact h2 t ht c hc
    · intro h0
      rcases h3 (h0.trans hh) with h3 | ⟨t, ht, h3⟩
      · split at h3
        · refine Or.inr ⟨s, by simp, ?_⟩
          rw [h3]
          rcases x3 with x3 | x3
          · exact Or.inr x3
          · exact Or.inl x3
        · exact Or.inl h3
      · exact Or.inr ⟨t, by simp [ht], h3⟩

theorem globalLines_text (c : List Char) (hc : c ≠ []) :
    ∃ b, (globalLines c).flatMap (fun l => l.take 72) = c ++ List.replicate b ' ' := by
  refine ⟨72 * pieces 72 c - c.length, ?_⟩
  rw [← pieces_flatten (by norm_num) c.length c le_rfl hc]
  unfold globalLines
  rw [List.flatMap_map, List.flatMap_def]
  congr 1
  refine List.map_congr_left fun i _ => ?_
  have := piece_length 72 c i
  unfold line72
  rw [List.take_append_of_le_length (by omega), List.take_of_length_le (by omega)]

theorem global_section {filename time1 time2 : List Char} {ss : List (Spl K)} (h : IgesWritable filename time1 time2 ss) {name : IgesItem}
    (hr : ReadsAs filename name) :
    ∃ S G D P T, Iges.writeFile filename time1 time2 ss = .ok ((S ++ G ++ D ++ P ++ T).flatMap fun l => l ++ ['\n']) ∧ IgesLayout ss S G D P T ∧
      ∃ m : K, 0 ≤ m ∧ (∀ s ∈ ss, ∀ c ∈ s.ph.cps, c ≤ m) ∧ (m = 0 ∨ ∃ s ∈ ss, m ∈ s.ph.cps) ∧
        igesParameters (G.flatMap fun l => l.take 72) = some (globalItems name time1 time2 m) := by
  have hf := h.fits
  obtain ⟨m, hm, hp, hl⟩ := fileLines_eq hf
  refine ⟨_, _, _, _, _, ?_, layout_lines hp hf.count hf.total, ?_⟩
  · unfold Iges.writeFile
    rw [hl, ok_bind]; rfl
  · obtain ⟨h1, h2, h3⟩ := highestValue_spec ss 0 m hm
    refine ⟨m, h1, h2, ?_, ?_⟩
    · rcases h3 le_rfl with h3 | ⟨s, hs, h3 | h3⟩
      · exact Or.inl h3
      · exact Or.inr ⟨s, hs, h3⟩
      · exact Or.inl h3
    · obtain ⟨b, hb⟩ := globalLines_text _ (globalContents_ne filename time1 time2 m)
      rw [hb]
      exact globalContents_items hr time1 time2 m b

/-- **C86** (partial) A program that follows the free format finds the 25 parameters of the global section and an empty one: the separators, the names
of the programs, the ranges of numbers, the scale, the unit, the largest coordinate of all control points (at least 0), and the version. Missing: the
name of the file is no string, so that it has to be free of separators, and the dates are strings within strings. -/
theorem C86_global_partial {filename time1 time2 : List Char} {ss : List (Spl K)} (h : IgesWritable filename time1 time2 ss) (hn : PlainName filename) :
    ∃ S G D P T, Iges.writeFile filename time1 time2 ss = .ok ((S ++ G ++ D ++ P ++ T).flatMap fun l => l ++ ['\n']) ∧ IgesLayout ss S G D P T ∧
      ∃ m : K, 0 ≤ m ∧ (∀ s ∈ ss, ∀ c ∈ s.ph.cps, c ≤ m) ∧ (m = 0 ∨ ∃ s ∈ ss, m ∈ s.ph.cps) ∧
        igesParameters (G.flatMap fun l => l.take 72) = some (globalItems (.text filename) time1 time2 m) :=
  global_section h (readsAs_plain hn)

/-- **C86** A comma in the name of the file shifts all later parameters: the part behind it is read as the name of the program. -/
theorem C86_comma {a b time1 time2 : List Char} {ss : List (Spl K)} (h : IgesWritable (a ++ ',' :: b) time1 time2 ss) (ha : PlainName a)
    (hb : PlainName b) :
    ∃ S G D P T, Iges.writeFile (a ++ ',' :: b) time1 time2 ss = .ok ((S ++ G ++ D ++ P ++ T).flatMap fun l => l ++ ['\n']) ∧
      IgesLayout ss S G D P T ∧ ∃ items, igesParameters (G.flatMap fun l => l.take 72) = some items ∧ items.length = 27 ∧
        items[3]? = some (.text a) ∧ items[4]? = some (.text b) ∧ items[5]? = some (.str "SplineLib".toList) := by
  have hf := h.fits
  obtain ⟨m, hm, hp, hl⟩ := fileLines_eq hf
  refine ⟨_, _, _, _, _, ?_, layout_lines hp hf.count hf.total, ?_⟩
  · unfold Iges.writeFile
    rw [hl, ok_bind]; rfl
  obtain ⟨bl, hbl⟩ := globalLines_text _ (globalContents_ne (a ++ ',' :: b) time1 time2 m)
  rw [hbl]
  obtain ⟨L1, hL1⟩ : ∃ L : List (List Char × IgesItem), L =
    [(Iges.hollerith [','], .str [',']), (Iges.hollerith [';'], .str [';']), (Iges.hollerith "unknown".toList, .str "unknown".toList),
      (a, .text a), (b, .text b), (Iges.hollerith "SplineLib".toList, .str "SplineLib".toList)] := ⟨_, rfl⟩
  obtain ⟨L2, hL2⟩ : ∃ L : List (List Char × IgesItem), L =
    [(Iges.hollerith "pre_release".toList, .str "pre_release".toList), (natText 31, .text (natText 31)), (natText 128, .text (natText 128)),
      (natText 24, .text (natText 24)), (natText 1024, .text (natText 1024)), (natText 53, .text (natText 53)),
      (Iges.hollerith "unknown".toList, .str "unknown".toList), (Iges.generalText (1 : K), .text (Iges.generalText (1 : K))),
      (natText 2, .text (natText 2)), (Iges.hollerith "MM".toList, .str "MM".toList), (natText 1, .text (natText 1)),
      (Iges.generalText (1 / 10 ^ 3 : K), .text (Iges.generalText (1 / 10 ^ 3 : K))), (Iges.hollerith (Iges.hollerith time1), .str (Iges.hollerith time1)),
      (Iges.generalText (1 / 10 ^ 6 : K), .text (Iges.generalText (1 / 10 ^ 6 : K))), (Iges.generalText m, .text (Iges.generalText m)),
      (Iges.hollerith "unknown".toList, .str "unknown".toList), (Iges.hollerith "unknown".toList, .str "unknown".toList),
      (natText 11, .text (natText 11)), (natText 0, .text (natText 0)), (Iges.hollerith (Iges.hollerith time2), .str (Iges.hollerith time2))] := ⟨_, rfl⟩
  have hr1 : ∀ p ∈ L1, ReadsAs p.1 p.2 := by
    rw [hL1]
    simp only [List.forall_mem_cons]
    exact ⟨readsAs_hollerith _, readsAs_hollerith _, readsAs_hollerith _, readsAs_plain ha, readsAs_plain hb, readsAs_hollerith _, by simp⟩
  have hr2 : ∀ p ∈ L2, ReadsAs p.1 p.2 := by
    rw [hL2]
    simp only [List.forall_mem_cons]
    exact ⟨readsAs_hollerith _, readsAs_nat _, readsAs_nat _,
      readsAs_nat _, readsAs_nat _, readsAs_nat _, readsAs_hollerith _, readsAs_general _, readsAs_nat _, readsAs_hollerith _, readsAs_nat _,
      readsAs_general _, readsAs_hollerith _, readsAs_general _, readsAs_general _, readsAs_hollerith _, readsAs_hollerith _, readsAs_nat _,
      readsAs_nat _, readsAs_hollerith _, by simp⟩
  have hlen : (L1 ++ L2).length = 26 := by rw [hL1, hL2]; rfl
  have hc : Iges.globalContents (a ++ ',' :: b) time1 time2 m ++ List.replicate bl ' ' =
      Iges.addTo ((L1 ++ L2).map Prod.fst) [','] ++ ';' :: List.replicate bl ' ' := by
    rw [hL1, hL2]
    unfold Iges.globalContents Iges.addTo
    simp only [List.map_cons, List.map_nil, List.append_assoc, List.singleton_append, List.cons_append, List.nil_append, List.flatMap_cons,
      List.flatMap_nil]
  have hk : 26 ≤ (Iges.addTo ((L1 ++ L2).map Prod.fst) [',']).length := by
    have := addTo_count ((L1 ++ L2).map Prod.fst)
    rwa [List.length_map, hlen] at this
  refine ⟨(L1 ++ L2).map Prod.snd ++ [.text []], ?_, by simp [hL1, hL2], by simp [hL1], by simp [hL1], by simp [hL1]⟩
  unfold igesParameters
  rw [hc]
  obtain ⟨k, hk'⟩ : ∃ k, (Iges.addTo ((L1 ++ L2).map Prod.fst) [','] ++ ';' :: List.replicate bl ' ').length = 26 + k := by
    refine ⟨(Iges.addTo ((L1 ++ L2).map Prod.fst) [','] ++ ';' :: List.replicate bl ' ').length - 26, ?_⟩
    rw [List.length_append]; omega
  rw [hk', ← hlen, igesItems_list (L1 ++ L2) k _ fun p hp' => (List.mem_append.1 hp').elim (hr1 p) (hr2 p)]

/-! ## Dates -/

/-- A moment with the ranges of `struct tm` and a year of four digits. -/
structure Moment (t : Iges.Tm) : Prop where
  year : -900 ≤ t.year ∧ t.year ≤ 8099
  mon : 0 ≤ t.mon ∧ t.mon ≤ 11
  mday : 1 ≤ t.mday ∧ t.mday ≤ 31
  hour : 0 ≤ t.hour ∧ t.hour ≤ 23
  min : 0 ≤ t.min ∧ t.min ≤ 59
  sec : 0 ≤ t.sec ∧ t.sec ≤ 60

/-- The date and time in the form of IGES files. -/
def dateOf (t : Iges.Tm) : List Char :=
  igesDate (t.year + 1900).toNat (t.mon + 1).toNat t.mday.toNat t.hour.toNat t.min.toNat t.sec.toNat

theorem padded_length (k n : ℕ) : (padded k n).length = k := by
  induction k generalizing n with
  | zero => rfl
  | succ k ih => simp [padded, ih]

theorem padded_digit (k n : ℕ) : ∀ c ∈ padded k n, ∃ d : Fin 10, c = digitChar d := by
  induction k generalizing n with
  | zero => simp [padded]
  | succ k ih =>
    intro c hc
    rcases List.mem_append.1 hc with hc | hc
    · exact ih _ c hc
    · exact ⟨⟨n % 10, Nat.mod_lt _ (by norm_num)⟩, List.mem_singleton.1 hc⟩

theorem natText_padded : ∀ (k n : ℕ), 10 ^ k ≤ n → n < 10 ^ (k + 1) → natText n = padded (k + 1) n := by
  intro k
  induction k with
  | zero =>
    intro n h1 h2
    rw [natText, if_pos (by simpa using h2)]
    rfl
  | succ k ih =>
    intro n h1 h2
    have h10 : 10 ≤ n := by
      have : 10 ^ 1 ≤ 10 ^ (k + 1) := Nat.pow_le_pow_right (by norm_num) (by omega)
      omega
    rw [natText, if_neg (by omega), ih (n / 10) (by rw [pow_succ] at h1; omega) (by rw [pow_succ] at h2; omega)]
    rfl

theorem padded_add (a : ℕ) : ∀ (b n : ℕ), padded (a + b) n = padded a (n / 10 ^ b) ++ padded b n
  | 0, n => by simp [padded]
  | b + 1, n => by
    rw [← Nat.add_assoc, padded, padded_add a b, padded, pow_succ, Nat.mul_comm, ← Nat.div_div_eq_div_mul, List.append_assoc]

theorem padded_mod : ∀ (k n m : ℕ), n % 10 ^ k = m % 10 ^ k → padded k n = padded k m
  | 0, _, _, _ => rfl
  | k + 1, n, m, h => by
    rw [padded, padded]
    have h1 : n % 10 = m % 10 := by
      have := congrArg (· % 10) h
      simpa [pow_succ, Nat.mod_mul_left_mod] using this
    have h2 : n / 10 % 10 ^ k = m / 10 % 10 ^ k := by
      rw [pow_succ, Nat.mul_comm, Nat.mod_mul, Nat.mod_mul, h1] at h
      omega
    rw [padded_mod k _ _ h2, h1]

theorem padded_three {a y m d : ℕ} (hm : m < 100) (hd : d < 100) :
    padded (a + 4) (y * 10000 + m * 100 + d) = padded a y ++ padded 2 m ++ padded 2 d := by
  rw [padded_add a 4, show (4 : ℕ) = 2 + 2 from rfl, padded_add 2 2, ← List.append_assoc]
  congr 1
  · congr 1
    · congr 1; norm_num; omega
    · refine padded_mod _ _ _ ?_
      norm_num; omega
  · refine padded_mod _ _ _ ?_
    norm_num; omega

theorem stamp_date {t : Iges.Tm} (h : Moment t) : Iges.stamp t =
    padded 4 (t.year + 1900).toNat ++ padded 2 (t.mon + 1).toNat ++ padded 2 t.mday.toNat ++
      '.' :: natText (t.hour * 10000 + t.min * 100 + t.sec).toNat := by
  have hy := h.year
  have hm := h.mon
  have hd := h.mday
  have h1 := h.hour
  have h2 := h.min
  have h3 := h.sec
  unfold Iges.stamp
  have e1 : (t.year + 1900) * 10000 + (t.mon + 1) * 100 + t.mday =
      (((t.year + 1900).toNat * 10000 + (t.mon + 1).toNat * 100 + t.mday.toNat : ℕ) : ℤ) := by omega
  have e2 : t.hour * 10000 + t.min * 100 + t.sec = ((t.hour * 10000 + t.min * 100 + t.sec).toNat : ℤ) := by omega
  rw [e1, intText_nat, natText_padded 7 _ (by omega) (by omega), padded_three (a := 4) (by omega) (by omega), e2, intText_nat, ← e2]

/-- **C86** The text of the date has the form `YYYYMMDD.HHNNSS` exactly from ten o'clock on; before, the hour has one digit or, in the first hour, there
are only the digits of minutes and seconds. -/
theorem C86_date_form {t : Iges.Tm} (h : Moment t) : Iges.stamp t = dateOf t ↔ 10 ≤ t.hour := by
  have h1 := h.hour
  have h2 := h.min
  have h3 := h.sec
  rw [stamp_date h]
  unfold dateOf igesDate
  rw [List.append_cancel_left_eq, List.cons.injEq]
  constructor
  · intro e
    by_contra hc
    have := congrArg List.length e.2
    simp only [List.length_append, padded_length] at this
    have hl := natText_length (n := (t.hour * 10000 + t.min * 100 + t.sec).toNat) (k := 4) (by omega)
    omega
  · intro hh
    refine ⟨rfl, ?_⟩
    rw [show (t.hour * 10000 + t.min * 100 + t.sec).toNat = t.hour.toNat * 10000 + t.min.toNat * 100 + t.sec.toNat by omega,
      natText_padded 5 _ (by omega) (by omega), padded_three (a := 2) (by omega) (by omega)]

/-- **C86** Different moments have different texts. -/
theorem C86_date_injective {t u : Iges.Tm} (ht : Moment t) (hu : Moment u) (h : Iges.stamp t = Iges.stamp u) : t = u := by
  have key : ∀ {a b : ℕ}, natText a = natText b → a = b := fun {a b} e => by
    rw [← igesDigits_natText a, ← igesDigits_natText b, e]
  have y1 := ht.year; have y2 := hu.year
  have m1 := ht.mon; have m2 := hu.mon
  have d1 := ht.mday; have d2 := hu.mday
  have h1 := ht.hour; have h2 := hu.hour
  have n1 := ht.min; have n2 := hu.min
  have s1 := ht.sec; have s2 := hu.sec
  unfold Iges.stamp at h
  have e1 : ∀ t : Iges.Tm, Moment t → (t.year + 1900) * 10000 + (t.mon + 1) * 100 + t.mday =
      (((t.year + 1900) * 10000 + (t.mon + 1) * 100 + t.mday).toNat : ℤ) := fun t ht => by
    have := ht.year; have := ht.mon; have := ht.mday; omega
  have e2 : ∀ t : Iges.Tm, Moment t → t.hour * 10000 + t.min * 100 + t.sec = ((t.hour * 10000 + t.min * 100 + t.sec).toNat : ℤ) := fun t ht => by
    have := ht.hour; have := ht.min; have := ht.sec; omega
  rw [e1 t ht, e1 u hu, e2 t ht, e2 u hu] at h
  simp only [intText_nat, Int.toNat_natCast] at h
  have hdot : ∀ n, '.' ∉ natText n := fun n hm => absurd (natText_isDigit n _ hm) (by decide)
  have hs := (List.append_eq_append_iff.1 h)
  have e : natText ((t.year + 1900) * 10000 + (t.mon + 1) * 100 + t.mday).toNat = natText ((u.year + 1900) * 10000 + (u.mon + 1) * 100 + u.mday).toNat ∧
      natText (t.hour * 10000 + t.min * 100 + t.sec).toNat = natText (u.hour * 10000 + u.min * 100 + u.sec).toNat := by
    rcases hs with ⟨a, ha, hb⟩ | ⟨a, ha, hb⟩
    all_goals
      cases a with
      | nil => simp at ha hb; exact ⟨by simp [ha], by simp [hb]⟩
      | cons c a =>
        exfalso
        simp only [List.cons_append, List.cons.injEq] at hb
        rw [← hb.1] at ha
        exact hdot _ (by rw [ha]; simp)
  have k1 := key e.1
  have k2 := key e.2
  cases t; cases u
  simp only [Iges.Tm.mk.injEq] at *
  omega

/-- **C86** The dates of the global section never are dates: the string is a text like `15H20190307.101500`, with the number of characters and the
letter `H` once more, at every moment. -/
theorem C86_date_counterexample {filename : List Char} {t u : Iges.Tm} {ss : List (Spl K)} (ht : Moment t) (hu : Moment u)
    (h : IgesWritable filename (Iges.stamp t) (Iges.stamp u) ss) (hn : PlainName filename) :
    ∃ S G D P T, Iges.writeFile filename (Iges.stamp t) (Iges.stamp u) ss = .ok ((S ++ G ++ D ++ P ++ T).flatMap fun l => l ++ ['\n']) ∧
      IgesLayout ss S G D P T ∧ ∃ items, igesParameters (G.flatMap fun l => l.take 72) = some items ∧
        items[17]? ≠ some (.str (dateOf t)) ∧ items[24]? ≠ some (.str (dateOf u)) := by
  obtain ⟨S, G, D, P, T, hw, hl, m, _, _, _, hi⟩ := global_section h (readsAs_plain hn)
  have hm : ∀ v : Iges.Tm, 'H' ∉ dateOf v := by
    intro v hm
    have hp : ∀ k n, 'H' ∉ padded k n := by
      intro k n hc
      obtain ⟨d, hd⟩ := padded_digit k n _ hc
      clear hc; revert d; decide
    unfold dateOf igesDate at hm
    simp only [List.mem_append, List.mem_cons, hp, or_false, false_or] at hm
    exact absurd hm (by decide)
  have key : ∀ v : Iges.Tm, Iges.hollerith (Iges.stamp v) ≠ dateOf v := by
    intro v e
    refine hm v ?_
    rw [← e]
    unfold Iges.hollerith; simp
  exact ⟨S, G, D, P, T, hw, hl, _, hi, fun e => key t (IgesItem.str.inj (Option.some.inj e)),
    fun e => key u (IgesItem.str.inj (Option.some.inj e))⟩

/-! ## Examples -/

example : PlainName "splines/part1.iges".toList := ⟨by decide, by decide, by decide⟩
example : ¬ PlainName "a,b.iges".toList := fun h => h.comma (by decide)

/-- 7 March 2019, five minutes past nine. -/
def exMoment : Iges.Tm := ⟨119, 2, 7, 9, 5, 0⟩

example : Moment exMoment := ⟨by decide, by decide, by decide, by decide, by decide, by decide⟩
example : Iges.stamp exMoment = "20190307.90500".toList := by decide +kernel
example : dateOf exMoment = "20190307.090500".toList := by decide +kernel

section
attribute [local instance] genHalfUp

theorem exIges_stamp : IgesWritable "a.igs".toList (Iges.stamp exMoment) (Iges.stamp exMoment) [exCurve, exNurbs, exNurbsSurface] :=
  ⟨exIges.wf, exIges.range, by decide +kernel, exIges.total⟩

example : ∃ S G D P T, Iges.writeFile "a.igs".toList (Iges.stamp exMoment) (Iges.stamp exMoment) [exCurve, exNurbs, exNurbsSurface] =
      .ok ((S ++ G ++ D ++ P ++ T).flatMap fun l => l ++ ['\n']) ∧ IgesLayout [exCurve, exNurbs, exNurbsSurface] S G D P T ∧
      ∃ items, igesParameters (G.flatMap fun l => l.take 72) = some items ∧ items[17]? ≠ some (.str (dateOf exMoment)) ∧
        items[24]? ≠ some (.str (dateOf exMoment)) :=
  C86_date_counterexample ⟨by decide, by decide, by decide, by decide, by decide, by decide⟩
    ⟨by decide, by decide, by decide, by decide, by decide, by decide⟩ exIges_stamp ⟨by decide, by decide, by decide⟩

end

end SplineLib
