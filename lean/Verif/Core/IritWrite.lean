import Verif.Model.Irit
import Verif.Core.Printing
import Verif.Core.Construct

/-!
# The entries of a written IRIT file (helper lemmas)
-/

namespace SplineLib
set_option linter.unusedSectionVars false
open Str Prn

/-! ### Tokens -/

/-- A non-empty text without separators. -/
def Word (t : List Char) : Prop := t ≠ [] ∧ ∀ c ∈ t, ¬ splitSep ' ' c

instance (d c : Char) : Decidable (splitSep d c) := inferInstanceAs (Decidable (c = '\n' ∨ c = d))

/-- A text that is empty or starts with a blank. -/
def Lead (r : List Char) : Prop := r = [] ∨ ∃ s, r = ' ' :: s

theorem Word.tokens {t r : List Char} {tr : List (List Char)} (h : Word t) (hl : Lead r) (hr : Tokens (splitSep ' ') r tr) :
    Tokens (splitSep ' ') (t ++ r) (t :: tr) := by
  rcases hl with rfl | ⟨s, rfl⟩
  · rw [List.append_nil, ← tokens_split hr]
    exact .last h.1 h.2
  · refine .tok h.1 h.2 (Or.inr rfl) ?_
    rw [← tokens_split hr]
    have : split (' ' :: s) ' ' = split s ' ' := tokens_split (.sep (Or.inr rfl) (split_iff.1 rfl))
    rw [this]
    exact split_iff.1 rfl

theorem tokens_blank {r : List Char} {tr : List (List Char)} (hr : Tokens (splitSep ' ') r tr) :
    Tokens (splitSep ' ') (' ' :: r) tr := .sep (Or.inr rfl) hr

theorem tokens_blanks {r : List Char} {tr : List (List Char)} (hr : Tokens (splitSep ' ') r tr) (n : ℕ) :
    Tokens (splitSep ' ') (List.replicate n ' ' ++ r) tr := by
  induction n with
  | zero => exact hr
  | succ n ih => exact tokens_blank ih

theorem tokens_words {ws : List (List Char)} (hw : ∀ w ∈ ws, Word w) {r : List Char} {tr : List (List Char)}
    (hr : Tokens (splitSep ' ') r tr) : Tokens (splitSep ' ') (ws.flatMap (fun w => w ++ [' ']) ++ r) (ws ++ tr) := by
  induction ws with
  | nil => exact hr
  | cons w ws ih =>
    have := (hw w (by simp)).tokens (r := ' ' :: (ws.flatMap (fun w => w ++ [' ']) ++ r)) (Or.inr ⟨_, rfl⟩)
      (tokens_blank (ih fun v hv => hw v (by simp [hv])))
    simpa using this

theorem tokens_short {p : Char → Prop} {s : List Char} {ts : List (List Char)} (h : Tokens p s ts) : ∀ t ∈ ts, t.length ≤ s.length := by
  induction h with
  | nil => simp
  | sep _ _ ih => intro t ht; have := ih t ht; simp; omega
  | last => intro t ht; simp at ht; simp [ht]
  | tok _ _ _ _ ih =>
    intro t ht
    rcases List.mem_cons.1 ht with rfl | ht
    · simp
    · have := ih t ht; simp; omega

/-- The text without line ends. -/
def strip (s : List Char) : List Char := s.filter (· ≠ '\n')

theorem getlinesFrom_flatten (s : List Char) : ∀ cur, (getlinesFrom '\n' cur s).flatten = cur ++ strip s := by
  induction s with
  | nil => intro cur; cases cur <;> simp [getlinesFrom, strip]
  | cons c s ih =>
    intro cur
    rw [getlinesFrom]
    by_cases hc : c = '\n'
    · simp [hc, strip, ih]
    · simp [hc, strip, ih]

theorem getlines_flatten (s : List Char) : (getlines '\n' s).flatten = strip s := getlinesFrom_flatten s []

theorem strip_append (a b : List Char) : strip (a ++ b) = strip a ++ strip b := by simp [strip]

theorem strip_word {a : List Char} (h : ∀ c ∈ a, c ≠ '\n') : strip a = a := by simpa [strip] using h

theorem strip_length (a : List Char) : (strip a).length ≤ a.length := List.length_filter_le _ _

theorem strip_flatMap {α : Type} (l : List α) (f : α → List Char) : strip (l.flatMap f) = l.flatMap fun a => strip (f a) := by
  induction l with
  | nil => rfl
  | cons a l ih => simp only [List.flatMap_cons, strip_append, ih]

/-! ### Words of the writer -/

theorem word_natText (n : ℕ) : Word (natText n) :=
  ⟨natText_ne n, fun c hc h => by
    obtain ⟨h1, _, _, _, h2, _⟩ := natText_chars n c hc
    exact h.elim h1 h2⟩

section
variable {K : Type} [Field K] [DecPrinter K]

theorem word_doubleText (x : K) {a b : List Char} (ha : ∀ c ∈ a, c = '[') (hb : ∀ c ∈ b, c = ']') : Word (a ++ doubleText x ++ b) := by
  refine ⟨by simp only [ne_eq, List.append_eq_nil_iff, not_and]; exact fun h _ => doubleText_ne x h.2, fun c hc h => ?_⟩
  rcases List.mem_append.1 hc with hc | hc
  · rcases List.mem_append.1 hc with hc | hc
    · rw [ha c hc] at h; revert h; unfold splitSep; decide
    · obtain ⟨h1, _, _, _, h2, _⟩ := doubleText_chars x c hc
      exact h.elim h1 h2
  · rw [hb c hc] at h; revert h; unfold splitSep; decide

/-- The entries of a sequence of numbers, the first one preceded by `a`, the last one followed by "]". -/
def listToks (a : List Char) : List K → List (List Char)
  | [] => []
  | [x] => [a ++ doubleText x ++ [']']]
  | x :: y :: xs => (a ++ doubleText x ++ []) :: listToks [] (y :: xs)

end

section
variable {K : Type} [LinearOrder K] [Field K] [DecPrinter K]

theorem strip_doubleText (x : K) : strip (doubleText x) = doubleText x := strip_word fun c hc => (doubleText_chars x c hc).1

theorem strip_natText (n : ℕ) : strip (natText n) = natText n := strip_word fun c hc => (natText_chars n c hc).1

theorem tokens_listText {xs : List K} (hx : xs ≠ []) {a : List Char} (ha : ∀ c ∈ a, c = '[') {r : List Char} {tr : List (List Char)}
    (hl : Lead r) (hr : Tokens (splitSep ' ') r tr) :
    Tokens (splitSep ' ') (a ++ (strip (Irit.listText xs) ++ r)) (listToks a xs ++ tr) := by
  induction xs generalizing a with
  | nil => exact absurd rfl hx
  | cons x xs ih =>
    cases xs with
    | nil =>
      have := (word_doubleText x ha (b := [']']) (by simp)).tokens hl hr
      have e : strip (Irit.listText [x]) = doubleText x ++ [']'] := by
        rw [Irit.listText, strip_append, strip_doubleText]; rfl
      rw [e, listToks]
      simpa using this
    | cons y xs =>
      have h1 := ih (by simp) (a := []) (by simp)
      have := (word_doubleText x ha (b := []) (by simp)).tokens (Or.inr ⟨_, rfl⟩) (tokens_blank h1)
      have e : strip (Irit.listText (x :: y :: xs)) = doubleText x ++ ' ' :: strip (Irit.listText (y :: xs)) := by
        rw [Irit.listText, strip_append, strip_doubleText]; simp [strip]
      rw [e, listToks]
      simpa using this

/-- The entries of the knot vectors. -/
def kvToks (Us : List (List K)) : List (List Char) := Us.flatMap fun U => "[KV".toList :: listToks [] U

/-- The entries of the control points. -/
def rowToks (rows : List (List K)) : List (List Char) := rows.flatMap fun r => listToks ['['] r

theorem tokens_kv {Us : List (List K)} (h : ∀ U ∈ Us, U ≠ []) {r : List Char} {tr : List (List Char)}
    (hl : Lead r) (hr : Tokens (splitSep ' ') r tr) :
    Tokens (splitSep ' ') (strip (Us.flatMap fun U => "      [KV ".toList ++ Irit.listText U) ++ r) (kvToks Us ++ tr) ∧
      Lead (strip (Us.flatMap fun U => "      [KV ".toList ++ Irit.listText U) ++ r) := by
  induction Us with
  | nil => exact ⟨hr, hl⟩
  | cons U Us ih =>
    obtain ⟨h1, h2⟩ := ih fun V hV => h V (by simp [hV])
    have h3 := tokens_listText (h U (by simp)) (a := []) (by simp) h2 h1
    have h4 := Word.tokens (t := "[KV".toList) ⟨by decide, by decide⟩ (Or.inr ⟨_, rfl⟩) (tokens_blank h3)
    have h5 := tokens_blanks h4 6
    have e : strip "      [KV ".toList = List.replicate 6 ' ' ++ ("[KV".toList ++ [' ']) := by decide
    rw [List.flatMap_cons, strip_append, strip_append, e]
    refine ⟨?_, Or.inr ⟨_, rfl⟩⟩
    simpa [kvToks] using h5

theorem tokens_rows {rows : List (List K)} (h : ∀ U ∈ rows, U ≠ []) {r : List Char} {tr : List (List Char)}
    (hl : Lead r) (hr : Tokens (splitSep ' ') r tr) :
    Tokens (splitSep ' ') (strip (rows.flatMap fun U => "      [".toList ++ Irit.listText U) ++ r) (rowToks rows ++ tr) ∧
      Lead (strip (rows.flatMap fun U => "      [".toList ++ Irit.listText U) ++ r) := by
  induction rows with
  | nil => exact ⟨hr, hl⟩
  | cons U Us ih =>
    obtain ⟨h1, h2⟩ := ih fun V hV => h V (by simp [hV])
    have h3 := tokens_listText (h U (by simp)) (a := ['[']) (by simp) h2 h1
    have h5 := tokens_blanks h3 6
    have e : strip "      [".toList = List.replicate 6 ' ' ++ ['['] := by decide
    rw [List.flatMap_cons, strip_append, strip_append, e]
    refine ⟨?_, Or.inr ⟨_, rfl⟩⟩
    simpa [rowToks] using h5

variable [IsStrictOrderedRing K]

/-- Coordinates of the `k`-th control point. -/
def cpRow (ph : Phys K) (k : ℕ) : List K := (List.range ph.dim).map fun c => ph.cps.getD (ph.dim * k + c) 0

/-- The numbers that are written for the `k`-th control point. -/
def homRow (ph : Phys K) (k : ℕ) : List K :=
  match ph.weights with
  | none => (cpRow ph k).map (· * 1)
  | some w => w.getD k 0 :: (cpRow ph k).map (· * w.getD k 0)

theorem cpRow_ne {ph : Phys K} (hd : 0 < ph.dim) (k : ℕ) : cpRow ph k ≠ [] := by
  unfold cpRow; simp; omega

theorem homRow_ne {ph : Phys K} (hd : 0 < ph.dim) (k : ℕ) : homRow ph k ≠ [] := by
  unfold homRow; split <;> simp [cpRow_ne hd]

theorem pointsText_eq {ph : Phys K} {ns : List ℕ} (hn : ph.num = zl ns) (hd : 0 < ph.dim) (hl : ph.cps.length = ph.dim * ns.prod)
    (hw : ∀ w, ph.weights = some w → w.length = ns.prod) :
    Irit.pointsText ph = .ok (((List.range ns.prod).map (homRow ph)).flatMap fun r => "      [".toList ++ Irit.listText r) := by
  unfold Irit.pointsText
  dsimp only
  rw [hn, List.flatMap_map]
  refine upLoop_fun (ns := ns) (fun k => (List.range k).flatMap fun k => "      [".toList ++ Irit.listText (homRow ph k)) ?_
  intro k hk
  unfold Irit.pointText
  have hlin := lin_unlin hk
  have e1 : ph.getCP (zl (unlin ns k)) = .ok (cpRow ph k) := by
    rw [getCP_eq hn hl (unlin_inBox (prod_pos_iff.1 (by omega)) k), hlin]; rfl
  simp only [e1, ok_bind]
  rw [List.range_succ, List.flatMap_append, List.flatMap_singleton]
  cases hw' : ph.weights with
  | none => simp only [homRow, hw']; rfl
  | some w =>
    have e2 : ph.getWeight (zl (unlin ns k)) = .ok (w.getD k 0) := by
      rw [pgetWeight hn (fun v hv => by rw [hlin, hw v hv]; exact hk), pwgt, hw', hlin]
    simp only [e2, ok_bind, homRow, hw']
    obtain ⟨y, ys, hy⟩ := List.exists_cons_of_ne_nil (cpRow_ne hd k)
    rw [hy, List.map_cons, Irit.listText]
    rfl

/-- The word that stands for the number of directions. -/
def kindWord (D : ℕ) : List Char := if D = 1 then "[CURVE".toList else if D = 2 then "[SURFACE".toList else "[TRIVAR".toList

/-- The entries from the kind of the spline to the type of the points. -/
def headToks (s : Spl K) : List (List Char) :=
  kindWord s.ps.knots.length :: "BSPLINE".toList ::
    ((npts s).map natText ++ (s.ps.degree.map (fun p => natText (p + 1)) ++ [Irit.pointType s.ph]))

/-- The entries of a spline. -/
def splToks (s : Spl K) : List (List Char) :=
  headToks s ++ (kvToks s.ps.knots ++ rowToks ((List.range (npts s).prod).map (homRow s.ph)))

theorem word_pointType (ph : Phys K) : Word (Irit.pointType ph) := by
  refine ⟨by simp [Irit.pointType], fun c hc h => ?_⟩
  unfold Irit.pointType at hc
  rcases List.mem_cons.1 hc with rfl | hc
  · revert h; unfold splitSep; split <;> decide
  · exact (word_natText _).2 c hc h

theorem word_kind (D : ℕ) : Word (kindWord D) := by
  unfold kindWord
  split
  · exact ⟨by decide, by decide⟩
  · split <;> exact ⟨by decide, by decide⟩

/-- The text of a spline. -/
def splText (s : Spl K) : List Char :=
  kindWord s.ps.knots.length ++ (" BSPLINE ".toList ++ (Irit.numbersText s ++ (Irit.orderText s ++ (Irit.pointType s.ph ++
    ('\n' :: (Irit.knotsText s ++ ((List.range (npts s).prod).map (homRow s.ph)).flatMap fun r => "      [".toList ++ Irit.listText r))))))

theorem addSpline_eq {s : Spl K} (h : WFSpl s) (hd : 1 ≤ s.ps.knots.length ∧ s.ps.knots.length ≤ 3) (number : ℕ) :
    Irit.addSpline s number = .ok ("  [OBJECT SPLINE".toList ++ (natText (number + 1) ++ ("\n    ".toList ++
      (splText s ++ "    ]\n  ]\n".toList)))) := by
  have e := pointsText_eq h.num h.dim h.cps fun w hw => (h.weights w hw).1
  have key : ∀ kind, Irit.splineText kind s = .ok (kind ++ (" BSPLINE ".toList ++ (Irit.numbersText s ++ (Irit.orderText s ++
      (Irit.pointType s.ph ++ ('\n' :: (Irit.knotsText s ++
        ((List.range (npts s).prod).map (homRow s.ph)).flatMap fun r => "      [".toList ++ Irit.listText r))))))) := by
    intro kind
    unfold Irit.splineText
    rw [e]; rfl
  unfold Irit.addSpline
  simp only [key]
  rcases (show s.ps.knots.length = 1 ∨ s.ps.knots.length = 2 ∨ s.ps.knots.length = 3 by omega) with h1 | h1 | h1 <;>
    rw [splText, h1] <;> rfl

theorem tokens_spl {s : Spl K} (h : WFSpl s) {r : List Char} {tr : List (List Char)} (hl : Lead r) (hr : Tokens (splitSep ' ') r tr) :
    Tokens (splitSep ' ') (strip (splText s) ++ r) (splToks s ++ tr) := by
  have hk : ∀ U ∈ s.ps.knots, U ≠ [] := by
    intro U hU hU0
    obtain ⟨i, hi, rfl⟩ := List.getElem_of_mem hU
    have := ((List.forall₂_iff_get.1 h.knots).2 i hi (by rw [← h.knots.length_eq]; exact hi)).size
    simp only [List.get_eq_getElem] at this
    rw [hU0] at this; simp at this
  have hrow : ∀ U ∈ (List.range (npts s).prod).map (homRow s.ph), U ≠ [] := by
    intro U hU
    obtain ⟨k, _, rfl⟩ := List.mem_map.1 hU
    exact homRow_ne h.dim k
  obtain ⟨a1, a2⟩ := tokens_rows hrow hl hr
  obtain ⟨b1, b2⟩ := tokens_kv hk a2 a1
  have c1 := (word_pointType s.ph).tokens b2 b1
  have d1 := tokens_words (ws := s.ps.degree.map fun p => natText (p + 1)) (by
    intro w hw; obtain ⟨p, _, rfl⟩ := List.mem_map.1 hw; exact word_natText _) c1
  have e1 := tokens_words (ws := (npts s).map natText) (by
    intro w hw; obtain ⟨p, _, rfl⟩ := List.mem_map.1 hw; exact word_natText _) d1
  have f1 := Word.tokens (t := "BSPLINE".toList) ⟨by decide, by decide⟩ (Or.inr ⟨_, rfl⟩) (tokens_blank e1)
  have g1 := (word_kind s.ps.knots.length).tokens (Or.inr ⟨_, rfl⟩) (tokens_blank f1)
  have n1 : strip (Irit.numbersText s) = ((npts s).map natText).flatMap fun w => w ++ [' '] := by
    unfold Irit.numbersText
    rw [h.num, strip_flatMap, List.flatMap_map, List.flatMap_map]
    congr 1
    funext n
    have : Prn.intText ((n : ℕ) : ℤ) = natText n := by
      unfold Prn.intText
      rw [if_neg (by omega)]; rfl
    rw [this, strip_append, strip_natText]; rfl
  have n2 : strip (Irit.orderText s) = (s.ps.degree.map fun p => natText (p + 1)).flatMap fun w => w ++ [' '] := by
    unfold Irit.orderText
    rw [strip_flatMap, List.flatMap_map]
    congr 1
    funext n
    rw [strip_append, strip_natText]; rfl
  have n3 : strip (Irit.pointType s.ph) = Irit.pointType s.ph := strip_word fun c hc h => (word_pointType s.ph).2 c hc (Or.inl h)
  have n4 : strip (kindWord s.ps.knots.length) = kindWord s.ps.knots.length :=
    strip_word fun c hc h => (word_kind _).2 c hc (Or.inl h)
  have n5 : strip " BSPLINE ".toList = ' ' :: ("BSPLINE".toList ++ [' ']) := by decide
  have n6 : ∀ l, strip ('\n' :: l) = strip l := fun l => by simp [strip]
  unfold splText splToks headToks
  simp only [strip_append, n1, n2, n3, n4, n5, n6]
  unfold Irit.knotsText
  simpa using g1

/-- The entries of the splines from number `n` on, up to the end of the file. -/
def fileToks : List (Spl K) → ℕ → List (List Char)
  | [], _ => []
  | [s], n => "[OBJECT".toList :: ("SPLINE".toList ++ natText (n + 1)) :: (splToks s ++ ["]".toList, "]]".toList])
  | s :: t :: rest, n =>
    "[OBJECT".toList :: ("SPLINE".toList ++ natText (n + 1)) :: (splToks s ++ "]".toList :: "]".toList :: fileToks (t :: rest) (n + 1))

theorem word_splineN (n : ℕ) : Word ("SPLINE".toList ++ natText n) := by
  refine ⟨by simp, fun c hc h => ?_⟩
  rcases List.mem_append.1 hc with hc | hc
  · exact (show ∀ c ∈ "SPLINE".toList, ¬ splitSep ' ' c by decide) c hc h
  · exact (word_natText n).2 c hc h

theorem tokens_block {s : Spl K} (h : WFSpl s) (n : ℕ) {e r : List Char} {tr : List (List Char)}
    (he : Word (']' :: e)) (hl : Lead r) (hr : Tokens (splitSep ' ') r tr) :
    Tokens (splitSep ' ') (strip ("  [OBJECT SPLINE".toList ++ (natText (n + 1) ++ ("\n    ".toList ++
        (splText s ++ "    ]\n  ]\n".toList)))) ++ (e ++ r))
      ("[OBJECT".toList :: ("SPLINE".toList ++ natText (n + 1)) :: (splToks s ++ "]".toList :: (']' :: e) :: tr)) := by
  have a1 := tokens_blanks (he.tokens hl hr) 2
  have a2 := Word.tokens (t := "]".toList) ⟨by decide, by decide⟩ (Or.inr ⟨_, rfl⟩) a1
  have a3 := tokens_spl h (Or.inr ⟨_, rfl⟩) (tokens_blanks a2 4)
  have a4 := (word_splineN (n + 1)).tokens (Or.inr ⟨_, rfl⟩) (tokens_blanks a3 4)
  have a5 := Word.tokens (t := "[OBJECT".toList) ⟨by decide, by decide⟩ (Or.inr ⟨_, rfl⟩) (tokens_blank a4)
  have a6 := tokens_blanks a5 2
  have n1 : strip "  [OBJECT SPLINE".toList = List.replicate 2 ' ' ++ ("[OBJECT".toList ++ ' ' :: "SPLINE".toList) := by decide
  have n2 : strip "\n    ".toList = List.replicate 4 ' ' := by decide
  have n3 : strip "    ]\n  ]\n".toList = List.replicate 4 ' ' ++ ("]".toList ++ (List.replicate 2 ' ' ++ [']'])) := by decide
  simp only [strip_append, n1, n2, n3, strip_natText]
  simpa using a6

theorem splinesText_ok {ss : List (Spl K)} (hne : ss ≠ [])
    (h : ∀ s ∈ ss, WFSpl s ∧ 1 ≤ s.ps.knots.length ∧ s.ps.knots.length ≤ 3) (n : ℕ) :
    ∃ t, Irit.splinesText ss n = .ok t ∧ Tokens (splitSep ' ') (strip t ++ [']']) (fileToks ss n) ∧
      ∃ u, strip t = ' ' :: u := by
  induction ss generalizing n with
  | nil => exact absurd rfl hne
  | cons s ss ih =>
    obtain ⟨h1, h2⟩ := h s (by simp)
    have e := addSpline_eq h1 h2 n
    have hlead : ∀ l, ∃ u, strip ("  [OBJECT SPLINE".toList ++ l) = ' ' :: u := fun l => by
      rw [strip_append]; exact ⟨_, rfl⟩
    cases ss with
    | nil =>
      refine ⟨_, e, ?_, hlead _⟩
      exact tokens_block h1 n (e := [']']) (r := []) ⟨by decide, by decide⟩ (Or.inl rfl) .nil
    | cons t ss =>
      obtain ⟨b, e1, e2, u, e3⟩ := ih (by simp) (fun x hx => h x (by simp [hx])) (n + 1)
      rw [Irit.splinesText, e, e1]
      refine ⟨_, rfl, ?_, ?_⟩
      · have hb : strip ('\n' :: b) = strip b := by simp [strip]
        have := tokens_block h1 n (e := []) (r := strip b ++ [']']) ⟨by decide, by decide⟩ (Or.inr ⟨u ++ [']'], by rw [e3]; rfl⟩) e2
        rw [strip_append, hb, List.append_assoc]
        exact this
      · rw [List.append_assoc]; exact hlead _

/-- The contents of the file and its entries. -/
theorem writeFile_ok {ss : List (Spl K)} (h : ∀ s ∈ ss, WFSpl s ∧ 1 ≤ s.ps.knots.length ∧ s.ps.knots.length ≤ 3) :
    ∃ t, Irit.writeFile ss = .ok t ∧
      Tokens (splitSep ' ') (strip t) (if ss = [] then ["[OBJECT".toList, "SPLINES]".toList]
        else "[OBJECT".toList :: "SPLINES".toList :: fileToks ss 0) := by
  by_cases hne : ss = []
  · subst hne
    refine ⟨_, rfl, ?_⟩
    have : strip ("[OBJECT SPLINES\n".toList ++ ([] ++ [']'])) = "[OBJECT".toList ++ (' ' :: ("SPLINES]".toList ++ [])) := by decide
    rw [this, if_pos rfl]
    exact Word.tokens ⟨by decide, by decide⟩ (Or.inr ⟨_, rfl⟩)
      (tokens_blank (Word.tokens ⟨by decide, by decide⟩ (Or.inl rfl) .nil))
  · obtain ⟨t, e1, e2, u, e3⟩ := splinesText_ok hne h 0
    unfold Irit.writeFile
    rw [e1, if_neg hne]
    refine ⟨_, rfl, ?_⟩
    have n1 : strip "[OBJECT SPLINES\n".toList = "[OBJECT".toList ++ (' ' :: "SPLINES".toList) := by decide
    have n2 : strip [']'] = [']'] := by decide
    have a1 := Word.tokens (t := "SPLINES".toList) ⟨by decide, by decide⟩ (Or.inr ⟨u ++ [']'], by rw [e3]; rfl⟩) e2
    have a2 := Word.tokens (t := "[OBJECT".toList) ⟨by decide, by decide⟩ (Or.inr ⟨_, rfl⟩) (tokens_blank a1)
    rw [strip_append, strip_append, n1, n2]
    simpa using a2

end
end SplineLib
