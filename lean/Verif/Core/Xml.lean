import Verif.Model.Xml
import Verif.Core.IritBack
import Verif.Props.Irit

/-!
# The texts in a written XML document and what the reader makes of them (helper lemmas)
-/

namespace SplineLib
set_option linter.unusedSectionVars false
open Str Prn

/-- A text that starts with a separator. -/
def SepLead (r : List Char) : Prop := ∃ c s, r = c :: s ∧ splitSep ' ' c

theorem tokens_seps {a : List Char} (ha : ∀ c ∈ a, splitSep ' ' c) {r : List Char} {tr : List (List Char)}
    (hr : Tokens (splitSep ' ') r tr) : Tokens (splitSep ' ') (a ++ r) tr := by
  induction a with
  | nil => exact hr
  | cons c a ih => exact .sep (ha c (by simp)) (ih fun d hd => ha d (by simp [hd]))

theorem tokens_word_sep {w r : List Char} {tr : List (List Char)} (hw : Word w) (hl : SepLead r) (hr : Tokens (splitSep ' ') r tr) :
    Tokens (splitSep ' ') (w ++ r) (w :: tr) := by
  obtain ⟨c, s, rfl, hc⟩ := hl
  have h : Tokens (splitSep ' ') s tr := by
    rw [← split_iff] at hr ⊢
    rw [← hr]
    exact (tokens_split (.sep hc ((split_iff (d := ' ') (s := s)).1 rfl))).symm
  exact .tok hw.1 hw.2 hc h

theorem sepLead_append {a r : List Char} (ha : ∀ c ∈ a, splitSep ' ' c) (hr : SepLead r) : SepLead (a ++ r) := by
  cases a with
  | nil => exact hr
  | cons c a => exact ⟨c, a ++ r, rfl, ha c (by simp)⟩

theorem sepLead_left {a r : List Char} (ha : ∀ c ∈ a, splitSep ' ' c) (hne : a ≠ []) : SepLead (a ++ r) := by
  cases a with
  | nil => exact absurd rfl hne
  | cons c a => exact ⟨c, a ++ r, rfl, ha c (by simp)⟩

/-- Words surrounded by separators. -/
theorem tokens_items {pre post : List Char} (h1 : ∀ c ∈ pre, splitSep ' ' c) (h2 : ∀ c ∈ post, splitSep ' ' c)
    (hne : pre ≠ [] ∨ post ≠ []) {r : List Char} {tr : List (List Char)} (hl : SepLead r) (hr : Tokens (splitSep ' ') r tr)
    {ws : List (List Char)} (hw : ∀ w ∈ ws, Word w) :
    Tokens (splitSep ' ') (ws.flatMap (fun w => pre ++ (w ++ post)) ++ r) (ws ++ tr) ∧
      (pre ≠ [] → SepLead (ws.flatMap (fun w => pre ++ (w ++ post)) ++ r)) := by
  induction ws with
  | nil => exact ⟨hr, fun _ => hl⟩
  | cons w ws ih =>
    obtain ⟨ih1, ih2⟩ := ih fun v hv => hw v (by simp [hv])
    rw [List.flatMap_cons, List.append_assoc, List.append_assoc, List.append_assoc]
    refine ⟨tokens_seps h1 (tokens_word_sep (hw w (by simp)) ?_ (tokens_seps h2 ih1)), fun hp => sepLead_left h1 hp⟩
    by_cases hp : post = []
    · subst hp
      exact ih2 (hne.resolve_right (by simp))
    · exact sepLead_left h2 hp

/-- A block that ends the text. -/
theorem tokens_tail {a : List Char} (ha : ∀ c ∈ a, splitSep ' ' c) : Tokens (splitSep ' ') a [] := by
  have := tokens_seps ha (r := []) .nil
  rwa [List.append_nil] at this

section
variable {K : Type} [LinearOrder K] [Field K] [IsStrictOrderedRing K] [DecPrinter K]

theorem word_double (x : K) : Word (doubleText x) := by
  have := word_doubleText x (a := []) (b := []) (by simp) (by simp)
  rwa [List.nil_append, List.append_nil] at this

theorem read_double_plain (x : K) (h : (doubleText x).length < 2 ^ 32) : stringToDouble K (doubleText x) = .ok (rd x) := by
  rw [← doubleLit_text] at h ⊢
  rw [C33_decimal_partial (K := K) (l := doubleLit x) ⟨natDigs_ne _, fun e he => by simp [doubleLit] at he, h⟩ (Or.inl rfl), doubleLit_value]

theorem mapM_map_ok {α β γ : Type} {f : β → M γ} {e : α → β} {g : α → γ} : ∀ (l : List α), (∀ x ∈ l, f (e x) = .ok (g x)) →
    (l.map e).mapM f = .ok (l.map g)
  | [], _ => rfl
  | x :: l, h => by
    rw [List.map_cons, List.mapM_cons, h x (by simp), ok_bind, mapM_map_ok l fun y hy => h y (by simp [hy]), ok_bind]; rfl

/-- The printed number is not longer than the code can read. -/
def Fits (x : K) : Prop := (doubleText x).length < 2 ^ 32

theorem numbers_eq {xs : List K} (hx : ∀ x ∈ xs, Fits x) {t : List Char} (ht : Tokens (splitSep ' ') t (xs.map doubleText)) :
    Xml.numbers K t = .ok (xs.map rd) := by
  unfold Xml.numbers
  rw [tokens_split ht]
  exact mapM_map_ok xs fun x h => read_double_plain x (hx x h)

theorem stoi_natText {n : ℕ} (h : n < 2 ^ 31) : stoi (natText n) = .ok (n : ℤ) := by
  have := stoi_digits (natDigs_ne n) (rest := []) (by simp) (by rw [natDigs_num]; exact h)
  rwa [List.append_nil, ← natText_eq, natDigs_num] at this

theorem intText_nat (n : ℕ) : intText (n : ℤ) = natText n := by
  unfold intText
  rw [if_neg (by omega)]; simp

/-- The text of the control points. -/
def rowsText (rows : List (List K)) : List Char :=
  rows.flatMap fun p => "\n      ".toList ++ p.flatMap fun x => doubleText x ++ "  ".toList

theorem tokens_rowsText (rows : List (List K)) {r : List Char} {tr : List (List Char)} (hl : SepLead r) (hr : Tokens (splitSep ' ') r tr) :
    Tokens (splitSep ' ') (rowsText rows ++ r) (rows.flatten.map doubleText ++ tr) ∧ SepLead (rowsText rows ++ r) := by
  have hnl : ∀ c ∈ "\n      ".toList, splitSep ' ' c := by decide
  induction rows with
  | nil => exact ⟨hr, hl⟩
  | cons p rows ih =>
    unfold rowsText at *
    rw [List.flatMap_cons, List.append_assoc, List.append_assoc, List.flatten_cons, List.map_append, List.append_assoc]
    refine ⟨tokens_seps hnl ?_, sepLead_left hnl (by decide)⟩
    have := (tokens_items (pre := []) (post := "  ".toList) (by simp) (by decide) (Or.inr (by decide)) ih.2 ih.1
      (ws := p.map doubleText) (by
        intro w hw
        obtain ⟨x, _, rfl⟩ := List.mem_map.1 hw
        exact word_double x)).1
    simpa [List.flatMap_map] using this

theorem tokens_numbers {pre post : List Char} (h1 : ∀ c ∈ pre, splitSep ' ' c) (h2 : ∀ c ∈ post, splitSep ' ' c)
    (hne : pre ≠ []) {e : List Char} (he : ∀ c ∈ e, splitSep ' ' c) (hne2 : e ≠ []) (xs : List K) :
    Tokens (splitSep ' ') ((xs.flatMap fun x => pre ++ (doubleText x ++ post)) ++ e) (xs.map doubleText) := by
  have := (tokens_items h1 h2 (Or.inl hne) (r := e) (tr := []) (by
    have := sepLead_left (r := []) he hne2
    rwa [List.append_nil] at this) (tokens_tail he) (ws := xs.map doubleText) (by
      intro w hw
      obtain ⟨x, _, rfl⟩ := List.mem_map.1 hw
      exact word_double x)).1
  simpa [List.flatMap_map] using this

theorem tokens_degrees (ps : List ℕ) :
    Tokens (splitSep ' ') ((ps.flatMap fun p => "\n      ".toList ++ natText p) ++ "\n    ".toList) (ps.map natText) := by
  have := (tokens_items (pre := "\n      ".toList) (post := []) (by decide) (by simp) (Or.inl (by decide)) (r := "\n    ".toList) (tr := [])
    ⟨'\n', "    ".toList, rfl, by decide⟩ (tokens_tail (by decide)) (ws := ps.map natText) (by
      intro w hw
      obtain ⟨x, _, rfl⟩ := List.mem_map.1 hw
      exact word_natText x)).1
  simpa [List.flatMap_map] using this

/-- The rows of the control points. -/
def cpRows (s : Spl K) : List (List K) := (List.range (npts s).prod).map (cpRow s.ph)

theorem cpRows_length (s : Spl K) : (cpRows s).length = (npts s).prod := by simp [cpRows]

theorem cpRows_dims (s : Spl K) : ∀ q ∈ cpRows s, q.length = s.ph.dim := by
  intro q hq
  obtain ⟨k, _, rfl⟩ := List.mem_map.1 hq
  simp [cpRow]

theorem cpRows_flatten {s : Spl K} (h : WFSpl s) : (cpRows s).flatten = s.ph.cps := by
  have hl := flatten_length' (cpRows_dims s)
  rw [cpRows_length, ← h.cps] at hl
  refine List.ext_getElem? fun i => ?_
  by_cases hi : i < s.ph.cps.length
  · have hi2 : i < s.ph.dim * (npts s).prod := by rw [← h.cps]; exact hi
    have e := flatten_getD (cpRows_dims s) (i := i / s.ph.dim) (Nat.mod_lt i h.dim)
    rw [Nat.div_add_mod] at e
    have hk : i / s.ph.dim < (npts s).prod := Nat.div_lt_of_lt_mul hi2
    have e2 : ((cpRows s).getD (i / s.ph.dim) []).getD (i % s.ph.dim) 0 = s.ph.cps.getD i 0 := by
      simp [cpRows, List.getD_eq_getElem?_getD, hk, cpRow, Nat.mod_lt i h.dim, Nat.div_add_mod]
    rw [e2] at e
    simpa [List.getD_eq_getElem?_getD, hi, hl] using e
  · rw [List.getElem?_eq_none (by omega), List.getElem?_eq_none (by omega)]

theorem controlPointVars_eq {s : Spl K} (h : WFSpl s) :
    Xml.controlPointVars s.ph = .ok (.elem "cntrlPntVars".toList [] [.pcdata (rowsText (cpRows s) ++ "\n    ".toList)]) := by
  have e : upLoop (Xml.pointText s.ph) (MIH.mk' s.ph.num).length1D.toNat (MIH.mk' s.ph.num) [] = .ok (rowsText (cpRows s)) := by
    rw [h.num]
    unfold rowsText cpRows
    rw [List.flatMap_map]
    refine upLoop_fun (ns := npts s) (fun k => (List.range k).flatMap fun k =>
      "\n      ".toList ++ (cpRow s.ph k).flatMap fun x => doubleText x ++ "  ".toList) ?_
    intro k hk
    unfold Xml.pointText
    have e1 : s.ph.getCP (zl (unlin (npts s) k)) = .ok (cpRow s.ph k) := by
      rw [getCP_eq h.num h.cps (unlin_inBox (prod_pos_iff.1 (by omega)) k), lin_unlin hk]; rfl
    simp only [e1, ok_bind]
    rw [List.range_succ, List.flatMap_append, List.flatMap_singleton]
    rfl
  unfold Xml.controlPointVars
  dsimp only
  rw [e]; rfl

theorem weightsNode_eq {s : Spl K} (h : WFSpl s) {w : List K} (hw : s.ph.weights = some w) :
    Xml.weightsNode s.ph = .ok (.elem "wght".toList [] [.pcdata
      ((w.flatMap fun x => "\n      ".toList ++ (doubleText x ++ "  ".toList)) ++ "\n    ".toList)]) := by
  have hl := (h.weights w hw).1
  have e : upLoop (Xml.weightText s.ph) (MIH.mk' s.ph.num).length1D.toNat (MIH.mk' s.ph.num) [] =
      .ok (w.flatMap fun x => "\n      ".toList ++ (doubleText x ++ "  ".toList)) := by
    have ew : w = (List.range (npts s).prod).map fun k => w.getD k 0 := by
      refine List.ext_getElem? fun i => ?_
      by_cases hi : i < w.length
      · simp [hi, List.getD_eq_getElem?_getD, ← hl]
      · simp [hi, ← hl]
    rw [h.num]
    conv_rhs => rw [ew]
    rw [List.flatMap_map]
    refine upLoop_fun (ns := npts s) (fun k => (List.range k).flatMap fun k =>
      "\n      ".toList ++ (doubleText (w.getD k 0) ++ "  ".toList)) ?_
    intro k hk
    unfold Xml.weightText
    have e2 : s.ph.getWeight (zl (unlin (npts s) k)) = .ok (w.getD k 0) := by
      rw [pgetWeight h.num (fun v hv => by rw [hw] at hv; cases hv; rw [lin_unlin hk, hl]; exact hk), pwgt, hw, lin_unlin hk]
    simp only [e2, ok_bind]
    rw [List.range_succ, List.flatMap_append, List.flatMap_singleton]
    rfl
  unfold Xml.weightsNode
  dsimp only
  rw [e]; rfl

/-- The children of the entry of a spline. -/
def entryChildren (s : Spl K) : List Xml.Node :=
  Xml.varNames s.ph.dim :: .elem "cntrlPntVars".toList [] [.pcdata (rowsText (cpRows s) ++ "\n    ".toList)] ::
    ((match s.ph.weights with
      | none => []
      | some w => [.elem "wght".toList [] [.pcdata
          ((w.flatMap fun x => "\n      ".toList ++ (doubleText x ++ "  ".toList)) ++ "\n    ".toList)]]) ++
      [Xml.degreesNode s.ps.degree, Xml.knotVectorsNode s.ps.knots])

/-- The entry of a spline. -/
def entry (s : Spl K) : Xml.Node :=
  .elem "SplineEntry".toList (Xml.splineAttributes s.ps.knots.length s.ph.dim ((npts s).prod : ℕ)) (entryChildren s)

theorem splineNode_eq {s : Spl K} (h : WFSpl s) : Xml.splineNode s = .ok (entry s) := by
  unfold Xml.splineNode entry entryChildren
  have hn : s.ph.numCPs = .ok ((npts s).prod : ℕ) := by
    unfold Phys.numCPs
    rw [if_neg h.dim.ne', h.cps]
    congr 1
    rw [Int.tdiv_eq_ediv_of_nonneg (by positivity)]
    push_cast
    exact Int.mul_ediv_cancel_left _ (by have := h.dim; omega)
  rw [hn, controlPointVars_eq h]
  simp only [ok_bind]
  cases hw : s.ph.weights with
  | none => rfl
  | some w =>
    simp only
    rw [weightsNode_eq h hw]; rfl

theorem addSpline_xml {s : Spl K} (h : WFSpl s) (hD : 1 ≤ s.ps.knots.length ∧ s.ps.knots.length ≤ 4) :
    Xml.addSpline s = .ok (entry s) := by
  unfold Xml.addSpline
  rw [if_pos hD, splineNode_eq h]

theorem coordinatePosition_names (d : ℕ) :
    Xml.coordinatePosition (Xml.Node.value (Xml.Node.firstChild (some (Xml.varNames d)))) = 0 := by
  unfold Xml.varNames
  split_ifs <;> rfl

/-- What the reader finds under each name. -/
theorem child_names (s : Spl K) : Xml.Node.child (some (entry s)) "cntrlPntVarNames".toList = some (Xml.varNames s.ph.dim) := rfl

theorem child_vars (s : Spl K) : Xml.Node.child (some (entry s)) "cntrlPntVars".toList =
    some (.elem "cntrlPntVars".toList [] [.pcdata (rowsText (cpRows s) ++ "\n    ".toList)]) := rfl

theorem child_wght (s : Spl K) : Xml.Node.child (some (entry s)) "wght".toList = s.ph.weights.map fun w =>
    .elem "wght".toList [] [.pcdata ((w.flatMap fun x => "\n      ".toList ++ (doubleText x ++ "  ".toList)) ++ "\n    ".toList)] := by
  unfold entry entryChildren
  cases s.ph.weights <;> rfl

theorem child_deg (s : Spl K) : Xml.Node.child (some (entry s)) "deg".toList = some (Xml.degreesNode s.ps.degree) := by
  unfold entry entryChildren
  cases s.ph.weights <;> rfl

theorem child_knots (s : Spl K) : Xml.Node.child (some (entry s)) "kntVecs".toList = some (Xml.knotVectorsNode s.ps.knots) := by
  unfold entry entryChildren
  cases s.ph.weights <;> rfl

/-- The sizes and numbers of the spline fit into the types of the reader. -/
structure FitsSpl (s : Spl K) : Prop where
  points : (npts s).prod < 2 ^ 31
  dim : s.ph.dim < 2 ^ 31
  knots : ∀ U ∈ s.ps.knots, ∀ x ∈ U, Fits x
  cps : ∀ x ∈ s.ph.cps, Fits x
  weights : ∀ w, s.ph.weights = some w → ∀ x ∈ w, Fits x

theorem readPoints_xml {s : Spl K} (h : WFSpl s) (hf : FitsSpl s) :
    Xml.readPoints K (some (entry s)) = .ok ((cpRows s).map fun q => q.map rd) := by
  have hv : Xml.numbers K (rowsText (cpRows s) ++ "\n    ".toList) = .ok ((cpRows s).flatten.map rd) := by
    refine numbers_eq (fun x hx => hf.cps x (by rwa [cpRows_flatten h] at hx)) ?_
    have := (tokens_rowsText (cpRows s) (r := "\n    ".toList) (tr := []) ⟨'\n', "    ".toList, rfl, by decide⟩ (tokens_tail (by decide))).1
    rwa [List.append_nil] at this
  unfold Xml.readPoints
  rw [child_vars, child_names, coordinatePosition_names]
  have a1 : Xml.Node.attr (some (entry s)) "spaceDim".toList = natText s.ph.dim := intText_nat _
  have a2 : Xml.Node.attr (some (entry s)) "numOfCntrlPntVars".toList = natText s.ph.dim := intText_nat _
  have a3 : Xml.Node.attr (some (entry s)) "numCntrlPnts".toList = natText (npts s).prod := intText_nat _
  rw [a1, a2, a3, stoi_natText hf.dim, stoi_natText hf.points]
  have hv' : Xml.numbers K (Xml.Node.value (Xml.Node.firstChild
      (some (.elem "cntrlPntVars".toList [] [.pcdata (rowsText (cpRows s) ++ "\n    ".toList)])))) = .ok ((cpRows s).flatten.map rd) := hv
  rw [hv']
  simp only [ok_bind, Int.toNat_natCast, Nat.zero_add]
  rw [buildList_eq (g := fun i => (List.range s.ph.dim).map fun j => rd (s.ph.cps.getD (s.ph.dim * i + j) 0))]
  · simp [cpRows, cpRow]
  · intro i hi
    refine buildList_eq fun j hj => ?_
    rw [show (i : ℤ) * (s.ph.dim : ℤ) + (j : ℤ) = ((s.ph.dim * i + j : ℕ) : ℤ) by push_cast; ring, getI_nat, cpRows_flatten h]
    have hlt : s.ph.dim * i + j < s.ph.cps.length := by
      rw [h.cps]
      calc s.ph.dim * i + j < s.ph.dim * i + s.ph.dim := by omega
        _ = s.ph.dim * (i + 1) := by ring
        _ ≤ _ := Nat.mul_le_mul_left _ (by omega)
    rw [getN_of_lt (by simpa using hlt)]
    simp [List.getD_eq_getElem?_getD, hlt]

theorem readKnots_xml {s : Spl K} (hf : FitsSpl s) :
    Xml.readKnotVectors K s.ps.knots.length (some (entry s)) = .ok (s.ps.knots.map fun U => U.map rd) := by
  unfold Xml.readKnotVectors
  rw [child_knots]
  rw [buildList_eq (g := fun i => (s.ps.knots.getD i []).map rd)]
  · congr 1
    refine List.ext_getElem? fun i => ?_
    by_cases hi : i < s.ps.knots.length
    · simp [hi, List.getD_eq_getElem?_getD]
    · simp [hi]
  · intro i hi
    have e : (Xml.Node.childList (some (Xml.knotVectorsNode s.ps.knots)))[i]? = some (Xml.knotsNode s.ps.knots[i]) := by
      simp [Xml.Node.childList, Xml.knotVectorsNode, hi]
    rw [e, show s.ps.knots.getD i [] = s.ps.knots[i] by simp [List.getD_eq_getElem?_getD, hi]]
    refine numbers_eq (hf.knots _ (List.getElem_mem hi)) ?_
    have := tokens_numbers (pre := "\n        ".toList) (post := []) (by decide) (by simp) (by decide) (e := "\n      ".toList) (by decide)
      (by decide) s.ps.knots[i]
    simp only [List.append_nil] at this
    exact this

theorem degree_lt_prod {s : Spl K} (h : WFSpl s) : ∀ p ∈ s.ps.degree, p < (npts s).prod := by
  intro p hp
  have hpos := npts_prod_pos h
  have key : ∀ {Us : List (List K)} {ps : List ℕ}, List.Forall₂ WFKnots Us ps → p ∈ ps → ∃ n ∈ nptsOf Us ps, p < n := by
    intro Us ps hk
    induction hk with
    | nil => simp
    | @cons U q Us ps h1 _ ih =>
      intro hm
      have hs := h1.size
      rcases List.mem_cons.1 hm with rfl | hm
      · exact ⟨U.length - p - 1, by simp [nptsOf], by omega⟩
      · obtain ⟨n, hn, hpn⟩ := ih hm
        exact ⟨n, by simp only [nptsOf, List.zipWith_cons_cons, List.mem_cons] at *; exact Or.inr hn, hpn⟩
  obtain ⟨n, hn, hpn⟩ := key h.knots hp
  exact lt_of_lt_of_le hpn (Nat.le_of_dvd hpos (List.dvd_prod (by rw [npts_eq]; exact hn)))

theorem readDegrees_xml {s : Spl K} (h : WFSpl s) (hf : FitsSpl s) :
    Xml.readDegrees s.ps.knots.length (some (entry s)) = .ok s.ps.degree := by
  have hdl : s.ps.degree.length = s.ps.knots.length := h.knots.length_eq.symm
  unfold Xml.readDegrees
  rw [child_deg]
  have e : split (Xml.Node.value (Xml.Node.firstChild (some (Xml.degreesNode s.ps.degree)))) ' ' = s.ps.degree.map natText :=
    tokens_split (tokens_degrees s.ps.degree)
  rw [e]
  dsimp only
  rw [← hdl, buildList_eq (g := fun i => s.ps.degree.getD i 0)]
  · congr 1
    refine List.ext_getElem? fun i => ?_
    by_cases hi : i < s.ps.degree.length
    · simp [hi, List.getD_eq_getElem?_getD]
    · simp [hi]
  · intro i hi
    rw [getN_of_lt (by simpa using hi), ok_bind, List.getElem_map,
      stoi_natText (lt_of_lt_of_le (degree_lt_prod h _ (List.getElem_mem hi)) hf.points.le), ok_bind, if_neg (by omega)]
    simp [List.getD_eq_getElem?_getD, hi, pure_ok]

theorem readWeights_xml {s : Spl K} (hf : FitsSpl s) {w : List K} (hw : s.ph.weights = some w) :
    Xml.readWeights K (some (entry s)) = .ok (w.map rd) := by
  unfold Xml.readWeights
  rw [child_wght, hw]
  exact numbers_eq (hf.weights w hw) (tokens_numbers (by decide) (by decide) (by decide) (by decide) (by decide) w)

/-- The spline that is read back. -/
def backXml (s : Spl K) : M (Spl K) :=
  match s.ph.weights with
  | none => Spl.newBSpline (s.ps.knots.map fun U => U.map rd) s.ps.degree ((cpRows s).map fun q => q.map rd)
  | some w => Spl.newNurbs (s.ps.knots.map fun U => U.map rd) s.ps.degree ((cpRows s).map fun q => q.map rd) (w.map rd)

theorem readEntry_eq {s : Spl K} (h : WFSpl s) (hf : FitsSpl s) (hD : 1 ≤ s.ps.knots.length ∧ s.ps.knots.length ≤ 4) :
    Xml.readEntry K (entry s) = (backXml s).bind fun r => .ok [r] := by
  have a1 : Xml.Node.attr (some (entry s)) "splDim".toList = natText s.ps.knots.length := intText_nat _
  unfold Xml.readEntry
  rw [readPoints_xml h hf, a1, stoi_natText (by omega)]
  simp only [ok_bind]
  rw [if_pos (by omega), Int.toNat_natCast]
  have : Xml.readSpline K s.ps.knots.length (some (entry s)) ((cpRows s).map fun q => q.map rd) = backXml s := by
    unfold Xml.readSpline backXml
    rw [readKnots_xml hf, readDegrees_xml h hf]
    simp only [ok_bind]
    rw [child_wght]
    cases hw : s.ph.weights with
    | none => rfl
    | some w => simp only [Option.map_some]; rw [readWeights_xml hf hw]; rfl
  rw [this]; rfl

end
end SplineLib
