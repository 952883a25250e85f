import Verif.Core.IritRead

/-!
# Reading one written spline, and all of them (helper lemmas)
-/

namespace SplineLib
set_option linter.unusedSectionVars false
open Str Prn

section
variable {K : Type} [LinearOrder K] [Field K] [IsStrictOrderedRing K] [FloorRing K] [DecPrinter K]

/-- The control points that are read back. -/
def backPoints (s : Spl K) : List (List K) :=
  (List.range (npts s).prod).map fun k => match s.ph.weights with
    | none => (cpRow s.ph k).map rd
    | some w => (cpRow s.ph k).map fun x => rd (x * w.getD k 0) / rd (w.getD k 0)

/-- The weights that are read back. -/
def backWeights (w : List K) (n : ℕ) : List K := (List.range n).map fun k => rd (w.getD k 0)

theorem dimensionOf_kind {D : ℕ} (hD : 1 ≤ D ∧ D ≤ 3) : Irit.dimensionOf (kindWord D) = D := by
  rcases (show D = 1 ∨ D = 2 ∨ D = 3 by omega) with rfl | rfl | rfl <;> decide

omit [FloorRing K] [DecPrinter K] in
theorem npts_length {s : Spl K} (h : WFSpl s) : (npts s).length = s.ps.knots.length := by
  unfold npts
  rw [List.length_zipWith, ← h.knots.length_eq, Nat.min_self]

omit [FloorRing K] [DecPrinter K] in
theorem npts_prod_pos {s : Spl K} (h : WFSpl s) : 0 < (npts s).prod := by
  refine prod_pos_of ?_
  unfold npts
  have := h.knots
  clear h
  generalize s.ps.knots = Us, s.ps.degree = ps at this
  induction this with
  | nil => simp
  | cons h _ ih =>
    intro n hn
    rw [List.zipWith_cons_cons] at hn
    rcases List.mem_cons.1 hn with rfl | hn
    · have := h.size; omega
    · exact ih n hn

theorem readInt_natText {n : ℕ} (h : (natText n).length < 2 ^ 32) : Irit.readInt K (natText n) = .ok (n : ℤ) := by
  unfold Irit.readInt
  rw [read_nat n h]
  simp only [ok_bind, truncate_nat]
  rfl

theorem foldl_mul_map (l : List ℕ) : ∀ a : ℤ, (l.map fun n : ℕ => (n : ℤ)).foldl (· * ·) a = a * ((l.prod : ℕ) : ℤ) := by
  induction l with
  | nil => intro a; simp
  | cons b l ih =>
    intro a
    rw [List.map_cons, List.foldl_cons, ih, List.prod_cons]
    push_cast
    ring

/-- The reader up to the first entry of the control points, whatever follows. -/
theorem readSpline_head {s : Spl K} (h : WFSpl s) (hD : 1 ≤ s.ps.knots.length ∧ s.ps.knots.length ≤ 3)
    (hs : Short (headToks s ++ kvToks s.ps.knots)) {e : List Char} (hes1 : startsWith e ['['] = true)
    (hes2 : startsWith e "[KV".toList = false) (r' : List (List Char)) :
    Irit.readSpline K s.ps.knots.length (headToks s ++ (kvToks s.ps.knots ++ e :: r')) =
      (do
        let weights ← if s.ph.weights.isSome then Irit.readWeights K (npts s).prod (e :: r') else pure (List.replicate (npts s).prod 1)
        let points ← Irit.readPoints s.ph.weights.isSome weights (e :: r')
        if s.ph.weights.isSome then Spl.newNurbs (s.ps.knots.map fun U => U.map rd) s.ps.degree points weights
        else Spl.newBSpline (s.ps.knots.map fun U => U.map rd) s.ps.degree points) := by
  have hn := npts_length h
  have hdl : s.ps.degree.length = s.ps.knots.length := h.knots.length_eq.symm
  have hsh : Short (headToks s) := hs.left
  have hsk : Short (kvToks s.ps.knots) := hs.right
  -- the head
  have hhead : ∀ t ∈ headToks s, startsWith t "[KV".toList = false := by
    intro t ht
    refine startsWith_false (c := 'K') (by decide) ?_
    unfold headToks at ht
    simp only [List.mem_cons, List.mem_append, List.mem_map, List.not_mem_nil, or_false] at ht
    rcases ht with rfl | rfl | ⟨n, _, rfl⟩ | ⟨n, _, rfl⟩ | rfl
    · unfold kindWord; split
      · decide
      · split <;> decide
    · decide
    · exact fun hc => (natText_chars n _ hc).2.2.2.2.2.2.2 rfl
    · exact fun hc => (natText_chars _ _ hc).2.2.2.2.2.2.2 rfl
    · unfold Irit.pointType
      intro hc
      rcases List.mem_cons.1 hc with hc | hc
      · split at hc <;> simp at hc
      · exact (natText_chars _ _ hc).2.2.2.2.2.2.2 rfl
  have hhead2 : ∀ t ∈ (headToks s).tail, startsWith t ['['] = false := by
    intro t ht
    refine startsWith_false (c := '[') (by decide) ?_
    unfold headToks at ht
    simp only [List.tail_cons, List.mem_cons, List.mem_append, List.mem_map, List.not_mem_nil, or_false] at ht
    rcases ht with rfl | ⟨n, _, rfl⟩ | ⟨n, _, rfl⟩ | rfl
    · decide
    · exact fun hc => (natText_chars n _ hc).2.2.1 rfl
    · exact fun hc => (natText_chars _ _ hc).2.2.1 rfl
    · unfold Irit.pointType
      intro hc
      rcases List.mem_cons.1 hc with hc | hc
      · split at hc <;> simp at hc
      · exact (natText_chars _ _ hc).2.2.1 rfl
  -- entries at fixed positions
  have g0 : (headToks s ++ (kvToks s.ps.knots ++ e :: r'))[0]? = some (kindWord s.ps.knots.length) := by unfold headToks; rfl
  have g1 : ∀ i (hi : i < (npts s).length), (headToks s ++ (kvToks s.ps.knots ++ e :: r'))[2 + i]? = some (natText ((npts s)[i])) := by
    intro i hi
    unfold headToks
    rw [show 2 + i = i + 1 + 1 by omega]
    simp only [List.cons_append, List.getElem?_cons_succ, List.append_assoc]
    rw [List.getElem?_append_left (by simpa using hi)]
    simp [hi]
  have g2 : ∀ i (hi : i < s.ps.degree.length), (headToks s ++ (kvToks s.ps.knots ++ e :: r'))[s.ps.knots.length + 2 + i]? = some (natText (s.ps.degree[i] + 1)) := by
    intro i hi
    unfold headToks
    rw [show s.ps.knots.length + 2 + i = (s.ps.knots.length + i) + 1 + 1 by omega]
    simp only [List.cons_append, List.getElem?_cons_succ, List.append_assoc]
    rw [List.getElem?_append_right (by simp [hn]), List.length_map, hn, Nat.add_sub_cancel_left,
      List.getElem?_append_left (by simpa using hi)]
    simp [hi]
  have g3 : (headToks s ++ (kvToks s.ps.knots ++ e :: r'))[2 * s.ps.knots.length + 2]? = some (Irit.pointType s.ph) := by
    unfold headToks
    rw [show 2 * s.ps.knots.length + 2 = (s.ps.knots.length + s.ps.knots.length) + 1 + 1 by omega]
    simp only [List.cons_append, List.getElem?_cons_succ, List.append_assoc]
    rw [List.getElem?_append_right (by simp [hn]), List.length_map, hn, Nat.add_sub_cancel_left,
      List.getElem?_append_right (by simp [hdl]), List.length_map, hdl, Nat.sub_self]
    rfl
  -- the steps of the reader
  have s1 : Irit.readKnotVectors K s.ps.knots.length (headToks s ++ (kvToks s.ps.knots ++ e :: r')) = .ok (s.ps.knots.map fun U => U.map rd) := by
    exact readKnotVectors_eq hes1 r' s.ps.knots (headToks s) hhead hsk
  have s2 : Irit.readDegrees K s.ps.knots.length (headToks s ++ (kvToks s.ps.knots ++ e :: r')) = .ok s.ps.degree := by
    unfold Irit.readDegrees
    rw [buildList_eq (g := fun i => s.ps.degree.getD i 0)]
    · congr 1
      refine List.ext_getElem? fun i => ?_
      by_cases hi : i < s.ps.knots.length
      · simp [hi, List.getD_eq_getElem?_getD, show i < s.ps.degree.length by omega]
      · simp [hi, show ¬ i < s.ps.degree.length by omega]
    · intro i hi
      have hi' : i < s.ps.degree.length := by omega
      rw [getN_some (g2 i hi')]
      simp only [ok_bind]
      rw [readInt_natText (hsh _ (by unfold headToks; simp only [List.mem_cons, List.mem_append, List.mem_map]; exact Or.inr (Or.inr (Or.inr (Or.inl ⟨_, List.getElem_mem hi', rfl⟩)))))]
      simp only [ok_bind]
      rw [if_neg (by omega)]
      simp [List.getD_eq_getElem?_getD, hi', pure_ok]
  have s3 : startsWith (Irit.pointType s.ph) ['P'] = s.ph.weights.isSome := by
    unfold Irit.pointType
    cases s.ph.weights with
    | none =>
      refine startsWith_false (c := 'P') (by decide) ?_
      simp only [Option.isSome_none, Bool.false_eq_true, if_false, List.mem_cons, not_or]
      exact ⟨by decide, fun hc => (natText_chars _ _ hc).2.2.2.2.2.1 rfl⟩
    | some w => exact startsWith_iff.2 ⟨_, rfl⟩
  have s4 : Irit.readTotal K (headToks s ++ (kvToks s.ps.knots ++ e :: r')) = .ok (((npts s).prod : ℕ) : ℤ) := by
    unfold Irit.readTotal
    rw [getN_some g0]
    simp only [ok_bind]
    rw [dimensionOf_kind hD, ← hn, buildList_eq (g := fun i => (((npts s).getD i 0 : ℕ) : ℤ))]
    · simp only [ok_bind]
      have : (List.range (npts s).length).map (fun i => (((npts s).getD i 0 : ℕ) : ℤ)) = (npts s).map fun n : ℕ => (n : ℤ) := by
        refine List.ext_getElem? fun i => ?_
        by_cases hi : i < (npts s).length
        · simp [hi, List.getD_eq_getElem?_getD]
        · simp [hi]
      rw [this, foldl_mul_map, one_mul]; rfl
    · intro i hi
      rw [getN_some (g1 i hi)]
      simp only [ok_bind]
      rw [readInt_natText (hsh _ (by unfold headToks; simp only [List.mem_cons, List.mem_append, List.mem_map]; exact Or.inr (Or.inr (Or.inl ⟨_, List.getElem_mem hi, rfl⟩))))]
      simp [List.getD_eq_getElem?_getD, hi]
  have s5 : Irit.firstPoint ((headToks s ++ (kvToks s.ps.knots ++ e :: r')).drop 1) = .ok (e :: r') := by
    have : (headToks s ++ (kvToks s.ps.knots ++ e :: r')).drop 1 = ((headToks s).tail ++ kvToks s.ps.knots) ++ (e :: r') := by
      unfold headToks; simp
    rw [this]
    refine firstPoint_eq hes1 hes2 r' _ ?_
    intro t ht
    rcases List.mem_append.1 ht with ht | ht
    · exact Or.inl (hhead2 t ht)
    · exact (kvToks_facts _ hsk t ht).1
  unfold Irit.readSpline
  rw [s1, s2, getN_some g3, s4]
  simp only [ok_bind]
  rw [if_neg (by omega)]
  simp only [s5, ok_bind, s3, Int.toNat_natCast]

/-- The reader up to the control points. -/
theorem readSpline_raw {s : Spl K} (h : WFSpl s) (hD : 1 ≤ s.ps.knots.length ∧ s.ps.knots.length ≤ 3) (hs : Short (splToks s))
    (rest : List (List Char)) :
    Irit.readSpline K s.ps.knots.length (splToks s ++ rest) =
      match s.ph.weights with
      | none => Spl.newBSpline (s.ps.knots.map fun U => U.map rd) s.ps.degree (backPoints s)
      | some w => (Irit.readPoints true (backWeights w (npts s).prod)
          (rowToks ((List.range (npts s).prod).map (homRow s.ph)) ++ rest)).bind fun points =>
        Spl.newNurbs (s.ps.knots.map fun U => U.map rd) s.ps.degree points (backWeights w (npts s).prod) := by
  have hn := npts_length h
  have hp := npts_prod_pos h
  have hdl : s.ps.degree.length = s.ps.knots.length := h.knots.length_eq.symm
  -- the entries
  set rows := (List.range (npts s).prod).map (homRow s.ph) with hrows
  have hrne : ∀ U ∈ rows, U ≠ [] := by
    intro U hU
    obtain ⟨k, _, rfl⟩ := List.mem_map.1 hU
    exact homRow_ne h.dim k
  have hes : splToks s ++ rest = headToks s ++ (kvToks s.ps.knots ++ (rowToks rows ++ rest)) := by
    unfold splToks; rw [List.append_assoc, List.append_assoc]
  have hsh : Short (headToks s) := by unfold splToks at hs; exact hs.left
  have hsk : Short (kvToks s.ps.knots) := by unfold splToks at hs; exact hs.right.left
  have hsr : Short (rowToks rows) := by unfold splToks at hs; exact hs.right.right
  -- the first entry of the control points
  obtain ⟨e, r', her, hes1, hes2⟩ : ∃ e r', rowToks rows ++ rest = e :: r' ∧ startsWith e ['['] = true ∧ startsWith e "[KV".toList = false := by
    obtain ⟨m, hm⟩ : ∃ m, (npts s).prod = m + 1 := ⟨(npts s).prod - 1, by omega⟩
    have hr0 : rows = homRow s.ph 0 :: (List.range m).map (fun k => homRow s.ph (k + 1)) := by
      rw [hrows, hm, List.range_succ_eq_map, List.map_cons, List.map_map]; rfl
    obtain ⟨x, xs, hx⟩ := List.exists_cons_of_ne_nil (homRow_ne h.dim 0 (ph := s.ph))
    have e0 : rowToks rows = listToks ['['] (x :: xs) ++ rowToks ((List.range m).map (fun k => homRow s.ph (k + 1))) := by
      rw [hr0, ← hx]; rfl
    rw [e0] at hsr ⊢
    have fact : ∀ u : List Char, 'K' ∉ u → startsWith (['['] ++ u) ['['] = true ∧ startsWith (['['] ++ u) "[KV".toList = false := by
      intro u hu
      exact ⟨startsWith_iff.2 ⟨u, rfl⟩, startsWith_false (c := 'K') (by decide) (by simpa using hu)⟩
    rcases listToks_cases (a := ['[']) (by simp) x xs hsr.left with ⟨_, t, h1, _, _, u, rfl, _, h3, _⟩ | ⟨_, t, h1, _, _, u, rfl, _, h3, _⟩
    · rw [h1]; exact ⟨_, _, rfl, (fact u h3).1, (fact u h3).2⟩
    · rw [h1]; exact ⟨_, _, rfl, (fact u h3).1, (fact u h3).2⟩
  have hrl : rows.length = (npts s).prod := by rw [hrows]; simp
  rw [hes, her, readSpline_head h hD (fun t ht => by
    rcases List.mem_append.1 ht with ht | ht
    · exact hsh t ht
    · exact hsk t ht) hes1 hes2, ← her]
  cases hwe : s.ph.weights with
  | none =>
    simp only [Option.isSome_none, Bool.false_eq_true, if_false, pure_ok, ok_bind]
    rw [readPoints_eq (rational := false) _ rows (by rw [hrl, List.length_replicate]) (by
      intro w hw; rw [List.eq_of_mem_replicate hw]; exact one_ne_zero) hrne hsr]
    simp only [ok_bind, Bool.false_eq_true, if_false]
    congr 1
    unfold backPoints
    rw [hwe]
    refine List.ext_getElem? fun i => ?_
    by_cases hi : i < (npts s).prod
    · simp [List.getElem?_zipWith, hrows, hi, homRow, hwe]
    · simp [List.getElem?_zipWith, hrows, hi]
  | some w =>
    have hrows2 : rows = ((List.range (npts s).prod).map fun k => (w.getD k 0, (cpRow s.ph k).map (· * w.getD k 0))).map fun r => r.1 :: r.2 := by
      rw [hrows, List.map_map]
      refine List.map_congr_left fun k _ => ?_
      simp [homRow, hwe]
    have s6 : Irit.readWeights K (npts s).prod (rowToks rows ++ rest) = .ok (backWeights w (npts s).prod) := by
      rw [hrows2] at hsr ⊢
      have := readWeights_eq (rest := rest) _ (by
        intro r hr
        obtain ⟨k, _, rfl⟩ := List.mem_map.1 hr
        simp [cpRow_ne h.dim]) hsr
      rw [List.length_map, List.length_range] at this
      rw [this]
      unfold backWeights
      rw [List.map_map]; rfl
    simp only [Option.isSome_some, if_true]
    rw [s6]
    rfl

theorem readSpline_eq {s : Spl K} (h : WFSpl s) (hD : 1 ≤ s.ps.knots.length ∧ s.ps.knots.length ≤ 3) (hs : Short (splToks s))
    (hw : ∀ w, s.ph.weights = some w → ∀ a ∈ w, rd a ≠ 0) (rest : List (List Char)) :
    Irit.readSpline K s.ps.knots.length (splToks s ++ rest) =
      match s.ph.weights with
      | none => Spl.newBSpline (s.ps.knots.map fun U => U.map rd) s.ps.degree (backPoints s)
      | some w => Spl.newNurbs (s.ps.knots.map fun U => U.map rd) s.ps.degree (backPoints s) (backWeights w (npts s).prod) := by
  rw [readSpline_raw h hD hs]
  cases hwe : s.ph.weights with
  | none => rfl
  | some w =>
    dsimp only
    obtain ⟨hwl, _⟩ := h.weights w hwe
    have hw' : ∀ k < (npts s).prod, rd (w.getD k 0) ≠ 0 := by
      intro k hk
      refine hw w hwe _ ?_
      rw [List.getD_eq_getElem?_getD, List.getElem?_eq_getElem (by omega)]; simp
    rw [readPoints_eq (rational := true) (backWeights w (npts s).prod) ((List.range (npts s).prod).map (homRow s.ph))
      (by simp [backWeights]) (by
      intro v hv
      obtain ⟨k, hk, rfl⟩ := List.mem_map.1 hv
      exact hw' k (by simpa using hk)) (by
      intro U hU
      obtain ⟨k, _, rfl⟩ := List.mem_map.1 hU
      exact homRow_ne h.dim k) (by unfold splToks at hs; exact hs.right.right)]
    simp only [Except.bind, if_true]
    congr 1
    unfold backPoints
    rw [hwe]
    refine List.ext_getElem? fun i => ?_
    by_cases hi : i < (npts s).prod
    · simp [List.getElem?_zipWith, hi, homRow, hwe, backWeights]
    · simp [List.getElem?_zipWith, hi]

/-- A weight that is printed as zero makes the file unreadable. -/
theorem readPoints_zero {rest : List (List Char)} : ∀ (ws : List K) (rows : List (List K)), ws.length = rows.length →
    (0 : K) ∈ ws → (∀ r ∈ rows, r ≠ []) → Short (rowToks rows) →
    Irit.readPoints true ws (rowToks rows ++ rest) = .error .nonfinite := by
  intro ws
  induction ws with
  | nil => intro rows _ h; cases h
  | cons w ws ih =>
    intro rows hl h0 hr hs
    cases rows with
    | nil => simp at hl
    | cons r rows =>
      have e1 : rowToks (r :: rows) = listToks ['['] r ++ rowToks rows := rfl
      rw [e1] at hs ⊢
      by_cases hw : w = 0
      · obtain ⟨x, xs, rfl⟩ := List.exists_cons_of_ne_nil (hr r (by simp))
        have hf : fdiv (rd x) w = .error .nonfinite := by simp [fdiv, hw]
        rcases listToks_cases (a := ['[']) (by simp) x xs hs.left with ⟨_, t, h1, h3, h2, _⟩ | ⟨_, t, h1, h3, h2, _⟩
        · rw [h1]
          simp only [List.singleton_append, Irit.readPoints, List.cons_append, Irit.readCoords, h2, if_true, h3, ok_bind, hf, error_bind]
        · rw [h1]
          simp only [List.cons_append, Irit.readPoints, Irit.readCoords, h2, Bool.false_eq_true, if_false, h3, ok_bind, hf, error_bind]
      · rw [Irit.readPoints, List.append_assoc, readCoords_eq hw r ['['] (by simp) (hr r (by simp)) hs.left]
        simp only [ok_bind]
        have h0' : (0 : K) ∈ ws := by
          rcases List.mem_cons.1 h0 with h0 | h0
          · exact absurd h0.symm hw
          · exact h0
        rw [ih rows (by simpa using hl) h0' (fun v hv => hr v (by simp [hv])) hs.right]
        rfl

theorem splinePositions_append (a b : List (List Char)) : ∀ i, Irit.splinePositions (a ++ b) i =
    Irit.splinePositions a i ++ Irit.splinePositions b (i + a.length) := by
  induction a with
  | nil => intro i; rfl
  | cons e a ih =>
    intro i
    simp only [List.cons_append, Irit.splinePositions, ih, List.length_cons]
    rw [show i + 1 + a.length = i + (a.length + 1) by omega]
    split <;> rfl

theorem splinePositions_none {a : List (List Char)} (h : ∀ t ∈ a, 'B' ∉ t) : ∀ i, Irit.splinePositions a i = [] := by
  induction a with
  | nil => intro i; rfl
  | cons e a ih =>
    intro i
    rw [Irit.splinePositions, if_neg (by rintro rfl; exact h "BSPLINE".toList (by simp) (by decide))]
    exact ih (fun t ht => h t (by simp [ht])) _

theorem listToks_noB {a : List Char} (ha : ∀ d ∈ a, d = '[') (xs : List K) (hs : Short (listToks a xs)) : ∀ t ∈ listToks a xs, 'B' ∉ t := by
  cases xs with
  | nil => intro t ht; simp [listToks] at ht
  | cons y ys =>
    intro t ht
    have hh := listToks_numbers ha (y :: ys) hs t
    have hB : ∀ u, 'B' ∉ u → 'B' ∉ a ++ u := by
      intro u hu hc
      rcases List.mem_append.1 hc with hc | hc
      · have := ha _ hc; revert this; decide
      · exact hu hc
    rcases listToks_cases ha y ys hs with ⟨rfl, s, h2, _, _, u, rfl, h3, _, h4⟩ | ⟨_, s, h2, _, _, u, rfl, h3, _, h4⟩
    · rw [h2, List.mem_singleton] at ht; subst ht; exact hB u h4
    · rw [h2] at ht hh
      rcases List.mem_cons.1 ht with rfl | ht
      · exact hB u h4
      · exact (hh ht).2

/-- The entries of a spline behind "BSPLINE". -/
def bodyToks (s : Spl K) : List (List Char) :=
  ((npts s).map natText ++ (s.ps.degree.map (fun p => natText (p + 1)) ++ [Irit.pointType s.ph])) ++
    (kvToks s.ps.knots ++ rowToks ((List.range (npts s).prod).map (homRow s.ph)))

theorem splToks_eq (s : Spl K) : splToks s = kindWord s.ps.knots.length :: "BSPLINE".toList :: bodyToks s := by
  unfold splToks headToks bodyToks; rfl

theorem bodyToks_noB {s : Spl K} (hs : Short (splToks s)) : ∀ t ∈ bodyToks s, 'B' ∉ t := by
  rw [splToks_eq] at hs
  have hs' : Short (bodyToks s) := fun t ht => hs t (by simp [ht])
  intro t ht
  unfold bodyToks at ht hs'
  rcases List.mem_append.1 ht with ht | ht
  · simp only [List.mem_append, List.mem_map, List.mem_singleton] at ht
    rcases ht with ⟨n, _, rfl⟩ | ⟨n, _, rfl⟩ | rfl
    · exact fun hc => (natText_chars n _ hc).2.2.2.2.2.2.1 rfl
    · exact fun hc => (natText_chars _ _ hc).2.2.2.2.2.2.1 rfl
    · unfold Irit.pointType
      intro hc
      rcases List.mem_cons.1 hc with hc | hc
      · split at hc <;> simp at hc
      · exact (natText_chars _ _ hc).2.2.2.2.2.2.1 rfl
  · rcases List.mem_append.1 ht with ht | ht
    · exact (kvToks_facts _ hs'.right.left t ht).2
    · have hr := hs'.right.right
      unfold rowToks at ht hr
      obtain ⟨r, hr1, hr2⟩ := List.mem_flatMap.1 ht
      exact listToks_noB (by simp) r (fun t ht => hr t (List.mem_flatMap.2 ⟨r, hr1, ht⟩)) t hr2

/-- What the reader makes of a written spline. -/
def backSpline (s : Spl K) : M (Spl K) :=
  match s.ph.weights with
  | none => Spl.newBSpline (s.ps.knots.map fun U => U.map rd) s.ps.degree (backPoints s)
  | some w => Spl.newNurbs (s.ps.knots.map fun U => U.map rd) s.ps.degree (backPoints s) (backWeights w (npts s).prod)

/-- The conditions under which a spline is read back. -/
structure Writable (s : Spl K) : Prop where
  wf : WFSpl s
  dims : 1 ≤ s.ps.knots.length ∧ s.ps.knots.length ≤ 3
  weights : ∀ w, s.ph.weights = some w → ∀ a ∈ w, rd a ≠ 0

theorem positions_block {s : Spl K} (hs : Short (splToks s)) (n : ℕ) (pre tail : List (List Char)) :
    Irit.splinePositions ("[OBJECT".toList :: ("SPLINE".toList ++ natText n) :: (splToks s ++ tail)) pre.length =
        (pre.length + 3) :: Irit.splinePositions tail (pre.length + 2 + (splToks s).length) := by
  have hnB : 'B' ∉ "SPLINE".toList ++ natText n := by
    intro hc
    rcases List.mem_append.1 hc with hc | hc
    · revert hc; decide
    · exact (natText_chars n _ hc).2.2.2.2.2.2.1 rfl
  have hk : kindWord s.ps.knots.length ≠ "BSPLINE".toList := by
    unfold kindWord; split
    · decide
    · split <;> decide
  rw [splToks_eq, List.cons_append, List.cons_append]
  rw [Irit.splinePositions, if_neg (by decide), Irit.splinePositions,
    if_neg (by intro hc; rw [hc] at hnB; exact hnB (by decide)), Irit.splinePositions, if_neg hk, Irit.splinePositions, if_pos rfl,
    splinePositions_append, splinePositions_none (bodyToks_noB hs), List.nil_append]
  simp only [List.length_cons]
  rw [show pre.length + 1 + 1 + 1 + 1 + (bodyToks s).length = pre.length + 2 + ((bodyToks s).length + 1 + 1) by omega]

theorem readAll_step {s : Spl K} (hD : 1 ≤ s.ps.knots.length ∧ s.ps.knots.length ≤ 3) (n : ℕ) (pre tail : List (List Char)) (is : List ℕ) :
    Irit.readAll K (pre ++ ("[OBJECT".toList :: ("SPLINE".toList ++ natText n) :: (splToks s ++ tail))) ((pre.length + 3) :: is) =
      (do
        let r ← Irit.readSpline K s.ps.knots.length (splToks s ++ tail)
        let l ← Irit.readAll K (pre ++ ("[OBJECT".toList :: ("SPLINE".toList ++ natText n) :: (splToks s ++ tail))) is
        return r :: l) := by
  have hdrop : (pre ++ ("[OBJECT".toList :: ("SPLINE".toList ++ natText n) :: (splToks s ++ tail))).drop (pre.length + 3 - 1) =
      splToks s ++ tail := by
    rw [show pre.length + 3 - 1 = pre.length + 2 by omega, List.drop_append, List.drop_eq_nil_of_le (by omega),
      Nat.add_sub_cancel_left]; rfl
  have hh : (splToks s ++ tail)[0]? = some (kindWord s.ps.knots.length) := by rw [splToks_eq]; rfl
  rw [Irit.readAll]
  rw [if_neg (by omega)]
  dsimp only
  rw [hdrop, getN_some hh]
  simp only [ok_bind]
  rw [dimensionOf_kind hD, if_neg (by omega)]

theorem readAll_block {s r : Spl K} (h : Writable s) (hs : Short (splToks s)) (hr : backSpline s = .ok r) (n : ℕ)
    (pre tail : List (List Char)) :
    Irit.splinePositions ("[OBJECT".toList :: ("SPLINE".toList ++ natText n) :: (splToks s ++ tail)) pre.length =
        (pre.length + 3) :: Irit.splinePositions tail (pre.length + 2 + (splToks s).length) ∧
      ∀ is, Irit.readAll K (pre ++ ("[OBJECT".toList :: ("SPLINE".toList ++ natText n) :: (splToks s ++ tail))) ((pre.length + 3) :: is) =
        (do
          let l ← Irit.readAll K (pre ++ ("[OBJECT".toList :: ("SPLINE".toList ++ natText n) :: (splToks s ++ tail))) is
          return r :: l) := by
  refine ⟨positions_block hs n pre tail, fun is => ?_⟩
  rw [readAll_step h.dims, readSpline_eq h.wf h.dims hs h.weights]
  unfold backSpline at hr
  rw [hr]
  rfl

theorem readAll_eq : ∀ (ss rs : List (Spl K)), List.Forall₂ (fun s r => Writable s ∧ backSpline s = .ok r) ss rs →
    ∀ (n : ℕ) (pre : List (List Char)), Short (fileToks ss n) →
      Irit.readAll K (pre ++ fileToks ss n) (Irit.splinePositions (fileToks ss n) pre.length) = .ok rs := by
  intro ss rs h
  induction h with
  | nil => intro n pre _; rfl
  | @cons s r ss rs h1 h2 ih =>
    intro n pre hs
    obtain ⟨h1, hr⟩ := h1
    cases ss with
    | nil =>
      cases h2
      rw [fileToks] at hs ⊢
      have hs1 : Short (splToks s) := fun t ht => hs t (by simp [ht])
      obtain ⟨a, b⟩ := readAll_block h1 hs1 hr (n + 1) pre ["]".toList, "]]".toList]
      rw [a, b, splinePositions_none (by decide)]
      rfl
    | cons t ss =>
      rw [fileToks] at hs ⊢
      have hs1 : Short (splToks s) := fun t ht => hs t (by simp [ht])
      have hs2 : Short (fileToks (t :: ss) (n + 1)) := fun t ht => hs t (by simp [ht])
      obtain ⟨a, b⟩ := readAll_block h1 hs1 hr (n + 1) pre ("]".toList :: "]".toList :: fileToks (t :: ss) (n + 1))
      rw [a, b]
      have := ih (n + 1) (pre ++ ("[OBJECT".toList :: ("SPLINE".toList ++ natText (n + 1)) :: (splToks s ++ ["]".toList, "]".toList]))) hs2
      have e : Irit.splinePositions ("]".toList :: "]".toList :: fileToks (t :: ss) (n + 1)) (pre.length + 2 + (splToks s).length) =
          Irit.splinePositions (fileToks (t :: ss) (n + 1)) (pre.length + 2 + (splToks s).length + 1 + 1) := by
        rw [Irit.splinePositions, if_neg (by decide), Irit.splinePositions, if_neg (by decide)]
      rw [e]
      have e1 : (pre ++ ("[OBJECT".toList :: ("SPLINE".toList ++ natText (n + 1)) :: (splToks s ++ ["]".toList, "]".toList]))) ++
          fileToks (t :: ss) (n + 1) = pre ++ ("[OBJECT".toList :: ("SPLINE".toList ++ natText (n + 1)) ::
            (splToks s ++ "]".toList :: "]".toList :: fileToks (t :: ss) (n + 1))) := by simp
      have e2 : (pre ++ ("[OBJECT".toList :: ("SPLINE".toList ++ natText (n + 1)) :: (splToks s ++ ["]".toList, "]".toList]))).length =
          pre.length + 2 + (splToks s).length + 1 + 1 := by
        simp only [List.length_append, List.length_cons, List.length_nil]; omega
      rw [e1, e2] at this
      rw [this]
      rfl

/-- The whole round trip. -/
theorem readFile_eq {ss rs : List (Spl K)} (h : List.Forall₂ (fun s r => Writable s ∧ backSpline s = .ok r) ss rs) :
    ∃ t, Irit.writeFile ss = .ok t ∧ (t.length < 2 ^ 32 → Irit.readFile K t = .ok rs) := by
  have hw : ∀ s ∈ ss, WFSpl s ∧ 1 ≤ s.ps.knots.length ∧ s.ps.knots.length ≤ 3 := by
    intro s hs
    obtain ⟨i, hi, rfl⟩ := List.getElem_of_mem hs
    have := ((List.forall₂_iff_get.1 h).2 i hi (by rw [← h.length_eq]; exact hi)).1
    exact ⟨this.wf, this.dims⟩
  obtain ⟨t, h1, h2⟩ := writeFile_ok hw
  refine ⟨t, h1, fun hl => ?_⟩
  unfold Irit.readFile
  rw [getlines_flatten]
  dsimp only
  rw [tokens_split h2]
  by_cases hne : ss = []
  · subst hne
    cases h
    rw [if_pos rfl]
    rfl
  · rw [if_neg hne] at h2 ⊢
    have hs : Short (fileToks ss 0) := fun u hu => by
      have a := tokens_short h2 u (by simp [hu])
      have b := strip_length t
      omega
    have := readAll_eq ss rs h 0 ["[OBJECT".toList, "SPLINES".toList] hs
    have e : Irit.splinePositions ("[OBJECT".toList :: "SPLINES".toList :: fileToks ss 0) 0 =
        Irit.splinePositions (fileToks ss 0) 2 := by
      rw [Irit.splinePositions, if_neg (by decide), Irit.splinePositions, if_neg (by decide)]
    rw [e]
    exact this

end
end SplineLib
