import Verif.Props.KnotInsertion
/-!
# Inserting the last knot

The code treats the last knot specially (`InsertKnot`, `/repo/src/spl/spline.h:163-183`) and moves the wrong control points: it duplicates
the row `n-1-p` of the control net, so that the spline ends in its last but one control point.
-/

namespace SplineLib
set_option linter.unusedSectionVars false
open Finset

section
variable {K : Type} [Field K] [LinearOrder K] [IsStrictOrderedRing K]

/-- What inserting the last knot once does: the row of control points with index `n-1-p` in direction `d` is duplicated, where `n` is
the number of control points in that direction. -/
theorem insert_last_knot {s : Spl K} (h : WFSpl s) {d : ℕ} {U : List K} {p : ℕ} (hU : s.ps.knots[d]? = some U)
    (hp : s.ps.degree[d]? = some p) (he : ExactEnds U p) (hsz : U.length < 2 ^ 63) :
    ∃ s' V, s.insertKnot (lastKnot U) d 1 = .ok s' ∧ WFSpl s' ∧ s'.ps.degree = s.ps.degree ∧ s'.ps.knots = s.ps.knots.set d V ∧
      KnotsAdded U (lastKnot U) 1 V ∧ V.length = U.length + 1 ∧ lastKnot V = lastKnot U ∧ knot V 0 = knot U 0 ∧
      knot V (U.length - p - 2) < lastKnot U ∧ (∀ i, U.length - p - 2 < i → i < U.length + 1 → knot V i = lastKnot U) ∧
      s'.ph.dim = s.ph.dim ∧ (IsBSpline s ↔ IsBSpline s') ∧
      ∀ I, InBox (npts s') I →
        wgt s' I = wgt s (if ixd (npts s) d - 1 - p < ixd I d then I.set d (ixd I d - 1) else I) ∧
        ∀ c < s.ph.dim, cpt s' I c = cpt s (if ixd (npts s) d - 1 - p < ixd I d then I.set d (ixd I d - 1) else I) c := by
  have hw := forall₂_get h.knots hU hp
  have hsize := hw.size
  have hlast : ∀ i, U.length - p - 2 < i → i < U.length → knot U i = lastKnot U := by
    intro i h1 h2
    have := hw.last (U.length - 1 - i) (by omega)
    rwa [show U.length - 1 - (U.length - 1 - i) = i by omega] at this
  have hspan : spanIx U (lastKnot U) = U.length - p - 2 := by
    apply spanIx_unique hw hw.range.le (le_refl _) (by omega)
    exact Or.inr ⟨he.2, (hlast _ (by omega) (by omega)).symm, rfl⟩
  have hkspan : kvSpan U (lastKnot U) = .ok ((U.length - p - 2 : ℕ) : ℤ) := by
    rw [← hspan]; exact (hw.span hw.range.le (le_refl _)).1
  have hmult : kvMult U (lastKnot U) = U.length - (U.length - p - 1) := by
    apply count_window (by omega) (le_refl _)
    · intro i hi
      exact ne_of_lt (lt_of_le_of_lt (hw.sorted.mono (show i ≤ U.length - p - 2 by omega) (by omega)) he.2)
    · intro i h1 h2; exact hlast i (by omega) h2
    · intro i h1 h2; omega
  have hi : InsAt U p (U.length - p - 2) (lastKnot U) :=
    ⟨hw, by omega, by omega, he.2.le, (hlast _ (by omega) (by omega)).ge,
      fun a ha b hb => hw.sep a (by simp at ha; rcases ha with rfl | ha; exacts [lastKnot_mem hw.ne_nil, ha]) b
        (by simp at hb; rcases hb with rfl | hb; exacts [lastKnot_mem hw.ne_nil, hb])⟩
  have hil : kvIsLast U (lastKnot U) = .ok true := by
    rw [kvIsLast_eq hw.ne_nil]; simp [kEps_pos]
  have hk : List.Forall₂ WFKnots (s.ps.knots.set d (U.insertIdx (U.length - p - 2 + 1) (lastKnot U))) s.ps.degree :=
    forall₂_set h.knots hp hi.wf'
  have hins : kvInsert U (lastKnot U) = .ok (U.insertIdx (U.length - p - 2 + 1) (lastKnot U)) := by
    simp only [kvInsert, hkspan, ok_bind]
    rw [if_pos (by omega)]; rfl
  have hix : ixd (npts s) d = U.length - p - 1 := nptsOf_ixd hU hp
  obtain ⟨ph', b1, b2, b3, b4, b5⟩ := adjustCPs_spec (d := d) (first := U.length - p - 2 + 2 - p) (last := U.length - p - 2 - p)
    (scaling := []) (α := fun _ => 0) h.phys (nptsOf_pos h.knots) (lt_of_some (nptsOf_get hU hp)) (by omega)
    (by rw [hix]; omega) (by intro i h1 h2; omega)
  rw [hix] at b2
  refine ⟨⟨⟨s.ps.knots.set d (U.insertIdx (U.length - p - 2 + 1) (lastKnot U)), s.ps.degree,
      mkTable (s.ps.knots.set d (U.insertIdx (U.length - p - 2 + 1) (lastKnot U))) s.ps.degree⟩, ph'⟩,
    U.insertIdx (U.length - p - 2 + 1) (lastKnot U), ?_, ?_, rfl, rfl, ⟨hi.wf'.sorted, hi.length, ?_⟩, hi.length, ?_⟩
  · unfold Spl.insertKnot
    rw [getN_some hU, ok_bind, getN_some hp, ok_bind, hkspan, ok_bind]
    simp only [Spl.insertRounds, hil, ok_bind, if_true]
    rw [toSizeT_of (i := ((U.length - p - 2 : ℕ) : ℤ) + 1 - (kvMult U (lastKnot U) : ℤ)) (n := U.length - p - 2 - p) (by omega) (by omega),
      toSizeT_of (i := ((U.length - p - 2 : ℕ) : ℤ) + 1 - (p : ℤ) + ((1 : ℕ) : ℤ)) (n := U.length - p - 2 + 2 - p) (by omega) (by omega),
      show Spl.stepCount (U.length - p - 2 + 2 - p) (U.length - p - 2 - p) = 0 by unfold Spl.stepCount; omega]
    simp only [Spl.scalingLoop, ok_bind]
    rw [intOfSizeT_nat (by omega), intOfSizeT_nat (by omega), b1]
    simp only [ok_bind, Spl.insertKnotsPS, PS.insertKnot, getN_some hU, hins, PS.recreate, basisTable_eq (forall₂_size hk)]
    rfl
  · rw [wfSpl_iff]
    refine ⟨⟨hk, basisTable_eq (forall₂_size hk)⟩, ?_⟩
    rw [npts_eq]
    simp only
    rw [nptsOf_set _ hp, hi.length, ← npts_eq, show U.length + 1 - p - 1 = U.length - p - 1 + 1 by omega]
    exact b2
  · intro y
    rw [count_insertIdx (by omega)]
  · have hkn : ∀ i, knot (U.insertIdx (U.length - p - 2 + 1) (lastKnot U)) i =
        if i ≤ U.length - p - 2 then knot U i else if i = U.length - p - 2 + 1 then lastKnot U else knot U (i - 1) := hi.knot
    refine ⟨hi.lastKnot, hi.firstKnot, ?_, ?_, b3, b4, ?_⟩
    · rw [hkn, if_pos (le_refl _)]; exact he.2
    · intro i h1 h2
      rw [hkn, if_neg (by omega)]
      split_ifs with h3
      · rfl
      · exact hlast _ (by omega) (by omega)
    · have hn' : npts (⟨⟨s.ps.knots.set d (U.insertIdx (U.length - p - 2 + 1) (lastKnot U)), s.ps.degree,
          mkTable (s.ps.knots.set d (U.insertIdx (U.length - p - 2 + 1) (lastKnot U))) s.ps.degree⟩, ph'⟩ : Spl K) =
          (npts s).set d (U.length - p - 1 + 1) := by
        rw [npts_eq]
        simp only
        rw [nptsOf_set _ hp, hi.length, ← npts_eq, show U.length + 1 - p - 1 = U.length - p - 1 + 1 by omega]
      intro I hI
      rw [hn'] at hI
      rw [hix] at b5 ⊢
      obtain ⟨c1, c2⟩ := b5 I hI
      have e1 : U.length - p - 2 - p = U.length - p - 1 - 1 - p := by omega
      have hd : d < (npts s).length := lt_of_some (nptsOf_get hU hp)
      have hlt : ixd I d < U.length - p - 1 + 1 := by
        have : ixd I d < ixd ((npts s).set d (U.length - p - 1 + 1)) d := hI.getD_lt (by simpa using hd)
        rwa [ixd_set_self hd] at this
      have hId : d < I.length := by rw [hI.length]; simpa using hd
      have hb : ∀ F : List ℕ → K, blendDir d (U.length - p - 2 + 2 - p) (U.length - p - 2 - p) (fun _ => (0 : K)) F I =
          F (if U.length - p - 1 - 1 - p < ixd I d then I.set d (ixd I d - 1) else I) := by
        intro F
        unfold blendDir
        rw [e1]
        by_cases hc : U.length - p - 1 - 1 - p < ixd I d
        · rw [if_pos hc, if_pos hc]
        · rw [if_neg hc, if_neg hc, if_neg (by omega)]
      have hR : InBox (npts s) (if U.length - p - 1 - 1 - p < ixd I d then I.set d (ixd I d - 1) else I) := by
        by_cases hc : U.length - p - 1 - 1 - p < ixd I d
        · rw [if_pos hc]; exact inBox_set_of hI (by rw [hix]; omega)
        · rw [if_neg hc]
          have := inBox_set_of (i := ixd I d) hI (by rw [hix]; omega)
          rwa [set_ixd hId] at this
      rw [hb] at c1
      refine ⟨by rw [wgt, hn']; exact c1, fun c hc => ?_⟩
      have c3 := c2 c hc
      rw [hb, c1] at c3
      have hw0 := (wgt_pos h hR).ne'
      have := mul_left_cancel₀ hw0 c3
      rw [cpt, hn']
      exact this

theorem cox_end {V : List K} (hV : SortedKnots V) {p m : ℕ} (hm : m + p + 1 < V.length) (h1 : knot V m < lastKnot V)
    (h2 : ∀ i, m < i → i < V.length → knot V i = lastKnot V) {i : ℕ} (hi : i + p + 1 < V.length) :
    coxDeBoor V p i (lastKnot V) = if i = m then 1 else 0 := by
  have hsp : InSpan V m (lastKnot V) := Or.inr ⟨h1, (h2 _ (by omega) (by omega)).symm, rfl⟩
  rw [cox_eq_Nb hV (by omega) hsp hi]
  apply Nb_right _ p
  · intro j h3 h4; rw [ku_eq (by omega)]; exact h2 j h3 (by omega)
  · rw [ku_eq (by omega)]; exact h1

theorem dprod_delta : ∀ {Us : List (List K)} {ps : List ℕ} {xs : List K} {ks I : List ℕ}, Us.length = ps.length →
    Us.length = xs.length → Us.length = ks.length → InBox (List.zipWith (fun U p => U.length - p - 1) Us ps) I →
    (∀ (j : ℕ) (U : List K) (p : ℕ) (x : K) (k : ℕ), Us[j]? = some U → ps[j]? = some p → xs[j]? = some x → ks[j]? = some k →
      ∀ i < U.length - p - 1, coxDeBoor U p i x = if i = k then 1 else 0) →
    dprod (basisFns Us ps xs) I = if I = ks then 1 else 0
  | [], [], [], [], I, _, _, _, hI, _ => by
    rw [List.zipWith_nil_left, inBox_nil_iff] at hI; subst hI; simp [basisFns, dprod]
  | U :: Us, p :: ps, x :: xs, k :: ks, [], _, _, _, hI, _ => by simp at hI
  | U :: Us, p :: ps, x :: xs, k :: ks, i :: I, h1, h2, h3, hI, h => by
    simp only [List.zipWith_cons_cons, inBox_cons] at hI
    simp only [basisFns, dprod]
    rw [dprod_delta (by simpa using h1) (by simpa using h2) (by simpa using h3) hI.2
      (fun j U p x k a b c d => h (j + 1) U p x k a b c d), h 0 U p x k rfl rfl rfl rfl i hI.1]
    by_cases hik : i = k <;> by_cases hI' : I = ks <;> simp [hik, hI']

theorem evaluate_delta {s : Spl K} (h : WFSpl s) {x : List K} (hx : InDomain s x) {I : List ℕ} (hI : InBox (npts s) I)
    (hδ : ∀ J, InBox (npts s) J → dprod (basisFns s.ps.knots s.ps.degree x) J = if J = I then 1 else 0) (dims : List ℕ)
    (hd : ∀ c ∈ dims, c < s.ph.dim) : s.evaluate x (zl dims) = .ok (dims.map (cpt s I)) := by
  have hsum : ∀ a : List ℕ → K, tensorSum s x a = a I := by
    intro a
    rw [tensorSum, msum_single hI]
    · rw [hδ I hI, if_pos rfl, one_mul]
    · intro J hJ hne; rw [hδ J hJ, if_neg hne, zero_mul]
  cases hw : s.ph.weights with
  | none =>
    rw [evaluate_bspline h hw hx dims hd]
    congr 1
    exact List.map_congr_left fun c _ => hsum _
  | some w =>
    rw [evaluate_nurbs h ⟨w, hw⟩ hx dims (fun c hc => (hd c hc).le)]
    congr 1
    apply List.map_congr_left
    intro c hc
    rw [if_neg (hd c hc).ne, nurbsValue, weightValue, hsum, hsum]
    exact mul_div_cancel_left₀ _ (wgt_pos h hI).ne'

theorem zipWith_set_same {α β γ : Type} (f : α → β → γ) : ∀ {l : List α} {b : List β} {d : ℕ} {u v : α}, l[d]? = some u →
    (∀ e, f v e = f u e) → List.zipWith f (l.set d v) b = List.zipWith f l b
  | [], _, _, _, _, h, _ => by simp at h
  | _ :: _, [], _, _, _, _, _ => by simp
  | a :: l, e :: b, 0, u, v, h, hf => by
    simp only [List.getElem?_cons_zero, Option.some.injEq] at h
    simp [h, hf]
  | a :: l, e :: b, d + 1, u, v, h, hf => by
    simp only [List.getElem?_cons_succ] at h
    simp [zipWith_set_same f h hf]

/-- **C14** is false at the last knot, for every spline and not only for the counterexample: the insertion succeeds, but in every
corner of the parameter domain which lies at the end of that direction the new spline has the value of the last but one control point
of the row instead of the last one. The degree in that direction is at least one, the end knots have multiplicity `p+1`. -/
theorem C14_last_knot_moves_end {s : Spl K} (h : WFSpl s) (he : List.Forall₂ ExactEnds s.ps.knots s.ps.degree) {d : ℕ} {U : List K}
    {p : ℕ} (hU : s.ps.knots[d]? = some U) (hp : s.ps.degree[d]? = some p) (hp1 : 1 ≤ p) (hsz : U.length < 2 ^ 63) (b : List Bool)
    (hb : b.length = s.ps.knots.length) (hbd : b[d]? = some true) (dims : List ℕ) (hdims : ∀ c ∈ dims, c < s.ph.dim) :
    ∃ s', s.insertKnot (lastKnot U) d 1 = .ok s' ∧
      s.evaluate (cornerParam s b) (zl dims) = .ok (dims.map (cpt s (cornerIndex s b))) ∧
      s'.evaluate (cornerParam s b) (zl dims) = .ok (dims.map (cpt s ((cornerIndex s b).set d (U.length - p - 3)))) := by
  have hw := forall₂_get h.knots hU hp
  have hsize := hw.size
  have heU : ExactEnds U p := forall₂_get he hU hp
  obtain ⟨s', V, a1, a2, a3, a4, a5, a6, a7, a8, a9, a10, a11, a12, a13⟩ := insert_last_knot h hU hp heU hsz
  refine ⟨s', a1, (evaluate_corner h he b hb dims hdims).2, ?_⟩
  have hdl : d < s.ps.knots.length := lt_of_some hU
  have hn : npts s' = (npts s).set d (U.length - p - 1 + 1) := by
    rw [npts_eq, a3, a4, nptsOf_set _ hp, a6, ← npts_eq, show U.length + 1 - p - 1 = U.length - p - 1 + 1 by omega]
  have hix : ixd (npts s) d = U.length - p - 1 := nptsOf_ixd hU hp
  have hI := (evaluate_corner h he b hb dims hdims).1
  have hnd : (npts s)[d]? = some (U.length - p - 1) := nptsOf_get hU hp
  have hIget : (cornerIndex s b)[d]? = some (U.length - p - 1 - 1) := by
    simp [cornerIndex, List.getElem?_zipWith, hnd, hbd]
  have hIx : ixd (cornerIndex s b) d = U.length - p - 1 - 1 := by simp [ixd, List.getD_eq_getElem?_getD, hIget]
  have hIl : d < (cornerIndex s b).length := lt_of_some hIget
  have hI' : InBox (npts s') (cornerIndex s b) := by
    rw [hn]
    have := inBox_set (d := d) (n := U.length - p - 1 + 1) (i := ixd (cornerIndex s b) d) hI (by rw [hIx]; omega)
    rwa [set_ixd hIl] at this
  have hpar : cornerParam s' b = cornerParam s b := by
    unfold cornerParam
    rw [a4]
    exact zipWith_set_same _ hU fun e => by rw [a7, a8]
  have hx' : InDomain s' (cornerParam s b) := by
    rw [← hpar]
    exact corner_dom a2.knots (by rw [a4, List.length_set]; exact hb)
  have hlen : s.ps.knots.length = s.ps.degree.length := h.knots.length_eq
  rw [evaluate_delta a2 hx' hI' ?_ dims (by rw [a11]; exact hdims)]
  · congr 1
    apply List.map_congr_left
    intro c hc
    rw [(a13 _ hI').2 c (hdims c hc), hix, hIx, if_pos (by omega), show U.length - p - 1 - 1 - 1 = U.length - p - 3 by omega]
  · intro J hJ
    apply dprod_delta (by rw [a3, a4, List.length_set]; exact hlen) (by simp [a4, cornerParam, hb])
      (by simp [a4, cornerIndex, npts, hb, hlen]) hJ
    intro j W q x k e1 e2 e3 e4 i hi
    rw [a4] at e1
    rw [a3] at e2
    by_cases hj : j = d
    · subst hj
      rw [List.getElem?_set_self hdl] at e1
      obtain rfl : V = W := by simpa using e1
      obtain rfl : p = q := by rw [hp] at e2; simpa using e2
      obtain rfl : lastKnot U = x := by
        simpa [cornerParam, List.getElem?_zipWith, hU, hbd] using e3
      obtain rfl : U.length - p - 1 - 1 = k := by rw [hIget] at e4; simpa using e4
      rw [← a7]
      apply cox_end a5.1 (by omega)
      · rw [a7, show U.length - p - 1 - 1 = U.length - p - 2 by omega]; exact a9
      · intro i h1 h2; rw [a7]; exact a10 i (by omega) (by omega)
      · omega
    · rw [List.getElem?_set_ne (Ne.symm hj)] at e1
      have hWk := forall₂_get h.knots e1 e2
      have hWe : ExactEnds W q := forall₂_get he e1 e2
      have hjn : (npts s)[j]? = some (W.length - q - 1) := nptsOf_get e1 e2
      obtain ⟨e, heb⟩ : ∃ e, b[j]? = some e := by
        have : j < b.length := by rw [hb]; exact lt_of_some e1
        exact ⟨_, List.getElem?_eq_getElem this⟩
      have hx : x = if e then lastKnot W else knot W 0 := by
        have := e3
        simp only [cornerParam, List.getElem?_zipWith, e1, heb, Option.some.injEq] at this
        exact this.symm
      have hk : k = if e then W.length - q - 1 - 1 else 0 := by
        have := e4
        simp only [cornerIndex, List.getElem?_zipWith, hjn, heb, Option.some.injEq] at this
        exact this.symm
      rw [hx, hk]
      cases e
      · exact cox_first hWk hWe.1 (by omega)
      · simp only [if_true]
        rw [cox_last hWk hWe.2 (by omega)]
        congr 1

/-- So a curve whose last two control points differ does not keep its end point. -/
theorem C14_last_knot_changes {s : Spl K} (h : WFSpl s) {U : List K} {p : ℕ} (hU : s.ps.knots = [U]) (hp : s.ps.degree = [p])
    (he : ExactEnds U p) (hp1 : 1 ≤ p) (hsz : U.length < 2 ^ 63) {c : ℕ} (hc : c < s.ph.dim)
    (hne : cpt s [U.length - p - 3] c ≠ cpt s [U.length - p - 2] c) :
    ∃ s', s.insertKnot (lastKnot U) 0 1 = .ok s' ∧ s'.evaluate [lastKnot U] [(c : ℤ)] ≠ s.evaluate [lastKnot U] [(c : ℤ)] := by
  obtain ⟨s', h1, h2, h3⟩ := C14_last_knot_moves_end h (by rw [hU, hp]; exact .cons he .nil) (d := 0) (U := U) (p := p) (by rw [hU]; rfl)
    (by rw [hp]; rfl) hp1 hsz [true] (by rw [hU]; rfl) rfl [c] (by simpa using hc)
  have e1 : cornerParam s [true] = [lastKnot U] := by simp [cornerParam, hU]
  have e2 : cornerIndex s [true] = [U.length - p - 2] := by simp [cornerIndex, npts, hU, hp]; omega
  rw [e1, e2] at h2 h3
  refine ⟨s', h1, ?_⟩
  have z : zl [c] = [(c : ℤ)] := rfl
  rw [z] at h2 h3
  rw [h2, h3]
  simpa using hne

example : WFSpl exCurve ∧ exCurve.ps.knots = [[0, 0, 0, 1/2, 1, 1, 1]] ∧ exCurve.ps.degree = [2] ∧
    ExactEnds ([0, 0, 0, 1/2, 1, 1, 1] : List ℚ) 2 ∧ cpt exCurve [2] 1 ≠ cpt exCurve [3] 1 :=
  ⟨exCurve_wf, rfl, rfl, by decide +kernel, by decide +kernel⟩

example : WFSpl exNurbsSurface ∧ List.Forall₂ ExactEnds exNurbsSurface.ps.knots exNurbsSurface.ps.degree ∧
    exNurbsSurface.evaluate [1, 3] [0] = .ok [5] ∧
    (exNurbsSurface.insertKnot 3 1 1 >>= fun s' => s'.evaluate [1, 3] [0]) = .ok [4] :=
  ⟨exNurbsSurface_wf, .cons (by decide +kernel) (.cons (by decide +kernel) .nil), by decide +kernel, by decide +kernel⟩

end
end SplineLib
