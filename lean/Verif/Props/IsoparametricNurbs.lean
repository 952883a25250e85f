import Verif.Props.Isoparametric

/-!
# The derivatives of isoparametric curves

The points of a spline along a line of a direction are the points of a curve (`Props/Isoparametric.lean`). So are the derivatives in this direction that
`EvaluateDerivative` (`/repo/src/spl/spline.h:67-84`, `/repo/src/spl/nurbs.h:148-185`) returns, for B-splines and NURBS and all orders.
-/

namespace SplineLib
set_option linter.unusedSectionVars false
open Finset Topology

/-- One-sided derivatives of functions that agree on an interval agree. -/
theorem span_unique {U V : List ℝ} {f g : ℝ → ℝ} {f' g' x a b : ℝ} (hab : a < b) (hx0 : a ≤ x) (hx1 : x ≤ b) (hU : lastKnot U = b) (hV : lastKnot V = b)
    (hf : SpanDeriv U f f' x) (hg : SpanDeriv V g g' x) (he : ∀ t, a ≤ t → t ≤ b → f t = g t) : f' = g' := by
  rcases lt_or_eq_of_le hx1 with hlt | heq
  · have h1 := (hf.right (hU ▸ hlt)).mono (s := Set.Icc x b) fun t ht => ht.1
    have h2 := (hg.right (hV ▸ hlt)).mono (s := Set.Icc x b) fun t ht => ht.1
    have h3 : HasDerivWithinAt f g' (Set.Icc x b) x := h2.congr (fun t ht => he t (hx0.trans ht.1) ht.2) (he x hx0 hx1)
    exact (uniqueDiffOn_Icc hlt x ⟨le_rfl, hlt.le⟩).eq_deriv _ h1 h3
  · subst heq
    have h1 := (hf.left hU.symm).mono (s := Set.Icc a x) fun t ht => ht.2
    have h2 := (hg.left hV.symm).mono (s := Set.Icc a x) fun t ht => ht.2
    have h3 : HasDerivWithinAt f g' (Set.Icc a x) x := h2.congr (fun t ht => he t ht.1 ht.2) (he x hx0 le_rfl)
    exact (uniqueDiffOn_Icc hab x ⟨hab.le, le_rfl⟩).eq_deriv _ h1 h3

/-- **C115 (derivatives, B-splines and NURBS).** The isoparametric curve of a B-spline or NURBS also has the derivatives of the spline in its direction. -/
theorem C115_line_derivative {s : Spl ℝ} (h : WFSpl s) {d : ℕ} {U : List ℝ} {p : ℕ} (hU : s.ps.knots[d]? = some U) (hp : s.ps.degree[d]? = some p) {x : List ℝ}
    (hx : InDomain s x) :
    ∃ r : Spl ℝ, WFSpl r ∧ (IsBSpline r ↔ IsBSpline s) ∧ r.ps.knots = [U] ∧ r.ps.degree = [p] ∧ r.ph.dim = s.ph.dim ∧
      ∀ t, knot U 0 ≤ t → t ≤ lastKnot U → ∀ dims : List ℕ, (∀ c ∈ dims, c < s.ph.dim) → ∀ m : ℕ,
        s.evaluateDerivative (x.set d t) (zl dims) (zl ((s.ps.knots.map fun _ => 0).set d m)) = r.evaluateDerivative [t] (zl dims) (zl [m]) := by
  obtain ⟨r, r1, r2, r3, r4, r5, r6, -⟩ := C115_curve h hU hp hx
  refine ⟨r, r1, r2, r3, r4, r5, fun t h0 h1 dims hdims m => ?_⟩
  obtain ⟨F, f1, f2, f3⟩ := deriv_values h
  obtain ⟨G, g1, g2, g3⟩ := deriv_values r1
  have hw : WFKnots U p := forall₂_get h.knots hU hp
  have hd : d < s.ps.knots.length := lt_of_some hU
  have hxl : x.length = s.ps.knots.length := (List.Forall₂.length_eq hx).symm
  let z : ℕ → List ℕ := fun k => (s.ps.knots.map fun _ => 0).set d k
  have hz : ∀ k, (z k).length = s.ps.knots.length := fun k => by simp [z]
  have hmod : ∀ k, (z k).modify d (· + 1) = z (k + 1) := fun k => by
    refine List.ext_getElem (by simp [z]) fun n h1 h2 => ?_
    rw [List.getElem_modify]
    simp only [z, List.getElem_set]
    split_ifs <;> rfl
  have hz0 : z 0 = s.ps.knots.map fun _ => 0 := by
    refine List.ext_getElem (by simp [z]) fun n h1 h2 => ?_
    simp only [z, List.getElem_set]
    split_ifs <;> simp
  have hget : ∀ t, (x.set d t).getD d 0 = t := fun t => by
    rw [List.getD_eq_getElem?_getD, List.getElem?_set_self (by omega)]; rfl
  have hs : ∀ t, knot U 0 ≤ t → t ≤ lastKnot U → InDomain s (x.set d t) := fun t h0 h1 => inDomain_set hx hU h0 h1
  have hr : ∀ t, knot U 0 ≤ t → t ≤ lastKnot U → InDomain r [t] := fun t h0 h1 => by
    unfold InDomain; rw [r3]; exact .cons ⟨h0, h1⟩ .nil
  have key : ∀ m, ∀ c < s.ph.dim, ∀ t, knot U 0 ≤ t → t ≤ lastKnot U → F c (z m) (x.set d t) = G c [m] [t] := by
    intro m
    induction m with
    | zero =>
      intro c hc t h0 h1
      have e1 := f2 _ [c] (hs t h0 h1) (by simpa using hc)
      have e2 := g2 _ [c] (hr t h0 h1) (by simpa [r5] using hc)
      rw [← hz0] at e1
      rw [r3] at e2
      have e3 := e1.symm.trans ((r6 t h0 h1 [c] (by simpa using hc)).trans e2)
      simpa using e3
    | succ m ih =>
      intro c hc t h0 h1
      have d1 := f3 _ (z m) c d U (hs t h0 h1) (hz m) hU
      have d2 := g3 _ [m] c 0 U (hr t h0 h1) (by rw [r3]; rfl) (by rw [r3]; rfl)
      rw [hget, hmod] at d1
      exact span_unique (x := t) hw.range h0 h1 rfl rfl d1 d2 fun t h0 h1 => by
        rw [List.set_set]; exact ih c hc t h0 h1
  rw [f1 _ (z m) dims (hs t h0 h1) (hz m) hdims, g1 _ [m] dims (hr t h0 h1) (by rw [r3]; rfl) (by rw [r5]; exact hdims)]
  exact congrArg _ (List.map_congr_left fun c hc => key m c (hdims c hc) t h0 h1)

/-- A bilinear NURBS surface meets the hypotheses. -/
example : ∃ r : Spl ℝ, WFSpl r ∧ ¬ IsBSpline r ∧ ∀ t, 0 ≤ t → t ≤ 1 → ∀ m : ℕ,
    exReal.evaluateDerivative [1 / 2, t] [0] [0, (m : ℤ)] = r.evaluateDerivative [t] [0] [(m : ℤ)] := by
  obtain ⟨r, r1, r2, -, -, -, r6⟩ := C115_line_derivative exReal_wf (d := 1) (U := [0, 0, 1, 1]) (p := 1) rfl rfl (x := [1 / 2, 0])
    (.cons ⟨by simp [knot], by simp [lastKnot, knot]; norm_num⟩ (.cons ⟨by simp [knot], by simp [lastKnot, knot]⟩ .nil))
  refine ⟨r, r1, fun hb => by simpa [IsBSpline, exReal] using r2.1 hb, fun t h0 h1 m => ?_⟩
  exact r6 t (by simpa [knot] using h0) (by simpa [lastKnot, knot] using h1) [0] (by simp [exReal]) m

end SplineLib
