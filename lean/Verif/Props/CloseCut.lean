import Verif.Core.ScaleCut
import Verif.Props.CloseInsert
import Verif.Props.Subdivision

/-!
# C98: subdivision does not depend on the distances between knots
-/

namespace SplineLib
set_option linter.unusedSectionVars false
variable {K : Type} [Field K] [LinearOrder K] [IsStrictOrderedRing K] {s : Spl K} {d : ℕ} {U : List K} {p : ℕ} {t : K}

/-- `l` is a part of `s` on knots at any distance: same degrees, dimension and kind; in direction `d` the knots `W`, all other knots the same. -/
structure IsFreePart (s l : Spl K) (d : ℕ) (W : List K) : Prop where
  free : FreeSpl l
  degree : l.ps.degree = s.ps.degree
  knots : l.ps.knots = s.ps.knots.set d W
  dim : l.ph.dim = s.ph.dim
  kind : IsBSpline s ↔ IsBSpline l

/-- `l` and `s` are the same function at `x`. -/
structure SameAt (s l : Spl K) (x : List K) : Prop where
  bspline : IsBSpline s → ∀ c < s.ph.dim, bsplineValue l x c = bsplineValue s x c
  nurbs : IsNurbs s → ∀ c < s.ph.dim, nurbsValue l x c = nurbsValue s x c
  weight : IsNurbs s → weightValue l x = weightValue s x

theorem isBSpline_scaled {r : K} {s s' : Spl K} (h : Scaled r s s') : IsBSpline s' ↔ IsBSpline s := by
  unfold IsBSpline; rw [h.ph]

theorem isNurbs_scaled {r : K} {s s' : Spl K} (h : Scaled r s s') : IsNurbs s' ↔ IsNurbs s := by
  rw [isNurbs_iff, isNurbs_iff, h.ph]

theorem IsPart.unscale {r : K} {s s' l l' : Spl K} {W : List K} (hr : 0 < r) (hs : Scaled r s s') (hl : Scaled r l l')
    (h : IsPart s' l' d (W.map (r * ·))) : IsFreePart s l d W where
  free := h.wf.unscale hr hl
  degree := by rw [← hl.degree, ← hs.degree, h.degree]
  knots := by
    have := h.knots
    rw [hl.knots, hs.knots, sc_set] at this
    exact sc_injective hr.ne' this
  dim := by have := h.dim; rwa [hl.ph, hs.ph] at this
  kind := by have := h.kind; rwa [hl.ph, hs.ph] at this

theorem SameValue.unscale {r : K} {s s' l l' : Spl K} {x : List K} (hr : 0 < r) (hs : Scaled r s s') (hl : Scaled r l l') (ws : WFSpl s') (wl : WFSpl l')
    (hk : IsBSpline s ↔ IsBSpline l) (hdim : l.ph.dim = s.ph.dim) (hx : InDomain s x) (hx' : InDomain l x)
    (h : SameValue s' l' (x.map (r * ·))) : SameAt s l x := by
  have d1 := (inDomain_scaled hs hr x).2 hx
  have d2 := (inDomain_scaled hl hr x).2 hx'
  have e : s'.ph.dim = s.ph.dim := by rw [hs.ph]
  have e' : l'.ph.dim = s.ph.dim := by rw [hl.ph, hdim]
  refine ⟨fun hb c hc => ?_, fun hn c hc => ?_, fun hn => ?_⟩
  · have := h [c] (by simp [e, hc])
    rw [evaluate_bspline wl ((isBSpline_scaled hl).2 (hk.1 hb)) d2 [c] (by simpa [e'] using hc),
      evaluate_bspline ws ((isBSpline_scaled hs).2 hb) d1 [c] (by simpa [e] using hc)] at this
    simp only [List.map_cons, List.map_nil, Except.ok.injEq, List.cons.injEq, and_true] at this
    unfold bsplineValue at this ⊢
    rwa [tensorSum_scaled hs hr x (fun I => cpt_scaled hs I c), tensorSum_scaled hl hr x (fun I => cpt_scaled hl I c)] at this
  · have hn' : IsNurbs l := isNurbs_iff.2 fun hc => isNurbs_iff.1 hn (hk.2 hc)
    have := h [c] (by simp [e, hc])
    rw [evaluate_nurbs wl ((isNurbs_scaled hl).2 hn') d2 [c] (by simpa [e'] using hc.le),
      evaluate_nurbs ws ((isNurbs_scaled hs).2 hn) d1 [c] (by simpa [e] using hc.le)] at this
    simp only [List.map_cons, List.map_nil, Except.ok.injEq, List.cons.injEq, and_true, e, e', hc.ne, if_false] at this
    unfold nurbsValue weightValue at this ⊢
    rwa [tensorSum_scaled hs hr x (wgt_scaled hs), tensorSum_scaled hl hr x (wgt_scaled hl),
      tensorSum_scaled hs hr x (fun I => by rw [wgt_scaled hs, cpt_scaled hs]), tensorSum_scaled hl hr x (fun I => by rw [wgt_scaled hl, cpt_scaled hl])] at this
  · have hn' : IsNurbs l := isNurbs_iff.2 fun hc => isNurbs_iff.1 hn (hk.2 hc)
    have := h [s.ph.dim] (by simp [e, (isNurbs_scaled hs).2 hn])
    rw [evaluate_nurbs wl ((isNurbs_scaled hl).2 hn') d2 [s.ph.dim] (by simp [e']),
      evaluate_nurbs ws ((isNurbs_scaled hs).2 hn) d1 [s.ph.dim] (by simp [e])] at this
    simp only [List.map_cons, List.map_nil, Except.ok.injEq, List.cons.injEq, and_true, e, e', if_true] at this
    unfold weightValue at this ⊢
    rwa [tensorSum_scaled hs hr x (wgt_scaled hs), tensorSum_scaled hl hr x (wgt_scaled hl)] at this

theorem filter_lt_scale {r : K} (hr : 0 < r) (U : List K) (t : K) :
    (U.map (r * ·)).filter (fun y => decide (y < r * t)) = (U.filter fun y => decide (y < t)).map (r * ·) := by
  rw [List.filter_map]
  congr 1
  refine List.filter_congr fun a _ => ?_
  simp only [Function.comp, mul_lt_mul_iff_right₀ hr]

theorem filter_gt_scale {r : K} (hr : 0 < r) (U : List K) (t : K) :
    (U.map (r * ·)).filter (fun y => decide (r * t < y)) = (U.filter fun y => decide (t < y)).map (r * ·) := by
  rw [List.filter_map]
  congr 1
  refine List.filter_congr fun a _ => ?_
  simp only [Function.comp, mul_lt_mul_iff_right₀ hr]

/-- **C98**, the part that holds: on sorted clamped knots at any distance from each other, `SudivideSpline` at any parameter inside the range that is at
least `kEpsilon` to the left of the last knot (it may be as close as one likes to other knots) succeeds. The original stays the same function; the
parts have the knots before and after the parameter and are the same function on the two parts of the domain. -/
theorem C98_subdivision_partial (h : FreeSpl s) (hU : s.ps.knots[d]? = some U) (hp : s.ps.degree[d]? = some p) (h0 : knot U 0 < t)
    (h1 : t + kEps K ≤ lastKnot U) (hm : U.count t ≤ p) (hsz : U.length + p + 1 < 2 ^ 63) (hsz2 : ((npts s).set d U.length).prod < 2 ^ 64) :
    ∃ q a b, s.subdivide t d = .ok (q, a, b) ∧ FreeSpl q ∧ SameFunction s q ∧
      IsFreePart s a d (U.filter (fun y => decide (y < t)) ++ List.replicate (p + 1) t) ∧
      IsFreePart s b d (List.replicate (p + 1) t ++ U.filter (fun y => decide (t < y))) ∧
      (∀ x c, x[d]? = some c → (InDomain a x ↔ InDomain s x ∧ c ≤ t)) ∧
      (∀ x c, x[d]? = some c → (InDomain b x ↔ InDomain s x ∧ t ≤ c)) ∧
      (∀ x, InDomain a x → SameAt s a x) ∧ (∀ x, InDomain b x → SameAt s b x) := by
  have hf := forall₂_get h.knots hU hp
  have hc : Clear U t := ⟨hf.sorted, hf.ne_nil, h1⟩
  obtain ⟨r, s', hr, hS, hw, hsep⟩ := h.scaled t
  have hr0 : 0 < r := lt_of_lt_of_le one_pos hr
  have hU' : s'.ps.knots[d]? = some (U.map (r * ·)) := by rw [hS.knots, sc_get, hU]; rfl
  have hp' : s'.ps.degree[d]? = some p := by rw [hS.degree]; exact hp
  have ha : Admissible (U.map (r * ·)) (r * t) := by
    refine ⟨?_, ?_, hsep U (List.mem_of_getElem? hU)⟩
    · rw [knot_scale]; exact mul_lt_mul_of_pos_left h0 hr0
    · rw [lastKnot_scale]; exact mul_lt_mul_of_pos_left hc.lt hr0
  have hcount : (U.map (r * ·)).count (r * t) ≤ p := by
    rw [List.count_map_of_injective _ _ (mul_right_injective₀ hr0.ne')]; exact hm
  obtain ⟨q', a', b', e1, e2, e3, e4, e5, e6, e7, e8, e9⟩ := C19_subdivision hw hU' hp' ha hcount (by rw [List.length_map]; exact hsz)
    (by rw [npts_scaled hS, List.length_map]; exact hsz2)
  obtain ⟨q, a, b, f1, f2, f3, f4⟩ := subdivide_scale hr hS hU hc e1
  rw [filter_lt_scale hr0] at e4
  rw [filter_gt_scale hr0] at e5
  have ea : (U.filter fun y => decide (y < t)).map (r * ·) ++ List.replicate (p + 1) (r * t) =
      ((U.filter fun y => decide (y < t)) ++ List.replicate (p + 1) t).map (r * ·) := by simp
  have eb : List.replicate (p + 1) (r * t) ++ (U.filter fun y => decide (t < y)).map (r * ·) =
      (List.replicate (p + 1) t ++ U.filter fun y => decide (t < y)).map (r * ·) := by simp
  rw [ea] at e4
  rw [eb] at e5
  have pa := e4.unscale hr0 hS f3
  have pb := e5.unscale hr0 hS f4
  have da : ∀ x c, x[d]? = some c → (InDomain a x ↔ InDomain s x ∧ c ≤ t) := by
    intro x c hx
    rw [← inDomain_scaled f3 hr0, ← inDomain_scaled hS hr0, e6 (x.map (r * ·)) (r * c) (by simp [hx]), mul_le_mul_iff_right₀ hr0]
  have db : ∀ x c, x[d]? = some c → (InDomain b x ↔ InDomain s x ∧ t ≤ c) := by
    intro x c hx
    rw [← inDomain_scaled f4 hr0, ← inDomain_scaled hS hr0, e7 (x.map (r * ·)) (r * c) (by simp [hx]), mul_le_mul_iff_right₀ hr0]
  have hget : ∀ {l : Spl K} {W : List K}, l.ps.knots = s.ps.knots.set d W → ∀ x, InDomain l x → ∃ c, x[d]? = some c := by
    intro l W hl x hx
    have hW : l.ps.knots[d]? = some W := by rw [hl]; exact set_get hU
    obtain ⟨c, hc, -⟩ := forall₂_exists hx hW
    exact ⟨c, hc⟩
  have hq : SameSums s' q' := by
    obtain ⟨q'', a'', b'', g1, g2, g3⟩ := subdivide_facts hw hU' hp' ha (show kvMult _ _ ≤ p + 1 by unfold kvMult; omega)
      (by rw [List.length_map]; exact hsz) (by rw [npts_scaled hS, List.length_map]; exact hsz2)
    rw [e1] at g1
    cases g1
    exact g3.same
  refine ⟨q, a, b, f1, e2.unscale hr0 f2, (sameSums_unscale hr0 hS f2 hq).sameFunction, pa, pb, da, db, fun x hx => ?_, fun x hx => ?_⟩
  · obtain ⟨c, hxc⟩ := hget pa.knots x hx
    exact (e8 _ ((inDomain_scaled f3 hr0 x).2 hx)).unscale hr0 hS f3 hw e4.wf pa.kind pa.dim ((da x c hxc).1 hx).1 hx
  · obtain ⟨c, hxc⟩ := hget pb.knots x hx
    exact (e9 _ ((inDomain_scaled f4 hr0 x).2 hx)).unscale hr0 hS f4 hw e5.wf pb.kind pb.dim ((db x c hxc).1 hx).1 hx

/-- **C98** for `Evaluate`: at every parameter in spans of length at least `kEpsilon` of the original and of a part, `Evaluate` returns the same values. -/
theorem C98_evaluate_partial {W : List K} {l : Spl K} {x : List K} (h : FreeSpl s) (hl : IsFreePart s l d W) (hs : SameAt s l x)
    (hx : List.Forall₂ LongSpan s.ps.knots x) (hx' : List.Forall₂ LongSpan l.ps.knots x) (dims : List ℕ) (hd : ∀ c ∈ dims, c < s.ph.dim) :
    l.evaluate x (zl dims) = s.evaluate x (zl dims) := by
  obtain ⟨a1, a2, a3⟩ := free_windowSum h hx
  obtain ⟨b1, b2, b3⟩ := free_windowSum hl.free hx'
  have hd' : ∀ c ∈ dims, c < l.ph.dim := by rw [hl.dim]; exact hd
  by_cases hb : IsBSpline s
  · rw [a1.evaluate_bspline a2 hb dims hd, b1.evaluate_bspline b2 (hl.kind.1 hb) dims hd']
    congr 1
    refine List.map_congr_left fun c hc => ?_
    rw [a3, b3]
    exact hs.bspline hb c (hd c hc)
  · have hn : IsNurbs s := isNurbs_iff.2 hb
    have hn' : IsNurbs l := isNurbs_iff.2 fun hc => hb (hl.kind.2 hc)
    rw [a1.evaluate_nurbs a2 hn (by rw [a3]; exact (free_weight_pos h a2).ne') dims hd,
      b1.evaluate_nurbs b2 hn' (by rw [b3]; exact (free_weight_pos hl.free b2).ne') dims hd']
    congr 1
    refine List.map_congr_left fun c hc => ?_
    have := hs.nurbs hn c (hd c hc)
    unfold nurbsValue weightValue at this
    rw [a3, a3, b3, b3]
    simpa only [mul_comm] using this

/-- **C98** fails near the end of the range, on every well-formed spline: for a parameter strictly inside the range, but less than `kEpsilon` from the
last knot, `SudivideSpline` divides by zero in every direction of positive degree. -/
theorem C98_near_end_fails (h : WFSpl s) (hU : s.ps.knots[d]? = some U) (hp : s.ps.degree[d]? = some (p + 1)) (h0 : lastKnot U - kEps K < t)
    (h1 : t < lastKnot U) (hm : U.count t ≤ p + 1) (hsz : U.length + p + 2 < 2 ^ 63) : s.subdivide t d = .error .nonfinite := by
  obtain ⟨m, hmm⟩ : ∃ m, Spl.subdivideMult (p + 1) U t = m + 1 := by
    refine ⟨p + 1 - U.count t, ?_⟩
    unfold Spl.subdivideMult kvMult
    rw [toSizeT_of (n := p + 1 - U.count t + 1) (by push_cast; omega) (by omega)]
  unfold Spl.subdivide
  rw [getN_some hU, ok_bind, getN_some hp, ok_bind, hmm, C97_near_end_fails h hU hp h0 h1 (by omega) m]
  rfl

/-- The curve with the knots `0.3` and `0.1 + 0.2` is cut between the two. -/
example : ∃ q a b, noisyCurve.subdivide ((three + three') / 2) 0 = .ok (q, a, b) ∧ (∀ x, InDomain a x → SameAt noisyCurve a x) ∧
    ∀ x, InDomain b x → SameAt noisyCurve b x := by
  obtain ⟨q, a, b, h1, -, -, -, -, -, -, h2, h3⟩ := C98_subdivision_partial noisyCurve_free (d := 0) rfl rfl (t := (three + three') / 2)
    (by decide +kernel) (by decide +kernel) (by decide +kernel) (by decide +kernel) (by decide +kernel)
  exact ⟨q, a, b, h1, h2, h3⟩

/-- `exCurve` is not cut at the second double before 1. -/
example : exCurve.subdivide (1 - 1 / 2 ^ 52) 0 = .error .nonfinite :=
  C98_near_end_fails exCurve_wf (d := 0) (U := [0, 0, 0, 1/2, 1, 1, 1]) (p := 1) rfl rfl (by decide +kernel) (by decide +kernel) (by decide +kernel)
    (by decide +kernel)

end SplineLib
