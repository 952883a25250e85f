import Verif.Core.ControlNet
import Verif.Core.EvalProps
import Verif.Spec.Examples
import Mathlib.Algebra.Order.Field.Rat

/-!
# C89: refinement brings the control points to the spline

Inserting knots does not make the control net steeper, relative to the knots. Therefore a control point of a refined spline is as close to the spline as
the knots are dense, with a constant that is known before the refinement.
-/

namespace SplineLib
set_option linter.unusedSectionVars false
variable {K : Type} [Field K] [LinearOrder K] [IsStrictOrderedRing K]

/-- Neighbouring coefficients differ by at most `L` times the length of the knots between them. -/
def SlopeBound (s : Spl K) (L : K) (F : List ℕ → K) : Prop :=
  ∀ (d : ℕ) (U : List K) (p : ℕ), s.ps.knots[d]? = some U → s.ps.degree[d]? = some p → ∀ I, InBox (npts s) I → ixd I d + 1 < U.length - p - 1 →
    |F (I.set d (ixd I d + 1)) - F I| ≤ L * (knot U (ixd I d + 1 + p) - knot U (ixd I d + 1))

/-- In every direction the parameter lies between the knots `u_{i+1}` and `u_{i+p}` of the control point. -/
def AtPoint (s : Spl K) (I : List ℕ) (x : List K) : Prop :=
  x.length = s.ps.knots.length ∧ ∀ (d : ℕ) (U : List K) (p : ℕ) (a : K), s.ps.knots[d]? = some U → s.ps.degree[d]? = some p → x[d]? = some a →
    knot U (ixd I d + 1) ≤ a ∧ a ≤ knot U (ixd I d + p)

/-- Neighbouring knots are at most `h` apart. -/
def MeshAtMost (s : Spl K) (h : K) : Prop := ∀ U ∈ s.ps.knots, ∀ i, i + 1 < U.length → knot U (i + 1) - knot U i ≤ h

/-- `s'` results from `s` by calls of `InsertKnot`. -/
inductive Refines : Spl K → Spl K → Prop
  | refl (s : Spl K) : Refines s s
  | insert {s s1 s2 : Spl K} {d : ℕ} {U : List K} {t : K} {m : ℕ} (h : Refines s s1) (hU : s1.ps.knots[d]? = some U) (ht : Admissible U t)
      (hsz : U.length + m < 2 ^ 63) (he : s1.insertKnot t d m = .ok s2) : Refines s s2

theorem slopeBound_iff {s : Spl K} {L : K} {F : List ℕ → K} : SlopeBound s L F ↔ NetSlope s.ps.knots s.ps.degree L F := by
  constructor
  · intro h d U p hU hp I hI i hi
    have hd := lt_of_some (nptsOf_get hU hp)
    have hdI : d < I.length := by rw [hI.length]; exact hd
    have box : InBox (npts s) (I.set d i) := by
      have := inBox_set (d := d) (n := U.length - p - 1) (i := i) hI (by omega)
      rwa [← nptsOf_ixd hU hp, set_ixd hd] at this
    have := h d U p hU hp _ box (by rw [ixd_set_self hdI]; exact hi)
    rwa [ixd_set_self hdI, List.set_set] at this
  · intro h d U p hU hp I hI hi
    have hd := lt_of_some (nptsOf_get hU hp)
    have hdI : d < I.length := by rw [hI.length]; exact hd
    have := h d U p hU hp I hI (ixd I d) hi
    dsimp only at this
    rwa [set_ixd hdI] at this

theorem nearPoint_of : ∀ {Us : List (List K)} {ps : List ℕ} {I : List ℕ} {x : List K}, Us.length = ps.length → Us.length = I.length →
    x.length = Us.length → (∀ (d : ℕ) (U : List K) (p : ℕ) (a : K), Us[d]? = some U → ps[d]? = some p → x[d]? = some a →
      knot U (ixd I d + 1) ≤ a ∧ a ≤ knot U (ixd I d + p)) → NearPoint Us ps I x
  | [], [], [], [], _, _, _, _ => trivial
  | U :: Us, p :: ps, i :: I, a :: x, h1, h2, h3, h =>
    ⟨h 0 U p a rfl rfl rfl, nearPoint_of (by simpa using h1) (by simpa using h2) (by simpa using h3) fun d V q b hV hq hb =>
      h (d + 1) V q b hV hq hb⟩
  | [], _ :: _, _, _, h1, _, _, _ => by simp at h1
  | _ :: _, [], _, _, h1, _, _, _ => by simp at h1
  | [], [], _ :: _, _, _, h2, _, _ => by simp at h2
  | _ :: _, _ :: _, [], _, _, h2, _, _ => by simp at h2
  | [], [], [], _ :: _, _, _, h3, _ => by simp at h3
  | _ :: _, _ :: _, _ :: _, [], _, _, h3, _ => by simp at h3

theorem Refines.kept {s s' : Spl K} (hs : WFSpl s) (h : Refines s s') : NetKept s s' := by
  induction h with
  | refl => exact NetKept.refl hs
  | @insert s1 s2 d U t m h hU ht hsz he ih =>
    have g := ih
    obtain ⟨p, hp⟩ : ∃ p, s1.ps.degree[d]? = some p :=
      List.getElem?_eq_some_iff.1 hU |>.elim fun hd _ => ⟨_, List.getElem?_eq_getElem (by rw [← g.wf.knots.length_eq]; exact hd)⟩
    obtain ⟨s', e, _, k⟩ := netKept_many g.wf hU hp ht m hsz
    rw [he] at e
    obtain rfl := Except.ok.inj e
    exact g.trans k

/-- `RefineKnots` is a sequence of insertions. -/
theorem refines_refineKnots {d : ℕ} {p : ℕ} : ∀ (ts : List K) {s0 s s' : Spl K} (_ : Refines s0 s) (_ : WFSpl s) {U : List K}
    (_ : s.ps.knots[d]? = some U) (_ : s.ps.degree[d]? = some p) (_ : ∀ t ∈ ts, knot U 0 < t ∧ t < lastKnot U) (_ : Separated (ts ++ U))
    (_ : U.length + ts.length < 2 ^ 63) (_ : s.refineKnots ts d = .ok s'), Refines s0 s' := by
  intro ts
  induction ts with
  | nil =>
    intro s0 s s' h0 h U _ _ _ _ _ he
    obtain rfl : s = s' := Except.ok.inj he
    exact h0
  | cons t ts ih =>
    intro s0 s s' h0 h U hU hp hx hsep hsz he
    have hw := forall₂_get h.knots hU hp
    have ht : Admissible U t :=
      ⟨(hx t (by simp)).1, (hx t (by simp)).2, fun a ha b hb => hsep a (by simp at ha ⊢; tauto) b (by simp at hb ⊢; tauto)⟩
    simp only [List.length_cons] at hsz
    have hi := (ht.pos hw).1
    obtain ⟨s1, e1, k1, g1⟩ := netKept_one h hU hp ht (by omega)
    have he' : (s.insertKnot t d >>= fun s' => s'.refineKnots ts d) = .ok s' := he
    rw [e1, ok_bind] at he'
    refine ih (.insert h0 hU ht (m := 1) (by omega) e1) g1.wf (U := U.insertIdx (spanIx U t + 1) t) ?_ (by rw [g1.degree]; exact hp) ?_ ?_ ?_ he'
    · rw [k1, List.getElem?_set]; simp [lt_of_some hU]
    · intro y hy; rw [hi.firstKnot, hi.lastKnot]; exact hx y (by simp [hy])
    · intro a ha b hb
      refine hsep a ?_ b ?_
      · simp only [List.mem_append, hi.mem] at ha
        simp only [List.cons_append, List.mem_cons, List.mem_append]; tauto
      · simp only [List.mem_append, hi.mem] at hb
        simp only [List.cons_append, List.mem_cons, List.mem_append]; tauto
    · rw [hi.length]; omega

/-- **C89** Inserting knots does not make the net of the homogeneous control points and weights steeper, relative to the knots, and does not make
weights smaller than the smallest one. -/
theorem C89_slopes {s s' : Spl K} (hs : WFSpl s) (h : Refines s s') :
    (∀ L, SlopeBound s L (wgt s) → SlopeBound s' L (wgt s')) ∧
    (∀ c < s.ph.dim, ∀ L, SlopeBound s L (fun I => wgt s I * cpt s I c) → SlopeBound s' L fun I => wgt s' I * cpt s' I c) ∧
    ∀ ω, (∀ I, InBox (npts s) I → ω ≤ wgt s I) → ∀ I, InBox (npts s') I → ω ≤ wgt s' I := by
  have g := h.kept hs
  simp only [slopeBound_iff]
  exact ⟨g.wslope, g.cslope, g.wmin⟩

/-- The distances of homogeneous coordinates. -/
theorem hom_dist {s s' : Spl K} (hs : WFSpl s) (h : Refines s s') {δ : K} (hm : MeshAtMost s' δ) {L : K} (hL : 0 ≤ L) {F : List ℕ → K}
    (hF : SlopeBound s' L F) {I : List ℕ} (hI : InBox (npts s') I) {x : List K} (hx : AtPoint s' I x) :
    InDomain s' x ∧ |F I - tensorSum s' x F| ≤ L * (netConst s.ps.degree * δ) := by
  have g := h.kept hs
  have hn : NearPoint s'.ps.knots s'.ps.degree I x := by
    refine nearPoint_of g.wf.knots.length_eq ?_ hx.1 hx.2
    rw [hI.length, npts_eq, nptsOf, List.length_zipWith, g.wf.knots.length_eq]; simp
  refine ⟨near_dom g.wf.knots hI hn, ?_⟩
  rw [← g.degree]
  exact sum_dist g.wf.knots hm hL (slopeBound_iff.1 hF) hI hn

/-- **C89** B-splines: whatever knots are inserted, each control point of the result is within `L · Σ 2p² · h` of the points that `Evaluate` returns for
the original spline near it. `L` bounds the slopes of the original control net and `h` is the largest distance of neighbouring knots of the result. -/
theorem C89_bspline {s s' : Spl K} (hs : WFSpl s) (hb : IsBSpline s) (h : Refines s s') {δ : K} (hm : MeshAtMost s' δ) {c : ℕ} (hc : c < s.ph.dim)
    {L : K} (hL : 0 ≤ L) (hF : SlopeBound s L fun I => cpt s I c) {I : List ℕ} (hI : InBox (npts s') I) {x : List K} (hx : AtPoint s' I x) :
    ∃ v, s.evaluate x [(c : ℤ)] = .ok [v] ∧ |cpt s' I c - v| ≤ L * ((s.ps.degree.map fun p : ℕ => 2 * (p : K) ^ 2).sum * δ) := by
  have g := h.kept hs
  have hb' : IsBSpline s' := g.same.kind.1 hb
  have w1 : ∀ J, wgt s J = 1 := fun J => by unfold wgt; rw [show s.ph.weights = none from hb]
  have w1' : ∀ J, wgt s' J = 1 := fun J => by unfold wgt; rw [show s'.ph.weights = none from hb']
  have h1 := (C89_slopes hs h).2.1 c hc L (by simpa only [w1, one_mul] using hF)
  simp only [w1', one_mul] at h1
  obtain ⟨hd, h2⟩ := hom_dist hs h hm hL h1 hI hx
  have hds := (g.same.domain x).1 hd
  refine ⟨bsplineValue s x c, evaluate_bspline hs hb hds [c] (by simpa using hc), ?_⟩
  have h3 := g.same.csum x hds c hc
  simp only [w1, w1', one_mul] at h3
  rw [h3] at h2
  exact h2

/-- **C89** NURBS: the same, for weights of at least `ω` in the original spline. -/
theorem C89_nurbs {s s' : Spl K} (hs : WFSpl s) (hn : IsNurbs s) (h : Refines s s') {δ : K} (hm : MeshAtMost s' δ) {c : ℕ} (hc : c < s.ph.dim)
    {L Lw ω : K} (hL : 0 ≤ L) (hLw : 0 ≤ Lw) (hω : 0 < ω) (hF : SlopeBound s L fun I => wgt s I * cpt s I c) (hW : SlopeBound s Lw (wgt s))
    (hmin : ∀ I, InBox (npts s) I → ω ≤ wgt s I) {I : List ℕ} (hI : InBox (npts s') I) {x : List K} (hx : AtPoint s' I x) :
    ∃ v, s.evaluate x [(c : ℤ)] = .ok [v] ∧
      |cpt s' I c - v| ≤ (L + |v| * Lw) * ((s.ps.degree.map fun p : ℕ => 2 * (p : K) ^ 2).sum * δ) / ω := by
  have g := h.kept hs
  obtain ⟨k1, k2, k3⟩ := C89_slopes hs h
  obtain ⟨hd, h2⟩ := hom_dist hs h hm hL (k2 c hc L hF) hI hx
  obtain ⟨_, h1⟩ := hom_dist hs h hm hLw (k1 Lw hW) hI hx
  have hds := (g.same.domain x).1 hd
  have hev := evaluate_nurbs hs hn hds [c] (by simpa using hc.le)
  simp only [List.map_cons, List.map_nil, if_neg hc.ne] at hev
  refine ⟨nurbsValue s x c, hev, ?_⟩
  rw [g.same.csum x hds c hc] at h2
  rw [g.same.wsum x hds] at h1
  have hpos := weightValue_pos hs hds
  have hA : tensorSum s x (fun I => wgt s I * cpt s I c) = nurbsValue s x c * weightValue s x := by
    unfold nurbsValue; rw [div_mul_cancel₀ _ hpos.ne']
  rw [hA] at h2
  change |wgt s' I - weightValue s x| ≤ _ at h1
  have hw := k3 ω hmin I hI
  rw [le_div_iff₀ hω]
  change |cpt s' I c - nurbsValue s x c| * ω ≤ (L + |nurbsValue s x c| * Lw) * (netConst s.ps.degree * δ)
  generalize nurbsValue s x c = v at *
  generalize weightValue s x = W at *
  have e : wgt s' I * (cpt s' I c - v) = (wgt s' I * cpt s' I c - v * W) - v * (wgt s' I - W) := by ring
  calc |cpt s' I c - v| * ω ≤ |cpt s' I c - v| * wgt s' I := mul_le_mul_of_nonneg_left hw (abs_nonneg _)
    _ = |wgt s' I * (cpt s' I c - v)| := by rw [abs_mul, abs_of_pos (lt_of_lt_of_le hω hw), mul_comm]
    _ ≤ |wgt s' I * cpt s' I c - v * W| + |v * (wgt s' I - W)| := by rw [e]; exact abs_sub _ _
    _ ≤ L * (netConst s.ps.degree * δ) + |v| * (Lw * (netConst s.ps.degree * δ)) := by
        rw [abs_mul]; exact add_le_add h2 (mul_le_mul_of_nonneg_left h1 (abs_nonneg _))
    _ = _ := by ring

/-! ## Examples -/

/-- `exCurve` after the insertion of 1/4 and 3/4. -/
def exFine : Spl ℚ :=
  ⟨⟨[[0, 0, 0, 1/4, 1/2, 3/4, 1, 1, 1]], [2], mkTable [[0, 0, 0, 1/4, 1/2, 3/4, 1, 1, 1]] [2]⟩,
   ⟨2, [6], [0, 0, 1/2, 1, 3/2, 2, 5/2, 2, 7/2, 1, 4, 0], none⟩⟩

theorem exFine_refines : Refines exCurve exFine := by
  refine refines_refineKnots (p := 2) (d := 0) [1/4, 3/4] (.refl exCurve) exCurve_wf (U := [0, 0, 0, 1/2, 1, 1, 1]) rfl rfl (by decide +kernel)
    (by unfold Separated; decide +kernel) (by decide) (by decide +kernel)

/-- The slopes of `exCurve` in the second coordinate. -/
theorem exCurve_slope : SlopeBound exCurve 4 fun I => cpt exCurve I 1 := by
  rw [slopeBound_iff]
  intro d U p hU hp I hI
  have hd := lt_of_some hU
  obtain rfl : d = 0 := by simp [exCurve] at hd; omega
  obtain rfl : [0, 0, 0, 1/2, 1, 1, 1] = U := Option.some.inj hU
  obtain rfl : 2 = p := Option.some.inj hp
  obtain ⟨i, rfl⟩ : ∃ i, I = [i] := by
    have := hI.length
    exact List.length_eq_one_iff.1 this
  have : ∀ i < 3, |cpt exCurve [i + 1] 1 - cpt exCurve [i] 1| ≤
      4 * (knot [0, 0, 0, 1/2, 1, 1, 1] (i + 1 + 2) - knot [0, 0, 0, 1/2, 1, 1, 1] (i + 1)) := by decide +kernel
  intro i hi
  exact this i (by simp at hi; omega)

/-- The third control point of the refined curve is within `4 · 8 · 1/4` of the point of the curve at `3/8`. -/
example : ∃ v, exCurve.evaluate [3/8] [1] = .ok [v] ∧ |2 - v| ≤ 8 := by
  obtain ⟨v, h1, h2⟩ := C89_bspline exCurve_wf rfl exFine_refines (δ := 1/4) (c := 1) (L := 4) (by
      intro U hU
      obtain rfl : U = [0, 0, 0, 1/4, 1/2, 3/4, 1, 1, 1] := by simpa [exFine] using hU
      have : ∀ i < 8, knot [0, 0, 0, 1/4, 1/2, 3/4, 1, 1, 1] (i + 1) - knot [0, 0, 0, 1/4, 1/2, 3/4, 1, 1, 1] i ≤ (1/4 : ℚ) := by decide +kernel
      intro i hi
      exact this i (by simp at hi; omega)) (by decide) (by norm_num) exCurve_slope (I := [2]) (.cons (by decide +kernel) .nil) (x := [3/8]) (by
      refine ⟨rfl, fun d U p a hU hp ha => ?_⟩
      have hd := lt_of_some hU
      obtain rfl : d = 0 := by simp [exFine] at hd; omega
      obtain rfl : [0, 0, 0, 1/4, 1/2, 3/4, 1, 1, 1] = U := Option.some.inj hU
      obtain rfl : 2 = p := Option.some.inj hp
      obtain rfl : 3/8 = a := Option.some.inj ha
      decide +kernel)
  refine ⟨v, h1, ?_⟩
  have e : cpt exFine [2] 1 = 2 := by decide +kernel
  rw [e] at h2
  refine h2.trans ?_
  simp [exCurve]
  norm_num

end SplineLib
