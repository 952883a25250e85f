import Verif.Core.ReduceTrue
import Verif.Props.Degree
import Mathlib.Data.List.Dedup

/-!
# Property C22: the whole degree reduction
-/

namespace SplineLib
set_option linter.unusedSectionVars false
open Finset
variable {K : Type} [Field K] [LinearOrder K] [IsStrictOrderedRing K] [HasSqrt K] [LawfulSqrt K]

/-- The inputs that are considered: a well-formed spline, in direction `d` of degree `p` over the knots `U`. First and last knot
have multiplicity exactly `p + 1`, the interior knots of `U` at most `p`, the knots of all directions at most one more than the
degree, and sizes fit into `int`. -/
structure ReduceInput (s : Spl K) (d p : ℕ) (U : List K) : Prop where
  wf : WFSpl s
  knots : s.ps.knots[d]? = some U
  degree : s.ps.degree[d]? = some p
  ends : ExactEnds U p
  interior : ∀ t ∈ U, knot U 0 < t → t < lastKnot U → kvMult U t ≤ p
  mult : List.Forall₂ (fun U p => ∀ t ∈ U, kvMult U t ≤ p + 1) s.ps.knots s.ps.degree
  size : (p + 1) * U.length < 2 ^ 63

omit [HasSqrt K] [LawfulSqrt K] in
theorem count_of_mem {U : List K} {N : ℕ} {P : K → Prop} (h : ∀ t ∈ U, P t → kvMult U t ≤ N) (t : K) (ht : P t) : kvMult U t ≤ N := by
  by_cases hm : t ∈ U
  · exact h t hm ht
  · unfold kvMult
    rw [List.count_eq_zero_of_not_mem hm]
    omega

theorem ReduceInput.nondeg {s : Spl K} {d p : ℕ} {U : List K} (h : ReduceInput s d p U) :
    List.Forall₂ NonDegenerate s.ps.knots s.ps.degree :=
  nonDegenerate_all h.wf.knots (h.mult.imp fun _ _ hm t => count_of_mem (P := fun _ => True) (fun t ht _ => hm t ht) t trivial)

theorem ReduceInput.runs {s : Spl K} {d p : ℕ} {U : List K} (h : ReduceInput s d p U) : ∃ f l mid, BezierRuns U p f l mid :=
  wf_runs (forall₂_getElem? h.wf.knots h.knots h.degree) h.ends fun t h0 h1 =>
    count_of_mem (P := fun t => knot U 0 < t ∧ t < lastKnot U) (fun t ht hp => h.interior t ht hp.1 hp.2) t ⟨h0, h1⟩

/-- The curve of `exCurve` and a NURBS surface meet the hypotheses. -/
theorem exCurve_reduceInput : ReduceInput exCurve 0 2 [0, 0, 0, 1/2, 1, 1, 1] :=
  ⟨exCurve_wf, rfl, rfl, by decide +kernel, by decide +kernel, .cons (by decide +kernel) .nil, by decide +kernel⟩

/-- **C22**, failure: a reduction that reports `false` leaves the object exactly as it was: the same knots, degrees, control
points and weights. -/
theorem C22_failure_changes_nothing {s s' : Spl K} {d p : ℕ} {U : List K} (h : ReduceInput s d p U) {tol : K}
    (hr : s.reduceDegree d tol = .ok (s', false)) : s' = s := by
  obtain ⟨f, l, mid, hb⟩ := h.runs
  exact reduceDegree_false sqrt_zero h.wf h.knots h.degree hb h.size h.nondeg hr

example : ReduceInput exCurve 0 2 [0, 0, 0, 1/2, 1, 1, 1] ∧ @Spl.reduceDegree ℚ _ _ ratSqrt exCurve 0 (1/100) = .ok (exCurve, false) :=
  ⟨exCurve_reduceInput, by decide +kernel⟩

/-! ### The segments -/

theorem dedup_expand {r : List (K × ℕ)} (h : Runs r) : (expand r).dedup = r.map Prod.fst := by
  obtain ⟨hs, hp⟩ := h
  induction r with
  | nil => rfl
  | cons a r ih =>
    obtain ⟨h1, h2⟩ := List.pairwise_cons.1 hs
    have key : ∀ m, (List.replicate (m + 1) a.1 ++ expand r).dedup = a.1 :: (expand r).dedup := by
      intro m
      induction m with
      | zero =>
        rw [List.replicate_one, List.singleton_append, List.dedup_cons_of_notMem]
        intro hm
        have := count_expand_eq_zero (x := a.1) (r := r) fun b hb => ne_of_gt (h1 b hb)
        rw [List.count_eq_zero] at this
        exact this hm
      | succ m ih =>
        rw [List.replicate_succ, List.cons_append, List.dedup_cons_of_mem (by simp), ih]
    obtain ⟨m, hm⟩ : ∃ m, a.2 = m + 1 := ⟨a.2 - 1, by have := hp a (List.mem_cons_self ..); omega⟩
    rw [expand_cons, hm, key, ih h2 fun b hb => hp b (List.mem_cons_of_mem _ hb), List.map_cons]

theorem breaks_eq {U : List K} {p : ℕ} {f l : K} {mid : List (K × ℕ)} (hb : BezierRuns U p f l mid) : U.dedup = breaks f l mid := by
  rw [hb.eq, dedup_expand hb.runs]
  simp [breaks]

theorem mult_eq {U : List K} {p : ℕ} {f l : K} {mid : List (K × ℕ)} (hb : BezierRuns U p f l mid) {a : K × ℕ} (ha : a ∈ mid) :
    kvMult U a.1 = a.2 := by
  obtain ⟨pre, post, rfl⟩ := List.append_of_mem ha
  unfold kvMult
  have e : [(f, p + 1)] ++ ((pre ++ a :: post) ++ [(l, p + 1)]) = ([(f, p + 1)] ++ pre) ++ (a.1, a.2) :: (post ++ [(l, p + 1)]) := by simp
  rw [hb.eq, e]
  exact count_expand (e ▸ hb.runs.1)

theorem diff_eq {U : List K} {p : ℕ} {f l : K} {mid : List (K × ℕ)} (hb : BezierRuns U p f l mid) :
    mid.map (fun a => (p : ℤ) - a.2) = U.dedup.tail.dropLast.map fun t => (p : ℤ) - kvMult U t := by
  rw [breaks_eq hb]
  unfold breaks
  rw [List.tail_cons, List.dropLast_concat, List.map_map]
  apply List.map_congr_left
  intro a ha
  show _ = (p : ℤ) - kvMult U a.1
  rw [mult_eq hb ha]

/-- **C22**, what a Bézier segment is: knot insertion up to multiplicity `p` succeeds, and segment `i` of the refined spline is
the restriction of the spline to the `i`-th interval between different knots. In direction `d` the spline is there the Bézier
curve of the homogeneous control points in the segment, line by line. -/
theorem C22_segments_are_restrictions {s : Spl K} {d p : ℕ} {U : List K} (h : ReduceInput s d p U) (h1 : 1 ≤ p) :
    ∃ c diff, s.produceBezier d = .ok (c, diff) ∧ ∀ i, i + 1 < U.dedup.length →
      ∃ seg, c.bezierSegment d i = .ok seg ∧ IsNet seg ((p + 1) * ((npts s).set d 1).prod) (s.ph.dim + 1) ∧
        ∀ x, InDomain s x → ∀ t, x[d]? = some t → U.dedup.getD i 0 ≤ t →
          (t < U.dedup.getD (i + 1) 0 ∨ (i + 2 = U.dedup.length ∧ t = U.dedup.getD (i + 1) 0)) → ∀ c ≤ s.ph.dim,
          homSum s x c = msum ((npts s).set d 1) (fun J => others s.ps.knots s.ps.degree x d J *
            bezier p (lineCoord (p + 1) seg (lin ((npts s).set d 1) J) c)
              ((t - U.dedup.getD i 0) / (U.dedup.getD (i + 1) 0 - U.dedup.getD i 0))) := by
  obtain ⟨f, l, mid, hb⟩ := h.runs
  obtain ⟨c, e, w, dg, k, g⟩ := produceBezier_ok h.wf h.knots h.degree hb h.size
  have hdk : d < s.ps.knots.length := lt_of_some h.knots
  have hUc : c.ps.knots[d]? = some (bezierKnots p f l mid) := by rw [k]; exact List.getElem?_set_self hdk
  have hpc : c.ps.degree[d]? = some p := by rw [dg]; exact h.degree
  have hwU : WFKnots (bezierKnots p f l mid) p := forall₂_getElem? w.knots hUc hpc
  have hns : (npts c).set d 1 = (npts s).set d 1 := by
    have hcd : c.ps.degree = c.ps.degree.set d p := (set_same hpc).symm
    rw [npts_eq, npts_eq, hcd, k, dg, nptsOf_set_both, List.set_set]
  refine ⟨c, _, e, fun i hi => ?_⟩
  rw [breaks_eq hb] at hi ⊢
  have hin : i < mid.length + 1 := by simp [breaks] at hi; omega
  have hinc : (breaks f l mid).Pairwise (· < ·) := by
    have := hb.runs.1
    have h2 : ([(f, p + 1)] ++ (mid ++ [(l, p + 1)])).map Prod.fst = breaks f l mid := by simp [breaks]
    rw [← h2, List.pairwise_map]
    exact this
  have hlt : (breaks f l mid).getD i 0 < (breaks f l mid).getD (i + 1) 0 := by
    have h0 : i < (breaks f l mid).length := by omega
    rw [List.getD_eq_getElem?_getD, List.getD_eq_getElem?_getD, List.getElem?_eq_getElem h0, List.getElem?_eq_getElem hi]
    exact List.pairwise_iff_getElem.1 hinc i (i + 1) h0 hi (by omega)
  obtain ⟨seg, e1, e2, e3⟩ := bezierSegment_ok w hpc (ixd_bezier hUc hpc) hin
  refine ⟨seg, e1, by rw [← hns, ← g.dim]; exact e2, fun x hx t ht h0 ht1 cc hc => ?_⟩
  have hsp := bezierSpan_mk h1 hin hlt
  have hk0 := hsp.left (i * p + p) (by omega) (le_refl _)
  have hk1 := hsp.right (i * p + p + 1) (by omega) (by omega)
  have hspan : InSpan (bezierKnots p f l mid) (i * p + p) t := by
    unfold InSpan
    rw [hk0, hk1]
    rcases ht1 with ht1 | ⟨hl, ht1⟩
    · exact Or.inl ⟨h0, ht1⟩
    · refine Or.inr ⟨by rw [ht1]; exact hlt, ht1, ?_⟩
      have hlast : lastKnot (bezierKnots p f l mid) = l := by
        unfold bezierKnots
        rw [← List.append_assoc]
        exact lastKnot_expand (c := (l, p + 1)) (by simp)
      rw [hlast, ht1]
      have : i = mid.length := by simp [breaks] at hl; omega
      subst this
      unfold breaks
      simp
  have hoth : others c.ps.knots c.ps.degree x d = others s.ps.knots s.ps.degree x d := by
    funext J
    have hcd : c.ps.degree = c.ps.degree.set d p := (set_same hpc).symm
    unfold others
    rw [hcd, k, dg, basisFns_set (bezierKnots p f l mid) p h.knots h.degree ht rfl, List.set_set]
  rw [← g.hom hx (show cc < s.ph.dim + 1 by omega)]
  have hc' : cc < c.ph.dim + 1 := by rw [g.dim]; omega
  unfold homSum tensorSum
  rw [npts_eq, bezier_tensor h1 hUc hpc ht hwU.sorted hin hlt hspan, ← npts_eq, hns, hoth]
  apply msum_congr
  intro J hJ
  congr 1
  apply bezier_congr
  intro j hj
  rw [e3 _ (by rw [hns]; exact lin_lt hJ) cc hc' j hj]
  unfold lineIx
  rw [hns, unlin_lin hJ]

/-- The input condition and a parameter in the last interval. -/
example : ReduceInput exCurve 0 2 [0, 0, 0, 1/2, 1, 1, 1] ∧ ([0, 0, 0, 1/2, 1, 1, 1] : List ℚ).dedup = [0, 1/2, 1] ∧
    (@Spl.produceBezier ℚ _ _ exCurve 0).bind (fun c => c.1.bezierSegment 0 1) = .ok [[2, 2, 1], [3, 2, 1], [4, 0, 1]] :=
  ⟨exCurve_reduceInput, by decide +kernel, by decide +kernel⟩

/-! ### Success -/

/-- **C22**, success: the operation builds a spline `r` of degree `p - 1` over the same break points that differs from `s` by less
than the tolerance at every parameter, in homogeneous coordinates, and then removes the knots that were inserted before.
Missing: the removals are outside of the guarantee, because `RemoveKnot` does not check every removal (`C17_removal_unchecked`).
`C22_success_tolerance_violated` shows that the result of the whole operation may indeed be further away. -/
theorem C22_success_within_tolerance_partial {s s' : Spl K} {d p : ℕ} {U : List K} (h : ReduceInput s d p U) (h2 : 2 ≤ p) {tol : K}
    (hr : s.reduceDegree d tol = .ok (s', true)) :
    ∃ (r : Spl K) (V : List K), r.ps.degree = s.ps.degree.set d (p - 1) ∧ r.ps.knots = s.ps.knots.set d V ∧ WFKnots V (p - 1) ∧
      V.dedup = U.dedup ∧ (∀ t ∈ V, knot V 0 < t → t < lastKnot V → kvMult V t = p - 1) ∧ r.ph.dim = s.ph.dim ∧
      (r.ph.weights = none ↔ s.ph.weights = none) ∧
      (∀ x, InDomain s x → ∑ c ∈ range (s.ph.dim + 1), (homSum s x c - homSum r x c) ^ 2 < tol ^ 2) ∧
      r.removeBezier (U.dedup.tail.dropLast.map fun t => (p : ℤ) - kvMult U t) d = .ok s' := by
  obtain ⟨f, l, mid, hb⟩ := h.runs
  obtain ⟨q, rfl⟩ : ∃ q, p = q + 1 := ⟨p - 1, by omega⟩
  obtain ⟨r, sh, dg, kn, dm, kd, _, er, rm⟩ := reduceDegree_true h.wf h.knots h.degree (by omega) hb h.size hr
  rw [Nat.add_sub_cancel]
  have hrf := runs_fill hb.runs (q := q) (by omega)
  have hV : r.ps.knots[d]? = some (bezierKnots q f l mid) := by rw [kn]; exact List.getElem?_set_self (lt_of_some h.knots)
  have hq : r.ps.degree[d]? = some q := by rw [dg]; exact List.getElem?_set_self (lt_of_some h.degree)
  have hded : (bezierKnots q f l mid).dedup = breaks f l mid := by
    unfold bezierKnots
    rw [dedup_expand hrf]
    simp [breaks, fill]
  refine ⟨r, bezierKnots q f l mid, dg, kn, forall₂_getElem? sh.ps.knots hV hq, by rw [breaks_eq hb, hded], ?_, dm, kd, er, diff_eq hb ▸ rm⟩
  · intro t ht h0 h1
    have hlast : lastKnot (bezierKnots q f l mid) = l := by
      unfold bezierKnots
      rw [← List.append_assoc]
      exact lastKnot_expand (c := (l, q + 1)) (by simp)
    have hfirst : knot (bezierKnots q f l mid) 0 = f := knot_zero_expand (c := (f, q + 1)) (by simp)
    rw [hlast] at h1
    rw [hfirst] at h0
    have hmem : t ∈ mid.map Prod.fst := by
      rw [← List.mem_dedup, hded] at ht
      simp only [breaks, List.mem_cons, List.mem_append, List.not_mem_nil, or_false] at ht
      rcases ht with e | e | e
      · exact absurd e h0.ne'
      · exact e
      · exact absurd e h1.ne
    obtain ⟨a, ha, rfl⟩ := List.mem_map.1 hmem
    obtain ⟨pre, post, rfl⟩ := List.append_of_mem ha
    unfold kvMult bezierKnots
    have e : [(f, q + 1)] ++ (fill q (pre ++ a :: post) ++ [(l, q + 1)]) = ([(f, q + 1)] ++ fill q pre) ++ (a.1, q) :: (fill q post ++ [(l, q + 1)]) := by
      simp [fill]
    rw [e]
    exact count_expand (e ▸ hrf.1)

/-- Lowering every multiplicity by one. -/
theorem count_pred {r : List (K × ℕ)} (h : r.Pairwise (fun a b => a.1 < b.1)) (t : K) :
    (expand (r.map fun a => (a.1, a.2 - 1))).count t = (expand r).count t - 1 := by
  by_cases hx : ∃ a ∈ r, a.1 = t
  · obtain ⟨a, ha, rfl⟩ := hx
    obtain ⟨pre, post, rfl⟩ := List.append_of_mem ha
    rw [List.map_append, List.map_cons]
    have h' : ((pre.map fun a : K × ℕ => (a.1, a.2 - 1)) ++ (a.1, a.2 - 1) :: post.map fun a : K × ℕ => (a.1, a.2 - 1)).Pairwise (fun a b : K × ℕ => a.1 < b.1) :=
      increasing_of_fst h (by simp [Function.comp_def])
    rw [count_expand h']
    have := count_expand (pre := pre) (a := a.1) (m := a.2) (post := post) h
    rw [this]
  · push Not at hx
    rw [count_expand_eq_zero hx, count_expand_eq_zero]
    intro a ha
    obtain ⟨b, hb, rfl⟩ := List.mem_map.1 ha
    exact hx b hb

theorem bezierKnots_pred {q : ℕ} {f l : K} {mid : List (K × ℕ)} (hm : ∀ a ∈ mid, a.2 = q + 1) :
    bezierKnots q f l mid = expand (([(f, q + 2)] ++ (mid ++ [(l, q + 2)])).map fun a => (a.1, a.2 - 1)) := by
  unfold bezierKnots
  simp only [List.map_append, List.map_cons, List.map_nil, fill]
  congr 3
  apply List.map_congr_left
  intro a ha
  rw [hm a ha]
  rfl

/-- **C22**, success, for splines whose interior knots all have multiplicity `p` (then no knot has to be inserted and removed
again): the result has degree `p - 1` and one copy less of every knot, and it differs from the original spline by less than the
tolerance at every parameter, in homogeneous coordinates. Missing: other multiplicities, where this is false
(`C22_success_tolerance_violated`). -/
theorem C22_success_full_multiplicities_partial {s s' : Spl K} {d p : ℕ} {U : List K} (h : ReduceInput s d p U) (h2 : 2 ≤ p)
    (hfull : ∀ t ∈ U, knot U 0 < t → t < lastKnot U → kvMult U t = p) {tol : K} (hr : s.reduceDegree d tol = .ok (s', true)) :
    s'.ps.degree = s.ps.degree.set d (p - 1) ∧ (∃ V, s'.ps.knots = s.ps.knots.set d V ∧ WFKnots V (p - 1) ∧ ∀ t, kvMult V t = kvMult U t - 1) ∧
      s'.ph.dim = s.ph.dim ∧ (s'.ph.weights = none ↔ s.ph.weights = none) ∧
      (∀ x, InDomain s x → ∑ c ∈ range (s.ph.dim + 1), (homSum s x c - homSum s' x c) ^ 2 < tol ^ 2) ∧
      (IsBSpline s → ∀ x, InDomain s x → ∃ a b, s.evaluate x (zl (List.range s.ph.dim)) = .ok a ∧
        s'.evaluate x (zl (List.range s.ph.dim)) = .ok b ∧ (List.zipWith (fun u v => (u - v) ^ 2) a b).sum < tol ^ 2) := by
  obtain ⟨f, l, mid, hb⟩ := h.runs
  obtain ⟨q, rfl⟩ : ∃ q, p = q + 1 := ⟨p - 1, by omega⟩
  obtain ⟨r, sh, dg, kn, dm, kd, _, er, rm⟩ := reduceDegree_true h.wf h.knots h.degree (by omega) hb h.size hr
  have hmid : ∀ a ∈ mid, a.2 = q + 1 := by
    intro a ha
    rw [← mult_eq hb ha]
    have hlast : lastKnot U = l := by
      rw [hb.eq, ← List.append_assoc]
      exact lastKnot_expand (c := (l, q + 1 + 1)) (by simp)
    have hfirst : knot U 0 = f := by rw [hb.eq]; exact knot_zero_expand (c := (f, q + 1 + 1)) (by simp)
    have hpw := hb.runs.1
    have hfa : f < a.1 := (List.pairwise_append.1 hpw).2.2 (f, q + 1 + 1) (by simp) a (by simp [ha])
    have hal : a.1 < l := (List.pairwise_append.1 (List.pairwise_append.1 hpw).2.1).2.2 a ha (l, q + 1 + 1) (by simp)
    refine hfull a.1 ?_ (hfirst ▸ hfa) (hlast ▸ hal)
    have h1 := mult_eq hb ha
    have h2 : 1 ≤ a.2 := hb.runs.2 a (by simp [ha])
    by_contra hn
    unfold kvMult at h1
    rw [List.count_eq_zero_of_not_mem hn] at h1
    omega
  have hV : r.ps.knots[d]? = some (bezierKnots q f l mid) := by rw [kn]; exact List.getElem?_set_self (lt_of_some h.knots)
  have hq : r.ps.degree[d]? = some q := by rw [dg]; exact List.getElem?_set_self (lt_of_some h.degree)
  have hzero := removeBezier_zero (s := r) (d := d) (q := q) (by omega) (runs_fill hb.runs (by omega)) hV hq
    (diff := mid.map fun a => ((q + 1 : ℕ) : ℤ) - a.2) (by
      intro z hz
      obtain ⟨a, ha, rfl⟩ := List.mem_map.1 hz
      rw [hmid a ha]; omega) (by simp)
  rw [rm] at hzero
  obtain rfl := Except.ok.inj hzero
  refine ⟨dg, ⟨_, kn, forall₂_getElem? sh.ps.knots hV hq, fun t => ?_⟩, dm, kd, er, fun hbs x hx => ?_⟩
  · rw [bezierKnots_pred hmid]
    unfold kvMult
    rw [count_pred hb.runs.1, hb.eq]
  · have hbs' : IsBSpline s' := kd.2 hbs
    have hw' : WFSpl s' := sh.wf_bspline hbs'
    have hx' : InDomain s' x := by
      have hk1 : ∀ p, knot (bezierKnots p f l mid) 0 = f := fun p => knot_zero_expand (c := (f, p + 1)) (by simp)
      have hk2 : ∀ p, lastKnot (bezierKnots p f l mid) = l := fun p => by
        unfold bezierKnots
        rw [← List.append_assoc]
        exact lastKnot_expand (c := (l, p + 1)) (by simp)
      have hU0 : knot U 0 = f := by rw [hb.eq]; exact knot_zero_expand (c := (f, q + 1 + 1)) (by simp)
      have hUl : lastKnot U = l := by
        rw [hb.eq, ← List.append_assoc]
        exact lastKnot_expand (c := (l, q + 1 + 1)) (by simp)
      unfold InDomain at hx ⊢
      rw [kn]
      have hdx : d < x.length := by rw [← hx.length_eq]; exact lt_of_some h.knots
      have hxd := forall₂_getElem? hx h.knots (List.getElem?_eq_getElem hdx)
      have := forall₂_set_both hx (d := d) (a := bezierKnots q f l mid) (b := x[d]) (by rw [hk1, hk2, ← hU0, ← hUl]; exact hxd)
      rwa [List.set_getElem_self] at this
    refine ⟨_, _, evaluate_bspline h.wf hbs hx _ (by simp), evaluate_bspline hw' hbs' hx' _ (by simp [dm]), ?_⟩
    rw [zipWith_map_range]
    refine lt_of_le_of_lt ?_ (er x hx)
    rw [sum_range_succ]
    refine le_trans (le_of_eq ?_) (le_add_of_nonneg_right (sq_nonneg _))
    refine sum_congr rfl fun c hc => ?_
    have hc := mem_range.1 hc
    have w1 : wgt s = fun _ => 1 := by funext I; unfold wgt; rw [hbs]
    have w2 : wgt s' = fun _ => 1 := by funext I; unfold wgt; rw [hbs']
    have e1 : ∀ I, hom s c I = cpt s I c := fun I => by unfold hom; rw [if_neg (by omega), w1, one_mul]
    have e2 : ∀ I, hom s' c I = cpt s' I c := fun I => by unfold hom; rw [if_neg (by omega), w2, one_mul]
    unfold homSum bsplineValue
    rw [show hom s c = fun I => cpt s I c from funext e1, show hom s' c = fun I => cpt s' I c from funext e2]
    ring

theorem SameHomogeneous.sums {s s' : Spl K} (h : SameHomogeneous s s') : SameSums s s' := by
  refine ⟨h.dim, h.kind, h.domain, fun x hx => ?_, fun x hx c hc => ?_⟩
  · have := h.values x hx s.ph.dim (le_refl _)
    unfold homSum hom at this
    simpa only [h.dim, if_true] using this
  · have := h.values x hx c (by omega)
    unfold homSum hom at this
    simpa only [h.dim, if_neg (show c ≠ s.ph.dim by omega)] using this

omit [HasSqrt K] [LawfulSqrt K] in
theorem sorted_ext {U V : List K} (hU : SortedKnots U) (hV : SortedKnots V) (h : ∀ t, U.count t = V.count t) : U = V :=
  (List.perm_iff_count.2 h).eq_of_pairwise (fun _ _ _ _ => le_antisymm) hU hV

/-- **C22**, exact recovery: let `r` be a spline whose degree in direction `d` is one less and that has one copy less of every knot
`U` (no knot disappears), and let `s` have the homogeneous coordinates of `r` at every parameter. Then the reduction of `s` with
any positive tolerance reports success and returns exactly `r`: its knots, degrees, control points and weights. -/
theorem C22_elevated_spline_recovered {s r : Spl K} {d p : ℕ} {U V : List K} (h : ReduceInput s d p U) (h2 : 2 ≤ p) (hr : WFSpl r)
    (hd : r.ps.degree = s.ps.degree.set d (p - 1)) (hk : r.ps.knots = s.ps.knots.set d V) (hm : ∀ t, kvMult V t = kvMult U t - 1)
    (hkeep : ∀ t ∈ U, t ∈ V) (hs : SameHomogeneous s r) {tol : K} (htol : 0 < tol) : s.reduceDegree d tol = .ok (r, true) := by
  obtain ⟨f, l, mid, hb⟩ := h.runs
  obtain ⟨q, rfl⟩ : ∃ q, p = q + 1 := ⟨p - 1, by omega⟩
  rw [Nat.add_sub_cancel] at hd
  have hVr : r.ps.knots[d]? = some V := by rw [hk]; exact List.getElem?_set_self (lt_of_some h.knots)
  have hqr : r.ps.degree[d]? = some q := by rw [hd]; exact List.getElem?_set_self (lt_of_some h.degree)
  have hwV := forall₂_getElem? hr.knots hVr hqr
  have hV : V = expand ([(f, q + 1)] ++ (mid.map (fun a => (a.1, a.2 - 1)) ++ [(l, q + 1)])) := by
    have e : expand ([(f, q + 1)] ++ (mid.map (fun a => (a.1, a.2 - 1)) ++ [(l, q + 1)])) =
        expand (([(f, q + 1 + 1)] ++ (mid ++ [(l, q + 1 + 1)])).map fun a => (a.1, a.2 - 1)) := by simp
    refine sorted_ext hwV.sorted ?_ fun t => ?_
    · rw [e]
      exact Runs.sorted (increasing_of_fst hb.runs.1 (by simp [Function.comp_def]))
    · rw [e, count_pred hb.runs.1, ← hb.eq]
      exact hm t
  have hm2 : ∀ a ∈ mid, 2 ≤ a.2 := by
    intro a ha
    have h1 := mult_eq hb ha
    have h3 : 1 ≤ a.2 := hb.runs.2 a (by simp [ha])
    have hin : a.1 ∈ U := by
      by_contra hn
      unfold kvMult at h1
      rw [List.count_eq_zero_of_not_mem hn] at h1
      omega
    have h4 := hm a.1
    have h5 : 0 < kvMult V a.1 := List.count_pos_iff.2 (hkeep _ hin)
    omega
  have hnr : List.Forall₂ NonDegenerate r.ps.knots r.ps.degree := by
    rw [hk, hd]
    refine forall₂_set_both h.nondeg (nonDegenerate_of_count hwV.sorted fun t => ?_)
    have h3 := hm t
    have h4 := count_of_mem (P := fun _ => True) (fun t ht _ => forall₂_getElem? h.mult h.knots h.degree t ht) t trivial
    unfold kvMult at h3 h4
    omega
  exact reduceDegree_exact h.wf hr h.nondeg hnr h.knots h.degree (by omega) hb hm2 h.size hd (by rw [hk, hV]) hs.sums htol

/-! ### Examples and counterexamples -/

/-- A quadratic curve, control points 0, 1/4, 3/4, 1 over the knots 0, 0, 0, 1/2, 1, 1, 1: the line `x(t) = t`. -/
def exLine2 : Spl ℚ :=
  ⟨⟨[[0, 0, 0, 1/2, 1, 1, 1]], [2], mkTable [[0, 0, 0, 1/2, 1, 1, 1]] [2]⟩, ⟨1, [4], [0, 1/4, 3/4, 1], none⟩⟩

theorem exLine2_wf : WFSpl exLine2 where
  knots := by simp only [exLine2]; exact .cons (by decide +kernel) .nil
  basis := by decide +kernel
  num := by decide +kernel
  dim := by decide +kernel
  cps := by decide +kernel
  weights := by intro w h; exact absurd h (by simp [exLine2])

/-- A quadratic curve with interior knot of full multiplicity meets the hypotheses of
`C22_success_full_multiplicities_partial`, and its reduction with a large tolerance succeeds. -/
def exFull : Spl ℚ :=
  ⟨⟨[[0, 0, 0, 1/2, 1/2, 1, 1, 1]], [2], mkTable [[0, 0, 0, 1/2, 1/2, 1, 1, 1]] [2]⟩, ⟨1, [5], [0, 1, 3, 2, 4], none⟩⟩

theorem exFull_wf : WFSpl exFull where
  knots := by simp only [exFull]; exact .cons (by decide +kernel) .nil
  basis := by decide +kernel
  num := by decide +kernel
  dim := by decide +kernel
  cps := by decide +kernel
  weights := by intro w h; exact absurd h (by simp [exFull])

example : ReduceInput exFull 0 2 [0, 0, 0, 1/2, 1/2, 1, 1, 1] ∧
    (∀ t ∈ ([0, 0, 0, 1/2, 1/2, 1, 1, 1] : List ℚ), 0 < t → t < 1 → kvMult ([0, 0, 0, 1/2, 1/2, 1, 1, 1] : List ℚ) t = 2) ∧
    (@Spl.reduceDegree ℚ _ _ ratSqrt exFull 0 100).map (fun r => (r.1.ps.knots, r.1.ph.cps, r.2)) =
      .ok ([[0, 0, 1/2, 1, 1]], [0, 3, 4], true) :=
  ⟨⟨exFull_wf, rfl, rfl, by decide +kernel, by decide +kernel, .cons (by decide +kernel) .nil, by decide +kernel⟩, by decide +kernel,
    by decide +kernel⟩

/-- Exact recovery: the line `x(t) = t` as a cubic curve with the interior knot doubled is reduced to `exLine2`. -/
example : @Spl.reduceDegree ℚ _ _ ratSqrt ⟨⟨[[0, 0, 0, 0, 1/2, 1/2, 1, 1, 1, 1]], [3], mkTable [[0, 0, 0, 0, 1/2, 1/2, 1, 1, 1, 1]] [3]⟩,
    ⟨1, [6], [0, 1/6, 1/3, 2/3, 5/6, 1], none⟩⟩ 0 (1/1000000) = .ok (exLine2, true) := by decide +kernel

/-- The line `x(t) = t` of degree 2 and of degree 1. -/
def exSeg2 : Spl ℚ := ⟨⟨[[0, 0, 0, 1, 1, 1]], [2], mkTable [[0, 0, 0, 1, 1, 1]] [2]⟩, ⟨1, [3], [0, 1/2, 1], none⟩⟩

def exSeg1 : Spl ℚ := ⟨⟨[[0, 0, 1, 1]], [1], mkTable [[0, 0, 1, 1]] [1]⟩, ⟨1, [2], [0, 1], none⟩⟩

/-- They meet the hypotheses of `C22_elevated_spline_recovered` on their homogeneous coordinates. -/
example : SameHomogeneous exSeg2 exSeg1 := by
  refine ⟨rfl, by decide, fun x => ?_, fun x hx c hc => ?_⟩
  · constructor <;> intro hx <;> cases hx with
    | cons h hs => cases hs; exact .cons h .nil
  · cases hx with
    | cons h hs =>
      cases hs
      rename_i t
      have h0 : (0 : ℚ) ≤ t := h.1
      have h1 : t ≤ 1 := h.2
      have hc' : c = 0 ∨ c = 1 := by have : c ≤ 1 := hc; omega
      rcases lt_or_eq_of_le h1 with h1 | rfl
      · rcases hc' with rfl | rfl <;>
        simp [homSum, tensorSum, hom, exSeg1, exSeg2, npts, msum, dprod, basisFns, sum_range_succ, coxDeBoor, InSpan, knot, lastKnot, cpt, wgt, lin, h0, h1, not_lt.2 h0, h1.ne] <;> ring
      · rcases hc' with rfl | rfl <;>
        norm_num [homSum, tensorSum, hom, exSeg1, exSeg2, npts, msum, dprod, basisFns, sum_range_succ, coxDeBoor, InSpan, knot, lastKnot, cpt, wgt, lin]

/-- A quadratic curve with two simple interior knots. -/
def exWave : Spl ℚ :=
  ⟨⟨[[0, 0, 0, 1/3, 2/3, 1, 1, 1]], [2], mkTable [[0, 0, 0, 1/3, 2/3, 1, 1, 1]] [2]⟩, ⟨1, [5], [0, 1, 1, -1, -2], none⟩⟩

theorem exWave_wf : WFSpl exWave where
  knots := by simp only [exWave]; exact .cons (by decide +kernel) .nil
  basis := by decide +kernel
  num := by decide +kernel
  dim := by decide +kernel
  cps := by decide +kernel
  weights := by intro w h; exact absurd h (by simp [exWave])

theorem exWave_reduceInput : ReduceInput exWave 0 2 [0, 0, 0, 1/3, 2/3, 1, 1, 1] :=
  ⟨exWave_wf, rfl, rfl, by decide +kernel, by decide +kernel, .cons (by decide +kernel) .nil, by decide +kernel⟩

/-- **C22** is false of the whole operation: with tolerance 3/5 the reduction of `exWave` reports success, but the value at 1/3
changes from 1 to 0. (Every segment is within the tolerance. But afterwards the knots that were inserted are removed again, and
`RemoveKnot` does not check the removal of a knot of multiplicity 1 from a curve of degree 1.) -/
theorem C22_success_tolerance_violated : ReduceInput exWave 0 2 [0, 0, 0, 1/3, 2/3, 1, 1, 1] ∧
    ∃ s', @Spl.reduceDegree ℚ _ _ ratSqrt exWave 0 (3/5) = .ok (s', true) ∧
      exWave.evaluate [1/3] [0] = .ok [1] ∧ s'.evaluate [1/3] [0] = .ok [0] :=
  ⟨exWave_reduceInput, ⟨⟨[[0, 0, 2/3, 1, 1]], [1], mkTable [[0, 0, 2/3, 1, 1]] [1]⟩, ⟨1, [3], [0, 0, -2], none⟩⟩, by decide +kernel,
    by decide +kernel, by decide +kernel⟩

/-- The reduction of the line `exLine2`, which is a polynomial of degree 1, has undefined behaviour: the interior knot is removed
completely, and the loop that looks for the next knot (spline.h:317-319) runs behind the end of the knot vector. This is why
`C22_elevated_spline_recovered` asks that no knot disappears. -/
theorem C22_disappearing_knot_undefined : ReduceInput exLine2 0 2 [0, 0, 0, 1/2, 1, 1, 1] ∧
    @Spl.reduceDegree ℚ _ _ ratSqrt exLine2 0 (3/5) = .error .ub :=
  ⟨⟨exLine2_wf, rfl, rfl, by decide +kernel, by decide +kernel, .cons (by decide +kernel) .nil, by decide +kernel⟩, by decide +kernel⟩

end SplineLib
