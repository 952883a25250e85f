import Verif.Core.BezierForm
import Verif.Core.Elevate

/-!
# A degree reduction that is given up restores the spline (helper lemmas)
-/

namespace SplineLib
set_option linter.unusedSectionVars false
open Finset
variable {K : Type} [Field K] [LinearOrder K] [IsStrictOrderedRing K]

/-- `U` consists of a first and a last knot of multiplicity `p+1` and of interior knots with the multiplicities in `mid`, at most `p`. -/
structure BezierRuns (U : List K) (p : ℕ) (f l : K) (mid : List (K × ℕ)) : Prop where
  runs : Runs ([(f, p + 1)] ++ (mid ++ [(l, p + 1)]))
  eq : U = expand ([(f, p + 1)] ++ (mid ++ [(l, p + 1)]))
  mult : ∀ a ∈ mid, a.2 ≤ p

theorem knot_mem_expand {pre post : List (K × ℕ)} {i : ℕ} (h : i < (expand pre).length) : knot (expand (pre ++ post)) i ∈ expand pre := by
  unfold knot
  rw [expand_append, List.getD_eq_getElem?_getD, List.getElem?_append_left h, List.getElem?_eq_getElem h]
  exact List.getElem_mem _

theorem wf_runs {U : List K} {p : ℕ} (hw : WFKnots U p) (he : ExactEnds U p)
    (hm : ∀ t, knot U 0 < t → t < lastKnot U → kvMult U t ≤ p) : ∃ f l mid, BezierRuns U p f l mid := by
  obtain ⟨r, hr, rfl⟩ := exists_runs hw.sorted
  have hsize := hw.size
  have hlen0 : r ≠ [] := by rintro rfl; simp at hsize
  obtain ⟨c, r, rfl⟩ := List.exists_cons_of_ne_nil hlen0
  have hc1 : 1 ≤ c.2 := hr.2 c (by simp)
  have hr0 : r ≠ [] := by
    rintro rfl
    have h1 := knot_zero_expand (r := []) hc1
    have h2 := lastKnot_expand (r := []) hc1
    rw [List.nil_append] at h2
    have := hw.range
    rw [h1, h2] at this
    exact lt_irrefl _ this
  obtain ⟨mid, l, rfl⟩ : ∃ mid l, r = mid ++ [l] := ⟨r.dropLast, r.getLast hr0, (List.dropLast_append_getLast hr0).symm⟩
  have hl1 : 1 ≤ l.2 := hr.2 l (by simp)
  obtain ⟨hs, hp⟩ := hr
  obtain ⟨h1, h2⟩ := List.pairwise_cons.1 hs
  have k0 : knot (expand (c :: (mid ++ [l]))) 0 = c.1 := knot_zero_expand hc1
  have kl : lastKnot (expand (c :: (mid ++ [l]))) = l.1 := by rw [← List.cons_append]; exact lastKnot_expand hl1
  -- the first run
  have hcp : c.2 = p + 1 := by
    obtain ⟨b, rest, hb⟩ : ∃ b rest, mid ++ [l] = b :: rest := List.exists_cons_of_ne_nil (by simp)
    have hbc : c.1 < b.1 := h1 b (by rw [hb]; simp)
    have hb1 : 1 ≤ b.2 := hp b (by rw [hb]; simp)
    have kb : knot (expand (c :: (mid ++ [l]))) c.2 = b.1 := by
      rw [hb, show c :: b :: rest = [c] ++ (b.1, b.2) :: rest by simp]
      exact knot_expand_mid (by simp) (by simp; omega)
    have kc : ∀ i < c.2, knot (expand (c :: (mid ++ [l]))) i = c.1 := fun i hi =>
      knot_expand_mid (pre := []) (a := c.1) (m := c.2) (by simp) (by simpa using hi)
    rcases Nat.lt_trichotomy c.2 (p + 1) with h | h | h
    · have := hw.first p (le_refl _)
      rw [k0] at this
      have hle : knot (expand (c :: (mid ++ [l]))) c.2 ≤ knot (expand (c :: (mid ++ [l]))) p := hw.sorted.mono (by omega) (by omega)
      rw [kb, this] at hle
      exact absurd hbc (not_lt.2 hle)
    · exact h
    · have := he.1
      rw [kc p (by omega), kc (p + 1) h] at this
      exact absurd this (lt_irrefl _)
  -- the last run
  have hL : (expand (c :: (mid ++ [l]))).length = (expand (c :: mid)).length + l.2 := by simp; omega
  have hlp : l.2 = p + 1 := by
    rcases Nat.lt_trichotomy l.2 (p + 1) with h | h | h
    · have hl' := hw.last p (le_refl _)
      rw [kl] at hl'
      have hpos : 0 < (expand (c :: mid)).length := by simp only [expand_cons, List.length_append, List.length_replicate]; omega
      have hle : knot (expand (c :: (mid ++ [l]))) ((expand (c :: (mid ++ [l]))).length - 1 - p) ≤
          knot (expand (c :: (mid ++ [l]))) ((expand (c :: mid)).length - 1) := hw.sorted.mono (by omega) (by omega)
      have hmem := knot_mem_expand (pre := c :: mid) (post := [l]) (i := (expand (c :: mid)).length - 1) (by omega)
      obtain ⟨a, ha, hea⟩ := mem_expand hmem
      rw [List.cons_append] at hea
      rw [hl', ← hea] at hle
      have hal : a.1 < l.1 := by
        rcases List.mem_cons.1 ha with rfl | ha
        · exact h1 l (by simp)
        · exact (List.pairwise_append.1 h2).2.2 a ha l (by simp)
      exact absurd hal (not_lt.2 hle)
    · exact h
    · have := he.2
      have e : knot (expand (c :: (mid ++ [l]))) ((expand (c :: (mid ++ [l]))).length - p - 2) = l.1 := by
        rw [← List.cons_append]
        refine knot_expand_mid (pre := c :: mid) (post := []) (a := l.1) (m := l.2) ?_ ?_
        · rw [List.cons_append]; omega
        · rw [List.cons_append]; omega
      rw [e, kl] at this
      exact absurd this (lt_irrefl _)
  have ec : c = (c.1, p + 1) := by rw [← hcp]
  have el : l = (l.1, p + 1) := by rw [← hlp]
  have e : c :: (mid ++ [l]) = [(c.1, p + 1)] ++ (mid ++ [(l.1, p + 1)]) := by rw [← ec, ← el]; rfl
  refine ⟨c.1, l.1, mid, e ▸ ⟨hs, hp⟩, congrArg expand e, ?_⟩
  intro a ha
  have h3 := hm a.1 (by rw [k0]; exact h1 a (by simp [ha]))
    (by rw [kl]; exact (List.pairwise_append.1 h2).2.2 a ha l (by simp))
  obtain ⟨q, q', rfl⟩ := List.append_of_mem ha
  have := count_expand (pre := c :: q) (a := a.1) (m := a.2) (post := q' ++ [l]) (by simpa using hs)
  unfold kvMult at h3
  rw [show c :: (q ++ a :: q' ++ [l]) = c :: q ++ (a.1, a.2) :: (q' ++ [l]) by simp, this] at h3
  exact h3

theorem length_fill {p : ℕ} (mid : List (K × ℕ)) : (expand (fill p mid)).length = p * mid.length := by
  induction mid with
  | nil => simp
  | cons a mid ih => simp only [fill_cons, expand_cons, List.length_append, List.length_replicate, ih, List.length_cons]; ring

theorem length_ge_of_pos {mid : List (K × ℕ)} (h : ∀ a ∈ mid, 1 ≤ a.2) : mid.length ≤ (expand mid).length := by
  induction mid with
  | nil => simp
  | cons a mid ih =>
    have := ih fun b hb => h b (List.mem_cons_of_mem _ hb)
    have := h a (List.mem_cons_self ..)
    simp only [expand_cons, List.length_append, List.length_replicate, List.length_cons]
    omega

/-- The knot vector of the Bézier form. -/
def bezierKnots (p : ℕ) (f l : K) (mid : List (K × ℕ)) : List K := expand ([(f, p + 1)] ++ (fill p mid ++ [(l, p + 1)]))

theorem bezierKnots_length (p : ℕ) (f l : K) (mid : List (K × ℕ)) : (bezierKnots p f l mid).length = p * (mid.length + 1) + p + 2 := by
  unfold bezierKnots
  simp only [expand_append, List.length_append, length_fill, expand_cons, expand_nil, List.length_replicate, List.length_nil]
  ring

theorem BezierRuns.size {U : List K} {p : ℕ} {f l : K} {mid : List (K × ℕ)} (h : BezierRuns U p f l mid) (hsz : (p + 1) * U.length < 2 ^ 63) :
    (expand ([(f, p + 1)] ++ (fill p mid ++ [(l, p + 1)]))).length < 2 ^ 63 := by
  have h1 := bezierKnots_length p f l mid
  unfold bezierKnots at h1
  rw [h1]
  have h2 := length_ge_of_pos (mid := mid) fun a ha => h.runs.2 a (by simp [ha])
  have h3 : U.length = (expand mid).length + 2 * p + 2 := by
    rw [h.eq]
    simp only [expand_append, List.length_append, expand_cons, expand_nil, List.length_replicate, List.length_nil]
    ring
  refine lt_of_le_of_lt ?_ hsz
  rw [h3]
  nlinarith

theorem produceBezier_ok {s : Spl K} (h : WFSpl s) {d p : ℕ} {U : List K} (hU : s.ps.knots[d]? = some U) (hp : s.ps.degree[d]? = some p)
    {f l : K} {mid : List (K × ℕ)} (hb : BezierRuns U p f l mid) (hsz : (p + 1) * U.length < 2 ^ 63) :
    ∃ c, s.produceBezier d = .ok (c, mid.map fun a => (p : ℤ) - a.2) ∧ WFSpl c ∧ c.ps.degree = s.ps.degree ∧
      c.ps.knots = s.ps.knots.set d (bezierKnots p f l mid) ∧ SameSums s c := by
  have hsize := hb.size hsz
  have hU' := hU
  rw [hb.eq] at hU'
  obtain ⟨c, e, w, dg, k, g⟩ := produceLoop_runs mid [(f, p + 1)] s [] h hU' hp hb.runs (by simp) hb.mult (by simp) hsize
  refine ⟨c, ?_, w, dg, k, g⟩
  unfold Spl.produceBezier
  rw [getN_some hp, ok_bind, getN_some hU', ok_bind, kvNumDifferent_expand hb.runs (by simp)]
  have e1 : ([(f, p + 1)] ++ (mid ++ [(l, p + 1)])).length = mid.length + 2 := by simp
  rw [e1, if_neg (by omega), show mid.length + 2 - 2 = mid.length by omega]
  rw [show (expand [(f, p + 1)]).length = p + 1 by simp, List.nil_append] at e
  exact e

theorem nonDegenerate_all {Us : List (List K)} {ps : List ℕ} (h : List.Forall₂ WFKnots Us ps)
    (hm : List.Forall₂ (fun U p => ∀ t, kvMult U t ≤ p + 1) Us ps) : List.Forall₂ NonDegenerate Us ps := by
  induction h with
  | nil => exact .nil
  | cons a _ ih =>
    cases hm with
    | cons b bs => exact .cons (nonDegenerate_of_count a.sorted b) (ih bs)

theorem removeBezier_restores [HasSqrt K] (h0 : HasSqrt.sqrt (0 : K) = 0) {s c : Spl K} (h : WFSpl s) (hc : WFSpl c) {d p : ℕ} {U : List K}
    (hU : s.ps.knots[d]? = some U) (hp : s.ps.degree[d]? = some p) {f l : K} {mid : List (K × ℕ)} (hb : BezierRuns U p f l mid)
    (hsz : (p + 1) * U.length < 2 ^ 63) (hn : List.Forall₂ NonDegenerate s.ps.knots s.ps.degree) (hd : c.ps.degree = s.ps.degree)
    (hk : c.ps.knots = s.ps.knots.set d (bezierKnots p f l mid)) (hg : SameSums s c) :
    c.removeBezier (mid.map fun a => (p : ℤ) - a.2) d = .ok s := by
  have hsize := hb.size hsz
  rw [hb.eq] at hU
  have := removeLoop_runs h0 (l := (l, p + 1)) (le_refl _) (diff := mid.map fun a => (p : ℤ) - a.2) mid [(f, p + 1)] s c [] h hc hn hU hp hb.runs
    (by simp) (by simp) hb.mult hd hk hg (by simp) (by simp) hsize
  unfold Spl.removeBezier
  rw [hd, getN_some hp, ok_bind, List.length_map]
  rw [show (expand [(f, p + 1)]).length = p + 1 by simp] at this
  exact this

/-- If the reduction reports failure, the object is the one before the call. -/
theorem reduceDegree_false [HasSqrt K] (h0 : HasSqrt.sqrt (0 : K) = 0) {s s' : Spl K} (h : WFSpl s) {d p : ℕ} {U : List K}
    (hU : s.ps.knots[d]? = some U) (hp : s.ps.degree[d]? = some p) {f l : K} {mid : List (K × ℕ)} (hb : BezierRuns U p f l mid)
    (hsz : (p + 1) * U.length < 2 ^ 63) (hn : List.Forall₂ NonDegenerate s.ps.knots s.ps.degree) {tol : K}
    (hr : s.reduceDegree d tol = .ok (s', false)) : s' = s := by
  obtain ⟨c, e, w, dg, k, g⟩ := produceBezier_ok h hU hp hb hsz
  have hback := removeBezier_restores h0 h w hU hp hb hsz hn dg k g
  unfold Spl.reduceDegree at hr
  rw [e, ok_bind] at hr
  dsimp only at hr
  rw [bind_eq_ok] at hr; obtain ⟨V, _, hr⟩ := hr
  rw [bind_eq_ok] at hr; obtain ⟨o, _, hr⟩ := hr
  match o with
  | none =>
    dsimp only at hr
    rw [hback, ok_bind] at hr
    exact (Prod.mk.inj (Except.ok.inj hr)).1.symm
  | some segs =>
    dsimp only at hr
    rw [bind_eq_ok] at hr; obtain ⟨_, _, hr⟩ := hr
    rw [bind_eq_ok] at hr; obtain ⟨_, _, hr⟩ := hr
    rw [bind_eq_ok] at hr; obtain ⟨_, _, hr⟩ := hr
    rw [bind_eq_ok] at hr; obtain ⟨_, _, hr⟩ := hr
    rw [bind_eq_ok] at hr; obtain ⟨_, _, hr⟩ := hr
    rw [bind_eq_ok] at hr; obtain ⟨_, _, hr⟩ := hr
    have := (Prod.mk.inj (Except.ok.inj hr)).2
    exact absurd this (by simp)

end SplineLib
