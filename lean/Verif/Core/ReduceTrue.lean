import Verif.Core.ReduceWhole

/-!
# The whole degree reduction: the success path
-/

namespace SplineLib
set_option linter.unusedSectionVars false
open Finset
variable {K : Type} [Field K] [LinearOrder K] [IsStrictOrderedRing K] [HasSqrt K] [LawfulSqrt K]

/-- The operation in terms of the Bézier form `c` and the prepared space `ps` and control points `ph`. -/
theorem reduceDegree_steps {s : Spl K} (h : WFSpl s) {d q : ℕ} {U : List K} (hU : s.ps.knots[d]? = some U)
    (hp : s.ps.degree[d]? = some (q + 1)) (hq : 1 ≤ q) {f l : K} {mid : List (K × ℕ)} (hb : BezierRuns U (q + 1) f l mid)
    (hsz : (q + 1 + 1) * U.length < 2 ^ 63) (tol : K) :
    ∃ c ph ps, WFSpl c ∧ c.ps.degree = s.ps.degree ∧ c.ps.knots = s.ps.knots.set d (bezierKnots (q + 1) f l mid) ∧ SameSums s c ∧
      Prepared c d (q + 1) q (mid.length + 1) (bezierKnots q f l mid) ph ps ∧
      s.reduceDegree d tol = (do
        match ← c.reduceSegments d tol (mid.length + 1) 0 with
        | none => do
          let s ← c.removeBezier (mid.map fun a => ((q + 1 : ℕ) : ℤ) - a.2) d
          return (s, false)
        | some segs => do
          let s ← Spl.setBezierCPs ⟨ps, ph⟩ segs d
          let s ← s.removeBezier (mid.map fun a => ((q + 1 : ℕ) : ℤ) - a.2) d
          return (s, true)) := by
  obtain ⟨c, e, w, dg, k, g⟩ := produceBezier_ok h hU hp hb hsz
  have hUc : c.ps.knots[d]? = some (bezierKnots (q + 1) f l mid) := by rw [k]; exact List.getElem?_set_self (lt_of_some hU)
  have hpc : c.ps.degree[d]? = some (q + 1) := by rw [dg]; exact hp
  obtain ⟨ph, ps1, ps, e1, e2, e3, e4, e5⟩ := prepare_ok w hpc (by omega) hUc hb.runs
  refine ⟨c, ph, ps, w, dg, k, g, e5, ?_⟩
  have hr := runs_fill hb.runs (q := q + 1) (by omega)
  have hnd : kvNumDifferent (bezierKnots (q + 1) f l mid) - 1 = mid.length + 1 := by
    unfold bezierKnots
    rw [kvNumDifferent_expand hr (by simp)]
    simp [fill]
  unfold Spl.reduceDegree
  rw [e, ok_bind]
  dsimp only
  rw [getN_some hUc, ok_bind, hnd]
  congr 1
  funext o
  match o with
  | none => rfl
  | some segs =>
    dsimp only
    rw [e1, ok_bind, e2, ok_bind, e3, ok_bind, e4, ok_bind]

theorem ixd_bezier {c : Spl K} {d p : ℕ} {f l : K} {mid : List (K × ℕ)} (hU : c.ps.knots[d]? = some (bezierKnots p f l mid))
    (hp : c.ps.degree[d]? = some p) : ixd (npts c) d = p * (mid.length + 1) + 1 := by
  have : ixd (npts c) d = _ := nptsOf_ixd hU hp
  rw [this, bezierKnots_length]; omega

theorem AllRed.nets {c : Spl K} {d q n : ℕ} {tol : K} {segs : List (List (List K))} (ha : AllRed c d (q + 1) n tol segs) :
    ∀ m < segs.length, IsNet (segs.getD m []) ((q + 1) * ((npts c).set d 1).prod) (c.ph.dim + 1) := by
  intro m hm
  rw [ha.1] at hm
  obtain ⟨_, _, _, _, h⟩ := ha.2 m hm
  exact h.net

theorem prepared_set {c : Spl K} {d q n : ℕ} (hd : d < (npts c).length) (hq : 1 ≤ q) (hn : 1 ≤ n) (hsz : n < 2 ^ 63) {V : List K} {ph : Phys K} {ps : PS K}
    (hp : Prepared c d (q + 1) q n V ph ps) (hdd : d < c.ps.degree.length) {tol : K} {segs : List (List (List K))} (ha : AllRed c d (q + 1) n tol segs) :
    (∀ r, Spl.setBezierCPs ⟨ps, ph⟩ segs d = .ok r → ReducedSpl c r d q n V segs) ∧
    ((∀ I, InBox ((npts c).set d (q * n + 1)) I → segVal segs ((npts c).set d (q * n + 1)) d q I c.ph.dim ≠ 0) →
      ∃ r, Spl.setBezierCPs ⟨ps, ph⟩ segs d = .ok r) := by
  have hpd : ps.degree[d]? = some q := by rw [hp.degree]; exact List.getElem?_set_self hdd
  have := setBezierCPs_ok (segs := segs) (s := ⟨ps, ph⟩) (ns := (npts c).set d (q * n + 1)) (d := d) (q := q) hpd hq (by rw [ha.1]; exact hn)
    (by rw [ha.1]; exact hsz) (by simpa using hd) (by rw [ixd_set_self hd, ha.1]) hp.shape (by
      intro m hm
      have := ha.nets m hm
      rw [List.set_set, hp.dim]
      exact this)
  refine ⟨fun r hr => ?_, fun hne => this.2 fun I hI => ?_⟩
  · obtain ⟨a, b⟩ := this.1 r hr
    exact reduced_of_written hd hq hn ha hp a b
  · have := hne I hI
    rw [hp.dim]; exact this

/-- **Success**: the spline made of the reduced segments is within the tolerance of the original one, and the result is what
`RemoveBezierKnots` makes of it. -/
theorem reduceDegree_true {s s' : Spl K} (h : WFSpl s) {d q : ℕ} {U : List K} (hU : s.ps.knots[d]? = some U)
    (hp : s.ps.degree[d]? = some (q + 1)) (hq : 1 ≤ q) {f l : K} {mid : List (K × ℕ)} (hb : BezierRuns U (q + 1) f l mid)
    (hsz : (q + 1 + 1) * U.length < 2 ^ 63) {tol : K} (hr : s.reduceDegree d tol = .ok (s', true)) :
    ∃ r, ShapeSpl r ∧ r.ps.degree = s.ps.degree.set d q ∧ r.ps.knots = s.ps.knots.set d (bezierKnots q f l mid) ∧ r.ph.dim = s.ph.dim ∧
      (r.ph.weights = none ↔ s.ph.weights = none) ∧ (∀ I, InBox (npts r) I → wgt r I ≠ 0) ∧
      (∀ x, InDomain s x → ∑ cc ∈ range (s.ph.dim + 1), (homSum s x cc - homSum r x cc) ^ 2 < tol ^ 2) ∧
      r.removeBezier (mid.map fun a => ((q + 1 : ℕ) : ℤ) - a.2) d = .ok s' := by
  obtain ⟨c, ph, ps, w, dg, k, g, hprep, e⟩ := reduceDegree_steps h hU hp hq hb hsz tol
  have hUc : c.ps.knots[d]? = some (bezierKnots (q + 1) f l mid) := by rw [k]; exact List.getElem?_set_self (lt_of_some hU)
  have hpc : c.ps.degree[d]? = some (q + 1) := by rw [dg]; exact hp
  have hd : d < (npts c).length := lt_of_some (nptsOf_get hUc hpc)
  obtain ⟨o, f1, f2⟩ := reduceSegments_ok w hpc (by omega) (ixd_bezier hUc hpc) tol (mid.length + 1) 0 (by omega)
  rw [e, f1, ok_bind] at hr
  match o, f2 with
  | none, _ =>
    dsimp only at hr
    rw [bind_eq_ok] at hr
    obtain ⟨s1, _, e2⟩ := hr
    exact absurd (Prod.mk.inj (Except.ok.inj e2)).2 (by simp)
  | some segs, f2 =>
    dsimp only at hr
    rw [bind_eq_ok] at hr; obtain ⟨r, e1, hr⟩ := hr
    rw [bind_eq_ok] at hr; obtain ⟨s1, e2, hr⟩ := hr
    obtain rfl := (Prod.mk.inj (Except.ok.inj hr)).1
    have ha : AllRed c d (q + 1) (mid.length + 1) tol segs := by
      obtain ⟨a1, a2⟩ := f2 segs rfl
      refine ⟨a1, fun j hj => ?_⟩
      have := a2 j hj
      rwa [Nat.zero_add] at this
    have hlen : mid.length + 1 < 2 ^ 63 := by
      have h1 := hb.size hsz
      have h2 := bezierKnots_length (q + 1) f l mid
      unfold bezierKnots at h2
      rw [h2] at h1
      nlinarith
    have hred := (prepared_set hd hq (by omega) hlen hprep (lt_of_some hpc) ha).1 r e1
    refine ⟨r, hred.shape, by rw [hred.degree, dg], by rw [hred.knots, k, List.set_set], hred.dim.trans g.dim, hred.kind.trans g.kind.symm, ?_, ?_, e2⟩
    · intro I hI
      rw [hred.npts] at hI
      have := hred.hom I hI c.ph.dim (by omega)
      have hne := hred.ne I hI
      rw [← this] at hne
      unfold hom at hne
      rwa [if_pos hred.dim.symm] at hne
    · intro x hx
      have := reduced_error w hpc hq hUc ha hred (x := x) ((g.domain x).2 hx)
      rw [g.dim] at this
      convert this using 1
      exact sum_congr rfl fun cc hc => by rw [g.hom hx (mem_range.1 hc)]

/-- Without knots to remove `RemoveBezierKnots` does nothing. -/
theorem removeBezierLoop_zero {d p : ℕ} {l : K × ℕ} (hp1 : 1 ≤ p) (hl : 1 ≤ l.2) {diff : List ℤ} (hz : ∀ a ∈ diff, a = 0) :
    ∀ (mid pre : List (K × ℕ)) (s : Spl K) (k : ℕ), s.ps.knots[d]? = some (expand (pre ++ (mid ++ [l]))) → Runs (pre ++ (mid ++ [l])) →
    pre.length = k + 1 → diff.length = k + mid.length → Spl.removeBezierLoop d diff mid.length k (expand pre).length s = .ok s
  | [], pre, s, k, hU, hr, hk, hd => by
    rw [Spl.removeBezierLoop.eq_def]
    dsimp only
    rw [getN_some hU, ok_bind, kvNumDifferent_expand hr (by simp), if_neg (by simp; omega)]
    rfl
  | (a, m) :: mid, pre, s, k, hU, hr, hk, hd => by
    have hm : 1 ≤ m := hr.2 (a, m) (by simp)
    rw [List.cons_append] at hU hr
    rw [Spl.removeBezierLoop.eq_def]
    dsimp only
    rw [getN_some hU, ok_bind, kvNumDifferent_expand hr (by simp), if_pos (by simp; omega)]
    dsimp only [List.length_cons]
    have hx : kvGet (expand (pre ++ (a, m) :: (mid ++ [l]))) (expand pre).length = .ok a := by
      rw [kvGet_eq (by rw [length_expand_mid]; omega), knot_expand_mid (le_refl _) (by omega)]
    have hdk : k < diff.length := by rw [hd]; simp
    have hdi : getN diff k = .ok 0 := by
      rw [getN_some (List.getElem?_eq_getElem hdk), hz _ (List.getElem_mem hdk)]
    rw [hx, ok_bind, hdi, ok_bind]
    unfold Spl.removeKnot
    rw [show toSizeT 0 = 0 from rfl, Spl.removeRounds, ok_bind]
    dsimp only
    rw [getN_some hU, ok_bind, skipEqual_run (pre := pre) (post := mid) (l := l) hr, ok_bind]
    have e1 : (expand pre).length + m - 1 + 1 = (expand (pre ++ [(a, m)])).length := by simp; omega
    rw [e1]
    exact removeBezierLoop_zero hp1 hl hz mid (pre ++ [(a, m)]) s (k + 1) (by rw [hU]; simp) (by
      have : pre ++ [(a, m)] ++ (mid ++ [l]) = pre ++ (a, m) :: (mid ++ [l]) := by simp
      rw [this]; exact hr) (by simp; omega) (by rw [hd]; simp; omega)

theorem removeBezier_zero {s : Spl K} {d q : ℕ} (hq : 1 ≤ q) {f l : K} {mid : List (K × ℕ)} (hr : Runs ([(f, q + 1)] ++ (fill q mid ++ [(l, q + 1)])))
    (hU : s.ps.knots[d]? = some (bezierKnots q f l mid)) (hp : s.ps.degree[d]? = some q) {diff : List ℤ} (hz : ∀ a ∈ diff, a = 0)
    (hl : diff.length = mid.length) : s.removeBezier diff d = .ok s := by
  unfold Spl.removeBezier
  rw [getN_some hp, ok_bind]
  have := removeBezierLoop_zero (d := d) (l := (l, q + 1)) hq (by simp) hz (fill q mid) [(f, q + 1)] s 0 hU hr (by simp) (by simp [fill, hl])
  rw [show (expand [(f, q + 1)]).length = q + 1 by simp] at this
  rw [hl]
  simpa [fill] using this

/-! ### Exact recovery -/

theorem segIx_eq {q n k : ℕ} (hn : 1 ≤ n) (h : k < q * n + 1) : (segIx q n k).1 * q + (segIx q n k).2 = k := by
  unfold segIx
  split_ifs with hk
  · dsimp only
    rw [mul_comm]
    exact Nat.div_add_mod k q
  · dsimp only
    have hkq : k = q * n := by omega
    rw [hkq]
    obtain ⟨n, rfl⟩ : ∃ m, n = m + 1 := ⟨n - 1, by omega⟩
    rw [Nat.add_sub_cancel]; ring

/-- The elevated control values, at index `k` of a direction with `n` segments of degree `q + 1`. -/
def elevated (q n d : ℕ) (H : List ℕ → K) (I : List ℕ) : K :=
  let (m, j) := segIx (q + 1) n (ixd I d)
  (1 - (j : K) / ((q + 1 : ℕ) : K)) * H (I.set d (m * q + j)) + (j : K) / ((q + 1 : ℕ) : K) * H (I.set d (m * q + (j - 1)))

theorem elevated_set {q n d : ℕ} (H : List ℕ → K) {J : List ℕ} (hd : d < J.length) {m j : ℕ} (hm : m < n) (hj : j ≤ q + 1) :
    elevated q n d H (J.set d (m * (q + 1) + j)) =
      (1 - (j : K) / ((q + 1 : ℕ) : K)) * H (J.set d (m * q + j)) + (j : K) / ((q + 1 : ℕ) : K) * H (J.set d (m * q + (j - 1))) := by
  have hq0 : ((q + 1 : ℕ) : K) ≠ 0 := Nat.cast_ne_zero.2 (by omega)
  unfold elevated
  rw [ixd_set_self hd, segIx_mul (by omega) hm hj]
  by_cases hjq : j < q + 1
  · rw [if_pos hjq]
    dsimp only
    rw [List.set_set, List.set_set]
  · obtain rfl : j = q + 1 := by omega
    rw [if_neg hjq]
    by_cases hin : m + 1 < n
    · rw [if_pos hin]
      dsimp only
      rw [div_self hq0, show (m + 1) * q + 0 = m * q + (q + 1 - 1) by rw [add_mul]; omega]
      simp
    · rw [if_neg hin, show n - 1 = m by omega]
      dsimp only
      rw [List.set_set, List.set_set]

/-- If a spline in Bézier form has the geometry of one of lower degree, its control net is the elevation of the other one. -/
theorem hom_elevated {c r : Spl K} (h : WFSpl c) (hr : WFSpl r) (hn : List.Forall₂ NonDegenerate c.ps.knots c.ps.degree) {d q : ℕ} (hq : 1 ≤ q)
    {f l : K} {mid : List (K × ℕ)} (hU : c.ps.knots[d]? = some (bezierKnots (q + 1) f l mid)) (hp : c.ps.degree[d]? = some (q + 1))
    (hk : r.ps.knots = c.ps.knots.set d (bezierKnots q f l mid)) (hd : r.ps.degree = c.ps.degree.set d q) (hg : SameSums c r)
    {cc : ℕ} (hc : cc < c.ph.dim + 1) : ∀ I, InBox (npts c) I → hom c cc I = elevated q (mid.length + 1) d (hom r cc) I := by
  have hdk : d < c.ps.knots.length := lt_of_some hU
  have hdd : d < c.ps.degree.length := lt_of_some hp
  have hrU : r.ps.knots[d]? = some (bezierKnots q f l mid) := by rw [hk]; exact List.getElem?_set_self hdk
  have hrp : r.ps.degree[d]? = some q := by rw [hd]; exact List.getElem?_set_self hdd
  have hwU : WFKnots (bezierKnots (q + 1) f l mid) (q + 1) := forall₂_getElem? h.knots hU hp
  have hwV : WFKnots (bezierKnots q f l mid) q := forall₂_getElem? hr.knots hrU hrp
  intro I hI
  refine sub_eq_zero.1 (tensor_independent h.knots hn (a := fun I => hom c cc I - elevated q (mid.length + 1) d (hom r cc) I) ?_ I hI)
  intro x hx'
  have hx : InDomain c x := hx'.imp fun _ _ h => ⟨h.1, h.2.le⟩
  have ht := List.getElem?_eq_getElem (show d < x.length by rw [← hx.length_eq]; exact hdk)
  obtain ⟨h0, h1⟩ := forall₂_getElem? hx hU ht
  obtain ⟨i, hi, hlt, hb1, hb2, hspan⟩ := bezier_locate (by omega) hwU h0 h1
  have hoth : others r.ps.knots r.ps.degree x d = others c.ps.knots c.ps.degree x d := by
    funext J
    unfold others
    rw [hk, hd, basisFns_set (bezierKnots q f l mid) q hU hp ht rfl, List.set_set]
  have hrn : (nptsOf r.ps.knots r.ps.degree).set d 1 = (nptsOf c.ps.knots c.ps.degree).set d 1 := by
    rw [hk, hd, nptsOf_set_both, List.set_set]
  have e1 : homSum c x cc = homSum r x cc := (hg.hom hx hc).symm
  have e2 : homSum r x cc = msum (nptsOf c.ps.knots c.ps.degree) (fun I => dprod (basisFns c.ps.knots c.ps.degree x) I *
      elevated q (mid.length + 1) d (hom r cc) I) := by
    unfold homSum tensorSum
    rw [npts_eq, bezier_tensor hq hrU hrp ht hwV.sorted hi hlt (hspan q hq), hoth, hrn,
      bezier_tensor (by omega) hU hp ht hwU.sorted hi hlt (hspan (q + 1) (by omega))]
    apply msum_congr
    intro J hJ
    congr 1
    rw [← bezier_elevate q]
    apply bezier_congr
    intro j hj
    have hdJ : d < J.length := by
      rw [hJ.length, List.length_set]
      exact lt_of_some (nptsOf_get hU hp)
    rw [elevated_set _ hdJ hi hj]
  have e3 : homSum c x cc = msum (nptsOf c.ps.knots c.ps.degree) (fun I => dprod (basisFns c.ps.knots c.ps.degree x) I * hom c cc I) := rfl
  rw [e2, e3] at e1
  rw [← sub_eq_zero.2 e1, ← msum_sub]
  exact msum_congr fun J _ => by ring

theorem WFSpl.of_shape {s : Spl K} (h : ShapeSpl s) (hw : ∀ I, InBox (npts s) I → 0 < wgt s I) : WFSpl s := by
  have hpos : ∀ n ∈ npts s, 0 < n := nptsOf_pos h.ps.knots
  refine ⟨h.ps.knots, h.ps.basis, h.ph.num, h.ph.dim, h.ph.cps, fun w e => ⟨h.ph.weights w e, ?_⟩⟩
  intro a ha
  obtain ⟨k, hk, rfl⟩ := List.mem_iff_getElem.1 ha
  have hkp : k < (npts s).prod := by rw [← h.ph.weights w e]; exact hk
  have := hw (unlin (npts s) k) (unlin_inBox hpos k)
  unfold wgt at this
  rw [e] at this
  dsimp only at this
  rw [lin_unlin hkp, List.getD_eq_getElem?_getD, List.getElem?_eq_getElem hk] at this
  exact this

/-- **Exact recovery**: if the spline has the geometry of a spline `r` of one degree less with all interior multiplicities one less,
the reduction returns `r` and reports success, for every positive tolerance. -/
theorem reduceDegree_exact {s r : Spl K} (h : WFSpl s) (hr : WFSpl r) (hn : List.Forall₂ NonDegenerate s.ps.knots s.ps.degree)
    (hnr : List.Forall₂ NonDegenerate r.ps.knots r.ps.degree) {d q : ℕ} {U : List K}
    (hU : s.ps.knots[d]? = some U) (hp : s.ps.degree[d]? = some (q + 1)) (hq : 1 ≤ q) {f l : K} {mid : List (K × ℕ)}
    (hb : BezierRuns U (q + 1) f l mid) (hm : ∀ a ∈ mid, 2 ≤ a.2) (hsz : (q + 1 + 1) * U.length < 2 ^ 63) (hd : r.ps.degree = s.ps.degree.set d q)
    (hk : r.ps.knots = s.ps.knots.set d (expand ([(f, q + 1)] ++ (mid.map (fun a => (a.1, a.2 - 1)) ++ [(l, q + 1)]))))
    (hg : SameSums s r) {tol : K} (htol : 0 < tol) : s.reduceDegree d tol = .ok (r, true) := by
  obtain ⟨c, ph, ps, w, dg, k, g, hprep, e⟩ := reduceDegree_steps h hU hp hq hb hsz tol
  have hdk : d < s.ps.knots.length := lt_of_some hU
  have hdd : d < s.ps.degree.length := lt_of_some hp
  have hUc : c.ps.knots[d]? = some (bezierKnots (q + 1) f l mid) := by rw [k]; exact List.getElem?_set_self hdk
  have hpc : c.ps.degree[d]? = some (q + 1) := by rw [dg]; exact hp
  have hdn : d < (npts c).length := lt_of_some (nptsOf_get hUc hpc)
  -- the Bézier form of `r`
  set midr := mid.map (fun a => (a.1, a.2 - 1)) with hmidr
  have hUr : r.ps.knots[d]? = some (expand ([(f, q + 1)] ++ (midr ++ [(l, q + 1)]))) := by rw [hk]; exact List.getElem?_set_self hdk
  have hpr : r.ps.degree[d]? = some q := by rw [hd]; exact List.getElem?_set_self hdd
  have hbr : BezierRuns (expand ([(f, q + 1)] ++ (midr ++ [(l, q + 1)]))) q f l midr := by
    refine ⟨⟨increasing_of_fst hb.runs.1 (by simp [hmidr]), ?_⟩, rfl, ?_⟩
    · intro a ha
      simp only [List.mem_append, hmidr, List.mem_map, List.mem_singleton] at ha
      rcases ha with rfl | ⟨b, hbm, rfl⟩ | rfl
      · simp
      · have := hm b hbm
        show 1 ≤ b.2 - 1
        omega
      · simp
    · intro a ha
      rw [hmidr, List.mem_map] at ha
      obtain ⟨b, hbm, rfl⟩ := ha
      have := hb.mult b hbm
      show b.2 - 1 ≤ q
      omega
  have hlenV : (expand ([(f, q + 1)] ++ (midr ++ [(l, q + 1)]))).length ≤ U.length := by
    have key : ∀ (m : List (K × ℕ)), (expand (m.map (fun a => (a.1, a.2 - 1)))).length ≤ (expand m).length := by
      intro m
      induction m with
      | nil => simp
      | cons a m ih =>
        simp only [List.map_cons, expand_cons, List.length_append, List.length_replicate]
        omega
    rw [hb.eq]
    have := key mid
    simp only [expand_append, List.length_append, expand_cons, expand_nil, List.length_replicate, List.length_nil]
    rw [← hmidr] at this
    omega
  have hszr : (q + 1) * (expand ([(f, q + 1)] ++ (midr ++ [(l, q + 1)]))).length < 2 ^ 63 :=
    lt_of_le_of_lt (Nat.mul_le_mul (by omega) hlenV) hsz
  obtain ⟨rb, _, wb, dgb, kb, gb⟩ := produceBezier_ok hr hUr hpr hbr hszr
  have hbk : bezierKnots q f l midr = bezierKnots q f l mid := by
    unfold bezierKnots
    congr 3
    simp [fill, hmidr]
  have hkb : rb.ps.knots = c.ps.knots.set d (bezierKnots q f l mid) := by rw [kb, hbk, hk, k, List.set_set, List.set_set]
  have hdb : rb.ps.degree = c.ps.degree.set d q := by rw [dgb, hd, dg]
  have hgb : SameSums c rb := g.symm.trans (hg.trans gb)
  have hnb : ∀ p, 1 ≤ p → NonDegenerate (bezierKnots p f l mid) p := fun p h1 => by
    have hrp := runs_fill hb.runs h1
    refine nonDegenerate_of_count (Runs.sorted hrp.1) (count_expand_le hrp.1 ?_)
    intro b hb
    simp only [List.mem_append, fill, List.mem_map, List.mem_singleton] at hb
    rcases hb with rfl | ⟨b', _, rfl⟩ | rfl
    · simp
    · show p ≤ p + 1; omega
    · simp
  have hnc : List.Forall₂ NonDegenerate c.ps.knots c.ps.degree := by
    rw [k, dg]; exact forall₂_set_nondegenerate hn hp (hnb (q + 1) (by omega))
  have hnrb : List.Forall₂ NonDegenerate rb.ps.knots rb.ps.degree := by
    rw [kb, dgb, hbk]; exact forall₂_set_nondegenerate hnr hpr (hnb q hq)
  have hel := fun {cc : ℕ} (hc : cc < c.ph.dim + 1) => hom_elevated w wb hnc hq hUc hpc hkb hdb hgb hc
  have hline : ∀ m < mid.length + 1, ∀ e < ((npts c).set d 1).prod, ∀ cc < c.ph.dim + 1, ∀ j ≤ q + 1,
      hom c cc (lineIx (npts c) d e (m * (q + 1) + j)) = (1 - (j : K) / ((q + 1 : ℕ) : K)) * hom rb cc (lineIx (npts c) d e (m * q + j)) +
        (j : K) / ((q + 1 : ℕ) : K) * hom rb cc (lineIx (npts c) d e (m * q + (j - 1))) := by
    intro m hm e he cc hc j hj
    have hle : m * (q + 1) + j < (q + 1) * (mid.length + 1) + 1 := by
      have : (q + 1) * (m + 1) ≤ (q + 1) * (mid.length + 1) := Nat.mul_le_mul_left _ hm
      nlinarith
    have hbox : InBox (npts c) (lineIx (npts c) d e (m * (q + 1) + j)) :=
      lineIx_inBox (ns := npts c) (nptsOf_pos w.knots) (by rw [ixd_bezier hUc hpc]; exact hle)
    rw [hel hc _ hbox]
    unfold lineIx
    rw [elevated_set _ _ hm hj]
    rw [unlin_length, List.length_set]
    exact hdn
  obtain ⟨segs, f1⟩ := reduceSegments_exact w hpc (by omega) (ixd_bezier hUc hpc) htol
    (Q := fun m e cc j => hom rb cc (lineIx (npts c) d e (m * q + j))) hline (mid.length + 1) 0 (by omega)
  obtain ⟨o, f2, f3⟩ := reduceSegments_ok w hpc (by omega) (ixd_bezier hUc hpc) tol (mid.length + 1) 0 (by omega)
  obtain rfl : o = some segs := by rw [f1] at f2; exact (Except.ok.inj f2).symm
  have ha : AllRed c d (q + 1) (mid.length + 1) tol segs := by
    obtain ⟨a1, a2⟩ := f3 segs rfl
    refine ⟨a1, fun j hj => ?_⟩
    have := a2 j hj
    rwa [Nat.zero_add] at this
  have hlen : mid.length + 1 < 2 ^ 63 := by
    have h1 := hb.size hsz
    have h2 := bezierKnots_length (q + 1) f l mid
    unfold bezierKnots at h2
    rw [h2] at h1
    generalize mid.length = n at h1 ⊢
    generalize (2 : ℕ) ^ 63 = B at h1 ⊢
    nlinarith
  have hnpb : npts rb = (npts c).set d (q * (mid.length + 1) + 1) := by
    rw [npts_eq, hkb, hdb, nptsOf_set_both, bezierKnots_length, npts_eq]
    congr 1
    omega
  have hval : ∀ I, InBox ((npts c).set d (q * (mid.length + 1) + 1)) I → ∀ cc < c.ph.dim + 1,
      segVal segs ((npts c).set d (q * (mid.length + 1) + 1)) d q I cc = hom rb cc I := by
    intro I hI cc hc
    obtain ⟨s1, s2⟩ := segIx_lt (q := q) (n := mid.length + 1) (k := ixd I d) hq (by omega)
    have hix : ixd I d < q * (mid.length + 1) + 1 := by
      have hdI : d < I.length := by rw [hI.length]; simpa using hdn
      have := forall₂_getElem? hI (List.getElem?_eq_getElem hdI) (List.getElem?_set_self hdn)
      unfold ixd
      rw [List.getD_eq_getElem?_getD, List.getElem?_eq_getElem hdI]
      exact this
    have hrow : row ((npts c).set d (q * (mid.length + 1) + 1)) d I < ((npts c).set d 1).prod := by
      have := row_lt (d := d) hI
      rwa [List.set_set] at this
    unfold segVal
    rw [ha.1]
    obtain ⟨b, es, err, _, h1⟩ := ha.2 _ s1
    have hx := ((h1.line _ hrow).1.exact (c := cc) (by omega) (by omega) (Q := fun j => hom rb cc (lineIx (npts c) d
      (row ((npts c).set d (q * (mid.length + 1) + 1)) d I) ((segIx q (mid.length + 1) (ixd I d)).1 * q + j))) (fun j hj => by
        rw [h1.seg _ hrow _ (by omega) j hj]
        exact hline _ s1 _ hrow cc hc j hj)).1 (segIx q (mid.length + 1) (ixd I d)).2 (by omega)
    rw [hx]
    congr 1
    rw [segIx_eq (by omega) hix]
    have hd' : d < ((npts c).set d (q * (mid.length + 1) + 1)).length := by simpa using hdn
    have := lineIx_row_self hd' hI
    unfold lineIx at this ⊢
    rwa [List.set_set] at this
  have hwgt : ∀ I, InBox ((npts c).set d (q * (mid.length + 1) + 1)) I → 0 < hom rb c.ph.dim I := by
    intro I hI
    unfold hom
    rw [if_pos hgb.dim.symm]
    exact wgt_pos' wb (hnpb ▸ hI)
  obtain ⟨r0, f4⟩ := (prepared_set hdn hq (by omega) hlen hprep (lt_of_some hpc) ha).2 (fun I hI => by
    rw [hval I hI _ (by omega)]
    exact (hwgt I hI).ne')
  have hred := (prepared_set hdn hq (by omega) hlen hprep (lt_of_some hpc) ha).1 r0 f4
  have hhom : ∀ I, InBox (npts rb) I → ∀ cc < c.ph.dim + 1, hom r0 cc I = hom rb cc I := fun I hI cc hc => by
    rw [hnpb] at hI
    rw [hred.hom I hI cc hc, hval I hI cc hc]
  have hdim0 : r0.ph.dim = rb.ph.dim := hred.dim.trans hgb.dim.symm
  have hnp0 : npts r0 = npts rb := hred.npts.trans hnpb.symm
  have hw0 : ∀ I, InBox (npts rb) I → wgt r0 I = wgt rb I := fun I hI => by
    have := hhom I hI c.ph.dim (by omega)
    unfold hom at this
    rwa [if_pos hred.dim.symm, if_pos hgb.dim.symm] at this
  have w0 : WFSpl r0 := WFSpl.of_shape hred.shape fun I hI => by
    rw [hnp0] at hI
    rw [hw0 I hI]
    exact wgt_pos' wb hI
  have hk0 : r0.ps.knots = rb.ps.knots := hred.knots.trans hkb.symm
  have hd0 : r0.ps.degree = rb.ps.degree := hred.degree.trans hdb.symm
  have hts : ∀ x (F G : List ℕ → K), (∀ I, InBox (npts rb) I → F I = G I) → tensorSum r0 x F = tensorSum rb x G := by
    intro x F G hFG
    unfold tensorSum
    rw [hnp0, hk0, hd0]
    exact msum_congr fun I hI => by rw [hFG I hI]
  have hs0 : SameSums rb r0 := by
    refine ⟨hdim0, ?_, fun x => ?_, fun x _ => hts x _ _ hw0, fun x _ cc hc => hts x _ _ fun I hI => ?_⟩
    · exact hgb.kind.symm.trans hred.kind.symm
    · unfold InDomain
      rw [hk0]
    · have hcd : cc ≠ rb.ph.dim := by omega
      have := hhom I hI cc (by rw [← hgb.dim]; omega)
      unfold hom at this
      rwa [if_neg (by rw [hdim0]; exact hcd), if_neg hcd] at this
  obtain rfl := spl_unique wb w0 hk0 hd0 hnrb hs0
  have hback := removeBezier_restores (sqrt_zero (K := K)) hr w0 hUr hpr hbr hszr hnr dgb kb gb
  have hdiff : midr.map (fun a => (q : ℤ) - a.2) = mid.map fun a => ((q + 1 : ℕ) : ℤ) - a.2 := by
    rw [hmidr, List.map_map]
    apply List.map_congr_left
    intro a ha
    have := hm a ha
    show (q : ℤ) - ((a.2 - 1 : ℕ) : ℤ) = _
    omega
  rw [hdiff] at hback
  rw [e, f1, ok_bind]
  dsimp only
  rw [f4, ok_bind, hback, ok_bind]
  rfl

end SplineLib
