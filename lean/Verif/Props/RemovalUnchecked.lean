import Verif.Props.KnotRemoval
import Verif.Core.Interpolation
import Verif.Core.ChangeDir
/-!
# Knot removal with an even difference of degree and multiplicity

The number of control points affected in a row is odd then, and `RemoveKnot` ignores the middle one.
-/

namespace SplineLib
set_option linter.unusedSectionVars false
open Finset

section
variable {K : Type} [Field K] [LinearOrder K] [IsStrictOrderedRing K]

theorem TL_zero {first : ℕ} (hf : 1 ≤ first) {α P : ℕ → K} : ∀ {t : ℕ}, (∀ k, first - 1 ≤ k → k < first + t → P k = 0) →
    TL first α P t = 0
  | 0, h => h _ (le_refl _) (by omega)
  | t + 1, h => by
    rw [TL, h (first + t) (by omega) (by omega), TL_zero hf (fun k h1 h2 => h k h1 (by omega))]; simp

theorem TR_zero {last : ℕ} {α P : ℕ → K} : ∀ {t : ℕ}, t ≤ last → (∀ k, last < k + t → k ≤ last + 1 → P k = 0) → TR last α P t = 0
  | 0, _, h => h _ (by omega) (le_refl _)
  | t + 1, ht, h => by
    rw [TR, h (last - t) (by omega) (by omega), TR_zero (by omega) (fun k h1 h2 => h k (by omega) h2)]; simp

/-- A tensor product sum of coefficients that depend on the index in direction `d` only. -/
theorem row_sum {Us : List (List K)} {ps : List ℕ} (h : List.Forall₂ WFKnots Us ps) (g : ℕ → K) :
    ∀ {xs : List K} {d : ℕ} {U : List K} {p : ℕ} {x : K}, Dom Us xs → Us[d]? = some U → ps[d]? = some p → xs[d]? = some x →
      msum (List.zipWith (fun U p => U.length - p - 1) Us ps) (fun I => dprod (basisFns Us ps xs) I * g (ixd I d)) =
        ∑ i ∈ range (U.length - p - 1), coxDeBoor U p i x * g i := by
  induction h with
  | nil => intro xs d U p x _ hU; simp at hU
  | @cons U' p' Us ps h hs ih =>
    intro xs d U p x hx hU hp hxd
    cases hx with
    | @cons _ a _ as ha has =>
      cases d with
      | zero =>
        simp only [List.getElem?_cons_zero, Option.some.injEq] at hU hp hxd
        subst hU; subst hp; subst hxd
        simp only [List.zipWith_cons_cons, basisFns, msum, dprod]
        apply sum_congr rfl
        intro i _
        have hu := tensor_unity hs has
        rw [msum_congr (g := fun I => dprod (basisFns Us ps as) I * (coxDeBoor U' p' i a * g i)) (fun I _ => by
          simp only [ixd, List.getD_cons_zero]; ring), msum_mul_right, hu, one_mul]
      | succ d =>
        simp only [List.getElem?_cons_succ] at hU hp hxd
        simp only [List.zipWith_cons_cons, basisFns, msum, dprod]
        have hi := ih has hU hp hxd
        have : ∀ i ∈ range (U'.length - p' - 1), msum (List.zipWith (fun U p => U.length - p - 1) Us ps)
            (fun I => coxDeBoor U' p' i a * dprod (basisFns Us ps as) I * g (ixd (i :: I) (d + 1))) =
            coxDeBoor U' p' i a * ∑ i ∈ range (U.length - p - 1), coxDeBoor U p i x * g i := by
          intro i _
          rw [← hi, ← msum_mul_left]
          apply msum_congr
          intro I _
          simp only [ixd, List.getD_cons_succ]; ring
        rw [sum_congr rfl this, ← sum_mul, cox_sum h ha.1 ha.2, one_mul]

theorem dom_firsts {Us : List (List K)} {ps : List ℕ} (h : List.Forall₂ WFKnots Us ps) : Dom Us (Us.map fun U => knot U 0) := by
  induction h with
  | nil => exact .nil
  | cons h _ ih => exact .cons ⟨le_refl _, h.range.le⟩ ih

/-- The scalar B-spline whose coefficients are `c` in row `mid` of direction `d` and zero elsewhere. -/
def rowSpline (Us : List (List K)) (ps : List ℕ) (d mid : ℕ) (c : K) : Spl K :=
  ⟨⟨Us, ps, mkTable Us ps⟩, ⟨1, zl (List.zipWith (fun U p => U.length - p - 1) Us ps),
    (List.range (List.zipWith (fun U p => U.length - p - 1) Us ps).prod).map fun k =>
      if ixd (unlin (List.zipWith (fun U p => U.length - p - 1) Us ps) k) d = mid then c else 0, none⟩⟩

theorem rowSpline_wf {Us : List (List K)} {ps : List ℕ} (h : List.Forall₂ WFKnots Us ps) (d mid : ℕ) (c : K) :
    WFSpl (rowSpline Us ps d mid c) where
  knots := h
  basis := basisTable_eq (forall₂_size h)
  num := rfl
  dim := Nat.one_pos
  cps := by simp [rowSpline, npts]
  weights := by intro w hw; simp [rowSpline] at hw

theorem rowSpline_cpt {Us : List (List K)} {ps : List ℕ} {d mid : ℕ} {c : K} {I : List ℕ} (hI : InBox (npts (rowSpline Us ps d mid c)) I) :
    cpt (rowSpline Us ps d mid c) I 0 = if ixd I d = mid then c else 0 := by
  have h1 := lin_lt hI
  have h2 := unlin_lin hI
  unfold cpt
  have hn : npts (rowSpline Us ps d mid c) = List.zipWith (fun U p => U.length - p - 1) Us ps := rfl
  rw [hn] at h1 h2 ⊢
  simp only [rowSpline, one_mul, Nat.add_zero]
  rw [List.getD_eq_getElem?_getD, List.getElem?_map, List.getElem?_range h1]
  simp only [Option.map_some, Option.getD_some, h2]

/-- **C17** is false for every knot vector and every interior knot with an even difference of degree and multiplicity, in every direction
of every parameter space: with tolerance 0 there are B-splines on which the removal is reported, but moves the spline by more than any
given bound. (One row of control points is never looked at, and it is lost.) -/
theorem C17_even_unbounded [HasSqrt K] (hs0 : HasSqrt.sqrt (0 : K) = 0) {Us : List (List K)} {ps : List ℕ}
    (hk : List.Forall₂ WFKnots Us ps) {d : ℕ} {U : List K} {p : ℕ} {t : K} (hU : Us[d]? = some U) (hp : ps[d]? = some p)
    (h0 : knot U 0 < t) (h1 : t < lastKnot U) (hin : t ∈ U) (hm : kvMult U t ≤ p) (hpar : (p - kvMult U t) % 2 = 0)
    (hsz : U.length < 2 ^ 63) (M : K) :
    ∃ (s s1 : Spl K) (x : List K) (a b : K), WFSpl s ∧ IsBSpline s ∧ s.ps.knots = Us ∧ s.ps.degree = ps ∧
      s.removeKnot t d 0 = .ok (s1, 1) ∧ WFSpl s1 ∧ InDomain s x ∧ s.evaluate x [0] = .ok [a] ∧ s1.evaluate x [0] = .ok [b] ∧ M < |a - b| := by
  have hw := forall₂_get hk hU hp
  obtain ⟨_, hr⟩ := removed_of_mem hw h0 h1 hin
  obtain ⟨V, hV⟩ : ∃ V, V = U.eraseIdx (spanIx U t) := ⟨_, rfl⟩
  rw [← hV] at hr
  have hmul := hr.mult
  obtain ⟨b1, b2, b3, b4, b5⟩ := hr.bounds (by omega)
  obtain ⟨hi, hlt, hmk, hl1, hl2⟩ := hr.adm.pos hr.wf
  have hlo := hi.lo
  have hhi := hi.hi
  have hlen := hr.length
  obtain ⟨first, hfirst⟩ : ∃ f, f = spanIx V t + 1 - p := ⟨_, rfl⟩
  obtain ⟨last, hlast⟩ : ∃ f, f = spanIx V t - kvMult V t := ⟨_, rfl⟩
  obtain ⟨m, hmdef⟩ : ∃ m, m = (p - kvMult V t) / 2 := ⟨_, rfl⟩
  have hme : last = first + 2 * m := by omega
  -- the coefficient of the ignored row does not vanish at `t`
  have hN : 0 < coxDeBoor U p (first + m) t := by
    apply cox_pos hw (by omega)
    · rw [hr.knot, if_pos (by omega)]
      exact (hr.wf.sorted.mono (show first + m ≤ spanIx V t - kvMult V t by omega) (by omega)).trans_lt hl1
    · rw [hr.knot, if_neg (by omega)]
      have hne : ¬ first + m + p + 1 = spanIx V t + 1 := by omega
      rw [if_neg hne]
      exact hlt.trans_le (hr.wf.sorted.mono (by omega) (by omega))
  obtain ⟨c, hc⟩ : ∃ c, c = (|M| + 1) / coxDeBoor U p (first + m) t := ⟨_, rfl⟩
  obtain ⟨s, hs⟩ : ∃ s, s = rowSpline Us ps d (first + m) c := ⟨_, rfl⟩
  have hwf : WFSpl s := hs ▸ rowSpline_wf hk _ _ _
  have hb : IsBSpline s := by rw [hs]; rfl
  have hkn : s.ps.knots = Us := by rw [hs]; rfl
  have hdg : s.ps.degree = ps := by rw [hs]; rfl
  have hdim : s.ph.dim = 1 := by rw [hs]; rfl
  have hcpt : ∀ I, InBox (npts s) I → cpt s I 0 = if ixd I d = first + m then c else 0 := by
    intro I hI; rw [hs] at hI ⊢; exact rowSpline_cpt hI
  have hwg : ∀ I, wgt s I = 1 := by intro I; rw [hs]; rfl
  have hUs : s.ps.knots[d]? = some U := by rw [hkn]; exact hU
  have hps : s.ps.degree[d]? = some p := by rw [hdg]; exact hp
  have hpos : ∀ n ∈ npts s, 0 < n := nptsOf_pos hwf.knots
  have hix : ixd (npts s) d = U.length - p - 1 := nptsOf_ixd hUs hps
  have hdn : d < (npts s).length := lt_of_some (nptsOf_get hUs hps)
  obtain ⟨T, hT, ho⟩ := removeRounds_outcome hwf.shape hUs hps hr hm hsz (0 : K)
  have hT0 : T = 0 := by
    obtain ⟨T', e1, e2, _⟩ := effTol_ok hwf.phys.shape hpos (0 : K)
    rw [e1] at hT
    rw [← Except.ok.inj hT]
    exact e2 hb
  have hall : ∀ e < ((npts s).set d 1).prod, LineOK s.ph (npts s) d (spanIx V t + 1 - p) (spanIx V t - kvMult V t)
      ((p - kvMult V t) / 2) (insα V p t) T e := by
    intro e he
    rw [← hfirst, ← hlast, ← hmdef]
    left
    have hP : ∀ c', c' < 1 → ∀ k, k < U.length - p - 1 → k ≠ first + m → lineH s.ph (npts s) d e c' k = 0 := by
      intro c' hc' k hk' hne
      obtain rfl : c' = 0 := by omega
      have := hcpt _ (lineIx_inBox (e := e) hpos (by rw [hix]; exact hk'))
      rw [lineIx_ixd hdn, if_neg hne] at this
      show _ * pcpt s.ph (npts s) (lineIx (npts s) d e k) 0 = 0
      rw [show pcpt s.ph (npts s) (lineIx (npts s) d e k) 0 = 0 from this, mul_zero]
    have hL : ∀ c' < 1, TL first (insα V p t) (lineH s.ph (npts s) d e c') m = 0 := fun c' hc' =>
      TL_zero (by omega) (fun k h1 h2 => hP c' hc' k (by omega) (by omega))
    have hR : ∀ c' < 1, TR last (insα V p t) (lineH s.ph (npts s) d e c') m = 0 := fun c' hc' =>
      TR_zero (by omega) (fun k h1 h2 => hP c' hc' k (by omega) (by omega))
    have hv : homVec s.ph (fun c => TL first (insα V p t) (lineH s.ph (npts s) d e c) m) (TL first (insα V p t) (lineW s.ph (npts s) d e) m) =
        homVec s.ph (fun c => TR last (insα V p t) (lineH s.ph (npts s) d e c) m) (TR last (insα V p t) (lineW s.ph (npts s) d e) m) := by
      rw [← hfirst, ← hlast] at b4
      unfold homVec
      rw [lineW_one hb, TL_one b4 (by omega), TR_one b4 (by omega), hdim]
      congr 1
      apply List.map_congr_left
      intro c' hc'
      rw [hL c' (List.mem_range.1 hc'), hR c' (List.mem_range.1 hc')]
    rw [hv, distance_self hs0, hT0]
  rcases ho 0 0 with ⟨er, _, hn⟩ | ⟨hno, _⟩ | ⟨_, s1, e, hS, hn, hR⟩
  · obtain ⟨w, hw⟩ := hn
    rw [hb] at hw; simp at hw
  · exact absurd hall hno
  have hb1 : IsBSpline s1 := hS.kind.1 hb
  have hs1 : WFSpl s1 := hS.shape.wf_bspline hb1
  have hzero : ∀ J, InBox (npts s1) J → cpt s1 J 0 = 0 := by
    intro J hJ
    have h2 := hR.hom J (by rw [← hn]; exact hJ) 0 (by rw [hdim]; omega)
    rw [← hn, ← hfirst, ← hlast, ← hmdef] at h2
    have hw1 : pwgt s1.ph (npts s1) J = 1 := by unfold pwgt; rw [hb1]
    rw [hw1, one_mul] at h2
    show pcpt s1.ph (npts s1) J 0 = 0
    rw [h2]
    rw [hn] at hJ
    obtain ⟨hJ1, hJ2⟩ := inBox_sub hdn hJ
    have hJl : d < J.length := by rw [hJ1.length]; exact hdn
    have hF : ∀ k, k < U.length - p - 1 → k ≠ first + m → pwgt s.ph (npts s) (J.set d k) * pcpt s.ph (npts s) (J.set d k) 0 = 0 := by
      intro k hk' hne
      have hbox : InBox (npts s) (J.set d k) := by
        have := inBox_set (d := d) (n := U.length - p - 1) hJ1 hk'
        rwa [← hix, set_ixd hdn] at this
      have := hcpt _ hbox
      rw [ixd_set_self hJl, if_neg hne] at this
      rw [show pcpt s.ph (npts s) (J.set d k) 0 = 0 from this, mul_zero]
    rw [hix] at hJ2
    unfold remDir
    by_cases c1 : ixd J d < first
    · rw [if_pos c1]
      have := hF (ixd J d) (by omega) (by omega)
      rwa [set_ixd hJl] at this
    · rw [if_neg c1]
      by_cases c2 : ixd J d < first + m
      · rw [if_pos c2]
        exact TL_zero (by omega) (fun k h1 h2 => hF k (by omega) (by omega))
      · rw [if_neg c2]
        by_cases c3 : ixd J d ≤ last
        · rw [if_pos c3]
          exact TR_zero (by omega) (fun k h1 h2 => hF k (by omega) (by omega))
        · rw [if_neg c3]
          exact hF _ (by omega) (by omega)
  have hdom : Dom Us ((Us.map fun U => knot U 0).set d t) := by
    have := dom_set_both (dom_firsts hk) (d := d) (V := U) (y := t) ⟨h0.le, h1.le⟩
    rwa [set_same hU] at this
  have hx : InDomain s ((Us.map fun U => knot U 0).set d t) := by unfold InDomain; rw [hkn]; exact hdom
  have hx1 : InDomain s1 ((Us.map fun U => knot U 0).set d t) := by
    unfold InDomain
    rw [hS.knots, hkn]
    exact (dom_set hU hr.firstKnot.symm hr.lastKnot.symm).2 hdom
  have z : zl [0] = [(0 : ℤ)] := rfl
  refine ⟨s, s1, (Us.map fun U => knot U 0).set d t, |M| + 1, 0, hwf, hb, hkn, hdg, ?_, hs1, hx, ?_, ?_, ?_⟩
  · unfold Spl.removeKnot
    rw [e]; rfl
  · rw [← z, evaluate_bspline hwf hb hx [0] (by rw [hdim]; simp)]
    congr 1
    simp only [List.map_cons, List.map_nil, List.cons.injEq, and_true]
    unfold bsplineValue tensorSum
    rw [msum_congr (g := fun I => dprod (basisFns s.ps.knots s.ps.degree ((Us.map fun U => knot U 0).set d t)) I *
      (fun i => if i = first + m then c else 0) (ixd I d)) (fun I hI => by dsimp only; rw [hcpt I hI])]
    have := row_sum hk (fun i => if i = first + m then c else 0) hdom hU hp
      (by rw [List.getElem?_set_self (by simpa using lt_of_some hU)])
    have hnn : npts s = List.zipWith (fun U p => U.length - p - 1) Us ps := by unfold npts; rw [hkn, hdg]
    rw [hkn, hdg, hnn, this, sum_eq_single (first + m)]
    · rw [if_pos rfl, hc]; exact mul_div_cancel₀ _ hN.ne'
    · intro i _ hne; rw [if_neg hne, mul_zero]
    · intro hcon; exact absurd (mem_range.2 (by omega)) hcon
  · rw [← z, evaluate_bspline hs1 hb1 hx1 [0] (by rw [hS.dim, hdim]; simp)]
    congr 1
    simp only [List.map_cons, List.map_nil, List.cons.injEq, and_true]
    unfold bsplineValue tensorSum
    rw [msum_congr (g := fun _ => (0 : K)) (fun I hI => by dsimp only; rw [hzero I hI, mul_zero]), msum_zero]
  · rw [sub_zero, abs_of_nonneg (by positivity)]
    exact (le_abs_self M).trans_lt (by linarith)

example : List.Forall₂ WFKnots [([0, 0, 1/2, 1, 1] : List ℚ), [0, 0, 0, 1/3, 1, 1, 1]] [1, 2] ∧ (1/2 : ℚ) ∈ ([0, 0, 1/2, 1, 1] : List ℚ) ∧
    kvMult ([0, 0, 1/2, 1, 1] : List ℚ) (1/2) ≤ 1 ∧ (1 - kvMult ([0, 0, 1/2, 1, 1] : List ℚ) (1/2)) % 2 = 0 ∧ ratSqrt.sqrt 0 = 0 :=
  ⟨.cons (by decide +kernel) (.cons (by decide +kernel) .nil), by decide +kernel, by decide +kernel, by decide +kernel, by decide +kernel⟩

end
end SplineLib
