import Verif.Core.Runs
import Verif.Core.Independence
import Verif.Core.RemoveMany

/-!
# Splitting a direction into Bézier segments and joining them again (helper lemmas)
-/

namespace SplineLib
set_option linter.unusedSectionVars false
open Finset
variable {K : Type} [Field K] [LinearOrder K] [IsStrictOrderedRing K]

/-! ### Runs -/

theorem increasing_of_fst {r r' : List (K × ℕ)} (h : r.Pairwise (fun a b => a.1 < b.1)) (e : r.map Prod.fst = r'.map Prod.fst) :
    r'.Pairwise (fun a b => a.1 < b.1) := by
  have h1 : (r.map Prod.fst).Pairwise (· < ·) := List.pairwise_map.2 h
  rw [e] at h1
  exact List.pairwise_map.1 h1

/-- All multiplicities set to `p`. -/
def fill (p : ℕ) (mid : List (K × ℕ)) : List (K × ℕ) := mid.map fun a => (a.1, p)

@[simp] theorem fill_fst (p : ℕ) (mid : List (K × ℕ)) : (fill p mid).map Prod.fst = mid.map Prod.fst := by simp [fill]
@[simp] theorem fill_cons (p : ℕ) (a : K × ℕ) (mid : List (K × ℕ)) : fill p (a :: mid) = (a.1, p) :: fill p mid := rfl
@[simp] theorem fill_nil (p : ℕ) : fill p ([] : List (K × ℕ)) = [] := rfl
@[simp] theorem fill_length (p : ℕ) (mid : List (K × ℕ)) : (fill p mid).length = mid.length := by simp [fill]

theorem count_expand_le {r : List (K × ℕ)} (h : r.Pairwise (fun a b => a.1 < b.1)) {N : ℕ} (hN : ∀ a ∈ r, a.2 ≤ N) (x : K) :
    (expand r).count x ≤ N := by
  by_cases hx : ∃ a ∈ r, a.1 = x
  · obtain ⟨a, ha, rfl⟩ := hx
    obtain ⟨pre, post, rfl⟩ := List.append_of_mem ha
    have := count_expand (pre := pre) (a := a.1) (m := a.2) (post := post) h
    rw [this]
    exact hN a ha
  · rw [count_expand_eq_zero (fun a ha e => hx ⟨a, ha, e⟩)]
    omega

theorem nonDegenerate_of_count {U : List K} {p : ℕ} (hs : SortedKnots U) (h : ∀ x, U.count x ≤ p + 1) : NonDegenerate U p := by
  intro i hi
  have hle : knot U i ≤ knot U (i + p + 1) := hs.mono (by omega) (by omega)
  refine lt_of_le_of_ne hle fun he => ?_
  have hsub : (List.replicate (p + 2) (knot U i)).Sublist U := by
    have e : (U.drop i).take (p + 2) = List.replicate (p + 2) (knot U i) := by
      rw [List.eq_replicate_iff]
      refine ⟨by simp; omega, ?_⟩
      intro b hb
      obtain ⟨j, hj, rfl⟩ := List.mem_iff_getElem.1 hb
      rw [List.length_take, List.length_drop] at hj
      have e1 : ((U.drop i).take (p + 2))[j] = knot U (i + j) := by
        rw [List.getElem_take, List.getElem_drop]
        unfold knot
        rw [List.getD_eq_getElem?_getD, List.getElem?_eq_getElem (by omega)]
        rfl
      rw [e1]
      have a1 : knot U i ≤ knot U (i + j) := hs.mono (by omega) (by omega)
      have a2 : knot U (i + j) ≤ knot U (i + p + 1) := hs.mono (by omega) (by omega)
      exact le_antisymm (a2.trans he.symm.le) a1
    rw [← e]
    exact (List.take_sublist _ _).trans (List.drop_sublist _ _)
  have := List.replicate_sublist_iff.1 hsub
  have := h (knot U i)
  omega

theorem knot_zero_expand {c : K × ℕ} {r : List (K × ℕ)} (hc : 1 ≤ c.2) : knot (expand (c :: r)) 0 = c.1 :=
  knot_expand_mid (pre := []) (by simp) (by rw [expand_nil]; simp only [List.length_nil]; omega)

theorem lastKnot_expand {c : K × ℕ} {r : List (K × ℕ)} (hc : 1 ≤ c.2) : lastKnot (expand (r ++ [c])) = c.1 := by
  unfold lastKnot
  have hl : (expand (r ++ [c])).length = (expand r).length + c.2 := by simp
  rw [hl]
  exact knot_expand_mid (pre := r) (post := []) (a := c.1) (m := c.2) (by omega) (by omega)

theorem admissible_expand {pre post : List (K × ℕ)} {l : K × ℕ} {a : K} {m p : ℕ} (hr : Runs (pre ++ (a, m) :: (post ++ [l]))) (hpre : pre ≠ [])
    (hw : WFKnots (expand (pre ++ (a, m) :: (post ++ [l]))) p) : Admissible (expand (pre ++ (a, m) :: (post ++ [l]))) a := by
  obtain ⟨hs, hp⟩ := hr
  obtain ⟨h1, h2, h3⟩ := List.pairwise_append.1 hs
  obtain ⟨h4, h5⟩ := List.pairwise_cons.1 h2
  refine ⟨?_, ?_, ?_⟩
  · obtain ⟨c, pre', rfl⟩ := List.exists_cons_of_ne_nil hpre
    rw [List.cons_append, knot_zero_expand (hp c (by simp))]
    exact h3 c (List.mem_cons_self ..) (a, m) (List.mem_cons_self ..)
  · rw [show pre ++ (a, m) :: (post ++ [l]) = (pre ++ (a, m) :: post) ++ [l] by simp, lastKnot_expand (hp l (by simp))]
    exact h4 l (by simp)
  · have ha : a ∈ expand (pre ++ (a, m) :: (post ++ [l])) := mem_expand_of (a := (a, m)) (by simp) (hp _ (by simp))
    intro x hx y hy hxy
    have hx' : x ∈ expand (pre ++ (a, m) :: (post ++ [l])) := by
      rcases List.mem_cons.1 hx with rfl | hx
      · exact ha
      · exact hx
    have hy' : y ∈ expand (pre ++ (a, m) :: (post ++ [l])) := by
      rcases List.mem_cons.1 hy with rfl | hy
      · exact ha
      · exact hy
    exact hw.sep x hx' y hy' hxy

theorem SameSums.symm {s s' : Spl K} (h : SameSums s s') : SameSums s' s :=
  ⟨h.dim.symm, h.kind.symm, fun x => (h.domain x).symm, fun x hx => (h.wsum x ((h.domain x).1 hx)).symm,
    fun x hx c hc => (h.csum x ((h.domain x).1 hx) c (by rw [← h.dim]; exact hc)).symm⟩

theorem skipEqual_run {pre post : List (K × ℕ)} {l : K × ℕ} {a : K} {m : ℕ} (hr : Runs (pre ++ (a, m) :: (post ++ [l]))) :
    Spl.skipEqual (expand (pre ++ (a, m) :: (post ++ [l]))) ((expand (pre ++ (a, m) :: (post ++ [l]))).length + 1) (expand pre).length =
      .ok ((expand pre).length + m - 1) := by
  obtain ⟨b, rest, hb⟩ : ∃ b rest, post ++ [l] = b :: rest := List.exists_cons_of_ne_nil (by simp)
  obtain ⟨hs, hp⟩ := hr
  obtain ⟨_, h2, _⟩ := List.pairwise_append.1 hs
  obtain ⟨h4, _⟩ := List.pairwise_cons.1 h2
  have hm : 1 ≤ m := hp (a, m) (by simp)
  have hab : a < b.1 := h4 b (by rw [hb]; exact List.mem_cons_self ..)
  have hq : 1 ≤ b.2 := hp b (by rw [hb]; simp)
  rw [hb]
  exact skipEqual_expand (q := b.2) (b := b.1) (ne_of_lt hab) hq _ _ (le_refl _) (by omega) (by rw [length_expand_mid]; omega)

/-! ### Producing the Bézier form -/

theorem produceLoop_runs {d p : ℕ} {l : K × ℕ} : ∀ (mid pre : List (K × ℕ)) (s : Spl K) (diff : List ℤ), WFSpl s →
    s.ps.knots[d]? = some (expand (pre ++ (mid ++ [l]))) → s.ps.degree[d]? = some p → Runs (pre ++ (mid ++ [l])) → pre ≠ [] →
    (∀ a ∈ mid, a.2 ≤ p) → pre.length = diff.length + 1 → (expand (pre ++ (fill p mid ++ [l]))).length < 2 ^ 63 →
    ∃ s', Spl.produceLoop d mid.length diff (expand pre).length s = .ok (s', diff ++ mid.map fun a => (p : ℤ) - a.2) ∧ WFSpl s' ∧
      s'.ps.degree = s.ps.degree ∧ s'.ps.knots = s.ps.knots.set d (expand (pre ++ (fill p mid ++ [l]))) ∧ SameSums s s'
  | [], pre, s, diff, h, hU, hp, hr, hpre, hm, hd, hsz => by
    refine ⟨s, ?_, h, rfl, (set_same hU).symm, SameSums.refl s⟩
    rw [Spl.produceLoop.eq_def]
    dsimp only
    rw [getN_some hU, ok_bind, kvNumDifferent_expand hr (by simp), if_neg (by simp; omega)]
    simp
  | (a, m) :: mid, pre, s, diff, h, hU, hp, hr, hpre, hm, hd, hsz => by
    have hw := forall₂_get h.knots hU hp
    have hadm : Admissible (expand (pre ++ (a, m) :: (mid ++ [l]))) a := admissible_expand hr hpre hw
    have hmp : m ≤ p := hm (a, m) (List.mem_cons_self ..)
    have hm1 : 1 ≤ m := hr.2 (a, m) (by simp)
    have hl1 : (expand (pre ++ (a, m) :: (mid ++ [l]))).length = (expand pre).length + m + (expand (mid ++ [l])).length := length_expand_mid
    have hl2 : (expand (pre ++ (a, p) :: (fill p mid ++ [l]))).length = (expand pre).length + p + (expand (fill p mid ++ [l])).length :=
      length_expand_mid
    have hge : (expand (mid ++ [l])).length ≤ (expand (fill p mid ++ [l])).length := by
      have : ∀ (q : List (K × ℕ)), (∀ a ∈ q, a.2 ≤ p) → (expand q).length ≤ (expand (fill p q)).length := by
        intro q hq
        induction q with
        | nil => simp
        | cons b q ih =>
          have := ih fun a ha => hq a (List.mem_cons_of_mem _ ha)
          have := hq b (List.mem_cons_self ..)
          simp only [fill_cons, expand_cons, List.length_append, List.length_replicate]
          omega
      have := this mid fun a ha => hm a (List.mem_cons_of_mem _ ha)
      simp only [expand_append, List.length_append]
      omega
    have hsz' : (expand pre).length + p + (expand (fill p mid ++ [l])).length < 2 ^ 63 := by
      have hsz2 := hsz
      simp only [fill_cons, List.cons_append] at hsz2
      rw [hl2] at hsz2
      exact hsz2
    obtain ⟨s1, e1, w1, d1, k1, g1⟩ := insertKnot_many h hU hp hadm (p - m)
      (by simp only [List.cons_append]; rw [hl1]; omega)
    have hrun : insMany (expand (pre ++ (a, m) :: (mid ++ [l]))) a (p - m) = expand ((pre ++ [(a, p)]) ++ (mid ++ [l])) := by
      rw [insMany_expand (post := mid ++ [l]) hr.1 hw hadm, show m + (p - m) = p by omega]; simp
    have hU1 : s1.ps.knots[d]? = some (expand ((pre ++ [(a, p)]) ++ (mid ++ [l]))) := by
      rw [k1, List.getElem?_set]; simp only [List.cons_append, hrun]; simp [lt_of_some hU]
    have hr1 : Runs ((pre ++ [(a, p)]) ++ (mid ++ [l])) := by
      refine ⟨increasing_of_fst hr.1 (by simp), ?_⟩
      intro b hb
      simp only [List.mem_append, List.mem_singleton] at hb
      rcases hb with (hb | hb) | hb
      · exact hr.2 b (by simp [hb])
      · subst hb; show 1 ≤ p; omega
      · exact hr.2 b (by rcases hb with hb | hb <;> simp [hb])
    obtain ⟨s2, e2, w2, d2, k2, g2⟩ := produceLoop_runs mid (pre ++ [(a, p)]) s1 (diff ++ [(p : ℤ) - m]) w1 hU1 (by rw [d1]; exact hp) hr1
      (by simp) (fun b hb => hm b (List.mem_cons_of_mem _ hb)) (by simp [hd])
      (by rw [show pre ++ [(a, p)] ++ (fill p mid ++ [l]) = pre ++ (a, p) :: (fill p mid ++ [l]) by simp, hl2]; exact hsz')
    refine ⟨s2, ?_, w2, d2.trans d1, ?_, g1.trans g2⟩
    · rw [Spl.produceLoop.eq_def]
      dsimp only
      rw [getN_some hU, ok_bind, kvNumDifferent_expand hr (by simp), if_pos (by simp; omega)]
      dsimp only [List.length_cons]
      rw [getN_some hp, ok_bind]
      have hsk := skipEqual_run (pre := pre) (post := mid) (l := l) hr
      simp only [List.cons_append]
      rw [hsk, ok_bind, kvGet_eq (by rw [hl1]; omega), ok_bind, knot_expand_mid (by omega) (by omega)]
      have hdf : (p : ℤ) - 1 - (((expand pre).length + m - 1 : ℕ) - ((expand pre).length : ℕ) : ℤ) = ((p - m : ℕ) : ℤ) := by omega
      rw [hdf, toSizeT_of (n := p - m) rfl (by omega), e1, ok_bind,
        toSizeT_of (n := (expand (pre ++ [(a, p)])).length) (by simp; omega) (by simp; omega)]
      have : ((p - m : ℕ) : ℤ) = (p : ℤ) - m := by omega
      rw [this, e2]
      simp
    · rw [k2, k1, List.set_set]; simp

/-! ### Joining the segments again -/

theorem forall₂_set_nondegenerate : ∀ {Us : List (List K)} {ps : List ℕ} {d : ℕ} {p : ℕ} {V : List K}, List.Forall₂ NonDegenerate Us ps →
    ps[d]? = some p → NonDegenerate V p → List.Forall₂ NonDegenerate (Us.set d V) ps
  | _, _, _, _, _, .nil, _, _ => by simp
  | _, _, 0, _, _, .cons a as, hp, hv => by
    simp only [List.getElem?_cons_zero, Option.some.injEq] at hp
    subst hp
    exact .cons hv as
  | _, _, d + 1, _, _, .cons a as, hp, hv => by
    simp only [List.getElem?_cons_succ] at hp
    exact .cons a (forall₂_set_nondegenerate as hp hv)

theorem removeLoop_runs [HasSqrt K] (h0 : HasSqrt.sqrt (0 : K) = 0) {d p : ℕ} {l : K × ℕ} (hlp : l.2 ≤ p + 1) {diff : List ℤ} :
    ∀ (mid pre : List (K × ℕ)) (s c : Spl K) (D : List ℤ), WFSpl s → WFSpl c → List.Forall₂ NonDegenerate s.ps.knots s.ps.degree →
    s.ps.knots[d]? = some (expand (pre ++ (mid ++ [l]))) → s.ps.degree[d]? = some p → Runs (pre ++ (mid ++ [l])) → pre ≠ [] →
    (∀ a ∈ pre, a.2 ≤ p + 1) → (∀ a ∈ mid, a.2 ≤ p) → c.ps.degree = s.ps.degree →
    c.ps.knots = s.ps.knots.set d (expand (pre ++ (fill p mid ++ [l]))) → SameSums s c →
    diff = D ++ mid.map (fun a => (p : ℤ) - a.2) → pre.length = D.length + 1 → (expand (pre ++ (fill p mid ++ [l]))).length < 2 ^ 63 →
    Spl.removeBezierLoop d diff mid.length D.length (expand pre).length c = .ok s
  | [], pre, s, c, D, h, hc, hn, hU, hp, hr, hpre, hpp, hm, hd, hk, hg, hdiff, hD, hsz => by
    have hcs : c = s := spl_unique h hc (by rw [hk]; exact set_same hU) hd hn hg
    subst hcs
    rw [Spl.removeBezierLoop.eq_def]
    dsimp only
    rw [getN_some hU, ok_bind, kvNumDifferent_expand hr (by simp), if_neg (by simp; omega)]
    rfl
  | (a, m) :: mid, pre, s, c, D, h, hc, hn, hU, hp, hr, hpre, hpp, hm, hd, hk, hg, hdiff, hD, hsz => by
    have hw := forall₂_get h.knots hU hp
    have hmp : m ≤ p := hm (a, m) (List.mem_cons_self ..)
    have hm1 : 1 ≤ m := hr.2 (a, m) (by simp)
    have hl2 : (expand (pre ++ (a, p) :: (fill p mid ++ [l]))).length = (expand pre).length + p + (expand (fill p mid ++ [l])).length :=
      length_expand_mid
    have hl3 : (expand (pre ++ (a, m) :: (fill p mid ++ [l]))).length = (expand pre).length + m + (expand (fill p mid ++ [l])).length :=
      length_expand_mid
    have hsz' : (expand pre).length + p + (expand (fill p mid ++ [l])).length < 2 ^ 63 := by
      have hsz2 := hsz
      simp only [fill_cons, List.cons_append] at hsz2
      rw [hl2] at hsz2
      exact hsz2
    have hr' : Runs ((pre ++ [(a, m)]) ++ (mid ++ [l])) := by
      have e : (pre ++ [(a, m)]) ++ (mid ++ [l]) = pre ++ ((a, m) :: mid ++ [l]) := by simp
      rw [e]; exact hr
    have hU' : s.ps.knots[d]? = some (expand ((pre ++ [(a, m)]) ++ (mid ++ [l]))) := by
      rw [hU]; simp
    -- the spline with the later knots filled up
    obtain ⟨T, _, wT, dT, kT, gT⟩ := produceLoop_runs mid (pre ++ [(a, m)]) s (D ++ [0]) h hU' hp hr' (by simp)
      (fun b hb => hm b (List.mem_cons_of_mem _ hb)) (by simp [hD])
      (by rw [show pre ++ [(a, m)] ++ (fill p mid ++ [l]) = pre ++ (a, m) :: (fill p mid ++ [l]) by simp, hl3]; omega)
    have kT' : T.ps.knots = s.ps.knots.set d (expand (pre ++ (a, m) :: (fill p mid ++ [l]))) := by rw [kT]; simp
    have hUT : T.ps.knots[d]? = some (expand (pre ++ (a, m) :: (fill p mid ++ [l]))) := by
      rw [kT', List.getElem?_set]; simp [lt_of_some hU]
    have hpT : T.ps.degree[d]? = some p := by rw [dT]; exact hp
    have hrT : Runs (pre ++ (a, m) :: (fill p mid ++ [l])) := by
      refine ⟨increasing_of_fst hr.1 (by simp), ?_⟩
      intro b hb
      simp only [List.mem_append, List.mem_cons, fill, List.mem_map] at hb
      rcases hb with hb | hb | ⟨b', _, rfl⟩ | hb
      · exact hr.2 b (by simp [hb])
      · subst hb; exact hm1
      · show 1 ≤ p; omega
      · exact hr.2 b (by simp at hb; simp [hb])
    have hwT := forall₂_get wT.knots hUT hpT
    have hadm : Admissible (expand (pre ++ (a, m) :: (fill p mid ++ [l]))) a := admissible_expand hrT hpre hwT
    have hcount := count_expand hrT.1
    obtain ⟨T', eT, wT', dT', kT2, rT⟩ := insert_remove h0 wT hUT hpT hadm (tol := kEps K) kEps_pos.le (p - m)
      (by rw [hl3]; omega) (by unfold kvMult; rw [hcount]; omega)
    obtain ⟨T2, eT2, _, _, _, gT2⟩ := insertKnot_many wT hUT hpT hadm (p - m) (by rw [hl3]; omega)
    have hT2 : T2 = T' := by rw [eT] at eT2; exact (Except.ok.inj eT2).symm
    subst hT2
    have hfull : insMany (expand (pre ++ (a, m) :: (fill p mid ++ [l]))) a (p - m) = expand (pre ++ (fill p ((a, m) :: mid) ++ [l])) := by
      rw [insMany_expand hrT.1 hwT hadm, show m + (p - m) = p by omega]; simp
    have hkc : T2.ps.knots = c.ps.knots := by rw [kT2, hfull, kT', List.set_set, hk]
    have hpc : c.ps.degree[d]? = some p := by rw [hd]; exact hp
    have hUc : c.ps.knots[d]? = some (expand (pre ++ (fill p ((a, m) :: mid) ++ [l]))) := by
      rw [hk, List.getElem?_set]; simp [lt_of_some hU]
    have hrc : (pre ++ (fill p ((a, m) :: mid) ++ [l])).Pairwise (fun a b => a.1 < b.1) := increasing_of_fst hr.1 (by simp)
    have hrc1 : Runs (pre ++ (fill p ((a, m) :: mid) ++ [l])) := by
      refine ⟨hrc, ?_⟩
      intro b hb
      simp only [List.mem_append, fill, List.mem_map] at hb
      rcases hb with hb | ⟨b', _, rfl⟩ | hb
      · exact hr.2 b (by simp [hb])
      · show 1 ≤ p; omega
      · exact hr.2 b (by simp at hb; simp [hb])
    have hnc : List.Forall₂ NonDegenerate c.ps.knots c.ps.degree := by
      rw [hk, hd]
      refine forall₂_set_nondegenerate hn hp (nonDegenerate_of_count (Runs.sorted hrc) (count_expand_le hrc ?_))
      intro b hb
      simp only [List.mem_append, fill, List.mem_map] at hb
      rcases hb with hb | ⟨b', _, rfl⟩ | hb
      · exact hpp b hb
      · show p ≤ p + 1; omega
      · simp at hb; rw [hb]; exact hlp
    have hTc : T2 = c := spl_unique hc wT' hkc (by rw [dT', dT, hd]) hnc ((hg.symm.trans gT).trans gT2)
    subst hTc
    have ih := removeLoop_runs h0 hlp (diff := diff) mid (pre ++ [(a, m)]) s T (D ++ [(p : ℤ) - m]) h wT hn hU' hp hr' (by simp)
      (by intro b hb
          simp only [List.mem_append, List.mem_singleton] at hb
          rcases hb with hb | rfl
          · exact hpp b hb
          · show m ≤ p + 1; omega)
      (fun b hb => hm b (List.mem_cons_of_mem _ hb)) dT (by rw [kT]) gT (by rw [hdiff]; simp) (by simp [hD])
      (by rw [show pre ++ [(a, m)] ++ (fill p mid ++ [l]) = pre ++ (a, m) :: (fill p mid ++ [l]) by simp, hl3]; omega)
    rw [Spl.removeBezierLoop.eq_def]
    dsimp only
    rw [getN_some hUc, ok_bind, kvNumDifferent_expand hrc1 (by simp), if_pos (by simp; omega)]
    dsimp only [List.length_cons]
    have hx : kvGet (expand (pre ++ (fill p ((a, m) :: mid) ++ [l]))) (expand pre).length = .ok a := by
      rw [fill_cons, List.cons_append, kvGet_eq (by rw [hl2]; omega), knot_expand_mid (le_refl _) (by omega)]
    have hdi : getN diff D.length = .ok ((p : ℤ) - m) := by
      rw [hdiff]; exact getN_some (by simp)
    rw [hx, ok_bind, hdi, ok_bind, toSizeT_of (n := p - m) (by omega) (by omega)]
    unfold Spl.removeKnot
    rw [rT 0, ok_bind]
    dsimp only
    have hsk := skipEqual_run (pre := pre) (post := fill p mid) (l := l) hrT
    rw [getN_some hUT, ok_bind, hsk, ok_bind]
    have e1 : (expand pre).length + m - 1 + 1 = (expand (pre ++ [(a, m)])).length := by simp; omega
    have e2 : D.length + 1 = (D ++ [(p : ℤ) - m]).length := by simp
    rw [e1, e2, ih]

end SplineLib
