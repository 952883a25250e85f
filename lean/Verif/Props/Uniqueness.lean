import Verif.Props.DegreeReduction
import Verif.Props.KnotInsertion

/-!
# Property C51: the geometry determines the control net
-/

namespace SplineLib
set_option linter.unusedSectionVars false
open Finset
variable {K : Type} [Field K] [LinearOrder K] [IsStrictOrderedRing K]

theorem SameGeometry.sums {s s' : Spl K} (h : WFSpl s) (h' : WFSpl s') (g : SameGeometry s s') : SameSums s s' := by
  by_cases hb : s.ph.weights = none
  · have hb' : s'.ph.weights = none := g.kind.1 hb
    have w1 : wgt s = fun _ => 1 := by funext I; unfold wgt; rw [hb]
    have w2 : wgt s' = fun _ => 1 := by funext I; unfold wgt; rw [hb']
    refine ⟨g.dim, g.kind, g.domain, fun x hx => ?_, fun x hx c hc => ?_⟩
    · have hx' := (g.domain x).2 hx
      rw [w1, w2]
      unfold tensorSum
      simp only [mul_one]
      rw [npts_eq, npts_eq]
      exact (tensor_unity h'.knots hx').trans (tensor_unity h.knots hx).symm
    · have hx' := (g.domain x).2 hx
      have e := g.values x hx [c] (by simp; exact Or.inl hc)
      rw [evaluate_bspline h hb hx _ (by simpa using hc), evaluate_bspline h' hb' hx' _ (by rw [g.dim]; simpa using hc)] at e
      have e := Except.ok.inj e
      simp only [List.map_cons, List.map_nil, List.cons.injEq, and_true] at e
      rw [w1, w2]
      simp only [one_mul]
      exact e
  · have hn : IsNurbs s := isNurbs_iff.2 hb
    have hn' : IsNurbs s' := isNurbs_iff.2 fun hc => hb (g.kind.2 hc)
    have hwv : ∀ x, InDomain s x → weightValue s' x = weightValue s x := fun x hx => by
      have hx' := (g.domain x).2 hx
      have e := g.values x hx [s.ph.dim] (by simp [hn])
      rw [evaluate_nurbs h hn hx _ (by simp),
        evaluate_nurbs h' hn' hx' _ (by simp [g.dim])] at e
      have e := Except.ok.inj e
      simpa [g.dim] using e
    refine ⟨g.dim, g.kind, g.domain, hwv, fun x hx c hc => ?_⟩
    have hx' := (g.domain x).2 hx
    have e := g.values x hx [c] (by simp; exact Or.inl hc)
    rw [evaluate_nurbs h hn hx _ (by simp; omega),
      evaluate_nurbs h' hn' hx' _ (by simp [g.dim]; omega)] at e
    have e := Except.ok.inj e
    simp only [List.map_cons, List.map_nil, List.cons.injEq, and_true, g.dim, if_neg (show c ≠ s.ph.dim by omega)] at e
    unfold nurbsValue at e
    rw [hwv x hx] at e
    exact (div_left_inj' (weightValue_pos h hx).ne').1 e

theorem mult_nondeg {Us : List (List K)} {ps : List ℕ} (h : List.Forall₂ WFKnots Us ps)
    (hm : List.Forall₂ (fun U p => ∀ t ∈ U, kvMult U t ≤ p + 1) Us ps) : List.Forall₂ NonDegenerate Us ps :=
  nonDegenerate_all h (hm.imp fun _ _ hm t => count_of_mem (P := fun _ => True) (fun t ht _ => hm t ht) t trivial)

/-- **C51**: two well-formed splines of the same kind over the same knots and degrees that evaluate to the same values at every
parameter (for NURBS including the weight function) are the same object: all control points and weights agree. The knots have
multiplicity at most one more than the degree. -/
theorem C51_geometry_determines_control_net {s s' : Spl K} (h : WFSpl s) (h' : WFSpl s') (hk : s'.ps.knots = s.ps.knots)
    (hd : s'.ps.degree = s.ps.degree) (hm : List.Forall₂ (fun U p => ∀ t ∈ U, kvMult U t ≤ p + 1) s.ps.knots s.ps.degree)
    (hg : SameGeometry s s') : s' = s :=
  spl_unique h h' hk hd (mult_nondeg h.knots hm) (hg.sums h h')

example : List.Forall₂ (fun U p => ∀ t ∈ U, kvMult U t ≤ p + 1) exNurbsSurface.ps.knots exNurbsSurface.ps.degree :=
  .cons (by decide +kernel) (.cons (by decide +kernel) .nil)

/-- **C51**: the order in which knots are inserted does not matter. Two lists with the same knots in a different order lead to the
same object, if no knot gets a multiplicity larger than the degree plus one. -/
theorem C51_refinement_order {s : Spl K} (h : WFSpl s) {d : ℕ} {U : List K} {p : ℕ} (hU : s.ps.knots[d]? = some U)
    (hp : s.ps.degree[d]? = some p) {xs ys : List K} (hxy : xs.Perm ys) (hx : ∀ t ∈ xs, knot U 0 < t ∧ t < lastKnot U)
    (hsep : Separated (xs ++ U)) (hsz : U.length + xs.length < 2 ^ 63)
    (hm : List.Forall₂ (fun U p => ∀ t ∈ U, kvMult U t ≤ p + 1) s.ps.knots s.ps.degree)
    (hmx : ∀ t ∈ xs, kvMult U t + xs.count t ≤ p + 1) :
    ∃ s', s.refineKnots xs d = .ok s' ∧ s.refineKnots ys d = .ok s' := by
  obtain ⟨s1, V1, e1, w1, d1, k1, so1, c1, g1⟩ := C15_refine_preserves h hU hp xs hx hsep hsz
  obtain ⟨s2, V2, e2, w2, d2, k2, so2, c2, g2⟩ := C15_refine_preserves h hU hp ys (fun t ht => hx t (hxy.mem_iff.2 ht))
    (fun a ha b hb hab => hsep a (by simpa [hxy.mem_iff] using ha) b (by simpa [hxy.mem_iff] using hb) hab) (by rw [← hxy.length_eq]; exact hsz)
  have hV : V2 = V1 := sorted_ext so2 so1 fun t => by rw [c1, c2, hxy.count_eq]
  have hk : s2.ps.knots = s1.ps.knots := by rw [k1, k2, hV]
  have hd : s2.ps.degree = s1.ps.degree := by rw [d1, d2]
  have hnd : List.Forall₂ NonDegenerate s1.ps.knots s1.ps.degree := by
    rw [k1, d1]
    refine forall₂_set_nondegenerate (mult_nondeg h.knots hm) hp (nonDegenerate_of_count so1 fun t => ?_)
    rw [c1]
    by_cases ht : t ∈ xs
    · exact hmx t ht
    · rw [List.count_eq_zero_of_not_mem ht, Nat.add_zero]
      exact count_of_mem (P := fun _ => True) (fun t ht _ => forall₂_getElem? hm hU hp t ht) t trivial
  have hs : SameSums s1 s2 := (g1.sums h w1).symm.trans (g2.sums h w2)
  exact ⟨s1, e1, by rw [e2, spl_unique w1 w2 hk hd hnd hs]⟩

example : (∀ t ∈ ([1/4, 3/4] : List ℚ), (0 : ℚ) < t ∧ t < 1) ∧ ([1/4, 3/4] : List ℚ).Perm [3/4, 1/4] ∧
    Separated ([1/4, 3/4] ++ [0, 0, 0, 1/2, 1, 1, 1] : List ℚ) ∧
    (∀ t ∈ ([1/4, 3/4] : List ℚ), kvMult ([0, 0, 0, 1/2, 1, 1, 1] : List ℚ) t + ([1/4, 3/4] : List ℚ).count t ≤ 3) ∧
    exCurve.refineKnots [1/4, 3/4] 0 = exCurve.refineKnots [3/4, 1/4] 0 := by
  refine ⟨by decide +kernel, List.Perm.swap _ _ _, ?_, by decide +kernel, by decide +kernel⟩
  unfold Separated; decide +kernel

/-- **C51**: knot insertions in different directions commute. -/
theorem C51_directions_commute {s : Spl K} (h : WFSpl s) {d e : ℕ} (hde : d ≠ e) {U V : List K} {p q : ℕ} (hU : s.ps.knots[d]? = some U)
    (hp : s.ps.degree[d]? = some p) (hV : s.ps.knots[e]? = some V) (hq : s.ps.degree[e]? = some q) {t u : K} (ht : Admissible U t)
    (hu : Admissible V u) (m n : ℕ) (hsz : U.length + m < 2 ^ 63) (hsz' : V.length + n < 2 ^ 63)
    (hm : List.Forall₂ (fun U p => ∀ t ∈ U, kvMult U t ≤ p + 1) s.ps.knots s.ps.degree)
    (hmt : kvMult U t + m ≤ p + 1) (hmu : kvMult V u + n ≤ q + 1) :
    ∃ s', (do let a ← s.insertKnot t d m; a.insertKnot u e n) = .ok s' ∧ (do let a ← s.insertKnot u e n; a.insertKnot t d m) = .ok s' := by
  obtain ⟨a, e1, w1, d1, k1, g1⟩ := insertKnot_many h hU hp ht m hsz
  obtain ⟨b, e2, w2, d2, k2, g2⟩ := insertKnot_many h hV hq hu n hsz'
  have hVa : a.ps.knots[e]? = some V := by rw [k1, List.getElem?_set_ne hde]; exact hV
  have hUb : b.ps.knots[d]? = some U := by rw [k2, List.getElem?_set_ne (Ne.symm hde)]; exact hU
  obtain ⟨a', e3, w3, d3, k3, g3⟩ := insertKnot_many w1 hVa (by rw [d1]; exact hq) hu n hsz'
  obtain ⟨b', e4, w4, d4, k4, g4⟩ := insertKnot_many w2 hUb (by rw [d2]; exact hp) ht m hsz
  have hk : b'.ps.knots = a'.ps.knots := by rw [k4, k3, k2, k1, List.set_comm _ _ hde]
  have hd : b'.ps.degree = a'.ps.degree := by rw [d4, d3, d2, d1]
  have fU := insMany_facts (forall₂_get h.knots hU hp) ht m
  have fV := insMany_facts (forall₂_get h.knots hV hq) hu n
  have hcount : ∀ {W : List K} {r : ℕ} {z : K} {c : ℕ}, (∀ y ∈ W, kvMult W y ≤ r + 1) → kvMult W z + c ≤ r + 1 →
      InsManyFacts W r z c → ∀ y, (insMany W z c).count y ≤ r + 1 := by
    intro W r z c h1 h2 h3 y
    by_cases hy : y = z
    · rw [hy]
      have := h3.mult
      unfold kvMult at this h2
      omega
    · have := h3.count y
      rw [if_neg hy] at this
      rw [this]
      exact count_of_mem (P := fun _ => True) (fun t ht _ => h1 t ht) y trivial
  have hnd : List.Forall₂ NonDegenerate a'.ps.knots a'.ps.degree := by
    rw [k3, k1, d3, d1]
    refine forall₂_set_nondegenerate (forall₂_set_nondegenerate (mult_nondeg h.knots hm) hp ?_) hq ?_
    · exact nonDegenerate_of_count fU.wf.sorted (hcount (forall₂_getElem? hm hU hp) hmt fU)
    · exact nonDegenerate_of_count fV.wf.sorted (hcount (forall₂_getElem? hm hV hq) hmu fV)
  have hs : SameSums a' b' := ((g1.trans g3).symm).trans (g2.trans g4)
  refine ⟨a', by rw [e1, ok_bind, e3], by rw [e2, ok_bind, e4, spl_unique w3 w4 hk hd hnd hs]⟩

example : exNurbsSurface.ps.knots[0]? = some [0, 0, 0, 1/2, 1, 1, 1] ∧ Admissible ([0, 0, 0, 1/2, 1, 1, 1] : List ℚ) (1/4) := by decide +kernel

end SplineLib
