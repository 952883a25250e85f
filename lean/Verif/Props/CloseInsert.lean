import Verif.Core.ScaleKnots
import Verif.Props.CloseKnots
import Verif.Props.KnotInsertion
import Verif.Props.KnotRemoval
import Mathlib.Data.List.GetD

/-!
# C97: knot insertion does not depend on the distances between knots
-/

namespace SplineLib
set_option linter.unusedSectionVars false
variable {K : Type} [Field K] [LinearOrder K] [IsStrictOrderedRing K]

/-- Sorted clamped knots at any distance. -/
structure FreeKnots (U : List K) (p : ℕ) : Prop where
  sorted : SortedKnots U
  size : 2 * p + 2 ≤ U.length
  first : ∀ j ≤ p, knot U j = knot U 0
  last : ∀ j ≤ p, knot U (U.length - 1 - j) = lastKnot U
  range : knot U 0 < lastKnot U

/-- A spline on such knots. -/
structure FreeSpl (s : Spl K) : Prop where
  knots : List.Forall₂ FreeKnots s.ps.knots s.ps.degree
  basis : PS.basisTable s.ps.knots s.ps.degree = .ok s.ps.basis
  num : s.ph.num = zl (npts s)
  dim : 0 < s.ph.dim
  cps : s.ph.cps.length = s.ph.dim * (npts s).prod
  weights : ∀ w, s.ph.weights = some w → w.length = (npts s).prod ∧ ∀ a ∈ w, 0 < a

/-- `s'` is the same function as `s`: same dimension, kind and domain, and the same value everywhere. -/
structure SameFunction (s s' : Spl K) : Prop where
  dim : s'.ph.dim = s.ph.dim
  kind : IsBSpline s ↔ IsBSpline s'
  domain : ∀ x, InDomain s' x ↔ InDomain s x
  bspline : ∀ x, InDomain s x → IsBSpline s → ∀ c < s.ph.dim, bsplineValue s' x c = bsplineValue s x c
  weight : ∀ x, InDomain s x → weightValue s' x = weightValue s x
  nurbs : ∀ x, InDomain s x → ∀ c < s.ph.dim, nurbsValue s' x c = nurbsValue s x c

section
variable {r : K}

theorem FreeKnots.ne_nil {U : List K} {p : ℕ} (h : FreeKnots U p) : U ≠ [] := by
  rintro rfl; have := h.size; simp at this

theorem FreeKnots.scale {U : List K} {p : ℕ} (h : FreeKnots U p) (hr : 0 < r) (hs : Separated (U.map (r * ·))) :
    WFKnots (U.map (r * ·)) p where
  sorted := by
    unfold SortedKnots
    rw [List.pairwise_map]
    exact h.sorted.imp fun hab => mul_le_mul_of_nonneg_left hab hr.le
  size := by rw [List.length_map]; exact h.size
  first := fun j hj => by rw [knot_scale, knot_scale, h.first j hj]
  last := fun j hj => by rw [List.length_map, knot_scale, lastKnot_scale, h.last j hj]
  range := by rw [knot_scale, lastKnot_scale]; exact mul_lt_mul_of_pos_left h.range hr
  sep := hs

theorem WFKnots.unscale {U : List K} {p : ℕ} (hr : 0 < r) (h : WFKnots (U.map (r * ·)) p) : FreeKnots U p where
  sorted := by
    have := h.sorted
    unfold SortedKnots at this ⊢
    rw [List.pairwise_map] at this
    exact this.imp fun hab => le_of_mul_le_mul_left hab hr
  size := by have := h.size; rwa [List.length_map] at this
  first := fun j hj => by have := h.first j hj; rw [knot_scale, knot_scale] at this; exact mul_left_cancel₀ hr.ne' this
  last := fun j hj => by
    have := h.last j hj
    rw [List.length_map, knot_scale, lastKnot_scale] at this
    exact mul_left_cancel₀ hr.ne' this
  range := by have := h.range; rw [knot_scale, lastKnot_scale] at this; exact lt_of_mul_lt_mul_left this hr.le

theorem npts_scaled {s s' : Spl K} (h : Scaled r s s') : npts s' = npts s := by
  unfold npts
  rw [h.knots, h.degree, sc, List.zipWith_map_left]
  simp only [List.length_map]

theorem cpt_scaled {s s' : Spl K} (h : Scaled r s s') (I : List ℕ) (c : ℕ) : cpt s' I c = cpt s I c := by
  unfold cpt; rw [npts_scaled h, h.ph]

theorem wgt_scaled {s s' : Spl K} (h : Scaled r s s') (I : List ℕ) : wgt s' I = wgt s I := by
  unfold wgt; rw [npts_scaled h, h.ph]

theorem basisFns_scaled (hr : 0 < r) : ∀ (Us : List (List K)) (ps : List ℕ) (xs : List K),
    basisFns (sc r Us) ps (xs.map (r * ·)) = basisFns Us ps xs
  | [], _, _ => by simp [sc, basisFns]
  | _ :: _, [], _ => by simp [sc, basisFns]
  | _ :: _, _ :: _, [] => by simp [sc, basisFns]
  | U :: Us, p :: ps, x :: xs => by
    have ih := basisFns_scaled hr Us ps xs
    unfold sc at ih ⊢
    rw [List.map_cons, List.map_cons, basisFns, basisFns, ih]
    congr 1
    funext i
    exact cox_scale U hr x p i

theorem tensorSum_scaled {s s' : Spl K} (h : Scaled r s s') (hr : 0 < r) (x : List K) {F G : List ℕ → K} (hF : ∀ I, F I = G I) :
    tensorSum s' (x.map (r * ·)) F = tensorSum s x G := by
  unfold tensorSum
  rw [npts_scaled h, h.knots, h.degree, basisFns_scaled hr]
  simp only [hF]

theorem inDomain_scaled {s s' : Spl K} (h : Scaled r s s') (hr : 0 < r) (x : List K) : InDomain s' (x.map (r * ·)) ↔ InDomain s x := by
  unfold InDomain
  rw [h.knots, sc, List.forall₂_map_left_iff, List.forall₂_map_right_iff]
  simp only [knot_scale, lastKnot_scale, mul_le_mul_iff_right₀ hr]

theorem sameSums_unscale {s s' q q' : Spl K} (hr : 0 < r) (h : Scaled r s s') (g : Scaled r q q') (hs : SameSums s' q') : SameSums s q where
  dim := by have := hs.dim; rwa [h.ph, g.ph] at this
  kind := by have := hs.kind; rwa [h.ph, g.ph] at this
  domain := fun x => by rw [← inDomain_scaled g hr, ← inDomain_scaled h hr]; exact hs.domain _
  wsum := fun x hx => by
    have := hs.wsum _ ((inDomain_scaled h hr x).2 hx)
    rwa [tensorSum_scaled h hr x (wgt_scaled h), tensorSum_scaled g hr x (wgt_scaled g)] at this
  csum := fun x hx c hc => by
    have := hs.csum _ ((inDomain_scaled h hr x).2 hx) c (by rw [h.ph]; exact hc)
    rwa [tensorSum_scaled h hr x (G := fun I => wgt s I * cpt s I c) fun I => by rw [wgt_scaled h, cpt_scaled h],
      tensorSum_scaled g hr x (G := fun I => wgt q I * cpt q I c) fun I => by rw [wgt_scaled g, cpt_scaled g]] at this

theorem SameSums.sameFunction {s s' : Spl K} (h : SameSums s s') : SameFunction s s' where
  dim := h.dim
  kind := h.kind
  domain := h.domain
  weight := h.wsum
  nurbs := fun x hx c hc => by
    unfold nurbsValue weightValue
    rw [h.csum x hx c hc, h.wsum x hx]
  bspline := fun x hx hb c hc => by
    have hb' : IsBSpline s' := h.kind.1 hb
    have := h.csum x hx c hc
    unfold IsBSpline at hb hb'
    unfold bsplineValue
    simpa only [wgt, hb, hb', one_mul] using this

theorem free_scale_all (hr : 0 < r) {t : K} {Us : List (List K)} {ps : List ℕ} (hk : List.Forall₂ FreeKnots Us ps)
    (hsub : ∀ U ∈ Us, Separated (r * t :: U.map (r * ·))) : List.Forall₂ WFKnots (sc r Us) ps := by
  unfold sc
  induction hk with
  | nil => exact .nil
  | cons a _ ih =>
    refine .cons (a.scale hr ?_) (ih fun U hU => hsub U (by simp [hU]))
    exact fun a ha b hb => hsub _ (by simp) a (List.mem_cons_of_mem _ ha) b (List.mem_cons_of_mem _ hb)

theorem free_wide {Us : List (List K)} {ps : List ℕ} (hk : List.Forall₂ FreeKnots Us ps) (h2 : NoShortRange Us) :
    List.Forall₂ WideKnots Us ps := by
  induction hk with
  | nil => exact .nil
  | @cons U p _ _ a _ ih =>
    exact .cons ⟨a.size, a.first, a.last, (h2 U (by simp)).resolve_right (not_lt.2 a.range.le)⟩ (ih fun V hV => h2 V (by simp [hV]))

/-- A factor that separates the knots of all directions and `t`. -/
theorem FreeSpl.scaled {s : Spl K} (h : FreeSpl s) (t : K) : ∃ (r : K) (s' : Spl K), 1 ≤ r ∧ Scaled r s s' ∧ WFSpl s' ∧
    ∀ U ∈ s.ps.knots, Separated (r * t :: U.map (r * ·)) := by
  obtain ⟨r, hr, hs⟩ := exists_separated (t :: s.ps.knots.flatten)
  have hr0 : 0 < r := lt_of_lt_of_le one_pos hr
  have hsub : ∀ U ∈ s.ps.knots, Separated (r * t :: U.map (r * ·)) := by
    intro U hU
    have hm : ∀ a ∈ r * t :: U.map (r * ·), a ∈ (t :: s.ps.knots.flatten).map (r * ·) := by
      intro a ha
      rw [← List.map_cons (f := (r * ·))] at ha
      obtain ⟨b, hb, rfl⟩ := List.mem_map.1 ha
      refine List.mem_map.2 ⟨b, ?_, rfl⟩
      rcases List.mem_cons.1 hb with rfl | hb
      · simp
      · exact List.mem_cons_of_mem _ (List.mem_flatten.2 ⟨U, hU, hb⟩)
    exact fun a ha b hb => hs a (hm a ha) b (hm b hb)
  have hk := free_scale_all hr0 h.knots hsub
  have hS : Scaled r s ⟨⟨sc r s.ps.knots, s.ps.degree, mkTable (sc r s.ps.knots) s.ps.degree⟩, s.ph⟩ := ⟨rfl, rfl, rfl, h.basis⟩
  have hn := npts_scaled hS
  refine ⟨r, _, hr, hS, ⟨hk, basisTable_eq (forall₂_size hk), ?_, h.dim, ?_, ?_⟩, hsub⟩
  · rw [hn]; exact h.num
  · rw [hn]; exact h.cps
  · rw [hn]; exact h.weights

theorem WFSpl.unscale {s s' : Spl K} (hr : 0 < r) (h : Scaled r s s') (hs : WFSpl s') : FreeSpl s := by
  have hn := npts_scaled h
  obtain ⟨h1, -, h3, h4, h5, h6⟩ := hs
  rw [hn, h.ph] at h3 h5
  rw [h.ph] at h4
  refine ⟨?_, h.basis, h3, h4, h5, by rw [hn, h.ph] at h6; exact h6⟩
  rw [h.knots, h.degree, sc, List.forall₂_map_left_iff] at h1
  exact h1.imp fun _ _ hU => hU.unscale hr

end

section
variable {s : Spl K} {d : ℕ} {U : List K} {p : ℕ} {t : K}

theorem free_insert (h : FreeSpl s) (hU : s.ps.knots[d]? = some U) (hp : s.ps.degree[d]? = some p) (h0 : knot U 0 < t)
    (h1 : t + kEps K ≤ lastKnot U) (m : ℕ) (hsz : U.length + m < 2 ^ 63) :
    ∃ q V, s.insertKnot t d m = .ok q ∧ FreeSpl q ∧ q.ps.degree = s.ps.degree ∧ q.ps.knots = s.ps.knots.set d V ∧ KnotsAdded U t m V ∧
      knot V 0 = knot U 0 ∧ lastKnot V = lastKnot U ∧ SameSums s q := by
  have hf := forall₂_get h.knots hU hp
  have hc : Clear U t := ⟨hf.sorted, hf.ne_nil, h1⟩
  obtain ⟨r, s', hr, hS, hw, hsep⟩ := h.scaled t
  have hr0 : 0 < r := lt_of_lt_of_le one_pos hr
  have hU' : s'.ps.knots[d]? = some (U.map (r * ·)) := by rw [hS.knots, sc_get, hU]; rfl
  have hp' : s'.ps.degree[d]? = some p := by rw [hS.degree]; exact hp
  have hwU := forall₂_get hw.knots hU' hp'
  have ha : Admissible (U.map (r * ·)) (r * t) := by
    refine ⟨?_, ?_, hsep U (List.mem_of_getElem? hU)⟩
    · rw [knot_scale]; exact mul_lt_mul_of_pos_left h0 hr0
    · rw [lastKnot_scale]; exact mul_lt_mul_of_pos_left hc.lt hr0
  obtain ⟨q', e1, w1, d1, k1, g1⟩ := insertKnot_many hw hU' hp' ha m (by rw [List.length_map]; exact hsz)
  obtain ⟨q, V, f1, f2, f3, f4, f5⟩ := insertKnot_scale hr hS hU hc e1
  have hV : insMany (U.map (r * ·)) (r * t) m = V.map (r * ·) := by
    have e := f2.knots
    rw [k1, f3, hS.knots, ← sc_set] at e
    have := congrArg (·[d]?) e
    have hl : d < (sc r s.ps.knots).length := by rw [sc, List.length_map]; exact lt_of_some hU
    simpa [List.getElem?_set, hl] using this
  refine ⟨q, V, f1, w1.unscale hr0 f2, f5, f3, ⟨f4.sorted, ?_, ?_⟩, ?_, ?_, sameSums_unscale hr0 hS f2 g1⟩
  · have := (hV ▸ (insMany_facts hwU ha m).length : (V.map (r * ·)).length = (U.map (r * ·)).length + m)
    simpa using this
  · intro y
    have hc := (hV ▸ (insMany_facts hwU ha m).count (r * y) :
      (V.map (r * ·)).count (r * y) = (U.map (r * ·)).count (r * y) + if r * y = r * t then m else 0)
    rw [List.count_map_of_injective _ _ (mul_right_injective₀ hr0.ne'), List.count_map_of_injective _ _ (mul_right_injective₀ hr0.ne')] at hc
    simpa [mul_right_inj' hr0.ne'] using hc
  · have := (hV ▸ (insMany_facts hwU ha m).first : knot (V.map (r * ·)) 0 = knot (U.map (r * ·)) 0)
    rw [knot_scale, knot_scale] at this
    exact mul_left_cancel₀ hr0.ne' this
  · have := (hV ▸ (insMany_facts hwU ha m).last : lastKnot (V.map (r * ·)) = lastKnot (U.map (r * ·)))
    rw [lastKnot_scale, lastKnot_scale] at this
    exact mul_left_cancel₀ hr0.ne' this

/-- **C97**, the part that holds: on sorted clamped knots at any distance from each other, `InsertKnot` of any parameter inside the range
that is at least `kEpsilon` to the left of the last knot (it may be as close as one likes to other knots) succeeds, adds exactly this
knot, and the spline stays the same function. -/
theorem C97_insert_partial (h : FreeSpl s) (hU : s.ps.knots[d]? = some U) (hp : s.ps.degree[d]? = some p) (h0 : knot U 0 < t)
    (h1 : t + kEps K ≤ lastKnot U) (m : ℕ) (hsz : U.length + m < 2 ^ 63) :
    ∃ q V, s.insertKnot t d m = .ok q ∧ FreeSpl q ∧ q.ps.degree = s.ps.degree ∧ q.ps.knots = s.ps.knots.set d V ∧ KnotsAdded U t m V ∧
      SameFunction s q := by
  obtain ⟨q, V, e1, e2, e3, e4, e5, -, -, e6⟩ := free_insert h hU hp h0 h1 m hsz
  exact ⟨q, V, e1, e2, e3, e4, e5, e6.sameFunction⟩

/-- **C97** for `RefineKnots`, in the same generality. -/
theorem C97_refine_partial (h : FreeSpl s) (hU : s.ps.knots[d]? = some U) (hp : s.ps.degree[d]? = some p) (xs : List K)
    (hx : ∀ t ∈ xs, knot U 0 < t ∧ t + kEps K ≤ lastKnot U) (hsz : U.length + xs.length < 2 ^ 63) :
    ∃ q V, s.refineKnots xs d = .ok q ∧ FreeSpl q ∧ q.ps.degree = s.ps.degree ∧ q.ps.knots = s.ps.knots.set d V ∧ SortedKnots V ∧
      (∀ y, V.count y = U.count y + xs.count y) ∧ SameFunction s q := by
  rw [C15_refine_is_sequence]
  suffices H : ∃ q V, xs.foldlM (fun s x => s.insertKnot x d 1) s = .ok q ∧ FreeSpl q ∧ q.ps.degree = s.ps.degree ∧
      q.ps.knots = s.ps.knots.set d V ∧ SortedKnots V ∧ (∀ y, V.count y = U.count y + xs.count y) ∧ SameSums s q by
    obtain ⟨q, V, e1, e2, e3, e4, e5, e6, e7⟩ := H
    exact ⟨q, V, e1, e2, e3, e4, e5, e6, e7.sameFunction⟩
  induction xs generalizing s U with
  | nil => exact ⟨s, U, rfl, h, rfl, (set_same hU).symm, (forall₂_get h.knots hU hp).sorted, by simp, SameSums.refl s⟩
  | cons t xs ih =>
    obtain ⟨q, V, e1, e2, e3, e4, e5, e6, e7, e8⟩ := free_insert h hU hp (hx t (by simp)).1 (hx t (by simp)).2 1
      (by rw [List.length_cons] at hsz; omega)
    obtain ⟨q2, W, f1, f2, f3, f4, f5, f6, f7⟩ := ih e2 (by rw [e4]; exact set_get hU) (by rw [e3]; exact hp)
      (fun y hy => by rw [e6, e7]; exact hx y (by simp [hy])) (by rw [e5.2.1]; rw [List.length_cons] at hsz; omega)
    refine ⟨q2, W, ?_, f2, f3.trans e3, ?_, f5, ?_, e8.trans f7⟩
    · rw [List.foldlM_cons, e1, ok_bind, f1]
    · rw [f4, e4, List.set_set]
    · intro y
      have hc : (t :: xs).count y = xs.count y + if y = t then 1 else 0 := by
        rw [List.count_cons]
        by_cases hy : y = t
        · subst hy; simp
        · have hy' : ¬ t = y := fun e => hy e.symm
          simp [hy, hy']
      rw [f6, e5.2.2, hc]
      omega

theorem sc_injective {r : K} (hr : r ≠ 0) : Function.Injective (sc r) :=
  List.map_injective_iff.2 (List.map_injective_iff.2 (mul_right_injective₀ hr))

/-- **C97** for `RemoveKnot`: it undoes such an insertion exactly (as C16 says for separated knots). -/
theorem C97_remove_partial [HasSqrt K] (hq : HasSqrt.sqrt (0 : K) = 0) (h : FreeSpl s) (hU : s.ps.knots[d]? = some U)
    (hp : s.ps.degree[d]? = some p) (h0 : knot U 0 < t) (h1 : t + kEps K ≤ lastKnot U) {tol : K} (htol : 0 ≤ tol) (m : ℕ)
    (hsz : U.length + m < 2 ^ 63) (hm : kvMult U t + m ≤ p) :
    ∃ q, s.insertKnot t d m = .ok q ∧ q.removeKnot t d tol m = .ok (s, m) := by
  have hf := forall₂_get h.knots hU hp
  have hc : Clear U t := ⟨hf.sorted, hf.ne_nil, h1⟩
  obtain ⟨r, s', hr, hS, hw, hsep⟩ := h.scaled t
  have hr0 : 0 < r := lt_of_lt_of_le one_pos hr
  have hU' : s'.ps.knots[d]? = some (U.map (r * ·)) := by rw [hS.knots, sc_get, hU]; rfl
  have hp' : s'.ps.degree[d]? = some p := by rw [hS.degree]; exact hp
  have ha : Admissible (U.map (r * ·)) (r * t) := by
    refine ⟨?_, ?_, hsep U (List.mem_of_getElem? hU)⟩
    · rw [knot_scale]; exact mul_lt_mul_of_pos_left h0 hr0
    · rw [lastKnot_scale]; exact mul_lt_mul_of_pos_left hc.lt hr0
  obtain ⟨q', e1, -, -, -, e5⟩ := insert_remove hq hw hU' hp' ha htol m (by rw [List.length_map]; exact hsz)
    (by rw [kvMult_scale hr0]; exact hm)
  obtain ⟨q, V, f1, f2, f3, f4, f5⟩ := insertKnot_scale hr hS hU hc e1
  obtain ⟨q2, g1, g2⟩ := removeRounds_scale hr tol m 0 f2 (by rw [f3]; exact set_get hU) f4 (e5 0)
  have hk : q2.ps.knots = s.ps.knots := sc_injective hr0.ne' (g2.knots.symm.trans hS.knots)
  have hd : q2.ps.degree = s.ps.degree := g2.degree.symm.trans hS.degree
  have hb : q2.ps.basis = s.ps.basis := by
    have := g2.basis
    rw [hk, hd, hS.basis] at this
    exact (Except.ok.inj this).symm
  have hph : q2.ph = s.ph := g2.ph.symm.trans hS.ph
  have e : q2 = s := by
    obtain ⟨⟨a, b, c⟩, ph⟩ := q2
    obtain ⟨⟨a', b', c'⟩, ph'⟩ := s
    simp only at hk hd hb hph
    rw [hk, hd, hb, hph]
  refine ⟨q, f1, ?_⟩
  unfold Spl.removeKnot
  rw [g1, e, Nat.zero_add]

end

/-! ### Parameters that are evaluated correctly after the insertion -/

section
variable {s : Spl K} {x : List K}

theorem free_windowSum (h : FreeSpl s) (hx : List.Forall₂ LongSpan s.ps.knots x) :
    WideSpl s ∧ Dom s.ps.knots x ∧ ∀ F, windowSum s x F = tensorSum s x F := by
  have hso : ∀ U ∈ s.ps.knots, SortedKnots U := by
    intro U hU
    obtain ⟨i, hi⟩ := List.getElem?_of_mem hU
    obtain ⟨p, hp⟩ := Option.ne_none_iff_exists'.1 (show s.ps.degree[i]? ≠ none by
      rw [ne_eq, List.getElem?_eq_none_iff, not_le, ← h.knots.length_eq]; exact lt_of_some hi)
    exact (forall₂_get h.knots hi hp).sorted
  obtain ⟨h1, h2⟩ := long_dom hso hx
  have hws : WideSpl s := by
    refine ⟨free_wide h.knots h2, ?_, h.num, h.cps, fun w hw => (h.weights w hw).1⟩
    · have := basisTable_eq (h.knots.imp fun U p hU => show p + 1 ≤ U.length by have := hU.size; omega)
      rw [h.basis] at this
      exact Except.ok.inj this
  refine ⟨hws, h1, fun F => ?_⟩
  unfold windowSum tensorSum npts
  exact window_long hws.knots hso F hx

theorem free_weight_pos (h : FreeSpl s) (hx : InDomain s x) : 0 < weightValue s x := by
  obtain ⟨r, s', hr, hS, hw, -⟩ := h.scaled 0
  have hr0 : 0 < r := lt_of_lt_of_le one_pos hr
  have := weightValue_pos hw ((inDomain_scaled hS hr0 x).2 hx)
  unfold weightValue at this ⊢
  rwa [tensorSum_scaled hS hr0 x (wgt_scaled hS)] at this

/-- Where all spans are long, the values of `Evaluate` follow from those of the function. -/
theorem free_evaluate_eq {q : Spl K} (h : FreeSpl s) (hq : FreeSpl q) (g : SameFunction s q) (hx : List.Forall₂ LongSpan s.ps.knots x)
    (hx' : List.Forall₂ LongSpan q.ps.knots x) (dims : List ℕ) (hd : ∀ c ∈ dims, c < s.ph.dim) :
    q.evaluate x (zl dims) = s.evaluate x (zl dims) := by
  obtain ⟨a1, a2, a3⟩ := free_windowSum h hx
  obtain ⟨b1, b2, b3⟩ := free_windowSum hq hx'
  have hd' : ∀ c ∈ dims, c < q.ph.dim := by rw [g.dim]; exact hd
  by_cases hb : IsBSpline s
  · rw [a1.evaluate_bspline a2 hb dims hd, b1.evaluate_bspline b2 (g.kind.1 hb) dims hd']
    congr 1
    refine List.map_congr_left fun c hc => ?_
    rw [a3, b3]
    exact g.bspline x a2 hb c (hd c hc)
  · have hn : IsNurbs s := isNurbs_iff.2 hb
    have hn' : IsNurbs q := isNurbs_iff.2 fun hc => hb (g.kind.2 hc)
    rw [a1.evaluate_nurbs a2 hn (by rw [a3]; exact (free_weight_pos h a2).ne') dims hd,
      b1.evaluate_nurbs b2 hn' (by rw [b3]; exact (free_weight_pos hq b2).ne') dims hd']
    congr 1
    refine List.map_congr_left fun c hc => ?_
    have := g.nurbs x a2 c (hd c hc)
    unfold nurbsValue weightValue at this
    rw [a3, a3, b3, b3]
    simpa only [mul_comm] using this

theorem FreeKnots.exists_span {U : List K} {p : ℕ} (h : FreeKnots U p) {a : K} (h0 : knot U 0 ≤ a) (h1 : a ≤ lastKnot U) :
    ∃ k, k + 1 < U.length ∧ InSpan U k a := by
  obtain ⟨r, hr, hs⟩ := exists_separated U
  have hr0 : 0 < r := lt_of_lt_of_le one_pos hr
  have hw := h.scale hr0 hs
  obtain ⟨-, b2, -, b4⟩ := hw.span (x := r * a) (by rw [knot_scale]; exact mul_le_mul_of_nonneg_left h0 hr0.le)
    (by rw [lastKnot_scale]; exact mul_le_mul_of_nonneg_left h1 hr0.le)
  rw [List.length_map] at b4
  exact ⟨_, by omega, (inSpan_scale U hr0 _ _).1 b2⟩

/-- A long span after the insertion lies in a long span before it. -/
theorem LongSpan.before {U V : List K} {p m : ℕ} {t a : K} (h : FreeKnots U p) (hV : KnotsAdded U t m V) (hf : knot V 0 = knot U 0)
    (hl : lastKnot V = lastKnot U) (ha : LongSpan V a) : LongSpan U a := by
  obtain ⟨⟨d0, d1⟩, -⟩ := ha.dom hV.1
  obtain ⟨k, hk, hin⟩ := h.exists_span (hf ▸ d0) (hl ▸ d1)
  obtain ⟨j, hj, hjn, hlen⟩ := ha
  have hside : ∀ i < U.length, knot U i ≤ knot V j ∨ knot V (j + 1) ≤ knot U i := by
    intro i hi
    have hm : knot U i ∈ V := by
      rw [← List.count_pos_iff, hV.2.2]
      have := List.count_pos_iff.2 (knot_mem hi)
      omega
    obtain ⟨n, hn, e⟩ := List.getElem_of_mem hm
    have e' : knot V n = knot U i := by rw [← e]; unfold knot; rw [List.getD_eq_getElem _ _ hn]
    rw [← e']
    rcases Nat.lt_or_ge j n with h2 | h2
    · exact Or.inr (hV.1.mono h2 hn)
    · exact Or.inl (hV.1.mono h2 (by omega))
  have hUl := h.sorted.le_last hk
  have hVl := hV.1.le_last hj
  refine ⟨k, hk, hin, le_trans hlen ?_⟩
  rcases hjn with ⟨c1, c2⟩ | ⟨c1, c2, c3⟩
  · rcases hin with ⟨e1, e2⟩ | ⟨e1, e2, e3⟩
    · have f1 := (hside k (by omega)).resolve_right (by intro hc; linarith)
      have f2 := (hside (k + 1) hk).resolve_left (by intro hc; linarith)
      linarith
    · linarith
  · rcases hin with ⟨e1, e2⟩ | ⟨e1, e2, e3⟩
    · linarith
    · have f1 := (hside k (by omega)).resolve_right (by intro hc; linarith)
      linarith

/-- **C97** for `Evaluate`: after the insertion it returns the same values as before at every parameter that lies in spans of length at
least `kEpsilon` of the new knots (see C88 for the others). -/
theorem C97_evaluate_partial {d : ℕ} {U : List K} {p : ℕ} {t : K} (h : FreeSpl s) (hU : s.ps.knots[d]? = some U)
    (hp : s.ps.degree[d]? = some p) (h0 : knot U 0 < t) (h1 : t + kEps K ≤ lastKnot U) (m : ℕ) (hsz : U.length + m < 2 ^ 63) :
    ∃ q, s.insertKnot t d m = .ok q ∧ ∀ x, List.Forall₂ LongSpan q.ps.knots x → ∀ dims : List ℕ, (∀ c ∈ dims, c < s.ph.dim) →
      q.evaluate x (zl dims) = s.evaluate x (zl dims) := by
  obtain ⟨q, V, e1, e2, -, e4, e5, e6, e7, e8⟩ := free_insert h hU hp h0 h1 m hsz
  refine ⟨q, e1, fun x hx dims hd => free_evaluate_eq h e2 e8.sameFunction ?_ hx dims hd⟩
  have hV : q.ps.knots[d]? = some V := by rw [e4]; exact set_get hU
  obtain ⟨a, ha⟩ := Option.ne_none_iff_exists'.1 (show x[d]? ≠ none by
    rw [ne_eq, List.getElem?_eq_none_iff, not_le, ← hx.length_eq]; exact lt_of_some hV)
  have hUa := LongSpan.before (forall₂_get h.knots hU hp) e5 e6 e7 (forall₂_get hx hV ha)
  have := forall₂_set hx ha hUa
  rwa [e4, List.set_set, set_same hU] at this

end

/-! ### Near the end of the range -/

theorem scalingLoop_zero {U : List K} {x : K} {sh : ℕ} : ∀ (n j : ℕ), j + n + sh < U.length → U.length < 2 ^ 63 →
    (∀ i, j ≤ i → i < j + n → knot U i ≠ knot U (i + sh)) → knot U (j + n) = knot U (j + n + sh) →
    Spl.scalingLoop U x sh (n + 1) j = .error .nonfinite := by
  have hget : ∀ i, i < U.length → kvGet U i = .ok (knot U i) := by
    intro i hi
    unfold kvGet getN knot
    rw [List.getElem?_eq_getElem hi, List.getD_eq_getElem _ _ hi]
  intro n
  induction n with
  | zero =>
    intro j hj hs _ he
    unfold Spl.scalingLoop
    rw [hget j (by omega), ok_bind, toSizeT_of (n := j + sh) (by omega) (by omega), hget _ (by omega), ok_bind]
    unfold fdiv
    rw [if_pos (by rw [sub_eq_zero]; exact he.symm)]
    rfl
  | succ n ih =>
    intro j hj hs hne he
    unfold Spl.scalingLoop
    rw [hget j (by omega), ok_bind, toSizeT_of (n := j + sh) (by omega) (by omega), hget _ (by omega), ok_bind]
    unfold fdiv
    rw [if_neg (by rw [sub_eq_zero]; exact (hne j le_rfl (by omega)).symm), ok_bind,
      ih (j + 1) (by omega) hs (fun i h1 h2 => hne i (by omega) (by omega)) (by rw [show j + 1 + n = j + (n + 1) by omega]; exact he)]
    rfl

/-- **C97** fails near the end of the range, on every well-formed spline: for a parameter strictly inside the range, but less than
`kEpsilon` from the last knot, `InsertKnot` divides by zero in every direction of positive degree. -/
theorem C97_near_end_fails {s : Spl K} (h : WFSpl s) {d : ℕ} {U : List K} {p : ℕ} (hU : s.ps.knots[d]? = some U)
    (hp : s.ps.degree[d]? = some (p + 1)) {t : K} (h0 : lastKnot U - kEps K < t) (h1 : t < lastKnot U) (hsz : U.length < 2 ^ 63) (m : ℕ) :
    s.insertKnot t d (m + 1) = .error .nonfinite := by
  have hw := forall₂_get h.knots hU hp
  have hsize := hw.size
  have hlast : kvIsLast U t = .ok true := by
    rw [kvIsLast_eq hw.ne_nil]
    congr 1
    rw [decide_eq_true_eq, abs_lt]
    have := kEps_pos (K := K)
    exact ⟨by linarith, by linarith⟩
  obtain ⟨l1, l2, l3⟩ := lowerBound_spec hw.sorted t
  set e := lowerBound U t with he
  -- a knot is either the last one or to the left of `t`
  have hsplit : ∀ i < U.length, knot U i = lastKnot U ∨ knot U i < t := by
    intro i hi
    rcases lt_or_eq_of_le (hw.sorted.le_last hi) with h2 | h2
    · right
      have := hw.sep _ (knot_mem hi) _ (lastKnot_mem hw.ne_nil) h2
      linarith
    · exact Or.inl h2
  have hright : ∀ i < U.length, e ≤ i → knot U i = lastKnot U := fun i hi hei =>
    (hsplit i hi).resolve_right (not_lt.2 (l3 i hi hei))
  have hleft : ∀ i < U.length, i < e → knot U i < lastKnot U := fun i hi hie => (l2 i hi hie).trans h1
  have hup : e + (p + 1) < U.length := by
    by_contra hc
    have h2 := hw.last (p + 1) le_rfl
    have h3 := hleft (U.length - 1 - (p + 1)) (by omega) (by omega)
    exact absurd h2 (ne_of_lt h3)
  have hlo : p + 1 < e := by
    by_contra hc
    have h2 := hw.first (p + 1) le_rfl
    rw [hright (p + 1) (by omega) (by omega)] at h2
    exact absurd h2 (ne_of_gt hw.range)
  have hmult : kvMult U t = 0 := by
    unfold kvMult
    rw [List.count_eq_zero]
    intro hm
    obtain ⟨i, hi, e⟩ := List.getElem_of_mem hm
    have hk : knot U i = t := by unfold knot; rw [List.getD_eq_getElem _ _ hi, e]
    rcases hsplit i hi with h2 | h2
    · exact absurd (hk.symm.trans h2) (ne_of_lt h1)
    · exact absurd hk (ne_of_lt h2)
  unfold Spl.insertKnot
  rw [getN_some hU, ok_bind, getN_some hp, ok_bind]
  have hspan : kvSpan U t = .ok ((e : ℤ) - 1) := by
    unfold kvSpan
    rw [hlast, ok_bind]
    rfl
  rw [hspan, ok_bind]
  unfold Spl.insertRounds
  rw [hlast, ok_bind]
  simp only [if_true]
  rw [hmult, toSizeT_of (i := (e : ℤ) - 1 + 1 - ((0 : ℕ) : ℤ)) (n := e) (by omega) (by omega),
    toSizeT_of (i := (e : ℤ) - 1 + 1 - ((p + 1 : ℕ) : ℤ) + ((1 : ℕ) : ℤ)) (n := e - p) (by omega) (by omega),
    show (((p + 1 : ℕ) : ℤ) - ((1 : ℕ) : ℤ) + 1) = ((p + 1 : ℕ) : ℤ) by omega,
    show Spl.stepCount (e - p) e = p + 1 by unfold Spl.stepCount; omega,
    scalingLoop_zero p (e - p) (by omega) hsz]
  · rfl
  · intro i h2 h3
    rw [hright (i + (p + 1)) (by omega) (by omega)]
    exact ne_of_lt (hleft i (by omega) (by omega))
  · rw [hright _ (by omega) (by omega), hright _ (by omega) (by omega)]

/-! ### Satisfiable -/

/-- A curve with the two knots `0.3` and `0.1 + 0.2`. -/
def noisyCurve : Spl ℚ := ⟨⟨[noisyKnots], [1], mkTable [noisyKnots] [1]⟩, ⟨1, [4], [5, 1, 7, 2], none⟩⟩

theorem noisyCurve_free : FreeSpl noisyCurve where
  knots := .cons ⟨by decide +kernel, by decide +kernel, by decide +kernel, by decide +kernel, by decide +kernel⟩ .nil
  basis := by decide +kernel
  num := by decide +kernel
  dim := by decide +kernel
  cps := by decide +kernel
  weights := by intro w hw; cases hw

/-- A third knot between the two, and the two spans it makes; the curve is not well-formed in the sense of the other properties. -/
example : noisyCurve.ps.knots[0]? = some noisyKnots ∧ noisyCurve.ps.degree[0]? = some 1 ∧ knot noisyKnots 0 < (three + three') / 2 ∧
    (three + three') / 2 + kEps ℚ ≤ lastKnot noisyKnots ∧ kvMult noisyKnots ((three + three') / 2) + 1 ≤ 1 ∧ ¬ Separated noisyKnots :=
  ⟨rfl, rfl, by decide +kernel, by decide +kernel, by decide +kernel, by decide +kernel⟩

/-- The parameter `1 - 2⁻⁵²`, the second double before 1. -/
example : WFSpl exCurve ∧ exCurve.ps.knots[0]? = some [0, 0, 0, 1/2, 1, 1, 1] ∧ exCurve.ps.degree[0]? = some (1 + 1) ∧
    lastKnot ([0, 0, 0, 1/2, 1, 1, 1] : List ℚ) - kEps ℚ < 1 - 1 / 2 ^ 52 ∧ (1 - 1 / 2 ^ 52 : ℚ) < lastKnot [0, 0, 0, 1/2, 1, 1, 1] ∧
    exCurve.insertKnot (1 - 1 / 2 ^ 52) 0 1 = .error .nonfinite :=
  ⟨exCurve_wf, rfl, rfl, by decide +kernel, by decide +kernel, by decide +kernel⟩

end SplineLib
