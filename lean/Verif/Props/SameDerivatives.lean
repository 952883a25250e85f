import Verif.Props.Derivatives
import Verif.Props.KnotInsertion
import Verif.Props.Subdivision
import Verif.Props.Smooth
import Mathlib.Data.List.GetD

/-!
# The geometry determines the derivatives

The operations on splines are specified by the values of `Evaluate` (`/repo/src/spl/spline.h:49-65`). `EvaluateDerivative`
(`/repo/src/spl/spline.h:67-84`) uses the knots and control points, which the operations change. Derivatives are limits of values, so they do not change
either, except at the last parameter of a part, where the derivative of the part is the one from the left and the one of the whole spline is the one from
the right.
-/

namespace SplineLib
set_option linter.unusedSectionVars false
open Finset Topology

/-- `x` is a parameter of `r` at which both splines take their derivatives from the same side: in every direction it lies before the last knot of `r`, or
this is also the last knot of `s`. -/
def Inside (s r : Spl ℝ) (x : List ℝ) : Prop := InDomain r x ∧ ∀ d U V, s.ps.knots[d]? = some U → r.ps.knots[d]? = some V →
  x.getD d 0 < lastKnot V ∨ lastKnot V = lastKnot U

theorem deriv_values {s : Spl ℝ} (h : WFSpl s) : ∃ G : ℕ → List ℕ → List ℝ → ℝ,
    (∀ x k (dims : List ℕ), InDomain s x → k.length = s.ps.knots.length → (∀ c ∈ dims, c < s.ph.dim) →
      s.evaluateDerivative x (zl dims) (zl k) = .ok (dims.map fun c => G c k x)) ∧
    (∀ x (dims : List ℕ), InDomain s x → (∀ c ∈ dims, c < s.ph.dim) →
      s.evaluate x (zl dims) = .ok (dims.map fun c => G c (s.ps.knots.map fun _ => 0) x)) ∧
    (∀ x k c d U, InDomain s x → k.length = s.ps.knots.length → s.ps.knots[d]? = some U →
      SpanDeriv U (fun t => G c k (x.set d t)) (G c (k.modify d (· + 1)) x) (x.getD d 0)) := by
  by_cases hb : IsBSpline s
  · obtain ⟨G, a, b, c, -⟩ := C09_bspline_derivative h hb
    exact ⟨G, a, b, c⟩
  · exact C10_nurbs_derivative h (isNurbs_iff.2 hb)

theorem inDomain_set {s : Spl ℝ} {x : List ℝ} (hx : InDomain s x) {d : ℕ} {U : List ℝ} (hU : s.ps.knots[d]? = some U) {t : ℝ} (h0 : knot U 0 ≤ t)
    (h1 : t ≤ lastKnot U) : InDomain s (x.set d t) := by
  unfold InDomain at *
  rw [List.forall₂_iff_get] at *
  refine ⟨by simpa using hx.1, fun i hi hi' => ?_⟩
  have hi2 : i < x.length := by simpa using hi'
  simp only [List.get_eq_getElem, List.getElem_set]
  split
  · rename_i hd
    subst hd
    obtain ⟨_, e⟩ := List.getElem?_eq_some_iff.1 hU
    rw [e]
    exact ⟨h0, h1⟩
  · exact hx.2 i hi hi2

theorem inDomain_at {s : Spl ℝ} {x : List ℝ} (hx : InDomain s x) {d : ℕ} {U : List ℝ} (hU : s.ps.knots[d]? = some U) :
    knot U 0 ≤ x.getD d 0 ∧ x.getD d 0 ≤ lastKnot U := by
  unfold InDomain at hx
  rw [List.forall₂_iff_get] at hx
  obtain ⟨hd, e⟩ := List.getElem?_eq_some_iff.1 hU
  have := hx.2 d hd (hx.1 ▸ hd)
  simp only [List.get_eq_getElem, e] at this
  rwa [List.getD_eq_getElem _ _ (hx.1 ▸ hd)]

theorem getD_set_self' {x : List ℝ} {d : ℕ} (hd : d < x.length) (t : ℝ) : (x.set d t).getD d 0 = t := by
  rw [List.getD_eq_getElem _ _ (by simpa using hd), List.getElem_set_self]

theorem set_getD_self {x : List ℝ} (d : ℕ) : x.set d (x.getD d 0) = x := by
  by_cases hd : d < x.length
  · rw [List.getD_eq_getElem _ _ hd, List.set_getElem_self]
  · exact List.set_eq_of_length_le (by omega)

theorem sum_set_succ : ∀ {k : List ℕ} {d : ℕ} (hd : d < k.length), (k.set d (k[d] + 1)).sum = k.sum + 1
  | a :: k, 0, _ => by simp; omega
  | a :: k, d + 1, hd => by
    have := sum_set_succ (k := k) (d := d) (by simpa using hd)
    simp only [List.getElem_cons_succ, List.set_cons_succ, List.sum_cons, this]
    omega

theorem Inside.set {s r : Spl ℝ} {x : List ℝ} (hx : Inside s r x) {d : ℕ} {V : List ℝ} (hV : r.ps.knots[d]? = some V) {t : ℝ} (h0 : knot V 0 ≤ t)
    (h1 : t ≤ lastKnot V) (h2 : ∀ U, s.ps.knots[d]? = some U → t < lastKnot V ∨ lastKnot V = lastKnot U) : Inside s r (x.set d t) := by
  refine ⟨inDomain_set hx.1 hV h0 h1, fun e U W hU hW => ?_⟩
  by_cases he : e = d
  · subst he
    rw [hV] at hW
    obtain rfl := Option.some.inj hW
    have hd : e < x.length := by rw [← hx.1.length_eq]; exact (List.getElem?_eq_some_iff.1 hV).1
    rw [getD_set_self' hd]
    exact h2 U hU
  · rw [List.getD_eq_getElem?_getD, List.getElem?_set_ne (Ne.symm he), ← List.getD_eq_getElem?_getD]
    exact hx.2 e U W hU hW

/-- **C110 (the geometry determines the derivatives).** If `Evaluate` of `r` returns the values of `Evaluate` of `s` for one coordinate on the parameter
range of `r`, which is a part of the one of `s`, then so does `EvaluateDerivative`, for all orders. -/
theorem C110_geometry {s r : Spl ℝ} (hs : WFSpl s) (hr : WFSpl r) (hl : r.ps.knots.length = s.ps.knots.length)
    (hsub : ∀ x, InDomain r x → InDomain s x) {c : ℕ} (hc : c < s.ph.dim) (hc' : c < r.ph.dim)
    (heq : ∀ x, Inside s r x → r.evaluate x [(c : ℤ)] = s.evaluate x [(c : ℤ)]) :
    ∀ (k : List ℕ), k.length = s.ps.knots.length → ∀ x, Inside s r x →
      r.evaluateDerivative x [(c : ℤ)] (zl k) = s.evaluateDerivative x [(c : ℤ)] (zl k) := by
  obtain ⟨G, g1, g2, g3⟩ := deriv_values hs
  obtain ⟨H, h1, h2, h3⟩ := deriv_values hr
  have key : ∀ (n : ℕ) (k : List ℕ), k.sum = n → k.length = s.ps.knots.length → ∀ x, Inside s r x → H c k x = G c k x := by
    intro n
    induction n with
    | zero =>
      intro k hk hkl x hx
      have hz : k = s.ps.knots.map fun _ => 0 := by
        rw [List.eq_replicate_iff.2 ⟨hkl, fun b hb => List.sum_eq_zero_iff.1 hk b hb⟩, List.map_const']
      have e1 := g2 x [c] (hsub x hx.1) (by simpa using hc)
      have e2 := h2 x [c] hx.1 (by simpa using hc')
      have hz' : k = r.ps.knots.map fun _ => 0 := by rw [hz, List.map_const', List.map_const', hl]
      rw [← hz] at e1
      rw [← hz'] at e2
      have e3 := heq x hx
      rw [show zl [c] = [(c : ℤ)] from rfl] at e1 e2
      rw [e1, e2] at e3
      simpa using e3
    | succ n ih =>
      intro k hk hkl x hx
      obtain ⟨d, hd, hpos⟩ : ∃ d, ∃ h : d < k.length, 0 < k[d] := by
        by_contra hcon
        push Not at hcon
        have : k.sum = 0 := List.sum_eq_zero_iff.2 fun b hb => by
          obtain ⟨i, hi, rfl⟩ := List.getElem_of_mem hb
          have := hcon i hi; omega
        omega
      set k' := k.modify d (· - 1) with hk'
      have hkk : k = k'.modify d (· + 1) := by
        apply List.ext_getElem (by simp [hk'])
        intro i h1 h2
        simp only [hk', List.getElem_modify]
        split
        · rename_i e; subst e; omega
        · rfl
      have hl' : k'.length = s.ps.knots.length := by simp [hk', hkl]
      have hsum : k'.sum = n := by
        have hd' : d < k'.length := by simp [hk']; omega
        have a : k = k'.set d (k'[d] + 1) := by
          conv_lhs => rw [hkk]
          apply List.ext_getElem (by simp)
          intro i h1 h2
          simp only [List.getElem_modify, List.getElem_set]
          split
          · rename_i e; subst e; rfl
          · rfl
        have b := sum_set_succ hd'
        rw [← a] at b
        omega
      obtain ⟨U, hU⟩ : ∃ U, s.ps.knots[d]? = some U := ⟨_, List.getElem?_eq_getElem (by omega)⟩
      obtain ⟨V, hV⟩ : ∃ V, r.ps.knots[d]? = some V := ⟨_, List.getElem?_eq_getElem (by omega)⟩
      have hwV : knot V 0 < lastKnot V := by
        obtain ⟨p, hp⟩ : ∃ p, r.ps.degree[d]? = some p := ⟨_, List.getElem?_eq_getElem (by rw [← hr.knots.length_eq]; omega)⟩
        exact (forall₂_get hr.knots hV hp).range
      have dG := g3 x k' c d U (hsub x hx.1) hl' hU
      have dH := h3 x k' c d V hx.1 (by rw [hl', hl]) hV
      rw [← hkk] at dG dH
      obtain ⟨a0, a1⟩ := inDomain_at hx.1 hV
      have hdx : d < x.length := by rw [← hx.1.length_eq]; exact (List.getElem?_eq_some_iff.1 hV).1
      have hVU : lastKnot V ≤ lastKnot U := by
        have := (inDomain_at (hsub _ (inDomain_set hx.1 hV hwV.le le_rfl)) hU).2
        rwa [getD_set_self' hdx] at this
      have hset : ∀ t, knot V 0 ≤ t → t ≤ lastKnot V → (t < lastKnot V ∨ lastKnot V = lastKnot U) →
          H c k' (x.set d t) = G c k' (x.set d t) := fun t b0 b1 b2 =>
        ih k' hsum hl' _ (hx.set hV b0 b1 fun U' hU' => by rw [hU] at hU'; obtain rfl := Option.some.inj hU'; exact b2)
      have e0 : (fun t => G c k' (x.set d t)) (x.getD d 0) = (fun t => H c k' (x.set d t)) (x.getD d 0) :=
        (hset _ a0 a1 (hx.2 d U V hU hV)).symm
      rcases lt_or_eq_of_le a1 with h | h
      · have e1 := dH.right h
        have e2 := dG.right (h.trans_le hVU)
        have e3 : HasDerivWithinAt (fun t => H c k' (x.set d t)) (G c k x) (Set.Ici (x.getD d 0)) (x.getD d 0) := by
          refine e2.congr_of_eventuallyEq ?_ e0.symm
          filter_upwards [inter_mem_nhdsWithin (Set.Ici (x.getD d 0)) (Iio_mem_nhds h)] with y hy
          exact hset y (a0.trans hy.1) (le_of_lt hy.2) (Or.inl hy.2)
        exact (uniqueDiffWithinAt_Ici _).eq_deriv _ e1 e3
      · have hlast : lastKnot V = lastKnot U := by
          rcases hx.2 d U V hU hV with g | g
          · exact absurd h g.ne
          · exact g
        have e1 := dH.left h
        have e2 := dG.left (h.trans hlast)
        have e3 : HasDerivWithinAt (fun t => H c k' (x.set d t)) (G c k x) (Set.Iic (x.getD d 0)) (x.getD d 0) := by
          refine e2.congr_of_eventuallyEq ?_ e0.symm
          filter_upwards [inter_mem_nhdsWithin (Set.Iic (x.getD d 0)) (Ioi_mem_nhds (show knot V 0 < x.getD d 0 by rw [h]; exact hwV))] with y hy
          exact hset y (le_of_lt hy.2) (le_trans hy.1 a1) (Or.inr hlast)
        exact (uniqueDiffWithinAt_Iic _).eq_deriv _ e1 e3
  intro k hk x hx
  have e1 := g1 x k [c] (hsub x hx.1) hk (by simpa using hc)
  have e2 := h1 x k [c] hx.1 (by rw [hk, hl]) (by simpa using hc')
  rw [show zl [c] = [(c : ℤ)] from rfl] at e1 e2
  rw [e1, e2]
  simp [key _ k rfl hk x hx]

/-- The same for several coordinates at once. -/
theorem derivatives_of_values {s r : Spl ℝ} (hs : WFSpl s) (hr : WFSpl r) (hl : r.ps.knots.length = s.ps.knots.length)
    (hsub : ∀ x, InDomain r x → InDomain s x) (hdim : r.ph.dim = s.ph.dim)
    (heq : ∀ x, Inside s r x → ∀ c < s.ph.dim, r.evaluate x [(c : ℤ)] = s.evaluate x [(c : ℤ)]) {x : List ℝ} (hx : Inside s r x)
    {dims : List ℕ} (hd : ∀ c ∈ dims, c < s.ph.dim) {k : List ℕ} (hk : k.length = s.ps.knots.length) :
    r.evaluateDerivative x (zl dims) (zl k) = s.evaluateDerivative x (zl dims) (zl k) := by
  obtain ⟨G, g1, g2, g3⟩ := deriv_values hs
  obtain ⟨H, h1, h2, h3⟩ := deriv_values hr
  rw [g1 x k dims (hsub x hx.1) hk hd, h1 x k dims hx.1 (by rw [hk, hl]) (by rw [hdim]; exact hd)]
  congr 1
  refine List.map_congr_left fun c hc => ?_
  have e := C110_geometry hs hr hl hsub (hd c hc) (by rw [hdim]; exact hd c hc) (fun x hx => heq x hx c (hd c hc)) k hk x hx
  have e1 := g1 x k [c] (hsub x hx.1) hk (by simpa using hd c hc)
  have e2 := h1 x k [c] hx.1 (by rw [hk, hl]) (by rw [hdim]; simpa using hd c hc)
  rw [show zl [c] = [(c : ℤ)] from rfl] at e1 e2
  rw [e1, e2] at e
  simpa using e

theorem sameDomain_last {s r : Spl ℝ} (hs : WFSpl s) (hdom : ∀ x, InDomain r x ↔ InDomain s x) {x : List ℝ} (hx : InDomain s x)
    {d : ℕ} {U V : List ℝ} (hU : s.ps.knots[d]? = some U) (hV : r.ps.knots[d]? = some V) (hr : WFSpl r) : lastKnot V = lastKnot U := by
  have rg : ∀ {s : Spl ℝ}, WFSpl s → ∀ {d : ℕ} {U : List ℝ}, s.ps.knots[d]? = some U → knot U 0 ≤ lastKnot U := by
    intro s hs d U hU
    obtain ⟨p, hp⟩ : ∃ p, s.ps.degree[d]? = some p :=
      ⟨_, List.getElem?_eq_getElem (by rw [← hs.knots.length_eq]; exact (List.getElem?_eq_some_iff.1 hU).1)⟩
    exact (forall₂_get hs.knots hU hp).range.le
  have hdx : d < x.length := by rw [← hx.length_eq]; exact (List.getElem?_eq_some_iff.1 hU).1
  have a := (inDomain_at ((hdom _).1 (inDomain_set ((hdom x).2 hx) hV (rg hr hV) le_rfl)) hU).2
  have b := (inDomain_at ((hdom _).2 (inDomain_set hx hU (rg hs hU) le_rfl)) hV).2
  rw [getD_set_self' hdx] at a b
  exact le_antisymm a b

/-- **C110 (operations that keep the geometry).** Splines with the same geometry have the same derivatives of all orders at all parameters. -/
theorem C110_same_geometry {s r : Spl ℝ} (hs : WFSpl s) (hr : WFSpl r) (hl : r.ps.knots.length = s.ps.knots.length) (hg : SameGeometry s r)
    {x : List ℝ} (hx : InDomain s x) {dims : List ℕ} (hd : ∀ c ∈ dims, c < s.ph.dim) {k : List ℕ} (hk : k.length = s.ps.knots.length) :
    r.evaluateDerivative x (zl dims) (zl k) = s.evaluateDerivative x (zl dims) (zl k) := by
  refine derivatives_of_values hs hr hl (fun x => (hg.domain x).1) hg.dim ?_ ⟨(hg.domain x).2 hx, ?_⟩ hd hk
  · intro y hy c hc
    exact hg.values y ((hg.domain y).1 hy.1) [c] (by intro e he; simp at he; subst he; exact Or.inl hc)
  · intro d U V hU hV
    exact Or.inr (sameDomain_last hs hg.domain hx hU hV hr)

/-- **C110 (`InsertKnot`).** Inserting an admissible knot any number of times changes no derivative. -/
theorem C110_insertKnot {s : Spl ℝ} (h : WFSpl s) {d : ℕ} {U : List ℝ} {p : ℕ} (hU : s.ps.knots[d]? = some U) (hp : s.ps.degree[d]? = some p) {t : ℝ}
    (ht : Admissible U t) (m : ℕ) (hsz : U.length + m < 2 ^ 63) : ∃ s', s.insertKnot t d m = .ok s' ∧
      ∀ x, InDomain s x → ∀ dims : List ℕ, (∀ c ∈ dims, c < s.ph.dim) → ∀ k : List ℕ, k.length = s.ps.knots.length →
        s'.evaluateDerivative x (zl dims) (zl k) = s.evaluateDerivative x (zl dims) (zl k) := by
  obtain ⟨s', V, e1, e2, e3, e4, e5, e6, e7⟩ := insertKnot_preserves h hU hp ht m hsz
  exact ⟨s', e1, fun x hx dims hd k hk => C110_same_geometry h e2 (by rw [e4]; simp) e7 hx hd hk⟩

/-- **C110 (`RefineKnots`).** Inserting any list of admissible knots changes no derivative. -/
theorem C110_refineKnots {s : Spl ℝ} (h : WFSpl s) {d : ℕ} {U : List ℝ} {p : ℕ} (hU : s.ps.knots[d]? = some U) (hp : s.ps.degree[d]? = some p)
    (xs : List ℝ) (hx : ∀ t ∈ xs, knot U 0 < t ∧ t < lastKnot U) (hsep : Separated (xs ++ U)) (hsz : U.length + xs.length < 2 ^ 63) :
    ∃ s', s.refineKnots xs d = .ok s' ∧
      ∀ x, InDomain s x → ∀ dims : List ℕ, (∀ c ∈ dims, c < s.ph.dim) → ∀ k : List ℕ, k.length = s.ps.knots.length →
        s'.evaluateDerivative x (zl dims) (zl k) = s.evaluateDerivative x (zl dims) (zl k) := by
  obtain ⟨s', V, e1, e2, e3, e4, e5, e6, e7⟩ := C15_refine_preserves h hU hp xs hx hsep hsz
  exact ⟨s', e1, fun x hx dims hd k hk => C110_same_geometry h e2 (by rw [e4]; simp) e7 hx hd hk⟩

theorem part_length {s l : Spl ℝ} {d : ℕ} {W : List ℝ} (h : IsPart s l d W) : l.ps.knots.length = s.ps.knots.length := by rw [h.knots]; simp

/-- **C110 (`SudivideSpline`).** The first part has the derivatives of the spline at all parameters before the parameter of the subdivision, the second
part at all of its parameters. -/
theorem C110_subdivide {s : Spl ℝ} (h : WFSpl s) {d : ℕ} {U : List ℝ} {p : ℕ} (hU : s.ps.knots[d]? = some U) (hp : s.ps.degree[d]? = some p) {t : ℝ}
    (ht : Admissible U t) (hm : U.count t ≤ p + 1) (hsz : U.length + p + 1 < 2 ^ 63) (hsz2 : ((npts s).set d U.length).prod < 2 ^ 64) :
    ∃ s' l r, s.subdivide t d = .ok (s', l, r) ∧ ∀ x, InDomain s x → ∀ a, x[d]? = some a → ∀ dims : List ℕ, (∀ c ∈ dims, c < s.ph.dim) →
      ∀ k : List ℕ, k.length = s.ps.knots.length →
        (a < t → l.evaluateDerivative x (zl dims) (zl k) = s.evaluateDerivative x (zl dims) (zl k)) ∧
        (t ≤ a → r.evaluateDerivative x (zl dims) (zl k) = s.evaluateDerivative x (zl dims) (zl k)) := by
  obtain ⟨s', l, r, e1, e2, e3, e4, e5, e6, e7, e8, e9⟩ := subdivide_correct h hU hp ht hm hsz hsz2
  have hdl : d < s.ps.knots.length := (List.getElem?_eq_some_iff.1 hU).1
  set L := U.filter (fun y => decide (y < t)) ++ List.replicate (p + 1) t with hL
  set R := List.replicate (p + 1) t ++ U.filter (fun y => decide (t < y)) with hR
  have hLd : l.ps.knots[d]? = some L := by rw [e4.knots]; exact List.getElem?_set_self hdl
  have hRd : r.ps.knots[d]? = some R := by rw [e5.knots]; exact List.getElem?_set_self hdl
  have hLl : lastKnot L = t := by
    have : L.length = (U.filter (fun y => decide (y < t))).length + (p + 1) := by simp [hL]
    rw [lastKnot, knot, this, hL, List.getD_append_right _ _ _ _ (by omega), List.getD_eq_getElem _ _ (by simp), List.getElem_replicate]
  have xd : ∀ {x : List ℝ}, InDomain s x → ∃ b, x[d]? = some b := fun hx => ⟨_, List.getElem?_eq_getElem (by rw [← hx.length_eq]; exact hdl)⟩
  have subl : ∀ x, InDomain l x → InDomain s x := fun x hx => by
    obtain ⟨b, hb⟩ : ∃ b, x[d]? = some b := ⟨_, List.getElem?_eq_getElem (by rw [← hx.length_eq, part_length e4]; exact hdl)⟩
    exact ((e6 x b hb).1 hx).1
  have subr : ∀ x, InDomain r x → InDomain s x := fun x hx => by
    obtain ⟨b, hb⟩ : ∃ b, x[d]? = some b := ⟨_, List.getElem?_eq_getElem (by rw [← hx.length_eq, part_length e5]; exact hdl)⟩
    exact ((e7 x b hb).1 hx).1
  have getD_of : ∀ {x : List ℝ} {b : ℝ}, x[d]? = some b → x.getD d 0 = b := fun hb => by rw [List.getD_eq_getElem?_getD, hb]; rfl
  refine ⟨s', l, r, e1, fun x hx a ha dims hd k hk => ⟨fun hat => ?_, fun hat => ?_⟩⟩
  · refine derivatives_of_values h e4.wf (part_length e4) subl e4.dim ?_ ⟨(e6 x a ha).2 ⟨hx, hat.le⟩, ?_⟩ hd hk
    · intro y hy c hc
      obtain ⟨b, hb⟩ := xd (subl y hy.1)
      have hbt : b < t := by
        rcases hy.2 d U L hU hLd with g | g
        · rw [hLl, getD_of hb] at g; exact g
        · rw [hLl] at g; exact absurd g ht.hi.ne
      exact e8 y b hb (subl y hy.1) hbt.le (fun hc => absurd hc hbt.ne) [c] (by intro e he; simp at he; subst he; exact Or.inl hc)
    · intro e V W hV hW
      by_cases he : e = d
      · subst he
        rw [hLd] at hW
        obtain rfl := Option.some.inj hW
        left; rw [hLl, getD_of ha]; exact hat
      · right
        rw [e4.knots, List.getElem?_set_ne (Ne.symm he), hV] at hW
        rw [Option.some.inj hW]
  · refine derivatives_of_values h e5.wf (part_length e5) subr e5.dim ?_ ⟨(e7 x a ha).2 ⟨hx, hat⟩, ?_⟩ hd hk
    · intro y hy c hc
      obtain ⟨b, hb⟩ := xd (subr y hy.1)
      exact e9 y b hb (subr y hy.1) ((e7 y b hb).1 hy.1).2 [c] (by intro e he; simp at he; subst he; exact Or.inl hc)
    · intro e V W hV hW
      right
      by_cases he : e = d
      · subst he
        rw [hRd] at hW
        obtain rfl := Option.some.inj hW
        rw [hU] at hV
        obtain rfl := Option.some.inj hV
        have hwR : knot R 0 ≤ lastKnot R := by
          have := forall₂_get e5.wf.knots hRd (by rw [e5.degree]; exact hp)
          exact this.range.le
        have hwU := (forall₂_get h.knots hU hp).range.le
        have q1 := (inDomain_at (subr _ (inDomain_set ((e7 x a ha).2 ⟨hx, hat⟩) hRd hwR le_rfl)) hU).2
        have hdx : e < x.length := by rw [← hx.length_eq]; exact hdl
        have q2 := (inDomain_at ((e7 (x.set e (lastKnot U)) (lastKnot U) (by simp [hdx])).2 ⟨inDomain_set hx hU hwU le_rfl, ht.hi.le⟩) hRd).2
        rw [getD_set_self' hdx] at q1 q2
        exact le_antisymm q1 q2
      · rw [e5.knots, List.getElem?_set_ne (Ne.symm he), hV] at hW
        rw [Option.some.inj hW]

/-- Satisfiable: two more knots in a NURBS curve, at a parameter that is already a knot. -/
example : WFSpl exSmooth ∧ exSmooth.ps.knots[0]? = some [0, 0, 0, 1, 2, 2, 2] ∧ exSmooth.ps.degree[0]? = some 2 ∧
    Admissible [0, 0, 0, 1, 2, 2, (2 : ℝ)] 1 ∧ InDomain exSmooth [1] := by
  refine ⟨exSmooth_wf, rfl, rfl, ⟨by simp [knot], by simp [lastKnot, knot], ?_⟩, .cons ⟨by simp [knot], by simp [lastKnot, knot]⟩ .nil⟩
  have := exSmooth_knots.sep
  intro a ha b hb
  exact this a (by simp at ha ⊢; tauto) b (by simp at hb ⊢; tauto)

/-- Satisfiable, and sharp: at the parameter of the subdivision the first part of a polygon with a corner has the derivative from the left. -/
example : (do
    let s ← Spl.newBSpline [[0, 0, 1, 2, (2 : ℚ)]] [1] [[0], [1], [0]]
    let (_, l, r) ← s.subdivide 1 0
    return [← s.evaluateDerivative [1] [0] [1], ← l.evaluateDerivative [1] [0] [1], ← r.evaluateDerivative [1] [0] [1]]) = .ok [[-1], [1], [-1]] := by
  decide +kernel

end SplineLib
