import Verif.Core.Subdivide
import Verif.Spec.Examples

/-!
# Properties C19, C20 (subdivision)
-/

namespace SplineLib
set_option linter.unusedSectionVars false
open Finset
variable {K : Type} [Field K] [LinearOrder K] [IsStrictOrderedRing K]

theorem take_eq_filter {U : List K} {t : K} {a : ℕ} (h1 : ∀ i < a, i < U.length → knot U i < t)
    (h2 : ∀ i < U.length, a ≤ i → ¬ knot U i < t) : U.take a = U.filter (fun y => decide (y < t)) := by
  conv_rhs => rw [← List.take_append_drop a U, List.filter_append]
  rw [List.filter_eq_self.2, List.filter_eq_nil_iff.2, List.append_nil]
  · intro y hy
    obtain ⟨i, hi, he⟩ := List.getElem_of_mem hy
    rw [List.length_drop] at hi
    rw [List.getElem_drop] at he
    have := h2 (a + i) (by omega) (by omega)
    rw [knot_eq (by omega), he] at this
    simpa using this
  · intro y hy
    obtain ⟨i, hi, he⟩ := List.getElem_of_mem hy
    rw [List.length_take] at hi
    rw [List.getElem_take] at he
    have := h1 i (by omega) (by omega)
    rw [knot_eq (by omega), he] at this
    simpa using this

theorem drop_eq_filter {U : List K} {t : K} {a : ℕ} (h1 : ∀ i < a, i < U.length → ¬ t < knot U i)
    (h2 : ∀ i < U.length, a ≤ i → t < knot U i) : U.drop a = U.filter (fun y => decide (t < y)) := by
  conv_rhs => rw [← List.take_append_drop a U, List.filter_append]
  rw [List.filter_eq_nil_iff.2, List.filter_eq_self.2, List.nil_append]
  · intro y hy
    obtain ⟨i, hi, he⟩ := List.getElem_of_mem hy
    rw [List.length_drop] at hi
    rw [List.getElem_drop] at he
    have := h2 (a + i) (by omega) (by omega)
    rw [knot_eq (by omega), he] at this
    simpa using this
  · intro y hy
    obtain ⟨i, hi, he⟩ := List.getElem_of_mem hy
    rw [List.length_take] at hi
    rw [List.getElem_take] at he
    have := h1 i (by omega) (by omega)
    rw [knot_eq (by omega), he] at this
    simpa using this

theorem ext_knot {U V : List K} (hl : U.length = V.length) (h : ∀ i < U.length, knot U i = knot V i) : U = V := by
  apply List.ext_getElem hl
  intro i h1 h2
  rw [← knot_eq h1, ← knot_eq h2]; exact h i h1

theorem knot_append {A B : List K} {i : ℕ} : knot (A ++ B) i = if i < A.length then knot A i else knot B (i - A.length) := by
  simp only [knot, List.getD_eq_getElem?_getD, List.getElem?_append]
  split <;> rfl

theorem knot_replicate {n i : ℕ} {t : K} (h : i < n) : knot (List.replicate n t) i = t := by
  simp [knot, List.getD_eq_getElem?_getD, h]

/-- The knots of the two parts, in terms of the original knots. -/
theorem cut_knots {U : List K} {p : ℕ} {t : K} (h : WFKnots U p) (ht : Admissible U t) (hm : kvMult U t ≤ p + 1) :
    (insMany U t (p + 1 - kvMult U t)).take (spanIx U t + 1 - kvMult U t + p + 1) =
      U.filter (fun y => decide (y < t)) ++ List.replicate (p + 1) t ∧
    (insMany U t (p + 1 - kvMult U t)).drop (spanIx U t + 1 - kvMult U t) =
      List.replicate (p + 1) t ++ U.filter (fun y => decide (t < y)) := by
  have hc := cut_of_insMany h ht hm
  have hf := insMany_facts h ht (p + 1 - kvMult U t)
  obtain ⟨hi, hlt, hmk, hl1, hl2⟩ := ht.pos h
  have hh := hi.hi
  have hch := hc.hi
  have e1 : U.take (spanIx U t + 1 - kvMult U t) = U.filter (fun y => decide (y < t)) := by
    apply take_eq_filter
    · intro i h1 h2
      exact lt_of_le_of_lt (h.sorted.mono (by omega) (by omega)) hl1
    · intro i h1 h2
      rw [not_lt]
      by_cases h3 : i ≤ spanIx U t
      · exact (hl2 i (by omega) h3).ge
      · exact hlt.le.trans (h.sorted.mono (by omega) h1)
  have e2 : U.drop (spanIx U t + 1) = U.filter (fun y => decide (t < y)) := by
    apply drop_eq_filter
    · intro i h1 h2
      rw [not_lt]; exact (h.sorted.mono (by omega) (by omega)).trans hi.le
    · intro i h1 h2
      exact lt_of_lt_of_le hlt (h.sorted.mono h2 h1)
  have hlen := hf.length
  constructor
  · rw [← e1]
    have hl : (U.take (spanIx U t + 1 - kvMult U t)).length = spanIx U t + 1 - kvMult U t := by simp; omega
    apply ext_knot
    · rw [hc.take_length, List.length_append, hl, List.length_replicate]; omega
    · intro i hi'
      rw [hc.take_length] at hi'
      rw [knot_take (by omega), knot_append, hl]
      split_ifs with h1
      · rw [knot_take h1, hf.knot, if_pos (by omega)]
      · rw [knot_replicate (by omega)]; exact hc.eq i (by omega) (by omega)
  · rw [← e2]
    apply ext_knot
    · rw [hc.drop_length, hlen]; simp; omega
    · intro i hi'
      rw [hc.drop_length] at hi'
      rw [knot_drop, knot_append, List.length_replicate]
      split_ifs with h1
      · rw [knot_replicate h1]; exact hc.eq _ (by omega) (by omega)
      · rw [hf.knot, if_neg (by omega), if_neg (by omega), knot_drop]; congr 1; omega

/-- `l` is a part of `s`: same degrees, dimension and kind; in direction `d` the knots `W`, all other knots the same. -/
structure IsPart (s l : Spl K) (d : ℕ) (W : List K) : Prop where
  wf : WFSpl l
  degree : l.ps.degree = s.ps.degree
  knots : l.ps.knots = s.ps.knots.set d W
  dim : l.ph.dim = s.ph.dim
  kind : s.ph.weights = none ↔ l.ph.weights = none

/-- `l` and `s` evaluate to the same values at `x` (including the weight function of a NURBS). -/
def SameValue (s l : Spl K) (x : List K) : Prop :=
  ∀ dims : List ℕ, (∀ c ∈ dims, c < s.ph.dim ∨ (c = s.ph.dim ∧ IsNurbs s)) → l.evaluate x (zl dims) = s.evaluate x (zl dims)

/-- Everything that holds for a parameter of multiplicity at most `p+1`. -/
theorem subdivide_correct {s : Spl K} (h : WFSpl s) {d : ℕ} {U : List K} {p : ℕ} (hU : s.ps.knots[d]? = some U)
    (hp : s.ps.degree[d]? = some p) {t : K} (ht : Admissible U t) (hm : U.count t ≤ p + 1) (hsz : U.length + p + 1 < 2 ^ 63)
    (hsz2 : ((npts s).set d U.length).prod < 2 ^ 64) :
    ∃ s' l r, s.subdivide t d = .ok (s', l, r) ∧ WFSpl s' ∧ SameGeometry s s' ∧
      IsPart s l d (U.filter (fun y => decide (y < t)) ++ List.replicate (p + 1) t) ∧
      IsPart s r d (List.replicate (p + 1) t ++ U.filter (fun y => decide (t < y))) ∧
      (∀ x a, x[d]? = some a → (InDomain l x ↔ InDomain s x ∧ a ≤ t)) ∧
      (∀ x a, x[d]? = some a → (InDomain r x ↔ InDomain s x ∧ t ≤ a)) ∧
      (∀ x a, x[d]? = some a → InDomain s x → a ≤ t → (a = t → U.count t ≤ p) → SameValue s l x) ∧
      (∀ x a, x[d]? = some a → InDomain s x → t ≤ a → SameValue s r x) := by
  have hw := forall₂_get h.knots hU hp
  change kvMult U t ≤ p + 1 at hm
  obtain ⟨s', l, r, e1, e2, hf⟩ := subdivide_facts h hU hp ht hm hsz hsz2
  have hk := cut_knots hw ht hm
  have hm0 := insMany_facts hw ht (p + 1 - kvMult U t)
  have hcut := hf.cut
  have hch := hcut.hi
  have hcl := hcut.lo
  have hU' : s'.ps.knots[d]? = some (insMany U t (p + 1 - kvMult U t)) := by
    rw [hf.knots, List.getElem?_set]; simp [lt_of_some hU]
  have hp' : s'.ps.degree[d]? = some p := by rw [hf.degree]; exact hp
  have hgeo := hf.same.geometry h hf.wf
  have domL : ∀ x a, x[d]? = some a → (InDomain l x ↔ InDomain s x ∧ a ≤ t) := by
    intro x a hx
    rw [← hf.same.domain x]
    unfold InDomain
    rw [hf.left.knots]
    have := dom_change (xs := x) (V := (insMany U t (p + 1 - kvMult U t)).take (spanIx U t + 1 - kvMult U t + p + 1)) hU' hx
      (by rw [hcut.left_first]) (by rw [hcut.left_last]; exact hcut.lt_last.le)
    unfold Dom at this
    rw [this, hcut.left_first, hcut.left_last]
    constructor
    · rintro ⟨a1, a2, a3⟩; exact ⟨a1, a3⟩
    · rintro ⟨a1, a2⟩; exact ⟨a1, (forall₂_get a1 hU' hx).1, a2⟩
  have domR : ∀ x a, x[d]? = some a → (InDomain r x ↔ InDomain s x ∧ t ≤ a) := by
    intro x a hx
    rw [← hf.same.domain x]
    unfold InDomain
    rw [hf.right.knots]
    have := dom_change (xs := x) (V := (insMany U t (p + 1 - kvMult U t)).drop (spanIx U t + 1 - kvMult U t)) hU' hx
      (by rw [hcut.right_first]; exact hcut.first_lt.le) (by rw [hcut.right_last])
    unfold Dom at this
    rw [this, hcut.right_first, hcut.right_last]
    constructor
    · rintro ⟨a1, a2, a3⟩; exact ⟨a1, a2⟩
    · rintro ⟨a1, a2⟩; exact ⟨a1, a2, (forall₂_get a1 hU' hx).2⟩
  refine ⟨s', l, r, e1, hf.wf, hgeo, ⟨hf.left.wf, ?_, ?_, ?_, ?_⟩, ⟨hf.right.wf, ?_, ?_, ?_, ?_⟩, domL, domR, ?_, ?_⟩
  · rw [hf.left.degree, hf.degree]
  · rw [hf.left.knots, hf.knots, List.set_set, hk.1]
  · rw [hf.left.dim, hgeo.dim]
  · rw [hgeo.kind, hf.left.kind]
  · rw [hf.right.degree, hf.degree]
  · rw [hf.right.knots, hf.knots, List.set_set, hk.2]
  · rw [hf.right.dim, hgeo.dim]
  · rw [hgeo.kind, hf.right.kind]
  · intro x a hx hxd hat hmult dims hd
    rw [← hgeo.values x hxd dims hd]
    have hxd' := (hgeo.domain x).2 hxd
    have ha : knot (insMany U t (p + 1 - kvMult U t)) 0 ≤ a := (forall₂_get hxd' hU' hx).1
    have hd' : ∀ c ∈ dims, c < s'.ph.dim ∨ (c = s'.ph.dim ∧ IsNurbs s') := by
      intro c hc
      rw [hgeo.dim, isNurbs_iff, ← hgeo.kind, ← isNurbs_iff]; exact hd c hc
    have := hf.left.sums hU' hp' hx (by
      intro F hF I hI
      have hdI : d < I.length := by
        rw [hI.length, List.length_set]; exact lt_of_some (nptsOf_get hU' hp')
      rw [hcut.take_length, show spanIx U t + 1 - kvMult U t + p + 1 - p - 1 = spanIx U t + 1 - kvMult U t by omega]
      simp only [Nat.add_zero]
      apply hcut.sum_left (f := fun i => F (I.set d i)) ha hat
      intro hat'
      have hm' : kvMult U t ≤ p := hmult hat'
      have hlast := insertKnot_last h hU hp ht (p - kvMult U t) (by omega)
      obtain ⟨s1, s2, b1, b2, b3, b4, b5, b6, b7⟩ := hlast
      have hm1 := insMany_facts hw ht (p - kvMult U t)
      rw [show p - kvMult U t + 1 = p + 1 - kvMult U t by omega, e2] at b2
      obtain rfl := Except.ok.inj b2
      have hbox : ∀ i, i < spanIx U t + 1 - kvMult U t + 1 → InBox (npts s') (I.set d i) := by
        intro i hi
        refine inBox_set_of hI ?_
        rw [npts_eq, nptsOf_ixd hU' hp']; omega
      have hg := blend_glue b7 (by rw [hm1.mult]; omega) (e := spanIx U t + 1 - kvMult U t) (by rw [hm1.span]; omega) (by omega) hdI
        (hbox _ (by omega)) (hbox _ (by omega))
      rcases hF with rfl | ⟨c, hc, rfl⟩
      · exact hg.1
      · exact hg.2 c (by rw [b6, ← hgeo.dim]; exact hc))
    exact evaluate_eq_of_sums hf.wf hf.left.wf hf.left.dim hf.left.kind hxd' ((domL x a hx).2 ⟨hxd, hat⟩) this.1 this.2 dims hd'
  · intro x a hx hxd hat dims hd
    rw [← hgeo.values x hxd dims hd]
    have hxd' := (hgeo.domain x).2 hxd
    have ha : a ≤ lastKnot (insMany U t (p + 1 - kvMult U t)) := (forall₂_get hxd' hU' hx).2
    have hd' : ∀ c ∈ dims, c < s'.ph.dim ∨ (c = s'.ph.dim ∧ IsNurbs s') := by
      intro c hc
      rw [hgeo.dim, isNurbs_iff, ← hgeo.kind, ← isNurbs_iff]; exact hd c hc
    have := hf.right.sums hU' hp' hx (by
      intro F hF I hI
      rw [hcut.drop_length]
      exact hcut.sum_right hat ha (fun i => F (I.set d i)))
    exact evaluate_eq_of_sums hf.wf hf.right.wf hf.right.dim hf.right.kind hxd' ((domR x a hx).2 ⟨hxd, hat⟩) this.1 this.2 dims hd'

/-- **C19**: subdividing a well-formed B-spline or NURBS in any direction at an admissible interior parameter of multiplicity at most
the degree succeeds. The original keeps its geometry. The first part has the knots smaller than `t` followed by `p+1` copies of `t`,
the second one `p+1` copies of `t` followed by the knots larger than `t`; both are well-formed. Their domains are the two parts of
the original domain and on these they evaluate to the same values as the original (at `t` both do). -/
theorem C19_subdivision {s : Spl K} (h : WFSpl s) {d : ℕ} {U : List K} {p : ℕ} (hU : s.ps.knots[d]? = some U)
    (hp : s.ps.degree[d]? = some p) {t : K} (ht : Admissible U t) (hm : U.count t ≤ p) (hsz : U.length + p + 1 < 2 ^ 63)
    (hsz2 : ((npts s).set d U.length).prod < 2 ^ 64) :
    ∃ s' l r, s.subdivide t d = .ok (s', l, r) ∧ WFSpl s' ∧ SameGeometry s s' ∧
      IsPart s l d (U.filter (fun y => decide (y < t)) ++ List.replicate (p + 1) t) ∧
      IsPart s r d (List.replicate (p + 1) t ++ U.filter (fun y => decide (t < y))) ∧
      (∀ x a, x[d]? = some a → (InDomain l x ↔ InDomain s x ∧ a ≤ t)) ∧
      (∀ x a, x[d]? = some a → (InDomain r x ↔ InDomain s x ∧ t ≤ a)) ∧
      (∀ x, InDomain l x → SameValue s l x) ∧ (∀ x, InDomain r x → SameValue s r x) := by
  obtain ⟨s', l, r, e1, e2, e3, e4, e5, e6, e7, e8, e9⟩ := subdivide_correct h hU hp ht (by omega) hsz hsz2
  refine ⟨s', l, r, e1, e2, e3, e4, e5, e6, e7, ?_, ?_⟩
  · intro x hx
    have hWd : l.ps.knots[d]? = some (U.filter (fun y => decide (y < t)) ++ List.replicate (p + 1) t) := by
      rw [e4.knots, List.getElem?_set]; simp [lt_of_some hU]
    obtain ⟨a, ha, _⟩ := forall₂_exists hx hWd
    obtain ⟨h1, h2⟩ := (e6 x a ha).1 hx
    exact e8 x a ha h1 h2 fun _ => hm
  · intro x hx
    have hWd : r.ps.knots[d]? = some (List.replicate (p + 1) t ++ U.filter (fun y => decide (t < y))) := by
      rw [e5.knots, List.getElem?_set]; simp [lt_of_some hU]
    obtain ⟨a, ha, _⟩ := forall₂_exists hx hWd
    obtain ⟨h1, h2⟩ := (e7 x a ha).1 hx
    exact e9 x a ha h1 h2

/-- Satisfiable, for a B-spline surface and a NURBS surface. -/
example : WFSpl exSurface ∧ WFSpl exNurbsSurface ∧ exSurface.ps.knots[0]? = some [0, 0, 0, 1/2, 1, 1, 1] ∧
    exSurface.ps.degree[0]? = some 2 ∧ Admissible ([0, 0, 0, 1/2, 1, 1, 1] : List ℚ) (1/2) ∧
    ([0, 0, 0, 1/2, 1, 1, 1] : List ℚ).count (1/2) ≤ 2 ∧ ((npts exSurface).set 0 7).prod < 2 ^ 64 :=
  ⟨exSurface_wf, exNurbsSurface_wf, rfl, rfl, by decide +kernel, by decide +kernel, by decide +kernel⟩

example : (exCurve.subdivide (1/4) 0 >>= fun a => pure (a.2.1.ps.knots, a.2.1.ph.cps, a.2.2.ps.knots, a.2.2.ph.cps)) =
    .ok ([[0, 0, 0, 1/4, 1/4, 1/4]], [0, 0, 1/2, 1, 1, 3/2], [[1/4, 1/4, 1/4, 1/2, 1, 1, 1]], [1, 3/2, 3/2, 2, 3, 2, 4, 0]) := by
  decide +kernel

/-- **C19** at a knot of multiplicity `p+1` (where the spline need not be continuous): no knot is inserted, the second part still
agrees with the original everywhere, the first part agrees for parameters smaller than `t`. -/
theorem C19_subdivision_full_multiplicity {s : Spl K} (h : WFSpl s) {d : ℕ} {U : List K} {p : ℕ} (hU : s.ps.knots[d]? = some U)
    (hp : s.ps.degree[d]? = some p) {t : K} (ht : Admissible U t) (hm : U.count t = p + 1) (hsz : U.length + p + 1 < 2 ^ 63)
    (hsz2 : ((npts s).set d U.length).prod < 2 ^ 64) :
    ∃ s' l r, s.subdivide t d = .ok (s', l, r) ∧ SameGeometry s s' ∧
      IsPart s l d (U.filter (fun y => decide (y < t)) ++ List.replicate (p + 1) t) ∧
      IsPart s r d (List.replicate (p + 1) t ++ U.filter (fun y => decide (t < y))) ∧
      (∀ x a, x[d]? = some a → InDomain s x → a < t → SameValue s l x) ∧
      (∀ x a, x[d]? = some a → InDomain s x → t ≤ a → SameValue s r x) := by
  obtain ⟨s', l, r, e1, e2, e3, e4, e5, e6, e7, e8, e9⟩ := subdivide_correct h hU hp ht (by omega) hsz hsz2
  exact ⟨s', l, r, e1, e3, e4, e5, fun x a ha hx hat => e8 x a ha hx hat.le fun hc => absurd hc (ne_of_lt hat), e9⟩

example : WFKnots ([0, 0, 1/2, 1/2, 1, 1] : List ℚ) 1 ∧ Admissible ([0, 0, 1/2, 1/2, 1, 1] : List ℚ) (1/2) ∧
    ([0, 0, 1/2, 1/2, 1, 1] : List ℚ).count (1/2) = 1 + 1 := by
  refine ⟨?_, ?_, ?_⟩ <;> decide +kernel

/-! ### Boundary parameters -/

/-- A part whose knot vector is not clamped is rejected. -/
theorem subdividePart_err {s : Spl K} (h : WFSpl s) {d : ℕ} {U W : List K} {p : ℕ} (hU : s.ps.knots[d]? = some U)
    (hp : s.ps.degree[d]? = some p) (hW : ¬ PS.clamped W p = true) (hWl : p + 1 ≤ W.length) {off : ℕ}
    (hoff : off + (W.length - p - 1) ≤ U.length - p - 1) :
    s.subdividePart (s.ps.knots.set d W) (off : ℤ) d = .error (.thrown .runtimeError) := by
  have hix : ixd (npts s) d = U.length - p - 1 := nptsOf_ixd hU hp
  have hdn : d < (npts s).length := lt_of_some (nptsOf_get hU hp)
  have hdk : d < s.ps.knots.length := lt_of_some hU
  have e1 := dividedCPs_eq h.phys (off := off) (n := W.length - p - 1) hdn (by rw [hix]; exact hoff)
  have e2 := dividedWeights_eq h.phys (off := off) (n := W.length - p - 1) hdn (by rw [hix]; exact hoff)
  have hlen : ((W.length : ℤ) - p - 1) = ((W.length - p - 1 : ℕ) : ℤ) := by omega
  have hWd : (s.ps.knots.set d W)[d]? = some W := by rw [List.getElem?_set]; simp [hdk]
  have hck : PS.checkKnots (s.ps.knots.set d W) s.ps.degree = .error (.thrown .runtimeError) := by
    apply checkKnots_err
    · rw [List.length_set]; exact h.knots.length_eq.symm
    · intro hc; exact hW (forall₂_get hc hWd hp)
  cases hw : s.ph.weights with
  | none => simp only [Spl.subdividePart, getN_some hWd, getN_some hp, ok_bind, hlen, e1, hw, Spl.newBSpline, PS.new, hck, error_bind]
  | some w => simp only [Spl.subdividePart, getN_some hWd, getN_some hp, ok_bind, hlen, e1, e2, hw, Spl.newNurbs, PS.new, hck, error_bind]

/-- The interior knots have multiplicity at most `m`. -/
def InteriorMult (U : List K) (m : ℕ) : Prop := ∀ y ∈ U, knot U 0 < y → y < lastKnot U → U.count y ≤ m

instance (U : List K) (m : ℕ) : Decidable (InteriorMult U m) := by unfold InteriorMult; infer_instance

theorem count_window_ge {U : List K} {a b : ℕ} {t : K} (hab : a ≤ b) (hb : b ≤ U.length)
    (h2 : ∀ i, a ≤ i → i < b → knot U i = t) : b - a ≤ U.count t := by
  have hsub : ((U.take b).drop a).Sublist U := (List.drop_sublist _ _).trans (List.take_sublist _ _)
  have c2 : ((U.take b).drop a).count t = b - a := by
    have hl : ((U.take b).drop a).length = b - a := by simp; omega
    rw [← hl, List.count_eq_length]
    intro y hy
    obtain ⟨i, hi, he⟩ := List.getElem_of_mem hy
    rw [hl] at hi
    rw [List.getElem_drop, List.getElem_take] at he
    rw [← he, ← h2 (a + i) (by omega) (by omega), knot_eq (by omega)]
  rw [← c2]; exact hsub.count_le t

/-- **C20**: subdivision at the first or the last knot (of multiplicity exactly `p+1`, with interior knots of multiplicity at most `p`)
throws `std::runtime_error`. The only step that changes the object, the preceding knot insertion, leaves it unchanged. -/
theorem C20_subdivision_at_boundary {s : Spl K} (h : WFSpl s) {d : ℕ} {U : List K} {p : ℕ} (hU : s.ps.knots[d]? = some U)
    (hp : s.ps.degree[d]? = some p) (he : ExactEnds U p) (hi : InteriorMult U p) {t : K} (ht : t = knot U 0 ∨ t = lastKnot U)
    (hsz : U.length < 2 ^ 63) :
    s.subdivide t d = .error (.thrown .runtimeError) ∧ s.insertKnot t d (Spl.subdivideMult p U t) = .ok s := by
  have hw := forall₂_get h.knots hU hp
  have hsize := hw.size
  have hlast : ∀ i, U.length - p - 2 < i → i < U.length → knot U i = lastKnot U := by
    intro i h1 h2
    have := hw.last (U.length - 1 - i) (by omega)
    rwa [show U.length - 1 - (U.length - 1 - i) = i by omega] at this
  have hr0 : knot U 0 ≤ t := by rcases ht with rfl | rfl; exact le_refl _; exact hw.range.le
  have hr1 : t ≤ lastKnot U := by rcases ht with rfl | rfl; exact hw.range.le; exact le_refl _
  have hspan := (hw.span hr0 hr1).1
  have hfirst := hw.first p le_rfl
  have hmult : kvMult U t = p + 1 := by
    rcases ht with rfl | rfl
    · have := count_window (U := U) (a := 0) (b := p + 1) (t := knot U 0) (by omega) (by omega) (by omega)
        (fun i _ h2 => hw.first i (by omega))
        (fun i h1 h2 => ne_of_gt (lt_of_lt_of_le (by rw [← hfirst]; exact he.1) (hw.sorted.mono h2 h1)))
      simpa [kvMult] using this
    · have := count_window (U := U) (a := U.length - p - 1) (b := U.length) (t := lastKnot U) (by omega) (by omega)
        (fun i h1 => ne_of_lt (lt_of_le_of_lt (hw.sorted.mono (by omega) (by omega)) he.2))
        (fun i h1 h2 => hlast i (by omega) h2) (fun i h1 h2 => by omega)
      unfold kvMult; rw [this]; omega
  have hsub : Spl.subdivideMult p U t = 0 := by
    unfold Spl.subdivideMult
    rw [hmult, toSizeT_of (n := 0) (by omega) (by omega)]
  have hins : s.insertKnot t d 0 = .ok s := by
    simp only [Spl.insertKnot, getN_some hU, ok_bind, getN_some hp, hspan, Spl.insertRounds, Spl.insertKnotsPS]
    rfl
  refine ⟨?_, by rw [hsub, hins]⟩
  have hspix : spanIx U t = if t = knot U 0 then p else U.length - p - 2 := by
    split_ifs with hc
    · apply spanIx_unique hw hr0 hr1 (by omega)
      left; rw [hc]; exact ⟨hfirst.le, by rw [← hfirst]; exact he.1⟩
    · have ht' : t = lastKnot U := by tauto
      apply spanIx_unique hw hr0 hr1 (by omega)
      right; rw [ht']; exact ⟨he.2, (hlast _ (by omega) (by omega)).symm, rfl⟩
  have hk : p ≤ spanIx U t ∧ spanIx U t + p + 1 < U.length := (hw.span hr0 hr1).2.2
  have hdiv : s.ps.dividedKnotVectors t d = .ok (s.ps.knots.set d (U.take (spanIx U t + 1)), s.ps.knots.set d (U.drop (spanIx U t - p))) := by
    simp only [PS.dividedKnotVectors, getN_some hU, getN_some hp, ok_bind, hspan]
    rw [show ((spanIx U t : ℤ) + 1).toNat = spanIx U t + 1 by omega,
      show ((U.length : ℤ) - ((spanIx U t : ℤ) - (p : ℤ))).toNat = U.length - (spanIx U t - p) by omega]
    rw [buildList_eq (g := fun j => knot U j) (fun i hi => by rw [getI_getD (by omega) 0]; rfl), ok_bind, map_knot_take (by omega)]
    rw [buildList_eq (g := fun j => knot U (spanIx U t - p + j)) (fun i hi => by
      rw [show ((spanIx U t : ℤ) - (p : ℤ) + (i : ℤ)) = ((spanIx U t - p + i : ℕ) : ℤ) by omega, getI_getD (by omega) 0]; rfl), ok_bind,
      map_knot_drop]
    rfl
  have htl : (U.take (spanIx U t + 1)).length = spanIx U t + 1 := by simp; omega
  have hnc : ¬ PS.clamped (U.take (spanIx U t + 1)) p = true := by
    rw [clamped_iff, htl]
    rintro ⟨c1, c2, c3⟩
    split_ifs at hspix with hc
    · omega
    · have hall : ∀ i, spanIx U t - p ≤ i → i < spanIx U t + 1 → knot U i = knot U (spanIx U t) := by
        intro i h1 h2
        have := c3 (spanIx U t - i) (by omega)
        unfold lastKnot at this
        rw [htl, knot_take (by omega), knot_take (by omega), show spanIx U t + 1 - 1 - (spanIx U t - i) = i by omega] at this
        exact this
      have h1 := count_window_ge (U := U) (a := spanIx U t - p) (b := spanIx U t + 1) (t := knot U (spanIx U t)) (by omega) (by omega) hall
      have h2 := hi (knot U (spanIx U t)) (knot_mem (by omega)) ?_ ?_
      · omega
      · have := hw.sorted.mono (i := p + 1) (j := spanIx U t) (by omega) (by omega)
        exact lt_of_lt_of_le (by rw [← hfirst]; exact he.1) this
      · rw [hspix]; exact he.2
  have hpart := subdividePart_err h hU hp hnc (by rw [htl]; omega) (off := 0) (by rw [htl]; omega)
  simp only [Spl.subdivide, getN_some hU, getN_some hp, ok_bind, hsub, hins, hdiv]
  rw [show (0 : ℤ) = ((0 : ℕ) : ℤ) from rfl, hpart]
  rfl

example : WFSpl exSurface ∧ exSurface.ps.knots[0]? = some [0, 0, 0, 1/2, 1, 1, 1] ∧ exSurface.ps.degree[0]? = some 2 ∧
    ExactEnds ([0, 0, 0, 1/2, 1, 1, 1] : List ℚ) 2 ∧ InteriorMult ([0, 0, 0, 1/2, 1, 1, 1] : List ℚ) 2 := by
  refine ⟨exSurface_wf, rfl, rfl, ?_, ?_⟩ <;> decide +kernel

/-- The restriction on interior multiplicities is needed: with an interior knot of multiplicity `p+1` the subdivision at the last knot
returns two parts, the first of which ends at the interior knot. -/
theorem C20_interior_multiplicity_needed :
    ∃ s : Spl ℚ, Spl.newBSpline [[0, 0, 1/2, 1/2, 1, 1]] [1] [[0], [1], [5], [6]] = .ok s ∧
      (s.subdivide 1 0 >>= fun a => pure (a.2.1.ps.knots, a.2.2.ps.knots)) = .ok ([[0, 0, 1/2, 1/2]], [[1/2, 1/2, 1, 1]]) :=
  ⟨⟨⟨[[0, 0, 1/2, 1/2, 1, 1]], [1], mkTable [[0, 0, 1/2, 1/2, 1, 1]] [1]⟩, ⟨1, [4], [0, 1, 5, 6], none⟩⟩, by decide +kernel, by decide +kernel⟩

end SplineLib
