import Verif.Model.RoundedSubdivision
import Verif.Props.RoundedInsertion
import Verif.Props.Subdivision

/-!
# Subdivision with rounded arithmetic

With exact numbers subdivision splits a spline into two parts of the same geometry (C19). In floating point arithmetic the parts agree with
each other at the cut, and with the original up to the rounding errors of the insertion of knots.
-/

namespace SplineLib
set_option linter.unusedSectionVars false
open Finset Rounding
variable {K : Type} [Field K] [LinearOrder K] [IsStrictOrderedRing K]

/-- Rounded objects with the same data as an exact one. -/
structure SameData (s s' : Spl K) : Prop where
  knots : s'.ps.knots = s.ps.knots
  degree : s'.ps.degree = s.ps.degree
  ph : s'.ph = s.ph

theorem SameData.npts {s s' : Spl K} (h : SameData s s') : SplineLib.npts s' = SplineLib.npts s := by
  rw [npts_eq, npts_eq, h.knots, h.degree]

theorem SameData.cpt {s s' : Spl K} (h : SameData s s') : SplineLib.cpt s' = SplineLib.cpt s := by
  funext I c; unfold SplineLib.cpt; rw [h.npts, h.ph]

theorem SameData.wgt {s s' : Spl K} (h : SameData s s') : SplineLib.wgt s' = SplineLib.wgt s := by
  funext I; unfold SplineLib.wgt; rw [h.npts, h.ph]

theorem SameData.sum {s s' : Spl K} (h : SameData s s') (x : List K) (F : List ℕ → K) : tensorSum s' x F = tensorSum s x F := by
  unfold tensorSum; rw [h.npts, h.knots, h.degree]

theorem fl_subdividePart (r : Rounding K) {s q : Spl K} {kn : List (List K)} {off n : ℤ} {d : ℕ}
    (e : (exactOf s).subdividePart kn off d = .ok (q, n)) (hq : WFSpl q) :
    ∃ q', Fl.subdividePart r s kn off d = .ok (q', n) ∧ SameData q q' ∧ Fl.WF r q' := by
  have hph : (exactOf s).ph = s.ph := rfl
  have hdg : (exactOf s).ps.degree = s.ps.degree := rfl
  have hcp : ∀ q' : Spl K, Fl.WF r q' → Fl.copy r q' = .ok q' := by
    intro q' hq'
    simp only [Fl.copy, Fl.copyPS, hq'.basis, ok_bind, pure_ok]
  have hcopy : ∀ {q0 : Spl K}, PS.basisTable q0.ps.knots q0.ps.degree = .ok q0.ps.basis → q0.copy = .ok q → q0 = q := by
    intro q0 hb hc
    simp only [Spl.copy, PS.copy, hb, ok_bind, pure_ok] at hc
    exact Except.ok.inj hc
  simp only [Spl.subdividePart, hph, hdg] at e
  obtain ⟨U, e1, e⟩ := bind_eq_ok.1 e
  obtain ⟨p, e2, e⟩ := bind_eq_ok.1 e
  obtain ⟨pts, e3, e⟩ := bind_eq_ok.1 e
  have hnew : ∀ {tmp ps : PS K} {degree}, PS.new kn degree = .ok tmp → tmp.copy = .ok ps → PS.basisTable ps.knots ps.degree = .ok ps.basis := by
    intro tmp ps degree _ h2
    simp only [PS.copy] at h2
    obtain ⟨b', c3, h2⟩ := bind_eq_ok.1 h2
    cases h2
    exact c3
  cases hw : s.ph.weights with
  | none =>
    rw [hw] at e
    simp only at e
    obtain ⟨q0, e4, e⟩ := bind_eq_ok.1 e
    obtain ⟨q1, e5, e⟩ := bind_eq_ok.1 e
    cases e
    have hb : PS.basisTable q0.ps.knots q0.ps.degree = .ok q0.ps.basis := by
      have h := e4
      simp only [Spl.newBSpline] at h
      obtain ⟨tmp, h1, h⟩ := bind_eq_ok.1 h
      obtain ⟨ps, h2, h⟩ := bind_eq_ok.1 h
      obtain ⟨ph, h3, h⟩ := bind_eq_ok.1 h
      cases h
      exact hnew h1 h2
    obtain rfl := hcopy hb e5
    obtain ⟨q', a1, a2, a3, a4, a5⟩ := (C70_constructors r (weights := []) hq).1 e4
    refine ⟨q', ?_, ⟨a2, a3, a4⟩, a5⟩
    simp only [Fl.subdividePart, e1, e2, e3, ok_bind, hw, a1, hcp q' a5, pure_ok]
  | some w =>
    rw [hw] at e
    simp only at e
    obtain ⟨ws, e6, e⟩ := bind_eq_ok.1 e
    obtain ⟨q0, e4, e⟩ := bind_eq_ok.1 e
    obtain ⟨q1, e5, e⟩ := bind_eq_ok.1 e
    cases e
    have hb : PS.basisTable q0.ps.knots q0.ps.degree = .ok q0.ps.basis := by
      have h := e4
      simp only [Spl.newNurbs] at h
      obtain ⟨tmp, h1, h⟩ := bind_eq_ok.1 h
      obtain ⟨ps, h2, h⟩ := bind_eq_ok.1 h
      obtain ⟨ph, h3, h⟩ := bind_eq_ok.1 h
      cases h
      exact hnew h1 h2
    obtain rfl := hcopy hb e5
    obtain ⟨q', a1, a2, a3, a4, a5⟩ := (C70_constructors r (weights := ws) hq).2 e4
    refine ⟨q', ?_, ⟨a2, a3, a4⟩, a5⟩
    simp only [Fl.subdividePart, e1, e2, e3, e6, ok_bind, hw, a1, hcp q' a5, pure_ok]

theorem fl_dividedKnotVectors (r : Rounding K) {ps : PS K} {d : ℕ} {V : List K} {p e : ℕ} {t : K} (hV : ps.knots[d]? = some V)
    (hp : ps.degree[d]? = some p) (hc : Cut V p e t) :
    Fl.dividedKnotVectors r ps t d = .ok (ps.knots.set d (V.take (e + p + 1)), ps.knots.set d (V.drop e)) := by
  rw [← dividedKnotVectors_eq hV hp hc]
  simp only [Fl.dividedKnotVectors, PS.dividedKnotVectors, getN_some hV, getN_some hp, ok_bind]
  rw [fl_span hc.wf hc.first_lt.le hc.lt_last.le, (hc.wf.span hc.first_lt.le hc.lt_last.le).1]

/-- Several rounded insertions, with the last round. -/
theorem fl_insertKnot_many (r : Rounding K) {s : Spl K} (h : Fl.WF r s) (hr : s.ph.weights = none ∨ r.rnd 1 = 1) {d : ℕ} {U : List K} {p : ℕ}
    (hU : s.ps.knots[d]? = some U) (hp : s.ps.degree[d]? = some p) {t : K} (ht : Admissible U t) (m : ℕ) (hsz : U.length + m < 2 ^ 63) :
    ∃ s', Fl.insertKnot r s t d m = .ok s' ∧ Fl.WF r s' ∧ s'.ps.degree = s.ps.degree ∧ s'.ps.knots = s.ps.knots.set d (insMany U t m) ∧
      s'.ph.dim = s.ph.dim ∧ (s.ph.weights = none ↔ s'.ph.weights = none) ∧
      (m = 0 ∨ ∃ s1, s1.ph.dim = s.ph.dim ∧ (s1.ph.weights = none ↔ s.ph.weights = none) ∧ FlInsBlend r s1 s' d (insMany U t (m - 1)) p t) := by
  have hw := forall₂_get h.knots hU hp
  have hf := insMany_facts hw ht
  induction m with
  | zero =>
    refine ⟨s, ?_, h, rfl, (set_same hU).symm, rfl, Iff.rfl, Or.inl rfl⟩
    simp only [Fl.insertKnot, getN_some hU, ok_bind, getN_some hp, fl_span hw ht.lo.le ht.hi.le, Fl.insertRounds, Fl.insertKnotsPS]
    rfl
  | succ m ih =>
    obtain ⟨s1, e1, w1, d1, k1, n1, b1, _⟩ := ih (by omega)
    have hk1 : s1.ps.knots[d]? = some (insMany U t m) := by
      rw [k1, List.getElem?_set]; simp [lt_of_some hU]
    have hd1 : s1.ps.degree[d]? = some p := by rw [d1]; exact hp
    obtain ⟨s2, e2, w2, d2, k2, n2, b2, f2⟩ := fl_insertKnot_one w1 hk1 hd1 (hf m).adm (by rw [(hf m).length]; omega) (by rw [← b1]; exact hr)
    refine ⟨s2, ?_, w2, d2.trans d1, ?_, n2.trans n1, b1.trans b2, Or.inr ⟨s1, n1, b1.symm, f2⟩⟩
    · rw [fl_insertKnot_succ hw hU hp ht (by omega) e1 hk1 hd1, e2]
    · rw [k2, k1, List.set_set]; rfl

/-- The coefficients on both sides of the cut agree, also with rounding. -/
theorem fl_blend_glue (r : Rounding K) {s1 s' : Spl K} {d : ℕ} {U' : List K} {p e : ℕ} {t : K} (h : FlInsBlend r s1 s' d U' p t)
    (hkind : s1.ph.weights = none ↔ s'.ph.weights = none) (hp : kvMult U' t = p)
    (hspan : spanIx U' t + 1 - p = e) (he : 0 < e) {I : List ℕ} (hd : d < I.length) (hI1 : InBox (npts s') (I.set d (e - 1)))
    (hI2 : InBox (npts s') (I.set d e)) :
    wgt s' (I.set d (e - 1)) = wgt s' (I.set d e) ∧ ∀ c < s1.ph.dim, cpt s' (I.set d (e - 1)) c = cpt s' (I.set d e) c := by
  have hB : ∀ F : List ℕ → K, flBlendDir r d (spanIx U' t + 1 - p) (spanIx U' t - kvMult U' t) (flα r U' p t) F (I.set d (e - 1)) =
      flBlendDir r d (spanIx U' t + 1 - p) (spanIx U' t - kvMult U' t) (flα r U' p t) F (I.set d e) := by
    intro F
    unfold flBlendDir
    rw [ixd_set_self hd, ixd_set_self hd, hp, if_neg (by omega), if_neg (by omega), if_pos (by omega), List.set_set]
  have hP : ∀ F G : List ℕ → K, flNewPw r d (spanIx U' t + 1 - p) (spanIx U' t - kvMult U' t) (flα r U' p t) F G (I.set d (e - 1)) =
      flNewPw r d (spanIx U' t + 1 - p) (spanIx U' t - kvMult U' t) (flα r U' p t) F G (I.set d e) := by
    intro F G
    unfold flNewPw
    rw [ixd_set_self hd, ixd_set_self hd, hp, if_neg (by omega), if_neg (by omega), if_pos (by omega), List.set_set]
  refine ⟨?_, fun c hc => ?_⟩
  · cases hw : s1.ph.weights with
    | none =>
      have := hkind.1 hw
      simp [wgt, this]
    | some w => rw [(h _ hI1).1 w hw, (h _ hI2).1 w hw, hB]
  · rw [(h _ hI1).2 c hc, (h _ hI2).2 c hc]
    unfold flNewP
    rw [hP, hB]

/-- `l` is a rounded part of `s`: the knots `W` in direction `d`; degrees, dimension and kind are those of `s`, the control points are some of those of
`s'` with their weights. -/
structure FlPart (r : Rounding K) (s s' l : Spl K) (d : ℕ) (W : List K) : Prop where
  wf : Fl.WF r l
  degree : l.ps.degree = s.ps.degree
  knots : l.ps.knots = s.ps.knots.set d W
  dim : l.ph.dim = s.ph.dim
  kind : s.ph.weights = none ↔ l.ph.weights = none
  points : ∀ I, InBox (npts l) I → ∃ J, InBox (npts s') J ∧ wgt l I = wgt s' J ∧ ∀ c < s.ph.dim, cpt l I c = cpt s' J c

/-- `l` and `s` have the same value at `x` in exact arithmetic: the same weight function and the same homogeneous coordinates. -/
structure SamePoint (s l : Spl K) (x : List K) : Prop where
  weight : weightValue l x = weightValue s x
  point : ∀ c < s.ph.dim, tensorSum l x (fun I => wgt l I * cpt l I c) = tensorSum s x (fun I => wgt s I * cpt s I c)

theorem SamePoint.nurbs {s l : Spl K} {x : List K} (h : SamePoint s l x) {c : ℕ} (hc : c < s.ph.dim) : nurbsValue l x c = nurbsValue s x c := by
  unfold nurbsValue; rw [h.point c hc, h.weight]

theorem bsplineValue_sum {s : Spl K} (hb : IsBSpline s) (x : List K) (c : ℕ) :
    tensorSum s x (fun I => wgt s I * cpt s I c) = bsplineValue s x c := by
  unfold bsplineValue
  congr 1
  funext I
  rw [wgt, show s.ph.weights = none from hb, one_mul]

theorem SamePoint.bspline {s l : Spl K} {x : List K} (h : SamePoint s l x) (hb : IsBSpline s) (hl : IsBSpline l) {c : ℕ} (hc : c < s.ph.dim) :
    bsplineValue l x c = bsplineValue s x c := by
  rw [← bsplineValue_sum hl, ← bsplineValue_sum hb]; exact h.point c hc

/-- **C100**: `SudivideSpline` in rounded arithmetic. The original becomes what `InsertKnot` makes of it; the knots and the domains of the parts are
the ones of exact arithmetic; the parts are exactly the same function as the changed original on their domains, so at the cut they fit together
without a gap. -/
theorem C100_subdivision (r : Rounding K) {s : Spl K} (h : Fl.WF r s) (hr : IsBSpline s ∨ r.rnd 1 = 1) {d : ℕ} {U : List K} {p : ℕ}
    (hU : s.ps.knots[d]? = some U) (hp : s.ps.degree[d]? = some p) {t : K} (ht : Admissible U t) (hm : U.count t ≤ p)
    (hsz : U.length + p + 1 < 2 ^ 63) (hsz2 : ((npts s).set d U.length).prod < 2 ^ 64) :
    ∃ s' l q, Fl.subdivide r s t d = .ok (s', l, q) ∧ Fl.insertKnot r s t d (p + 1 - U.count t) = .ok s' ∧ Fl.WF r s' ∧
      s'.ph.dim = s.ph.dim ∧ (s.ph.weights = none ↔ s'.ph.weights = none) ∧
      FlPart r s s' l d (U.filter (fun y => decide (y < t)) ++ List.replicate (p + 1) t) ∧
      FlPart r s s' q d (List.replicate (p + 1) t ++ U.filter (fun y => decide (t < y))) ∧
      (∀ x a, x[d]? = some a → (InDomain l x ↔ InDomain s x ∧ a ≤ t)) ∧
      (∀ x a, x[d]? = some a → (InDomain q x ↔ InDomain s x ∧ t ≤ a)) ∧
      (∀ x, InDomain l x → SamePoint s' l x) ∧ (∀ x, InDomain q x → SamePoint s' q x) := by
  have hw := forall₂_get h.knots hU hp
  have hm' : kvMult U t ≤ p := hm
  have hcut := cut_of_insMany hw ht (show kvMult U t ≤ p + 1 by omega)
  have hk := cut_knots hw ht (show kvMult U t ≤ p + 1 by omega)
  have hmu : U.count t = kvMult U t := rfl
  rw [hmu]
  obtain ⟨s', e1, w1, d1, k1, n1, b1, l1⟩ := fl_insertKnot_many r h hr hU hp ht (p + 1 - kvMult U t) (by omega)
  have hf := insMany_facts hw ht (p + 1 - kvMult U t)
  have hm1 := insMany_facts hw ht (p - kvMult U t)
  obtain ⟨hi, hlt, hmk, _, _⟩ := ht.pos hw
  have hh := hi.hi
  have hlenV := hf.length
  have hfst := hf.first
  have hlst := hf.last
  have hsp1 := hm1.span
  have hmu1 := hm1.mult
  obtain ⟨s1, n2, b2, f2⟩ : ∃ s1, s1.ph.dim = s.ph.dim ∧ (s1.ph.weights = none ↔ s.ph.weights = none) ∧
      FlInsBlend r s1 s' d (insMany U t (p - kvMult U t)) p t := by
    rcases l1 with l1 | ⟨s1, a1, a2, a3⟩
    · omega
    · exact ⟨s1, a1, a2, by rwa [show p + 1 - kvMult U t - 1 = p - kvMult U t by omega] at a3⟩
  generalize hVe : insMany U t (p + 1 - kvMult U t) = V at *
  generalize hee : spanIx U t + 1 - kvMult U t = e at *
  have hch := hcut.hi
  have hcl := hcut.lo
  have hdn : d < (npts s).length := lt_of_some (nptsOf_get hU hp)
  have hk1 : s'.ps.knots[d]? = some V := by rw [k1, List.getElem?_set]; simp [lt_of_some hU]
  have hd1 : s'.ps.degree[d]? = some p := by rw [d1]; exact hp
  have hn1 : npts s' = (npts s).set d (V.length - p - 1) := by rw [npts_eq, k1, d1, nptsOf_set _ hp]; rfl
  have hne : npts (exactOf s') = npts s' := rfl
  have hprod : ∀ n, n ≤ U.length → ((npts (exactOf s')).set d n).prod < 2 ^ 64 := by
    intro n hn
    rw [hne, hn1, List.set_set, prod_set hdn]
    rw [prod_set hdn] at hsz2
    exact lt_of_le_of_lt (Nat.mul_le_mul_right _ hn) hsz2
  obtain ⟨L, L1, L2⟩ := subdividePart_eq w1.exact (s := exactOf s') hk1 hd1 hcut.left_wf (off := 0) (by rw [hcut.take_length]; omega)
    (by rw [hcut.take_length]; exact hprod _ (by omega))
  obtain ⟨R, R1, R2⟩ := subdividePart_eq w1.exact (s := exactOf s') hk1 hd1 hcut.right_wf (off := e) (by rw [hcut.drop_length]; omega)
    (by rw [hcut.drop_length]; exact hprod _ (by omega))
  obtain ⟨l, l1', l2, l3⟩ := fl_subdividePart r L1 L2.wf
  obtain ⟨q, q1, q2, q3⟩ := fl_subdividePart r R1 R2.wf
  have hdoms : ∀ x, InDomain s' x ↔ InDomain s x := fun x => by
    unfold InDomain; rw [k1]; exact dom_set hU hfst hlst
  have hkl : l.ps.knots = s'.ps.knots.set d (V.take (e + p + 1)) := l2.knots.trans L2.knots
  have hkq : q.ps.knots = s'.ps.knots.set d (V.drop e) := q2.knots.trans R2.knots
  have domL : ∀ x a, x[d]? = some a → (InDomain l x ↔ InDomain s x ∧ a ≤ t) := by
    intro x a hx
    rw [← hdoms x]
    unfold InDomain
    rw [hkl]
    have := dom_change (xs := x) (V := V.take (e + p + 1)) hk1 hx (by rw [hcut.left_first]) (by rw [hcut.left_last]; exact hcut.lt_last.le)
    unfold Dom at this
    rw [this, hcut.left_first, hcut.left_last]
    constructor
    · rintro ⟨a1, a2, a3⟩; exact ⟨a1, a3⟩
    · rintro ⟨a1, a2⟩; exact ⟨a1, (forall₂_get a1 hk1 hx).1, a2⟩
  have domQ : ∀ x a, x[d]? = some a → (InDomain q x ↔ InDomain s x ∧ t ≤ a) := by
    intro x a hx
    rw [← hdoms x]
    unfold InDomain
    rw [hkq]
    have := dom_change (xs := x) (V := V.drop e) hk1 hx (by rw [hcut.right_first]; exact hcut.first_lt.le) (by rw [hcut.right_last])
    unfold Dom at this
    rw [this, hcut.right_first, hcut.right_last]
    constructor
    · rintro ⟨a1, a2, a3⟩; exact ⟨a1, a2⟩
    · rintro ⟨a1, a2⟩; exact ⟨a1, a2, (forall₂_get a1 hk1 hx).2⟩
  have hsm : Spl.subdivideMult p U t = p + 1 - kvMult U t := by
    unfold Spl.subdivideMult
    rw [toSizeT_of (n := p + 1 - kvMult U t) (by omega) (by omega)]
  have hix : ixd (npts s') d = V.length - p - 1 := nptsOf_ixd hk1 hd1
  have hdn' : d < (npts (exactOf s')).length := lt_of_some (nptsOf_get hk1 hd1)
  refine ⟨s', l, q, ?_, e1, w1, n1, b1, ⟨l3, ?_, ?_, ?_, ?_, ?_⟩, ⟨q3, ?_, ?_, ?_, ?_, ?_⟩, domL, domQ, ?_, ?_⟩
  · simp only [Fl.subdivide, getN_some hU, getN_some hp, ok_bind, hsm, e1, fl_dividedKnotVectors r hk1 hd1 hcut]
    rw [show (0 : ℤ) = ((0 : ℕ) : ℤ) from rfl, show s'.ps.knots = (exactOf s').ps.knots from rfl, l1', ok_bind]
    simp only
    rw [hcut.take_length, show e + p + 1 - p - 1 = e by omega, q1]
    rfl
  · rw [l2.degree, L2.degree]; exact d1
  · rw [hkl, k1, List.set_set, hk.1]
  · rw [l2.ph, L2.dim]; exact n1
  · rw [l2.ph, ← L2.kind]; exact b1
  · intro I hI
    rw [l2.npts] at hI
    refine ⟨shiftIx d 0 I, ?_, ?_, fun c hc => ?_⟩
    · have hI' := hI
      rw [npts_eq, L2.knots, L2.degree, nptsOf_set _ (ps := (exactOf s').ps.degree) hd1] at hI'
      exact shiftIx_inBox hdn' hI' (by rw [hix, hcut.take_length]; omega)
    · rw [l2.wgt]; exact L2.wgt I hI
    · rw [l2.cpt]; exact L2.cpt I hI c (by rw [show (exactOf s').ph.dim = s.ph.dim from n1]; exact hc)
  · rw [q2.degree, R2.degree]; exact d1
  · rw [hkq, k1, List.set_set, hk.2]
  · rw [q2.ph, R2.dim]; exact n1
  · rw [q2.ph, ← R2.kind]; exact b1
  · intro I hI
    rw [q2.npts] at hI
    refine ⟨shiftIx d e I, ?_, ?_, fun c hc => ?_⟩
    · have hI' := hI
      rw [npts_eq, R2.knots, R2.degree, nptsOf_set _ (ps := (exactOf s').ps.degree) hd1] at hI'
      exact shiftIx_inBox hdn' hI' (by rw [hix, hcut.drop_length]; omega)
    · rw [q2.wgt]; exact R2.wgt I hI
    · rw [q2.cpt]; exact R2.cpt I hI c (by rw [show (exactOf s').ph.dim = s.ph.dim from n1]; exact hc)
  · intro x hx
    have hWd : l.ps.knots[d]? = some (V.take (e + p + 1)) := by rw [hkl, List.getElem?_set]; simp [lt_of_some hk1]
    obtain ⟨a, ha, _⟩ := forall₂_exists hx hWd
    obtain ⟨h1, hat⟩ := (domL x a ha).1 hx
    have h0 : knot V 0 ≤ a := (forall₂_get ((hdoms x).2 h1) hk1 ha).1
    have := L2.sums (s := exactOf s') hk1 hd1 ha (by
      intro F hF I hI
      have hdI : d < I.length := by
        rw [hI.length, List.length_set]; exact lt_of_some (nptsOf_get hk1 hd1)
      rw [hcut.take_length, show e + p + 1 - p - 1 = e by omega]
      simp only [Nat.add_zero]
      apply hcut.sum_left (f := fun i => F (I.set d i)) h0 hat
      intro _
      have hbox : ∀ i, i < e + 1 → InBox (npts s') (I.set d i) := by
        intro i hi'
        refine inBox_set_of hI ?_
        rw [npts_eq, nptsOf_ixd hk1 hd1]; omega
      have hg := fl_blend_glue r f2 (b2.trans b1) (by rw [hmu1]; omega) (e := e) (by rw [hsp1]; omega) (by omega) hdI
        (hbox _ (by omega)) (hbox _ (by omega))
      rcases hF with rfl | ⟨c, hc, rfl⟩
      · exact hg.1
      · show wgt s' _ * cpt s' _ c = wgt s' _ * cpt s' _ c
        rw [hg.1, hg.2 c (by rw [n2, ← n1]; exact hc)])
    refine ⟨?_, fun c hc => ?_⟩
    · unfold weightValue
      rw [l2.sum, l2.wgt]; exact this.1
    · rw [l2.sum, l2.wgt, l2.cpt]; exact this.2 c hc
  · intro x hx
    have hWd : q.ps.knots[d]? = some (V.drop e) := by rw [hkq, List.getElem?_set]; simp [lt_of_some hk1]
    obtain ⟨a, ha, _⟩ := forall₂_exists hx hWd
    obtain ⟨h1, hat⟩ := (domQ x a ha).1 hx
    have h0 : a ≤ lastKnot V := (forall₂_get ((hdoms x).2 h1) hk1 ha).2
    have := R2.sums (s := exactOf s') hk1 hd1 ha (by
      intro F hF I hI
      rw [hcut.drop_length]
      exact hcut.sum_right hat h0 (fun i => F (I.set d i)))
    refine ⟨?_, fun c hc => ?_⟩
    · unfold weightValue
      rw [q2.sum, q2.wgt]; exact this.1
    · rw [q2.sum, q2.wgt, q2.cpt]; exact this.2 c hc

/-- **C100**: the two parts fit together exactly at the cut, although the arithmetic is rounded. -/
theorem C100_parts_meet (r : Rounding K) {s : Spl K} (h : Fl.WF r s) (hr : IsBSpline s ∨ r.rnd 1 = 1) {d : ℕ} {U : List K} {p : ℕ}
    (hU : s.ps.knots[d]? = some U) (hp : s.ps.degree[d]? = some p) {t : K} (ht : Admissible U t) (hm : U.count t ≤ p)
    (hsz : U.length + p + 1 < 2 ^ 63) (hsz2 : ((npts s).set d U.length).prod < 2 ^ 64) :
    ∃ s' l q, Fl.subdivide r s t d = .ok (s', l, q) ∧ ∀ x, InDomain s x → x[d]? = some t → InDomain l x ∧ InDomain q x ∧ ∀ c < s.ph.dim,
      (IsBSpline s → bsplineValue l x c = bsplineValue q x c) ∧ nurbsValue l x c = nurbsValue q x c := by
  obtain ⟨s', l, q, e1, _, _, n1, b1, l1, q1, dl, dq, vl, vq⟩ := C100_subdivision r h hr hU hp ht hm hsz hsz2
  refine ⟨s', l, q, e1, fun x hx hxt => ?_⟩
  have hl := (dl x t hxt).2 ⟨hx, le_refl t⟩
  have hq := (dq x t hxt).2 ⟨hx, le_refl t⟩
  refine ⟨hl, hq, fun c hc => ⟨fun hb => ?_, ?_⟩⟩
  · rw [(vl x hl).bspline (b1.1 hb) (l1.kind.1 hb) (by rw [n1]; exact hc), (vq x hq).bspline (b1.1 hb) (q1.kind.1 hb) (by rw [n1]; exact hc)]
  · rw [(vl x hl).nurbs (by rw [n1]; exact hc), (vq x hq).nurbs (by rw [n1]; exact hc)]

/-- **C100**: the parts of a B-spline, evaluated in floating point arithmetic. On its domain each part returns the points of the original up to the errors
of `p + 1 - m` insertions and of one evaluation. -/
theorem C100_bspline (r : Rounding K) {s : Spl K} (h : Fl.WF r s) (hb : IsBSpline s) {d : ℕ} {U : List K} {p : ℕ}
    (hU : s.ps.knots[d]? = some U) (hp : s.ps.degree[d]? = some p) {t : K} (ht : Admissible U t) (hm : U.count t ≤ p)
    (hsz : U.length + p + 1 < 2 ^ 63) (hsz2 : ((npts s).set d U.length).prod < 2 ^ 64) :
    ∃ s' l q, Fl.subdivide r s t d = .ok (s', l, q) ∧ ∀ x a, InDomain s x → x[d]? = some a → ∀ part, (part = l ∧ a ≤ t) ∨ (part = q ∧ t ≤ a) →
      ∀ B, (∀ c < s.ph.dim, ∀ I, InBox (npts s) I → |cpt s I c| ≤ B) →
      (∀ c < s.ph.dim, |bsplineValue part x c - bsplineValue s x c| ≤ ((1 + 3 * growth r 6) ^ (p + 1 - U.count t) - 1) * B) ∧
      ∀ dims : List ℕ, (∀ c ∈ dims, c < s.ph.dim) → ∃ v, Fl.evaluate r part x (zl dims) = .ok v ∧ List.Forall₂ (fun c a => |a - bsplineValue s x c| ≤
        ((1 + growth r (basisSteps s.ps.degree + 1 + (s.ps.degree.map (· + 1)).prod)) * (1 + 3 * growth r 6) ^ (p + 1 - U.count t) - 1) * B) dims v := by
  obtain ⟨s', l, q, e1, e2, _, n1, b1, l1, q1, dl, dq, vl, vq⟩ := C100_subdivision r h (Or.inl hb) hU hp ht hm hsz hsz2
  obtain ⟨s'', V, f1, _, _, _, _, _, g⟩ := C76_insert_bspline r h hb hU hp ht (p + 1 - U.count t) (by omega)
  obtain rfl : s'' = s' := Except.ok.inj (f1.symm.trans e2)
  refine ⟨s'', l, q, e1, fun x a hx hxa part hpart B hB => ?_⟩
  obtain ⟨W, P, D, S⟩ : ∃ W, FlPart r s s'' part d W ∧ InDomain part x ∧ SamePoint s'' part x := by
    rcases hpart with ⟨rfl, hat⟩ | ⟨rfl, hat⟩
    · have := (dl x a hxa).2 ⟨hx, hat⟩
      exact ⟨_, l1, this, vl x this⟩
    · have := (dq x a hxa).2 ⟨hx, hat⟩
      exact ⟨_, q1, this, vq x this⟩
  have hv : ∀ c < s.ph.dim, |bsplineValue part x c - bsplineValue s x c| ≤ ((1 + 3 * growth r 6) ^ (p + 1 - U.count t) - 1) * B := by
    intro c hc
    rw [S.bspline (b1.1 hb) (P.kind.1 hb) (by rw [n1]; exact hc)]
    exact g.values c hc B (hB c hc) x hx
  refine ⟨hv, fun dims hd => ?_⟩
  obtain ⟨v, a1, a2⟩ := C70_bspline_uniform r P.wf (P.kind.1 hb) D dims (fun c hc => by rw [P.dim]; exact hd c hc)
    (B := (1 + 3 * growth r 6) ^ (p + 1 - U.count t) * B) (fun c hc I hI => by
      obtain ⟨J, hJ, _, hcp⟩ := P.points I hI
      rw [hcp c (hd c hc)]
      exact g.size c (hd c hc) B (hB c (hd c hc)) J hJ)
  refine ⟨v, a1, ?_⟩
  refine List.Forall₂.imp ?_ (forall₂_mem a2)
  rintro c b ⟨hc, hca⟩
  have h2 := hv c (hd c hc)
  rw [P.degree] at hca
  have h3 := abs_sub_le b (bsplineValue part x c) (bsplineValue s x c)
  linarith

/-- **C100**: the parts of a NURBS. -/
theorem C100_nurbs (r : Rounding K) (hr : r.rnd 1 = 1) {s : Spl K} (h : Fl.WF r s) (hn : IsNurbs s) {d : ℕ} {U : List K} {p : ℕ}
    (hU : s.ps.knots[d]? = some U) (hp : s.ps.degree[d]? = some p) {t : K} (ht : Admissible U t) (hm : U.count t ≤ p)
    (hsz : U.length + p + 1 < 2 ^ 63) (hsz2 : ((npts s).set d U.length).prod < 2 ^ 64) {w W e : K}
    (he : e = (1 + 3 * growth r 8) ^ (p + 1 - U.count t) - 1) (hwW : ∀ I, InBox (npts s) I → w ≤ wgt s I ∧ wgt s I ≤ W) (hsmall : e * W < w) :
    ∃ s' l q, Fl.subdivide r s t d = .ok (s', l, q) ∧ ∀ x a, InDomain s x → x[d]? = some a → ∀ part, (part = l ∧ a ≤ t) ∨ (part = q ∧ t ≤ a) →
      ∀ c < s.ph.dim, ∀ B, (∀ I, InBox (npts s) I → |cpt s I c| ≤ B) → |nurbsValue part x c - nurbsValue s x c| ≤ 2 * e * W / (w - e * W) * B := by
  obtain ⟨s', l, q, e1, e2, _, n1, b1, l1, q1, dl, dq, vl, vq⟩ := C100_subdivision r h (Or.inr hr) hU hp ht hm hsz hsz2
  obtain ⟨s'', V, f1, _, _, _, _, _, g⟩ := C76_insert_nurbs r hr h hn hU hp ht (p + 1 - U.count t) (by omega)
  obtain rfl : s'' = s' := Except.ok.inj (f1.symm.trans e2)
  refine ⟨s'', l, q, e1, fun x a hx hxa part hpart c hc B hB => ?_⟩
  have S : SamePoint s'' part x := by
    rcases hpart with ⟨rfl, hat⟩ | ⟨rfl, hat⟩
    · exact vl x ((dl x a hxa).2 ⟨hx, hat⟩)
    · exact vq x ((dq x a hxa).2 ⟨hx, hat⟩)
  rw [S.nurbs (by rw [n1]; exact hc)]
  subst he
  exact g.values h hwW hsmall (one_le_pow₀ (by linarith [growth_nonneg r 8])) hc hB hx

/-- **C100**: without rounding the rounded model is the exact one, for all arguments. -/
theorem C100_exact_arithmetic (s : Spl K) (x : K) (d : ℕ) : Fl.subdivide (exactRounding K) s x d = s.subdivide x d := by
  have hc : ∀ s : Spl K, Fl.copy (exactRounding K) s = s.copy := fun s => by
    simp only [Fl.copy, Spl.copy, Fl.copyPS, PS.copy, fl_exact_table]
  have hp : ∀ (s : Spl K) kn off d, Fl.subdividePart (exactRounding K) s kn off d = s.subdividePart kn off d := fun s kn off d => by
    simp only [Fl.subdividePart, Spl.subdividePart, C70_exact_arithmetic.1, C70_exact_arithmetic.2.1, hc]
    cases s.ph.weights <;> rfl
  simp only [Fl.subdivide, Spl.subdivide, C76_exact_arithmetic.1, hp, Fl.dividedKnotVectors, PS.dividedKnotVectors, fl_exact_span]

/-- The hypotheses in `double` arithmetic, for a curve and a cut inside of a knot span. -/
example : Fl.WF doubleRounding flConst ∧ IsBSpline flConst ∧ Admissible [0, 0, 1, 1] (doubleRounding.rnd (1 / 5)) ∧
    [0, 0, 1, 1].count (doubleRounding.rnd (1 / 5)) ≤ 1 :=
  ⟨⟨.cons (by decide +kernel) .nil, fl_basisTable_eq (.cons (by decide +kernel) .nil), by decide +kernel, by decide +kernel,
    by decide +kernel, by simp [flConst]⟩, rfl, ⟨by decide +kernel, by decide +kernel, by decide +kernel⟩, by decide +kernel⟩

/-- **C100**: the parts of the constant curve with the value 3, cut at 0.2 in `double` arithmetic, are not constant; they have the same end point. -/
theorem C100_not_exact : ∃ s' l q, Fl.subdivide doubleRounding flConst (doubleRounding.rnd (1 / 5)) 0 = .ok (s', l, q) ∧
    l.ph.cps = [3, 3 + 1 / 2 ^ 51] ∧ q.ph.cps = [3 + 1 / 2 ^ 51, 3] ∧ bsplineValue flConst [doubleRounding.rnd (1 / 5)] 0 = 3 := by
  refine ⟨⟨⟨[[0, 0, doubleRounding.rnd (1 / 5), doubleRounding.rnd (1 / 5), 1, 1]], [1],
      flTable doubleRounding [[0, 0, doubleRounding.rnd (1 / 5), doubleRounding.rnd (1 / 5), 1, 1]] [1]⟩,
      ⟨1, [4], [3, 3 + 1 / 2 ^ 51, 3 + 1 / 2 ^ 51, 3], none⟩⟩,
    ⟨⟨[[0, 0, doubleRounding.rnd (1 / 5), doubleRounding.rnd (1 / 5)]], [1],
      flTable doubleRounding [[0, 0, doubleRounding.rnd (1 / 5), doubleRounding.rnd (1 / 5)]] [1]⟩, ⟨1, [2], [3, 3 + 1 / 2 ^ 51], none⟩⟩,
    ⟨⟨[[doubleRounding.rnd (1 / 5), doubleRounding.rnd (1 / 5), 1, 1]], [1],
      flTable doubleRounding [[doubleRounding.rnd (1 / 5), doubleRounding.rnd (1 / 5), 1, 1]] [1]⟩, ⟨1, [2], [3 + 1 / 2 ^ 51, 3], none⟩⟩,
    by decide +kernel, rfl, rfl, by decide +kernel⟩

end SplineLib
