import Verif.Core.Cut
import Verif.Core.Construct
import Verif.Core.InsertMany

/-!
# `SudivideSpline` (helper lemmas)
-/

namespace SplineLib
set_option linter.unusedSectionVars false
open Finset

section
variable {K : Type} [Field K] [LinearOrder K] [IsStrictOrderedRing K]

/-- The multi-index shifted in direction `d`. -/
def shiftIx (d off : ℕ) (I : List ℕ) : List ℕ := I.set d (ixd I d + off)

theorem shiftIx_inBox {ns I : List ℕ} {d off n : ℕ} (hd : d < ns.length) (h : InBox (ns.set d n) I) (hn : off + n ≤ ixd ns d) :
    InBox ns (shiftIx d off I) := by
  refine inBox_set_of h ?_
  have : ixd I d < ixd (ns.set d n) d := h.getD_lt (by simpa using hd)
  rw [ixd_set_self hd] at this
  omega

theorem modify_shift {I : List ℕ} {d off : ℕ} (hd : d < I.length) : (zl I).modify d (· + (off : ℤ)) = zl (shiftIx d off I) :=
  modify_zl hd (by push_cast; rfl)

theorem set_zl (l : List ℕ) (d b : ℕ) : (zl l).set d (b : ℤ) = zl (l.set d b) := by
  simp [zl, List.map_set]

theorem collect_eq {α : Type} {ns : List ℕ} {f : MIH → M α} {g : List ℕ → α}
    (h : ∀ I, InBox ns I → f ⟨zl ns, zl I⟩ = .ok (g I)) :
    upLoop (fun h acc => do let p ← f h; return acc ++ [p]) (MIH.mk' (zl ns)).length1D.toNat (MIH.mk' (zl ns)) [] =
      .ok ((List.range ns.prod).map fun k => g (unlin ns k)) := by
  have := upLoop_fun (ns := ns) (body := fun h acc => do let p ← f h; return acc ++ [p])
    (fun k => (List.range k).map fun k => g (unlin ns k)) (fun k hk => by
      rw [h _ (unlin_inBox (prod_pos_iff.1 (by omega)) k), ok_bind, List.range_succ, List.map_append]; rfl)
  simpa using this

theorem dividedCPs_eq {ph : Phys K} {ns : List ℕ} (h : WFPhys ph ns) {d off n : ℕ} (hd : d < ns.length) (hn : off + n ≤ ixd ns d) :
    ph.dividedCPs (off : ℤ) (n : ℤ) d = .ok ((List.range (ns.set d n).prod).map fun k =>
      (List.range ph.dim).map fun c => pcpt ph ns (shiftIx d off (unlin (ns.set d n) k)) c) := by
  unfold Phys.dividedCPs
  rw [h.num, set_zl]
  simp only
  rw [collect_eq (f := fun h => ph.getCP (h.cur.modify d (· + (off : ℤ))))
    (g := fun I => (List.range ph.dim).map fun c => pcpt ph ns (shiftIx d off I) c)]
  intro I hI
  have hdI : d < I.length := by rw [hI.length]; simpa using hd
  simp only
  rw [modify_shift hdI]
  exact getCP_eq h.num h.cps (shiftIx_inBox hd hI hn)

theorem dividedWeights_eq {ph : Phys K} {ns : List ℕ} (h : WFPhys ph ns) {d off n : ℕ} (hd : d < ns.length) (hn : off + n ≤ ixd ns d) :
    ph.dividedWeights (off : ℤ) (n : ℤ) d = .ok ((List.range (ns.set d n).prod).map fun k =>
      pwgt ph ns (shiftIx d off (unlin (ns.set d n) k))) := by
  unfold Phys.dividedWeights
  rw [h.num, set_zl]
  simp only
  rw [collect_eq (f := fun h => ph.getWeight (h.cur.modify d (· + (off : ℤ))))
    (g := fun I => pwgt ph ns (shiftIx d off I))]
  intro I hI
  have hdI : d < I.length := by rw [hI.length]; simpa using hd
  simp only
  rw [modify_shift hdI]
  exact pgetWeight h.num fun w hw => by rw [(h.weights w hw).1]; exact lin_lt (shiftIx_inBox hd hI hn)

/-- A part of a spline: other knots in direction `d`, coefficients shifted by `off`. -/
structure PartOf (s r : Spl K) (d off : ℕ) (W : List K) : Prop where
  wf : WFSpl r
  knots : r.ps.knots = s.ps.knots.set d W
  degree : r.ps.degree = s.ps.degree
  dim : r.ph.dim = s.ph.dim
  kind : s.ph.weights = none ↔ r.ph.weights = none
  wgt : ∀ I, InBox (npts r) I → SplineLib.wgt r I = SplineLib.wgt s (shiftIx d off I)
  cpt : ∀ I, InBox (npts r) I → ∀ c < s.ph.dim, SplineLib.cpt r I c = SplineLib.cpt s (shiftIx d off I) c

theorem getD_map_range' {α : Type*} {f : ℕ → α} {n i : ℕ} (h : i < n) (a : α) : ((List.range n).map f).getD i a = f i := by
  simp [List.getD_eq_getElem?_getD, h]

theorem subdividePart_eq {s : Spl K} (h : WFSpl s) {d : ℕ} {U W : List K} {p : ℕ} (hU : s.ps.knots[d]? = some U)
    (hp : s.ps.degree[d]? = some p) (hW : WFKnots W p) {off : ℕ} (hoff : off + (W.length - p - 1) ≤ U.length - p - 1)
    (hsz : ((npts s).set d (W.length - p - 1)).prod < 2 ^ 64) :
    ∃ r, s.subdividePart (s.ps.knots.set d W) (off : ℤ) d = .ok (r, ((W.length - p - 1 : ℕ) : ℤ)) ∧ PartOf s r d off W := by
  have hix : ixd (npts s) d = U.length - p - 1 := nptsOf_ixd hU hp
  have hdn : d < (npts s).length := lt_of_some (nptsOf_get hU hp)
  have hdk : d < s.ps.knots.length := lt_of_some hU
  have hWs := hW.size
  have hkn : List.Forall₂ WFKnots (s.ps.knots.set d W) s.ps.degree := forall₂_set h.knots hp hW
  have hcl : List.Forall₂ (fun U p => PS.clamped U p = true) (s.ps.knots.set d W) s.ps.degree := hkn.imp fun _ _ h => h.clamped
  have hn : nptsOf (s.ps.knots.set d W) s.ps.degree = (npts s).set d (W.length - p - 1) := by
    rw [nptsOf_set _ hp, npts_eq]
  have hpos : ∀ n ∈ (npts s).set d (W.length - p - 1), 0 < n := by rw [← hn]; exact nptsOf_pos hkn
  have hpp := prod_pos_of hpos
  have e1 := dividedCPs_eq h.phys (off := off) (n := W.length - p - 1) hdn (by rw [hix]; exact hoff)
  have e2 := dividedWeights_eq h.phys (off := off) (n := W.length - p - 1) hdn (by rw [hix]; exact hoff)
  have hlen : ((W.length : ℤ) - p - 1) = ((W.length - p - 1 : ℕ) : ℤ) := by omega
  have hWd : (s.ps.knots.set d W)[d]? = some W := by rw [List.getElem?_set]; simp [hdk]
  generalize hpts : ((List.range ((npts s).set d (W.length - p - 1)).prod).map fun k =>
    (List.range s.ph.dim).map fun c => pcpt s.ph (npts s) (shiftIx d off (unlin ((npts s).set d (W.length - p - 1)) k)) c) = pts at e1
  have hptl : pts.length = ((npts s).set d (W.length - p - 1)).prod := by rw [← hpts]; simp
  have hne : pts ≠ [] := by intro hc; rw [hc] at hptl; simp at hptl; omega
  have hdim : ∀ q ∈ pts, q.length = s.ph.dim := by
    intro q hq; rw [← hpts, List.mem_map] at hq; obtain ⟨k, _, rfl⟩ := hq; simp
  have hget : ∀ I, InBox ((npts s).set d (W.length - p - 1)) I → ∀ c < s.ph.dim,
      (pts.getD (lin ((npts s).set d (W.length - p - 1)) I) []).getD c 0 = SplineLib.cpt s (shiftIx d off I) c := by
    intro I hI c hc
    rw [← hpts, getD_map_range' (lin_lt hI), getD_map_range' hc, unlin_lin hI]; rfl
  have key : ∀ r : Spl K, ∀ ws, Built r (s.ps.knots.set d W) s.ps.degree pts ws →
      r.ph.dim = s.ph.dim ∧ npts r = (npts s).set d (W.length - p - 1) ∧
      ∀ I, InBox (npts r) I → ∀ c < s.ph.dim, SplineLib.cpt r I c = SplineLib.cpt s (shiftIx d off I) c := by
    intro r ws hb
    have hrd : r.ph.dim = s.ph.dim := by rw [hb.dim _ (List.head_mem hne), hdim _ (List.head_mem hne)]
    have hrn : npts r = (npts s).set d (W.length - p - 1) := by rw [npts_eq, hb.knots, hb.degree, hn]
    refine ⟨hrd, hrn, ?_⟩
    intro I hI c hc
    rw [hrn] at hI
    rw [← hget I hI c hc]
    unfold SplineLib.cpt
    rw [hrn, hb.cps, hrd, flatten_getD hdim hc]
  cases hw : s.ph.weights with
  | none =>
    obtain ⟨r, a1, a2⟩ := newBSpline_ok hne hcl (by rw [hn]; exact hsz) (by rw [hptl, hn]) ⟨_, hdim⟩
    obtain ⟨k1, k2, k3⟩ := key r none a2
    refine ⟨r, ?_, ?_, a2.knots, a2.degree, k1, ?_, ?_, k3⟩
    · simp only [Spl.subdividePart, getN_some hWd, getN_some hp, ok_bind, hlen, e1, hw, a1, a2.copy (forall₂_size hkn)]; rfl
    · exact a2.wf hkn hne (by rw [hptl, hn]) h.dim hdim (by intro w hw; simp at hw)
    · rw [a2.weights, hw]
    · intro I _
      simp [SplineLib.wgt, a2.weights, hw]
  | some w =>
    generalize hwts : ((List.range ((npts s).set d (W.length - p - 1)).prod).map fun k =>
      pwgt s.ph (npts s) (shiftIx d off (unlin ((npts s).set d (W.length - p - 1)) k))) = wts at e2
    have hwl : wts.length = pts.length := by rw [hptl, ← hwts]; simp
    obtain ⟨r, a1, a2⟩ := newNurbs_ok (weights := wts) hne hcl (by rw [hn]; exact hsz) (by rw [hptl, hn]) ⟨_, hdim⟩ hwl
    obtain ⟨k1, k2, k3⟩ := key r _ a2
    refine ⟨r, ?_, ?_, a2.knots, a2.degree, k1, ?_, ?_, k3⟩
    · simp only [Spl.subdividePart, getN_some hWd, getN_some hp, ok_bind, hlen, e1, hw, e2, a1, a2.copy (forall₂_size hkn)]; rfl
    · refine a2.wf hkn hne (by rw [hptl, hn]) h.dim hdim ?_
      intro w' hw'
      obtain rfl := Option.some.inj hw'
      refine ⟨hwl, ?_⟩
      intro a ha
      rw [← hwts, List.mem_map] at ha
      obtain ⟨k, hk, rfl⟩ := ha
      exact pwgt_pos h.phys (shiftIx_inBox hdn (unlin_inBox hpos k) (by rw [hix]; exact hoff))
    · rw [a2.weights, hw]; simp
    · intro I hI
      rw [k2] at hI
      conv_lhs => unfold SplineLib.wgt
      rw [k2, a2.weights]
      simp only
      rw [← hwts, getD_map_range' (lin_lt hI), unlin_lin hI]; rfl

/-- A part of a spline has the same tensor product sums wherever the univariate sums agree. -/
theorem PartOf.sums {s r : Spl K} {d off : ℕ} {U W : List K} {p : ℕ} (h : PartOf s r d off W) (hU : s.ps.knots[d]? = some U)
    (hp : s.ps.degree[d]? = some p) {xs : List K} {x : K} (hx : xs[d]? = some x)
    (hsum : ∀ F : List ℕ → K, (F = SplineLib.wgt s ∨ ∃ c < s.ph.dim, F = fun I => SplineLib.wgt s I * SplineLib.cpt s I c) →
      ∀ I, InBox ((npts s).set d 1) I →
      ∑ i ∈ range (U.length - p - 1), coxDeBoor U p i x * F (I.set d i) =
        ∑ i ∈ range (W.length - p - 1), coxDeBoor W p i x * F (I.set d (i + off))) :
    tensorSum r xs (SplineLib.wgt r) = tensorSum s xs (SplineLib.wgt s) ∧
    ∀ c < s.ph.dim, tensorSum r xs (fun I => SplineLib.wgt r I * SplineLib.cpt r I c) =
      tensorSum s xs (fun I => SplineLib.wgt s I * SplineLib.cpt s I c) := by
  have hn : npts r = (npts s).set d (W.length - p - 1) := by
    rw [npts_eq, h.knots, h.degree, nptsOf_set _ hp]; rfl
  have hdn : d < (npts s).length := lt_of_some (nptsOf_get hU hp)
  have key : ∀ F : List ℕ → K, (F = SplineLib.wgt s ∨ ∃ c < s.ph.dim, F = fun I => SplineLib.wgt s I * SplineLib.cpt s I c) →
      tensorSum r xs (fun I => F (shiftIx d off I)) = tensorSum s xs F := by
    intro F hF
    unfold tensorSum
    rw [hn, h.knots, h.degree]
    have := tensor_change (V := W) (q := p) hU hp hx (n' := W.length - p - 1) (F := F) (G := fun I => F (shiftIx d off I)) (by
      intro I hI
      have hdI : d < I.length := by rw [hI.length]; simpa [npts_eq] using hdn
      rw [hsum F hF I hI]
      apply sum_congr rfl
      intro i _
      simp only [shiftIx, List.set_set]
      rw [ixd_set_self hdI])
    rw [set_same hp] at this
    exact this.symm
  constructor
  · rw [← key _ (Or.inl rfl)]
    apply msum_congr
    intro I hI
    simp only
    rw [h.wgt I hI]
  · intro c hc
    rw [← key _ (Or.inr ⟨c, hc, rfl⟩)]
    apply msum_congr
    intro I hI
    simp only
    rw [h.wgt I hI, h.cpt I hI c hc]

/-- Equal tensor product sums at one point give equal values there. -/
theorem evaluate_eq_of_sums {s s' : Spl K} (hs : WFSpl s) (hs' : WFSpl s') (hdim : s'.ph.dim = s.ph.dim)
    (hkind : s.ph.weights = none ↔ s'.ph.weights = none) {x : List K} (hx : InDomain s x) (hx' : InDomain s' x)
    (hw : tensorSum s' x (SplineLib.wgt s') = tensorSum s x (SplineLib.wgt s))
    (hc : ∀ c < s.ph.dim, tensorSum s' x (fun I => SplineLib.wgt s' I * SplineLib.cpt s' I c) =
      tensorSum s x (fun I => SplineLib.wgt s I * SplineLib.cpt s I c))
    (dims : List ℕ) (hd : ∀ c ∈ dims, c < s.ph.dim ∨ (c = s.ph.dim ∧ IsNurbs s)) :
    s'.evaluate x (zl dims) = s.evaluate x (zl dims) := by
  by_cases hb : s.ph.weights = none
  · have hb' := hkind.1 hb
    have hd' : ∀ c ∈ dims, c < s.ph.dim := by
      intro c hc
      rcases hd c hc with h1 | h1
      · exact h1
      · exact absurd hb (isNurbs_iff.1 h1.2)
    rw [evaluate_bspline hs hb hx dims hd', evaluate_bspline hs' hb' hx' dims (by rw [hdim]; exact hd')]
    congr 1
    apply List.map_congr_left
    intro c hcm
    have := hc c (hd' c hcm)
    simpa [SplineLib.wgt, hb, hb', bsplineValue] using this
  · have hb' : ¬ s'.ph.weights = none := fun hc => hb (hkind.2 hc)
    have hd' : ∀ c ∈ dims, c ≤ s.ph.dim := by
      intro c hc
      rcases hd c hc with h1 | h1 <;> omega
    rw [evaluate_nurbs hs (isNurbs_iff.2 hb) hx dims hd', evaluate_nurbs hs' (isNurbs_iff.2 hb') hx' dims (by rw [hdim]; exact hd')]
    congr 1
    apply List.map_congr_left
    intro c hcm
    rw [hdim]
    have e1 : weightValue s' x = weightValue s x := hw
    split_ifs with hcd
    · exact e1
    · unfold nurbsValue
      rw [e1, hc c (by have := hd' c hcm; omega)]

end
end SplineLib

namespace SplineLib
set_option linter.unusedSectionVars false
open Finset

section
variable {K : Type} [Field K] [LinearOrder K] [IsStrictOrderedRing K]

theorem map_knot_take {V : List K} {n : ℕ} (h : n ≤ V.length) : (List.range n).map (fun j => knot V j) = V.take n := by
  apply List.ext_getElem
  · simp [h]
  · intro i h1 h2
    simp only [List.length_map, List.length_range] at h1
    simp [knot_eq (show i < V.length by omega)]

theorem map_knot_drop {V : List K} {e : ℕ} : (List.range (V.length - e)).map (fun j => knot V (e + j)) = V.drop e := by
  apply List.ext_getElem
  · simp
  · intro i h1 h2
    simp only [List.length_map, List.length_range] at h1
    simp [knot_eq (show e + i < V.length by omega)]

/-- The two knot vectors of a cut. -/
theorem dividedKnotVectors_eq {ps : PS K} {d : ℕ} {V : List K} {p e : ℕ} {t : K} (hV : ps.knots[d]? = some V)
    (hp : ps.degree[d]? = some p) (hc : Cut V p e t) :
    ps.dividedKnotVectors t d = .ok (ps.knots.set d (V.take (e + p + 1)), ps.knots.set d (V.drop e)) := by
  have hh := hc.hi
  have hsp : spanIx V t = e + p := by
    apply spanIx_unique hc.wf hc.first_lt.le hc.lt_last.le (by omega)
    left
    exact ⟨(hc.eq _ (by omega) (by omega)).le, hc.gt⟩
  have e0 := (hc.wf.span hc.first_lt.le hc.lt_last.le).1
  rw [hsp] at e0
  simp only [PS.dividedKnotVectors, getN_some hV, getN_some hp, ok_bind, e0]
  rw [show (((e + p : ℕ) : ℤ) + 1).toNat = e + p + 1 by omega,
    show ((V.length : ℤ) - (((e + p : ℕ) : ℤ) - (p : ℤ))).toNat = V.length - e by omega]
  rw [buildList_eq (g := fun j => knot V j) (fun i hi => by rw [getI_getD (by omega) 0]; rfl), ok_bind, map_knot_take (by omega)]
  rw [buildList_eq (g := fun j => knot V (e + j)) (fun i hi => by
    rw [show (((e + p : ℕ) : ℤ) - (p : ℤ) + (i : ℤ)) = ((e + i : ℕ) : ℤ) by push_cast; ring, getI_getD (by omega) 0]; rfl), ok_bind, map_knot_drop]
  rfl

/-- Inserting a knot until it has multiplicity `p+1` gives a cut. -/
theorem cut_of_insMany {U : List K} {p : ℕ} {t : K} (h : WFKnots U p) (ht : Admissible U t) (hm : kvMult U t ≤ p + 1) :
    Cut (insMany U t (p + 1 - kvMult U t)) p (spanIx U t + 1 - kvMult U t) t := by
  have hf := insMany_facts h ht (p + 1 - kvMult U t)
  obtain ⟨hi, hlt, hmk, hl1, hl2⟩ := ht.pos h
  have hh := hi.hi
  have hlo := hi.lo
  have hle : p + 1 ≤ spanIx U t + 1 - kvMult U t := by
    by_contra hc
    have e1 := h.first (spanIx U t + 1 - kvMult U t) (by omega)
    have e2 := ht.lo
    by_cases h0 : kvMult U t = 0
    · omega
    · have := hl2 (spanIx U t + 1 - kvMult U t) (by omega) (by omega)
      rw [e1] at this
      exact absurd this (ne_of_lt e2)
  refine ⟨hf.wf, hle, ?_, ?_, ?_, ?_⟩
  · rw [hf.length]; omega
  · intro j h1 h2
    rw [hf.knot]
    split_ifs with c1 c2
    · exact hl2 j (by omega) c1
    · rfl
    · omega
  · rw [hf.knot, if_pos (by omega), show spanIx U t + 1 - kvMult U t - 1 = spanIx U t - kvMult U t by omega]; exact hl1
  · rw [hf.knot, if_neg (by omega), if_neg (by omega)]
    rw [show spanIx U t + 1 - kvMult U t + p + 1 - (p + 1 - kvMult U t) = spanIx U t + 1 by omega]; exact hlt

/-- The last round of an insertion. -/
theorem insertKnot_last {s : Spl K} (h : WFSpl s) {d : ℕ} {U : List K} {p : ℕ} (hU : s.ps.knots[d]? = some U)
    (hp : s.ps.degree[d]? = some p) {t : K} (ht : Admissible U t) (m : ℕ) (hsz : U.length + (m + 1) < 2 ^ 63) :
    ∃ s1 s', s.insertKnot t d m = .ok s1 ∧ s.insertKnot t d (m + 1) = .ok s' ∧ WFSpl s1 ∧ s1.ps.degree = s.ps.degree ∧
      s1.ps.knots = s.ps.knots.set d (insMany U t m) ∧ s1.ph.dim = s.ph.dim ∧ InsBlend s1 s' d (insMany U t m) p t := by
  have hw := forall₂_get h.knots hU hp
  obtain ⟨s1, e1, w1, d1, k1, g1⟩ := insertKnot_many h hU hp ht m (by omega)
  have hf := insMany_facts hw ht m
  have hk1 : s1.ps.knots[d]? = some (insMany U t m) := by
    rw [k1, List.getElem?_set]; simp [lt_of_some hU]
  have hd1 : s1.ps.degree[d]? = some p := by rw [d1]; exact hp
  obtain ⟨s2, e2, w2, d2, k2, g2, b2⟩ := insertKnot_one_blend w1 hk1 hd1 hf.adm (by rw [hf.length]; omega)
  exact ⟨s1, s2, e1, by rw [insertKnot_succ hw hU hp ht (by omega) e1 hk1 hd1, e2], w1, d1, k1, g1.dim, b2⟩

/-- Everything about a subdivision at an interior parameter. -/
structure SubdivideFacts (s s' l r : Spl K) (d : ℕ) (U V : List K) (p e : ℕ) (t : K) : Prop where
  cut : Cut V p e t
  wf : WFSpl s'
  same : SameSums s s'
  degree : s'.ps.degree = s.ps.degree
  knots : s'.ps.knots = s.ps.knots.set d V
  left : PartOf s' l d 0 (V.take (e + p + 1))
  right : PartOf s' r d e (V.drop e)

theorem subdivide_facts {s : Spl K} (h : WFSpl s) {d : ℕ} {U : List K} {p : ℕ} (hU : s.ps.knots[d]? = some U)
    (hp : s.ps.degree[d]? = some p) {t : K} (ht : Admissible U t) (hm : kvMult U t ≤ p + 1) (hsz : U.length + p + 1 < 2 ^ 63)
    (hsz2 : ((npts s).set d U.length).prod < 2 ^ 64) :
    ∃ s' l r, s.subdivide t d = .ok (s', l, r) ∧ s.insertKnot t d (p + 1 - kvMult U t) = .ok s' ∧
      SubdivideFacts s s' l r d U (insMany U t (p + 1 - kvMult U t)) p (spanIx U t + 1 - kvMult U t) t := by
  have hw := forall₂_get h.knots hU hp
  have hcut := cut_of_insMany hw ht hm
  obtain ⟨s', e1, w1, d1, k1, g1⟩ := insertKnot_many h hU hp ht (p + 1 - kvMult U t) (by omega)
  have hf := insMany_facts hw ht (p + 1 - kvMult U t)
  obtain ⟨hi, hlt, hmk, _, _⟩ := ht.pos hw
  have hh := hi.hi
  have hlenV := hf.length
  generalize hVe : insMany U t (p + 1 - kvMult U t) = V at *
  generalize hee : spanIx U t + 1 - kvMult U t = e at *
  have hch := hcut.hi
  have hcl := hcut.lo
  have hdn : d < (npts s).length := lt_of_some (nptsOf_get hU hp)
  have hk1 : s'.ps.knots[d]? = some V := by rw [k1, List.getElem?_set]; simp [lt_of_some hU]
  have hd1 : s'.ps.degree[d]? = some p := by rw [d1]; exact hp
  have hn1 : npts s' = (npts s).set d (V.length - p - 1) := by rw [npts_eq, k1, d1, nptsOf_set _ hp]; rfl
  have hprod : ∀ n, n ≤ U.length → ((npts s').set d n).prod < 2 ^ 64 := by
    intro n hn
    rw [hn1, List.set_set, prod_set hdn]
    rw [prod_set hdn] at hsz2
    exact lt_of_le_of_lt (Nat.mul_le_mul_right _ hn) hsz2
  obtain ⟨l, l1, l2⟩ := subdividePart_eq w1 hk1 hd1 hcut.left_wf (off := 0) (by rw [hcut.take_length]; omega)
    (by rw [hcut.take_length]; exact hprod _ (by omega))
  obtain ⟨r, r1, r2⟩ := subdividePart_eq w1 hk1 hd1 hcut.right_wf (off := e) (by rw [hcut.drop_length]; omega)
    (by rw [hcut.drop_length]; exact hprod _ (by omega))
  refine ⟨s', l, r, ?_, e1, hcut, w1, g1, d1, k1, l2, r2⟩
  have hsm : Spl.subdivideMult p U t = p + 1 - kvMult U t := by
    unfold Spl.subdivideMult
    rw [toSizeT_of (n := p + 1 - kvMult U t) (by omega) (by omega)]
  simp only [Spl.subdivide, getN_some hU, getN_some hp, ok_bind, hsm, e1, dividedKnotVectors_eq hk1 hd1 hcut]
  rw [show (0 : ℤ) = ((0 : ℕ) : ℤ) from rfl, l1, ok_bind]
  simp only
  rw [hcut.take_length, show e + p + 1 - p - 1 = e by omega, r1]
  rfl

theorem dom_set_iff {Us : List (List K)} {xs : List K} {d : ℕ} {U V : List K} {x : K} (hU : Us[d]? = some U) (hx : xs[d]? = some x) :
    Dom (Us.set d V) xs → (knot U 0 ≤ x ∧ x ≤ lastKnot U) → Dom Us xs := by
  unfold Dom
  induction Us generalizing d xs with
  | nil => simp at hU
  | cons U0 Us ih =>
    cases d with
    | zero =>
      simp at hU; subst hU
      cases xs with
      | nil => simp
      | cons x xs => simp at hx; subst hx; simp; tauto
    | succ d =>
      simp at hU
      cases xs with
      | nil => simp
      | cons x xs =>
        simp at hx
        simp only [List.set_cons_succ, List.forall₂_cons]
        intro h1 h2; exact ⟨h1.1, ih hU hx h1.2 h2⟩

/-- The domain after a change of the knots in direction `d`. -/
theorem dom_change {Us : List (List K)} {xs : List K} {d : ℕ} {U V : List K} {x : K} (hU : Us[d]? = some U) (hx : xs[d]? = some x)
    (h0 : knot U 0 ≤ knot V 0) (h1 : lastKnot V ≤ lastKnot U) :
    Dom (Us.set d V) xs ↔ Dom Us xs ∧ knot V 0 ≤ x ∧ x ≤ lastKnot V := by
  constructor
  · intro h
    have hV : (Us.set d V)[d]? = some V := by rw [List.getElem?_set]; simp [lt_of_some hU]
    have hv : knot V 0 ≤ x ∧ x ≤ lastKnot V := forall₂_get h hV hx
    exact ⟨dom_set_iff hU hx h ⟨h0.trans hv.1, hv.2.trans h1⟩, hv⟩
  · rintro ⟨h, hv⟩
    have hV : (Us.set d V)[d]? = some V := by rw [List.getElem?_set]; simp [lt_of_some hU]
    have hU2 : ((Us.set d V).set d U) = Us := by rw [List.set_set, set_same hU]
    exact dom_set_iff (V := U) hV hx (by rw [hU2]; exact h) hv

/-- The coefficients on both sides of the cut agree when the knot was inserted at least once. -/
theorem blend_glue {s1 s' : Spl K} {d : ℕ} {U' : List K} {p e : ℕ} {t : K} (h : InsBlend s1 s' d U' p t) (hp : kvMult U' t = p)
    (hspan : spanIx U' t + 1 - p = e) (he : 0 < e) {I : List ℕ} (hd : d < I.length) (hI1 : InBox (npts s') (I.set d (e - 1)))
    (hI2 : InBox (npts s') (I.set d e)) :
    wgt s' (I.set d (e - 1)) = wgt s' (I.set d e) ∧
    ∀ c < s1.ph.dim, wgt s' (I.set d (e - 1)) * cpt s' (I.set d (e - 1)) c = wgt s' (I.set d e) * cpt s' (I.set d e) c := by
  have hb : ∀ F : List ℕ → K, blendDir d (spanIx U' t + 1 - p) (spanIx U' t - kvMult U' t) (insα U' p t) F (I.set d (e - 1)) =
      blendDir d (spanIx U' t + 1 - p) (spanIx U' t - kvMult U' t) (insα U' p t) F (I.set d e) := by
    intro F
    rw [blendDir_line hd, blendDir_line hd, hp]
    unfold blend1
    rw [if_neg (by omega), if_neg (by omega), if_pos (by omega)]
  refine ⟨?_, fun c hc => ?_⟩
  · rw [(h _ hI1).1, (h _ hI2).1, hb]
  · rw [(h _ hI1).2 c hc, (h _ hI2).2 c hc, hb]

end
end SplineLib
