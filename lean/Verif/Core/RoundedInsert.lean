import Verif.Core.RoundedAdjust
import Verif.Core.InsertMany

/-!
# Error of rounded knot insertion (helper lemmas)
-/

namespace SplineLib
set_option linter.unusedSectionVars false
open Finset Rounding

section
variable {K : Type} [Field K] [LinearOrder K] [IsStrictOrderedRing K] {r : Rounding K}

theorem fl_notLast {U : List K} {p : ℕ} {t : K} (h : WFKnots U p) (ht : Admissible U t) : Fl.isLast r U t = .ok false := by
  rw [fl_isLast_eq h.ne_nil]
  congr 1
  rw [decide_eq_false_iff_not]
  have h1 := r.mono _ _ (ht.sep t (by simp) (lastKnot U) (by simp [lastKnot_mem h.ne_nil]) ht.hi)
  rw [r.eps] at h1
  have := kEps_pos (K := K)
  rw [← neg_sub, r.neg, abs_neg, abs_of_nonneg (by linarith)]
  exact not_lt.2 h1

theorem fl_kvInsert {U : List K} {p : ℕ} {t : K} (h : WFKnots U p) (ht : Admissible U t) :
    Fl.kvInsert r U t = .ok (U.insertIdx (spanIx U t + 1) t) := by
  have := ht.pos h
  have h1 := this.1.hi
  simp only [Fl.kvInsert, fl_span h ht.lo.le ht.hi.le, ok_bind]
  rw [if_pos (by omega)]
  rfl

theorem Rounding.rnd_pos (r : Rounding K) {x : K} (h : 0 < x) : 0 < r.rnd x := ((Near.refl (r := r) x h.le).rnd h.le).pos h

/-- The rounded scaling factor of `InsertKnot`. -/
def flα (r : Rounding K) (U : List K) (p : ℕ) (t : K) (j : ℕ) : K := r.rnd (r.rnd (t - knot U j) / r.rnd (knot U (j + p) - knot U j))

theorem fl_scalingLoop_eq {U : List K} {x : K} {shift : ℤ} {α : ℕ → K} : ∀ (n j : ℕ),
    (∀ q < n, j + q < U.length ∧ ∃ i < U.length, ((j + q : ℕ) : ℤ) + shift = (i : ℤ) ∧ i < 2 ^ 64 ∧ knot U (j + q) < knot U i ∧
      α (j + q) = r.rnd (r.rnd (x - knot U (j + q)) / r.rnd (knot U i - knot U (j + q)))) →
    Fl.scalingLoop r U x shift n j = .ok ((List.range n).map fun q => α (j + q)) := by
  intro n
  induction n with
  | zero => intro j _; rfl
  | succ n ih =>
    intro j h
    obtain ⟨h1, i, h2, h3, h4, h5, h6⟩ := h 0 (by omega)
    simp only [Nat.add_zero] at h1 h3 h5 h6
    unfold Fl.scalingLoop
    rw [kvGet_eq h1, ok_bind, toSizeT_of h3 h4, kvGet_eq h2, ok_bind]
    have hne : r.rnd (knot U i - knot U j) ≠ 0 := (r.rnd_pos (sub_pos.2 h5)).ne'
    simp only [Fl.div, fdiv, if_neg hne, ok_bind, pure_ok]
    rw [ih (j + 1) (fun q hq => by have := h (q + 1) (by omega); rwa [show j + (q + 1) = j + 1 + q by ring] at this), ok_bind]
    rw [List.range_succ_eq_map, List.map_cons, List.map_map, show j + 0 = j from rfl, h6]
    simp only [Function.comp_def, Nat.succ_eq_add_one]
    congr 2
    apply List.map_congr_left
    intro q _
    rw [show j + 1 + q = j + (q + 1) by ring]

theorem flScaling_of {α : ℕ → K} {first last : ℕ} :
    FlScaling ((List.range (Spl.stepCount first last)).map fun q => α (first + q)) first last α := by
  intro i h1 h2
  rw [show (i : ℤ) - (first : ℤ) = ((i - first : ℕ) : ℤ) by omega]
  rw [getI_map_range (by unfold Spl.stepCount; omega)]
  congr 2; omega

theorem fl_insertRounds_one {U : List K} {p : ℕ} {t : K} (h : WFKnots U p) (ht : Admissible U t) (hsz : U.length < 2 ^ 63) (d : ℕ)
    (ph : Phys K) :
    ∃ scaling, FlScaling scaling (spanIx U t + 1 - p) (spanIx U t - kvMult U t) (flα r U p t) ∧
      Fl.insertRounds r U p t d 1 1 (spanIx U t : ℤ) ph =
        Fl.adjustCPs r ph scaling ((spanIx U t + 1 - p : ℕ) : ℤ) ((spanIx U t - kvMult U t : ℕ) : ℤ) d := by
  obtain ⟨hi, hlt, hm, hl1, hl2⟩ := ht.pos h
  have hh := hi.hi
  have hlo := hi.lo
  refine ⟨_, flScaling_of, ?_⟩
  unfold Fl.insertRounds
  rw [fl_notLast h ht, ok_bind]
  simp only [Bool.false_eq_true, if_false]
  rw [toSizeT_of (i := (spanIx U t : ℤ) - (kvMult U t : ℤ)) (n := spanIx U t - kvMult U t) (by omega) (by omega),
    toSizeT_of (i := (spanIx U t : ℤ) - (p : ℤ) + ((1 : ℕ) : ℤ)) (n := spanIx U t + 1 - p) (by omega) (by omega)]
  rw [fl_scalingLoop_eq (α := flα r U p t)]
  · rw [ok_bind, intOfSizeT_nat (by omega), intOfSizeT_nat (by omega)]
    simp only [Fl.insertRounds]
    generalize Fl.adjustCPs r ph _ _ _ d = r
    cases r <;> rfl
  · intro q hq
    simp only [Spl.stepCount] at hq
    have hb := insα_bounds hi (j := spanIx U t + 1 - p + q) (Nat.sub_le _ _) hl1 (by omega) (by omega)
    refine ⟨by omega, spanIx U t + 1 - p + q + p, by omega, by push_cast; omega, by omega, by linarith [hb.1, hb.2.1], rfl⟩

theorem fl_psInsert {ps : PS K} (hk0 : List.Forall₂ WFKnots ps.knots ps.degree) {d : ℕ} {U : List K} {p : ℕ} (hU : ps.knots[d]? = some U)
    (hp : ps.degree[d]? = some p) {t : K} (ht : Admissible U t) :
    ∃ b, Fl.psInsertKnot r ps t d = .ok ⟨ps.knots.set d (U.insertIdx (spanIx U t + 1) t), ps.degree, b⟩ ∧
      List.Forall₂ WFKnots (ps.knots.set d (U.insertIdx (spanIx U t + 1) t)) ps.degree ∧
      Fl.basisTable r (ps.knots.set d (U.insertIdx (spanIx U t + 1) t)) ps.degree = .ok b := by
  have hw := forall₂_get hk0 hU hp
  have hk : List.Forall₂ WFKnots (ps.knots.set d (U.insertIdx (spanIx U t + 1) t)) ps.degree := forall₂_set hk0 hp (ht.pos hw).1.wf'
  refine ⟨flTable r (ps.knots.set d (U.insertIdx (spanIx U t + 1) t)) ps.degree, ?_, hk, fl_basisTable_eq (forall₂_size hk)⟩
  simp only [Fl.psInsertKnot, getN_some hU, ok_bind, fl_kvInsert hw ht, Fl.copyPS, fl_basisTable_eq (forall₂_size hk)]
  rfl

/-! ### Error bounds -/

theorem flα_near {U : List K} {p k : ℕ} {t : K} (h : InsAt U p k t) {last : ℕ} (hl : last ≤ k) (hl1 : knot U last < t) {j : ℕ}
    (h1 : k + 1 - p ≤ j) (h2 : j ≤ last) : r.Near 3 (flα r U p t j) (insα U p t j) := by
  obtain ⟨b1, b2, _⟩ := insα_bounds h hl hl1 h1 h2
  have p1 : 0 < t - knot U j := by linarith
  have p2 : 0 < knot U (j + p) - knot U j := by linarith
  have n1 := (Near.refl (r := r) _ p1.le).rnd p1.le
  have n2 := ((Near.refl (r := r) _ p2.le).rnd p2.le).inv p2
  have := (n1.mul n2 p1.le (by positivity)).rnd (by positivity)
  rw [mul_one_div, mul_one_div] at this
  exact this

theorem flα_le_one (hr : r.rnd 1 = 1) {U : List K} {p k : ℕ} {t : K} (h : InsAt U p k t) {last : ℕ} (hl : last ≤ k)
    (hl1 : knot U last < t) {j : ℕ} (h1 : k + 1 - p ≤ j) (h2 : j ≤ last) : 0 < flα r U p t j ∧ flα r U p t j ≤ 1 := by
  obtain ⟨b1, b2, _⟩ := insα_bounds h hl hl1 h1 h2
  have p1 : 0 < t - knot U j := by linarith
  have p2 : 0 < knot U (j + p) - knot U j := by linarith
  refine ⟨r.rnd_pos (div_pos (r.rnd_pos p1) (r.rnd_pos p2)), ?_⟩
  unfold flα
  conv_rhs => rw [← hr]
  apply r.mono
  rw [div_le_one (r.rnd_pos p2)]
  exact r.mono _ _ (by linarith)

/-- The error of one blend. -/
theorem mix_close {A a u l u' l' cu cl : K} {k : ℕ} (h : r.Near 3 A a) (h0 : 0 ≤ a) (hu : r.Close k u' u cu) (hl : r.Close k l' l cl) :
    r.Close (k + 6) (Fl.mix r A u' l') (a * u + (1 - a) * l) (a * cu + (1 + a) * cl) := by
  have c1 := ((h.close h0).mul hu).rnd
  have c2 := (((((Close.exact (r := r) (1 : K)).mono (Nat.zero_le 3)).sub (h.close h0)).rnd).mul hl).rnd
  rw [abs_one] at c2
  exact (((c1.mono (l := k + 5) (by omega)).add (c2.mono (by omega))).rnd).mono (by omega)

theorem mix_pos {A u l : K} (h0 : 0 < A) (h1 : A ≤ 1) (hu : 0 < u) (hl : 0 < l) : 0 < Fl.mix r A u l := by
  unfold Fl.mix
  apply r.rnd_pos
  have a1 := r.rnd_pos (mul_pos h0 hu)
  have a2 := r.rnd_nonneg (mul_nonneg (r.rnd_nonneg (sub_nonneg.2 h1)) hl.le)
  linarith

theorem flBlendDir_pos {d first last : ℕ} {ns : List ℕ} {α : ℕ → K} {w : List ℕ → K} (hl : last < ixd ns d)
    (hs : ∀ i, first ≤ i → i ≤ last → 0 < α i ∧ α i ≤ 1) (hf : 1 ≤ first)
    (hw : ∀ J, InBox ns J → 0 < w J) (hdn : d < ns.length) {I : List ℕ} (hI : InBox (ns.set d (ixd ns d + 1)) I) :
    0 < flBlendDir r d first last α w I := by
  have hlt : ixd I d < ixd ns d + 1 := by
    have : ixd I d < ixd (ns.set d (ixd ns d + 1)) d := hI.getD_lt (d := d) (by simpa using hdn)
    rwa [ixd_set_self hdn] at this
  have hIl : d < I.length := by rw [hI.length]; simpa using hdn
  unfold flBlendDir
  split_ifs with c1 c2
  · exact hw _ (inBox_set_of hI (by omega))
  · obtain ⟨h1, h2⟩ := hs (ixd I d) c2 (by omega)
    have p1 := hw (I.set d (ixd I d - 1)) (inBox_set_of hI (by omega))
    have p2 := hw I (by have := inBox_set_of (i := ixd I d) hI (by omega); rwa [set_ixd hIl] at this)
    exact mix_pos h1 h2 p2 p1
  · have := inBox_set_of (i := ixd I d) hI (by omega)
    rw [set_ixd hIl] at this
    exact hw I this

/-- The coefficients after one rounded insertion. -/
def FlInsBlend (r : Rounding K) (s s' : Spl K) (d : ℕ) (U : List K) (p : ℕ) (t : K) : Prop :=
  ∀ I, InBox (npts s') I →
    (∀ w, s.ph.weights = some w → wgt s' I = flBlendDir r d (spanIx U t + 1 - p) (spanIx U t - kvMult U t) (flα r U p t) (wgt s) I) ∧
    ∀ c < s.ph.dim, cpt s' I c = flNewP r s.ph.weights.isSome d (spanIx U t + 1 - p) (spanIx U t - kvMult U t) (flα r U p t) (wgt s)
      (fun I => cpt s I c) I

theorem fl_insertKnot_one {s : Spl K} (h : Fl.WF r s) {d : ℕ} {U : List K} {p : ℕ} (hU : s.ps.knots[d]? = some U)
    (hp : s.ps.degree[d]? = some p) {t : K} (ht : Admissible U t) (hsz : U.length < 2 ^ 63) (hr : s.ph.weights = none ∨ r.rnd 1 = 1) :
    ∃ s', Fl.insertKnot r s t d 1 = .ok s' ∧ Fl.WF r s' ∧ s'.ps.degree = s.ps.degree ∧
      s'.ps.knots = s.ps.knots.set d (U.insertIdx (spanIx U t + 1) t) ∧ s'.ph.dim = s.ph.dim ∧
      (s.ph.weights = none ↔ s'.ph.weights = none) ∧ FlInsBlend r s s' d U p t := by
  have hw := forall₂_get h.knots hU hp
  obtain ⟨hi, hlt, hm, hl1, hl2⟩ := ht.pos hw
  have hh := hi.hi
  have hlo := hi.lo
  obtain ⟨b, hb, hbk, hbw⟩ := fl_psInsert (r := r) h.knots hU hp ht
  obtain ⟨scaling, hs, hrr⟩ := fl_insertRounds_one (r := r) hw ht hsz d s.ph
  have hpos : ∀ n ∈ npts s, 0 < n := nptsOf_pos h.knots
  have hix : ixd (npts s) d = U.length - p - 1 := nptsOf_ixd hU hp
  have hdn : d < (npts s).length := lt_of_some (nptsOf_get hU hp)
  have hphys : WFPhys s.ph (npts s) := ⟨h.num, h.dim, h.cps, h.weights⟩
  obtain ⟨ph', a1, a2, a3, a4, a5⟩ := fl_adjustCPs_spec (r := r) hphys hpos hdn (by omega) (by rw [hix]; omega) hs (by
    intro w0 hw0 I hI
    refine flBlendDir_pos (by rw [hix]; omega) (fun i h1 h2 => ?_) (by omega) (fun J hJ => pwgt_pos hphys hJ) hdn hI
    rcases hr with hr | hr
    · rw [hw0] at hr; simp at hr
    · exact flα_le_one hr hi (Nat.sub_le _ _) hl1 h1 h2)
  rw [hix] at a2 a5
  have hnew : nptsOf (s.ps.knots.set d (U.insertIdx (spanIx U t + 1) t)) s.ps.degree = (npts s).set d (U.length - p - 1 + 1) := by
    rw [nptsOf_set _ hp, hi.length, npts_eq]; congr 1; omega
  refine ⟨⟨⟨s.ps.knots.set d (U.insertIdx (spanIx U t + 1) t), s.ps.degree, b⟩, ph'⟩, ?_, ?_, rfl, rfl, a3, a4, ?_⟩
  · unfold Fl.insertKnot
    rw [getN_some hU, ok_bind, getN_some hp, ok_bind, fl_span hw ht.lo.le ht.hi.le, ok_bind, hrr, a1, ok_bind]
    simp only [Fl.insertKnotsPS, hb, ok_bind]
    rfl
  · have e : npts (⟨⟨s.ps.knots.set d (U.insertIdx (spanIx U t + 1) t), s.ps.degree, b⟩, ph'⟩ : Spl K) = (npts s).set d (U.length - p - 1 + 1) := by
      rw [npts_eq]; exact hnew
    exact ⟨hbk, hbw, by rw [e]; exact a2.num, a2.dim, by rw [e]; exact a2.cps, by rw [e]; exact a2.weights⟩
  · intro I hI
    rw [npts_eq] at hI
    simp only at hI
    rw [hnew] at hI
    have := a5 I hI
    refine ⟨fun w hw => ?_, fun c hc => ?_⟩
    · have e := this.1 w hw
      conv_lhs => unfold wgt
      rw [npts_eq]
      simp only
      rw [hnew]
      exact e
    · have e := this.2 c hc
      conv_lhs => unfold cpt
      rw [npts_eq]
      simp only
      rw [hnew]
      exact e

/-! ### Several copies -/

theorem fl_scalingLoop_congr {U V : List K} {x : K} {sh sh' : ℤ} : ∀ (n j : ℕ),
    (∀ q < n, kvGet U (j + q) = kvGet V (j + q) ∧ kvGet U (toSizeT (((j + q : ℕ) : ℤ) + sh)) = kvGet V (toSizeT (((j + q : ℕ) : ℤ) + sh'))) →
    Fl.scalingLoop r U x sh n j = Fl.scalingLoop r V x sh' n j := by
  intro n
  induction n with
  | zero => intro j _; rfl
  | succ n ih =>
    intro j h
    obtain ⟨h1, h2⟩ := h 0 (by omega)
    simp only [Nat.add_zero] at h1 h2
    unfold Fl.scalingLoop
    rw [h1, h2, ih (j + 1) (fun q hq => by have := h (q + 1) (by omega); rwa [show j + (q + 1) = j + 1 + q by ring] at this)]

theorem fl_insertRounds_append {U : List K} {p : ℕ} {x : K} (hl : Fl.isLast r U x = .ok false) (d : ℕ) (span : ℤ) : ∀ (n i : ℕ) (ph : Phys K),
    Fl.insertRounds r U p x d (n + 1) i span ph =
      (Fl.insertRounds r U p x d n i span ph >>= fun ph' => Fl.insertRounds r U p x d 1 (i + n) span ph') := by
  intro n
  induction n with
  | zero => intro i ph; simp only [Fl.insertRounds, ok_bind]; rfl
  | succ n ih =>
    intro i ph
    rw [Fl.insertRounds]
    conv_rhs => rw [Fl.insertRounds]
    simp only [hl, ok_bind, Bool.false_eq_true, if_false]
    simp only [bind_assoc]
    congr 1; funext sc; congr 1; funext ph'
    rw [ih, show i + 1 + n = i + (n + 1) by ring]

theorem fl_insertKnotsPS_append (x : K) (d : ℕ) : ∀ (n : ℕ) (ps : PS K),
    Fl.insertKnotsPS r x d (n + 1) ps = (Fl.insertKnotsPS r x d n ps >>= fun ps' => Fl.insertKnotsPS r x d 1 ps') := by
  intro n
  induction n with
  | zero => intro ps; simp only [Fl.insertKnotsPS, ok_bind]
  | succ n ih =>
    intro ps
    rw [Fl.insertKnotsPS]
    conv_rhs => rw [Fl.insertKnotsPS]
    simp only [bind_assoc]
    congr 1; funext ps'
    rw [ih]

theorem fl_insertRounds_shift {U : List K} {p : ℕ} {t : K} (h : WFKnots U p) (ht : Admissible U t) {m : ℕ} (hsz : U.length + m < 2 ^ 63)
    (d : ℕ) (ph : Phys K) :
    Fl.insertRounds r U p t d 1 (1 + m) (spanIx U t : ℤ) ph =
      Fl.insertRounds r (insMany U t m) p t d 1 1 (spanIx (insMany U t m) t : ℤ) ph := by
  have hf := insMany_facts h ht m
  obtain ⟨hi, hlt, hm, hl1, hl2⟩ := ht.pos h
  have hh := hi.hi
  have hlo := hi.lo
  unfold Fl.insertRounds
  rw [fl_notLast h ht, fl_notLast hf.wf hf.adm, ok_bind, ok_bind, hf.span, hf.mult]
  simp only [Bool.false_eq_true, if_false]
  rw [toSizeT_of (i := (spanIx U t : ℤ) - (kvMult U t : ℤ)) (n := spanIx U t - kvMult U t) (by omega) (by omega),
    toSizeT_of (i := (spanIx U t : ℤ) - (p : ℤ) + ((1 + m : ℕ) : ℤ)) (n := spanIx U t + m + 1 - p) (by omega) (by omega),
    toSizeT_of (i := ((spanIx U t + m : ℕ) : ℤ) - ((kvMult U t + m : ℕ) : ℤ)) (n := spanIx U t - kvMult U t) (by omega) (by omega),
    toSizeT_of (i := ((spanIx U t + m : ℕ) : ℤ) - (p : ℤ) + ((1 : ℕ) : ℤ)) (n := spanIx U t + m + 1 - p) (by omega) (by omega)]
  rw [fl_scalingLoop_congr (V := insMany U t m) (sh' := (p : ℤ) - ((1 : ℕ) : ℤ) + 1)]
  · rfl
  · intro q hq
    simp only [Spl.stepCount] at hq
    have hl := hf.length
    constructor
    · rw [kvGet_eq (by omega), kvGet_eq (by omega), hf.knot, if_pos (by omega)]
    · rw [toSizeT_of (n := spanIx U t + m + 1 - p + q + p - m) (by omega) (by omega),
        toSizeT_of (n := spanIx U t + m + 1 - p + q + p) (by omega) (by omega), kvGet_eq (by omega), kvGet_eq (by omega), hf.knot,
        if_neg (by omega), if_neg (by omega)]

theorem fl_insertKnot_succ {s : Spl K} {d : ℕ} {U : List K} {p : ℕ} (hw : WFKnots U p) (hU : s.ps.knots[d]? = some U)
    (hp : s.ps.degree[d]? = some p) {t : K} (ht : Admissible U t) {m : ℕ} (hsz : U.length + m < 2 ^ 63) {s' : Spl K}
    (hs : Fl.insertKnot r s t d m = .ok s') (hk : s'.ps.knots[d]? = some (insMany U t m)) (hd : s'.ps.degree[d]? = some p) :
    Fl.insertKnot r s t d (m + 1) = Fl.insertKnot r s' t d 1 := by
  have hf := insMany_facts hw ht m
  unfold Fl.insertKnot at hs ⊢
  rw [getN_some hU, ok_bind, getN_some hp, ok_bind, fl_span hw ht.lo.le ht.hi.le, ok_bind] at hs ⊢
  rw [getN_some hk, ok_bind, getN_some hd, ok_bind, fl_span hf.wf hf.adm.lo.le hf.adm.hi.le, ok_bind]
  rw [fl_insertRounds_append (fl_notLast hw ht), fl_insertKnotsPS_append]
  cases h1 : Fl.insertRounds r U p t d m 1 (spanIx U t : ℤ) s.ph with
  | error e => rw [h1, error_bind] at hs; simp at hs
  | ok ph1 =>
    rw [h1, ok_bind] at hs
    cases h2 : Fl.insertKnotsPS r t d m s.ps with
    | error e => rw [h2, error_bind] at hs; simp at hs
    | ok ps1 =>
      rw [h2, ok_bind] at hs
      obtain rfl := Except.ok.inj hs
      simp only [ok_bind]
      rw [fl_insertRounds_shift hw ht hsz]

/-! ### The change of the spline -/

theorem msum_abs_le {ns : List ℕ} {N f g : List ℕ → K} {e : K} (hN : ∀ I, InBox ns I → 0 ≤ N I) (h1 : msum ns N = 1)
    (h : ∀ I, InBox ns I → |f I - g I| ≤ e) : |msum ns (fun I => N I * f I) - msum ns (fun I => N I * g I)| ≤ e := by
  have up : msum ns (fun I => N I * f I) ≤ msum ns fun I => N I * g I + N I * e :=
    msum_le fun I hI => by
      have := mul_le_mul_of_nonneg_left (abs_le.1 (h I hI)).2 (hN I hI)
      linarith
  have lo : msum ns (fun I => N I * g I) ≤ msum ns fun I => N I * f I + N I * e :=
    msum_le fun I hI => by
      have := mul_le_mul_of_nonneg_left (abs_le.1 (h I hI)).1 (hN I hI)
      linarith
  rw [msum_add, msum_mul_right, h1, one_mul] at up lo
  rw [abs_le]
  constructor <;> linarith

/-- Exact blends of coefficients, and the rounded ones. -/
theorem flBlendDir_close {s : Spl K} {d : ℕ} {U : List K} {p : ℕ} (hk : List.Forall₂ WFKnots s.ps.knots s.ps.degree)
    (hU : s.ps.knots[d]? = some U) (hp : s.ps.degree[d]? = some p) {t : K} (ht : Admissible U t) {F : List ℕ → K} {B : K}
    (hB : ∀ I, InBox (npts s) I → |F I| ≤ B) {I : List ℕ} (hI : InBox ((npts s).set d (U.length - p - 1 + 1)) I) :
    |flBlendDir r d (spanIx U t + 1 - p) (spanIx U t - kvMult U t) (flα r U p t) F I -
      blendDir d (spanIx U t + 1 - p) (spanIx U t - kvMult U t) (insα U p t) F I| ≤ 3 * (r.t ^ 6 - 1) * B ∧
    |blendDir d (spanIx U t + 1 - p) (spanIx U t - kvMult U t) (insα U p t) F I| ≤ B := by
  have hw := forall₂_get hk hU hp
  obtain ⟨hi, hlt, hm, hl1, hl2⟩ := ht.pos hw
  have hh := hi.hi
  have hlo := hi.lo
  have hix : ixd (npts s) d = U.length - p - 1 := nptsOf_ixd hU hp
  have hdn : d < (npts s).length := lt_of_some (nptsOf_get hU hp)
  rw [← hix] at hI
  have hlt' : ixd I d < ixd (npts s) d + 1 := by
    have : ixd I d < ixd ((npts s).set d (ixd (npts s) d + 1)) d := hI.getD_lt (d := d) (by simpa using hdn)
    rwa [ixd_set_self hdn] at this
  have hIl : d < I.length := by rw [hI.length]; simpa using hdn
  have hself : ixd I d < ixd (npts s) d → InBox (npts s) I := fun hc => by
    have := inBox_set_of (i := ixd I d) hI (by omega)
    rwa [set_ixd hIl] at this
  have h6 := r.one_le_pow 6
  unfold flBlendDir blendDir
  split_ifs with c1 c2
  · have hb := hB _ (inBox_set_of (i := ixd I d - 1) hI (by omega))
    rw [sub_self, abs_zero]
    have h0 := (abs_nonneg _).trans hb
    exact ⟨mul_nonneg (by linarith) h0, hb⟩
  · have b1 := hB _ (inBox_set_of (i := ixd I d - 1) hI (by omega))
    have b2 := hB I (hself (by omega))
    obtain ⟨_, _, a0, a1⟩ := insα_bounds hi (Nat.sub_le _ _) hl1 c2 (by omega)
    have hc := mix_close (flα_near (r := r) hi (Nat.sub_le _ _) hl1 c2 (by omega)) a0 (Close.exact (F I)) (Close.exact (F (I.set d (ixd I d - 1))))
    have hbd : insα U p t (ixd I d) * |F I| + (1 + insα U p t (ixd I d)) * |F (I.set d (ixd I d - 1))| ≤ 3 * B := by
      have h0 := (abs_nonneg _).trans b1
      nlinarith [mul_le_mul_of_nonneg_left b2 a0, mul_le_mul_of_nonneg_left b1 (show 0 ≤ 1 + insα U p t (ixd I d) by linarith)]
    refine ⟨?_, ?_⟩
    · have := hc.1
      rw [zero_add] at this
      refine this.trans ?_
      rw [mul_comm (3 : K), mul_assoc]
      exact mul_le_mul_of_nonneg_left hbd (by linarith)
    · rw [abs_le] at b1 b2 ⊢
      constructor <;> nlinarith
  · have hb := hB I (hself (by omega))
    rw [sub_self, abs_zero]
    have h0 := (abs_nonneg _).trans hb
    exact ⟨mul_nonneg (by linarith) h0, hb⟩

end
end SplineLib
