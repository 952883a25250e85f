import Verif.Core.Insert

/-!
# One and several rounds of `InsertKnot` (helper lemmas)
-/

namespace SplineLib
set_option linter.unusedSectionVars false
open Finset

section
variable {K : Type} [Field K] [LinearOrder K] [IsStrictOrderedRing K]

theorem toSizeT_nat {n : ℕ} (h : n < 2 ^ 64) : toSizeT (n : ℤ) = n := by
  unfold toSizeT; omega

theorem toSizeT_of {i : ℤ} {n : ℕ} (hi : i = (n : ℤ)) (h : n < 2 ^ 64) : toSizeT i = n := by
  rw [hi]; exact toSizeT_nat h

theorem intOfSizeT_nat {n : ℕ} (h : n < 2 ^ 63) : Spl.intOfSizeT n = (n : ℤ) := by
  unfold Spl.intOfSizeT; rw [if_pos h]

theorem scalingLoop_eq {U : List K} {x : K} {shift : ℤ} {α : ℕ → K} : ∀ (n j : ℕ),
    (∀ q < n, j + q < U.length ∧ ∃ r < U.length, ((j + q : ℕ) : ℤ) + shift = (r : ℤ) ∧ r < 2 ^ 64 ∧ knot U (j + q) < knot U r ∧
      α (j + q) = (x - knot U (j + q)) / (knot U r - knot U (j + q))) →
    Spl.scalingLoop U x shift n j = .ok ((List.range n).map fun q => α (j + q)) := by
  intro n
  induction n with
  | zero => intro j _; rfl
  | succ n ih =>
    intro j h
    obtain ⟨h1, r, h2, h3, h4, h5, h6⟩ := h 0 (by omega)
    simp only [Nat.add_zero] at h1 h3 h5 h6
    unfold Spl.scalingLoop
    rw [kvGet_eq h1, ok_bind, toSizeT_of h3 h4, kvGet_eq h2, ok_bind]
    have hne : knot U r - knot U j ≠ 0 := sub_ne_zero.2 (ne_of_gt h5)
    simp only [fdiv, if_neg hne, ok_bind]
    rw [ih (j + 1) (fun q hq => by have := h (q + 1) (by omega); rwa [show j + (q + 1) = j + 1 + q by ring] at this), ok_bind]
    rw [List.range_succ_eq_map, List.map_cons, List.map_map, show j + 0 = j from rfl, h6]
    simp only [Function.comp_def, Nat.succ_eq_add_one, pure_ok]
    congr 2
    apply List.map_congr_left
    intro q _
    rw [show j + 1 + q = j + (q + 1) by ring]

theorem scalingOK_of {α : ℕ → K} {first last : ℕ} (h : ∀ j, first ≤ j → j ≤ last → 0 ≤ α j ∧ α j ≤ 1) :
    ScalingOK ((List.range (Spl.stepCount first last)).map fun q => α (first + q)) first last α := by
  intro i h1 h2
  refine ⟨?_, h i h1 h2⟩
  rw [show (i : ℤ) - (first : ℤ) = ((i - first : ℕ) : ℤ) by omega]
  rw [getI_map_range (by unfold Spl.stepCount; omega)]
  congr 2; omega

/-- The scaling factor of `InsertKnot`. -/
def insα (U : List K) (p : ℕ) (t : K) (j : ℕ) : K := (t - knot U j) / (knot U (j + p) - knot U j)

theorem insα_bounds {U : List K} {p k : ℕ} {t : K} (h : InsAt U p k t) {last : ℕ} (hl : last ≤ k) (hl1 : knot U last < t) {j : ℕ}
    (h1 : k + 1 - p ≤ j) (h2 : j ≤ last) : knot U j < t ∧ t ≤ knot U (j + p) ∧ 0 ≤ insα U p t j ∧ insα U p t j ≤ 1 := by
  have hh := h.hi
  have a1 : knot U j ≤ knot U last := h.wf.sorted.mono h2 (by omega)
  have a2 : knot U (k + 1) ≤ knot U (j + p) := h.wf.sorted.mono (by omega) (by omega)
  have hge := h.ge
  have p1 : 0 < t - knot U j := by linarith
  have p2 : 0 < knot U (j + p) - knot U j := by linarith
  refine ⟨by linarith, by linarith, ?_, ?_⟩
  · exact div_nonneg p1.le p2.le
  · unfold insα; rw [div_le_one p2]; linarith

/-- One round on the knot vector `U`. -/
theorem insertRounds_one {U : List K} {p : ℕ} {t : K} (h : WFKnots U p) (ht : Admissible U t) (hsz : U.length < 2 ^ 63) (d : ℕ)
    (ph : Phys K) :
    ∃ scaling, ScalingOK scaling (spanIx U t + 1 - p) (spanIx U t - kvMult U t) (insα U p t) ∧
      Spl.insertRounds U p t d 1 1 (spanIx U t : ℤ) ph =
        Spl.adjustCPs ph scaling ((spanIx U t + 1 - p : ℕ) : ℤ) ((spanIx U t - kvMult U t : ℕ) : ℤ) d := by
  obtain ⟨hi, hlt, hm, hl1, hl2⟩ := ht.pos h
  have hh := hi.hi
  have hlo := hi.lo
  refine ⟨_, scalingOK_of (fun j h1 h2 => ⟨(insα_bounds hi (Nat.sub_le _ _) hl1 h1 h2).2.2.1, (insα_bounds hi (Nat.sub_le _ _) hl1 h1 h2).2.2.2⟩), ?_⟩
  unfold Spl.insertRounds
  rw [ht.notLast h, ok_bind]
  simp only [Bool.false_eq_true, if_false]
  rw [toSizeT_of (i := (spanIx U t : ℤ) - (kvMult U t : ℤ)) (n := spanIx U t - kvMult U t) (by omega) (by omega),
    toSizeT_of (i := (spanIx U t : ℤ) - (p : ℤ) + ((1 : ℕ) : ℤ)) (n := spanIx U t + 1 - p) (by omega) (by omega)]
  rw [scalingLoop_eq (α := insα U p t)]
  · rw [ok_bind, intOfSizeT_nat (by omega), intOfSizeT_nat (by omega)]
    simp only [Spl.insertRounds]
    generalize Spl.adjustCPs ph _ _ _ d = r
    cases r <;> rfl
  · intro q hq
    simp only [Spl.stepCount] at hq
    have hb := insα_bounds hi (j := spanIx U t + 1 - p + q) (Nat.sub_le _ _) hl1 (by omega) (by omega)
    refine ⟨by omega, spanIx U t + 1 - p + q + p, by omega, by push_cast; omega, by omega, by linarith [hb.1, hb.2.1], rfl⟩

theorem set_set_eq {α : Type*} {l : List α} {d : ℕ} {a b : α} : (l.set d a).set d b = l.set d b := List.set_set ..

theorem forall₂_set {α β : Type*} {R : α → β → Prop} {l : List α} {m : List β} (h : List.Forall₂ R l m) {d : ℕ} {a : α} {b : β}
    (hb : m[d]? = some b) (hr : R a b) : List.Forall₂ R (l.set d a) m := by
  induction h generalizing d with
  | nil => simp
  | cons h1 h2 ih =>
    cases d with
    | zero => simp at hb; subst hb; exact .cons hr h2
    | succ d => simp at hb; exact .cons h1 (ih hb)

theorem forall₂_get {α β : Type*} {R : α → β → Prop} {l : List α} {m : List β} (h : List.Forall₂ R l m) {d : ℕ} {a : α} {b : β}
    (ha : l[d]? = some a) (hb : m[d]? = some b) : R a b := by
  induction h generalizing d with
  | nil => simp at ha
  | cons h1 h2 ih =>
    cases d with
    | zero => simp at ha hb; subst ha; subst hb; exact h1
    | succ d => simp at ha hb; exact ih ha hb

theorem forall₂_exists {α β : Type*} {R : α → β → Prop} {l : List α} {m : List β} (h : List.Forall₂ R l m) {d : ℕ} {a : α}
    (ha : l[d]? = some a) : ∃ b, m[d]? = some b ∧ R a b := by
  induction h generalizing d with
  | nil => simp at ha
  | cons h1 h2 ih =>
    cases d with
    | zero => simp at ha; subst ha; exact ⟨_, by simp, h1⟩
    | succ d => simp at ha; obtain ⟨b, e1, e2⟩ := ih ha; exact ⟨b, by simpa using e1, e2⟩

/-- Replacing a knot vector by one with the same range does not change the domain. -/
theorem dom_set {Us : List (List K)} {xs : List K} {d : ℕ} {U V : List K} (hU : Us[d]? = some U) (h0 : knot V 0 = knot U 0)
    (h1 : lastKnot V = lastKnot U) : Dom (Us.set d V) xs ↔ Dom Us xs := by
  unfold Dom
  induction Us generalizing d xs with
  | nil => simp
  | cons U0 Us ih =>
    cases d with
    | zero =>
      simp at hU; subst hU
      cases xs with
      | nil => simp
      | cons x xs => simp [h0, h1]
    | succ d =>
      simp at hU
      cases xs with
      | nil => simp
      | cons x xs => simp [ih hU]

/-- The parameter space part of an insertion. -/
theorem psInsert {ps : PS K} (h : WFPS ps) {d : ℕ} {U : List K} {p : ℕ} (hU : ps.knots[d]? = some U) (hp : ps.degree[d]? = some p)
    {t : K} (ht : Admissible U t) :
    ∃ b, ps.insertKnot t d = .ok ⟨ps.knots.set d (U.insertIdx (spanIx U t + 1) t), ps.degree, b⟩ ∧
      WFPS (⟨ps.knots.set d (U.insertIdx (spanIx U t + 1) t), ps.degree, b⟩ : PS K) := by
  have hw := forall₂_get h.knots hU hp
  have hk : List.Forall₂ WFKnots (ps.knots.set d (U.insertIdx (spanIx U t + 1) t)) ps.degree := forall₂_set h.knots hp (ht.pos hw).1.wf'
  refine ⟨mkTable (ps.knots.set d (U.insertIdx (spanIx U t + 1) t)) ps.degree, ?_, hk, basisTable_eq (forall₂_size hk)⟩
  simp only [PS.insertKnot, getN_some hU, ok_bind, ht.insert hw, PS.recreate, basisTable_eq (forall₂_size hk)]
  rfl

theorem phys_sums (s : Spl K) (x : List K) : tensorSum s x (wgt s) =
      msum (nptsOf s.ps.knots s.ps.degree) (fun I => dprod (basisFns s.ps.knots s.ps.degree x) I * pwgt s.ph (nptsOf s.ps.knots s.ps.degree) I) ∧
    ∀ c, tensorSum s x (fun I => wgt s I * cpt s I c) =
      msum (nptsOf s.ps.knots s.ps.degree) (fun I => dprod (basisFns s.ps.knots s.ps.degree x) I *
        (pwgt s.ph (nptsOf s.ps.knots s.ps.degree) I * pcpt s.ph (nptsOf s.ps.knots s.ps.degree) I c)) := ⟨rfl, fun _ => rfl⟩

theorem blendDir_line {d first last : ℕ} {α : ℕ → K} {F : List ℕ → K} {I : List ℕ} (hd : d < I.length) (j : ℕ) :
    blendDir d first last α F (I.set d j) = blend1 first last α (fun i => F (I.set d i)) j := by
  unfold blendDir blend1
  rw [ixd_set_self hd]
  simp only [List.set_set]

/-- Blended coefficients belong to the refined knot vector. -/
theorem blend_sums {Us : List (List K)} {ps : List ℕ} {xs : List K} {d : ℕ} {U : List K} {p k : ℕ} {t : K}
    (hU : Us[d]? = some U) (hp : ps[d]? = some p) (hx : Dom Us xs) (h : InsAt U p k t) {last : ℕ}
    (hl : last ≤ k) (hl1 : knot U last < t) (hl2 : ∀ j, last < j → j ≤ k → knot U j = t) (F : List ℕ → K) :
    msum ((nptsOf Us ps).set d (U.length - p - 1 + 1)) (fun I => dprod (basisFns (Us.set d (U.insertIdx (k + 1) t)) ps xs) I *
        blendDir d (k + 1 - p) last (insα U p t) F I) =
      msum (nptsOf Us ps) (fun I => dprod (basisFns Us ps xs) I * F I) := by
  obtain ⟨x, hx1, hx2⟩ := forall₂_exists hx hU
  have hd := lt_of_some (nptsOf_get hU hp)
  rw [tensor_change (V := U.insertIdx (k + 1) t) (q := p) hU hp hx1 (n' := U.length - p - 1 + 1) (F := F)
    (G := blendDir d (k + 1 - p) last (insα U p t) F), set_same hp]
  intro I hI
  have hdI : d < I.length := by rw [hI.length]; simpa using hd
  rw [h.sum hx2.1 hx2.2 hl hl1 hl2 (α := insα U p t) (fun j _ _ => rfl)]
  apply sum_congr rfl
  intro j _
  rw [blendDir_line hdI]

theorem nptsOf_pos {Us : List (List K)} {ps : List ℕ} (h : List.Forall₂ WFKnots Us ps) : ∀ n ∈ nptsOf Us ps, 0 < n := by
  induction h with
  | nil => simp [nptsOf]
  | cons h1 _ ih =>
    intro n hn
    simp only [nptsOf, List.zipWith_cons_cons, List.mem_cons] at hn
    rcases hn with rfl | hn
    · have := h1.size; omega
    · exact ih n hn

/-- The coefficients after one insertion are blends of the old ones. -/
def InsBlend (s s' : Spl K) (d : ℕ) (U : List K) (p : ℕ) (t : K) : Prop :=
  ∀ I, InBox (npts s') I →
    wgt s' I = blendDir d (spanIx U t + 1 - p) (spanIx U t - kvMult U t) (insα U p t) (wgt s) I ∧
    ∀ c < s.ph.dim, wgt s' I * cpt s' I c =
      blendDir d (spanIx U t + 1 - p) (spanIx U t - kvMult U t) (insα U p t) (fun I => wgt s I * cpt s I c) I

/-- A single insertion, with the new coefficients. -/
theorem insertKnot_one_blend {s : Spl K} (h : WFSpl s) {d : ℕ} {U : List K} {p : ℕ} (hU : s.ps.knots[d]? = some U)
    (hp : s.ps.degree[d]? = some p) {t : K} (ht : Admissible U t) (hsz : U.length < 2 ^ 63) :
    ∃ s', s.insertKnot t d 1 = .ok s' ∧ WFSpl s' ∧ s'.ps.degree = s.ps.degree ∧
      s'.ps.knots = s.ps.knots.set d (U.insertIdx (spanIx U t + 1) t) ∧ SameSums s s' ∧ InsBlend s s' d U p t := by
  have hw := forall₂_get h.knots hU hp
  obtain ⟨hi, hlt, hm, hl1, hl2⟩ := ht.pos hw
  have hh := hi.hi
  have hlo := hi.lo
  obtain ⟨b, hb, hbw⟩ := psInsert h.wfps hU hp ht
  obtain ⟨scaling, hs, hr⟩ := insertRounds_one hw ht hsz d s.ph
  have hpos : ∀ n ∈ npts s, 0 < n := nptsOf_pos h.knots
  have hix : ixd (npts s) d = U.length - p - 1 := nptsOf_ixd hU hp
  have hdn : d < (npts s).length := lt_of_some (nptsOf_get hU hp)
  obtain ⟨ph', a1, a2, a3, a4, a5⟩ := adjustCPs_spec h.phys hpos hdn (by omega) (by rw [hix]; omega) hs
  rw [hix] at a2 a5
  have hnew : nptsOf (s.ps.knots.set d (U.insertIdx (spanIx U t + 1) t)) s.ps.degree = (npts s).set d (U.length - p - 1 + 1) := by
    rw [nptsOf_set _ hp, hi.length, npts_eq]; congr 1; omega
  refine ⟨⟨⟨s.ps.knots.set d (U.insertIdx (spanIx U t + 1) t), s.ps.degree, b⟩, ph'⟩, ?_, ?_, rfl, rfl, ?_, ?_⟩
  · unfold Spl.insertKnot
    rw [getN_some hU, ok_bind, getN_some hp, ok_bind, ht.span_eq hw, ok_bind, hr, a1, ok_bind]
    simp only [Spl.insertKnotsPS, hb, ok_bind]
    rfl
  · rw [wfSpl_iff]
    refine ⟨hbw, ?_⟩
    rw [npts_eq]
    simp only
    rw [hnew]; exact a2
  · refine ⟨a3, a4, ?_, ?_, ?_⟩
    · intro x
      exact dom_set hU hi.firstKnot hi.lastKnot
    · intro x hx
      rw [(phys_sums _ x).1, (phys_sums s x).1]
      simp only
      rw [hnew, ← blend_sums hU hp hx hi (by omega) hl1 hl2]
      apply msum_congr
      intro I hI
      rw [(a5 I hI).1]
      rfl
    · intro x hx c hc
      rw [(phys_sums _ x).2, (phys_sums s x).2]
      simp only
      rw [hnew, ← blend_sums hU hp hx hi (by omega) hl1 hl2]
      apply msum_congr
      intro I hI
      rw [(a5 I hI).2 c hc]
      rfl
  · intro I hI
    rw [npts_eq] at hI
    simp only at hI
    rw [hnew] at hI
    have := a5 I hI
    refine ⟨?_, fun c hc => ?_⟩
    · have e := this.1
      unfold wgt
      rw [npts_eq]
      simp only
      rw [hnew]
      exact e
    · have e := this.2 c hc
      unfold wgt cpt
      rw [npts_eq]
      simp only
      rw [hnew]
      exact e

/-- A single insertion. -/
theorem insertKnot_one {s : Spl K} (h : WFSpl s) {d : ℕ} {U : List K} {p : ℕ} (hU : s.ps.knots[d]? = some U)
    (hp : s.ps.degree[d]? = some p) {t : K} (ht : Admissible U t) (hsz : U.length < 2 ^ 63) :
    ∃ s', s.insertKnot t d 1 = .ok s' ∧ WFSpl s' ∧ s'.ps.degree = s.ps.degree ∧
      s'.ps.knots = s.ps.knots.set d (U.insertIdx (spanIx U t + 1) t) ∧ SameSums s s' := by
  obtain ⟨s', a1, a2, a3, a4, a5, _⟩ := insertKnot_one_blend h hU hp ht hsz
  exact ⟨s', a1, a2, a3, a4, a5⟩

end
end SplineLib
