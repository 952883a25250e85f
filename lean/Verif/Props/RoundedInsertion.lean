import Verif.Core.RoundedInsert
import Verif.Props.Rounding
import Verif.Props.RoundedText
import Verif.Props.KnotInsertion

/-!
# Property C76 (knot insertion with rounded arithmetic)

With exact numbers knot insertion does not change the curve (C12, C13). In floating point arithmetic it changes it by a small multiple
of the size of the control points.
-/

namespace SplineLib
set_option linter.unusedSectionVars false
open Finset Rounding
variable {K : Type} [Field K] [LinearOrder K] [IsStrictOrderedRing K]

/-- `s'` is a B-spline on the same domain as `s`. If the coordinates of the control points of `s` are at most `B` in absolute value then
those of `s'` are at most `f * B`, and no point of the spline moved by more than `(f - 1) * B`. -/
structure Drift (f : K) (s s' : Spl K) : Prop where
  dim : s'.ph.dim = s.ph.dim
  domain : ∀ x, InDomain s' x ↔ InDomain s x
  size : ∀ c < s.ph.dim, ∀ B, (∀ I, InBox (npts s) I → |cpt s I c| ≤ B) → ∀ I, InBox (npts s') I → |cpt s' I c| ≤ f * B
  values : ∀ c < s.ph.dim, ∀ B, (∀ I, InBox (npts s) I → |cpt s I c| ≤ B) → ∀ x, InDomain s x →
    |bsplineValue s' x c - bsplineValue s x c| ≤ (f - 1) * B

theorem Drift.refl (s : Spl K) : Drift 1 s s :=
  ⟨rfl, fun _ => Iff.rfl, fun _ _ B hB I hI => by simpa using hB I hI, fun _ _ B hB _ _ => by simp⟩

theorem Drift.trans {f g : K} {s s' s'' : Spl K} (h : Drift f s s') (h' : Drift g s' s'') : Drift (f * g) s s'' := by
  refine ⟨h'.dim.trans h.dim, fun x => (h'.domain x).trans (h.domain x), ?_, ?_⟩
  · intro c hc B hB I hI
    have := h'.size c (by rw [h.dim]; exact hc) _ (h.size c hc B hB) I hI
    linarith
  · intro c hc B hB x hx
    have h1 := h.values c hc B hB x hx
    have h2 := h'.values c (by rw [h.dim]; exact hc) _ (h.size c hc B hB) x ((h.domain x).2 hx)
    calc |bsplineValue s'' x c - bsplineValue s x c| ≤ |bsplineValue s'' x c - bsplineValue s' x c| + |bsplineValue s' x c - bsplineValue s x c| :=
          abs_sub_le _ _ _
      _ ≤ (g - 1) * (f * B) + (f - 1) * B := add_le_add h2 h1
      _ = (f * g - 1) * B := by ring

theorem drift_one (r : Rounding K) {s s' : Spl K} (h : Fl.WF r s) (h' : Fl.WF r s') (hb : IsBSpline s) {d : ℕ} {U : List K} {p : ℕ}
    (hU : s.ps.knots[d]? = some U) (hp : s.ps.degree[d]? = some p) {t : K} (ht : Admissible U t) (hdeg : s'.ps.degree = s.ps.degree)
    (hkn : s'.ps.knots = s.ps.knots.set d (U.insertIdx (spanIx U t + 1) t)) (hdim : s'.ph.dim = s.ph.dim)
    (hbl : FlInsBlend r s s' d U p t) : Drift (1 + 3 * growth r 6) s s' := by
  have hw := forall₂_get h.knots hU hp
  obtain ⟨hi, hlt, hm, hl1, hl2⟩ := ht.pos hw
  have hh := hi.hi
  have hnew : npts s' = (npts s).set d (U.length - p - 1 + 1) := by
    rw [npts_eq, hkn, hdeg, nptsOf_set _ hp, hi.length, npts_eq]; congr 1; omega
  have hdom : ∀ x, InDomain s' x ↔ InDomain s x := fun x => by
    unfold InDomain; rw [hkn]; exact dom_set hU hi.firstKnot hi.lastKnot
  have hg : growth r 6 = r.t ^ 6 - 1 := rfl
  have hn : s.ph.weights = none := hb
  have key : ∀ c < s.ph.dim, ∀ B, (∀ I, InBox (npts s) I → |cpt s I c| ≤ B) → ∀ I, InBox (npts s') I →
      |cpt s' I c - blendDir d (spanIx U t + 1 - p) (spanIx U t - kvMult U t) (insα U p t) (fun I => cpt s I c) I| ≤ 3 * growth r 6 * B ∧
      |blendDir d (spanIx U t + 1 - p) (spanIx U t - kvMult U t) (insα U p t) (fun I => cpt s I c) I| ≤ B := by
    intro c hc B hB I hI
    rw [(hbl I hI).2 c hc, hn]
    rw [hnew] at hI
    simp only [flNewP, Option.isSome_none, Bool.false_eq_true, if_false, hg]
    exact flBlendDir_close h.knots hU hp ht hB hI
  refine ⟨hdim, hdom, ?_, ?_⟩
  · intro c hc B hB I hI
    obtain ⟨k1, k2⟩ := key c hc B hB I hI
    have := abs_sub_abs_le_abs_sub (cpt s' I c) (blendDir d (spanIx U t + 1 - p) (spanIx U t - kvMult U t) (insα U p t) (fun I => cpt s I c) I)
    linarith
  · intro c hc B hB x hx
    have hx' := (hdom x).2 hx
    have e : bsplineValue s x c = msum (npts s') fun I => dprod (basisFns s'.ps.knots s'.ps.degree x) I *
        blendDir d (spanIx U t + 1 - p) (spanIx U t - kvMult U t) (insα U p t) (fun I => cpt s I c) I := by
      rw [hnew, hkn, hdeg]
      exact (blend_sums hU hp hx hi (by omega) hl1 hl2 _).symm
    rw [e, show 1 + 3 * growth r 6 - 1 = 3 * growth r 6 by ring]
    exact msum_abs_le (fun I hI => tensor_nonneg h'.knots hx' hI) (tensor_unity h'.knots hx') fun I hI => (key c hc B hB I hI).1

/-- **C76**: `InsertKnot` on a B-spline, with any multiplicity. The knots are the ones of exact arithmetic; with `m` copies of the knot
the points of the spline move by at most `((1 + 3 g)^m - 1) B`, where `g` is about `6 u` and `B` bounds the coordinates. -/
theorem C76_insert_bspline (r : Rounding K) {s : Spl K} (h : Fl.WF r s) (hb : IsBSpline s) {d : ℕ} {U : List K} {p : ℕ}
    (hU : s.ps.knots[d]? = some U) (hp : s.ps.degree[d]? = some p) {t : K} (ht : Admissible U t) (m : ℕ) (hsz : U.length + m < 2 ^ 63) :
    ∃ s' V, Fl.insertKnot r s t d m = .ok s' ∧ Fl.WF r s' ∧ IsBSpline s' ∧ s'.ps.degree = s.ps.degree ∧
      s'.ps.knots = s.ps.knots.set d V ∧ KnotsAdded U t m V ∧ Drift ((1 + 3 * growth r 6) ^ m) s s' := by
  have hw := forall₂_get h.knots hU hp
  have hf := insMany_facts hw ht
  have key : ∀ m, U.length + m < 2 ^ 63 → ∃ s', Fl.insertKnot r s t d m = .ok s' ∧ Fl.WF r s' ∧ IsBSpline s' ∧ s'.ps.degree = s.ps.degree ∧
      s'.ps.knots = s.ps.knots.set d (insMany U t m) ∧ Drift ((1 + 3 * growth r 6) ^ m) s s' := by
    intro m
    induction m with
    | zero =>
      intro _
      refine ⟨s, ?_, h, hb, rfl, (set_same hU).symm, by rw [pow_zero]; exact Drift.refl s⟩
      simp only [Fl.insertKnot, getN_some hU, ok_bind, getN_some hp, fl_span hw ht.lo.le ht.hi.le, Fl.insertRounds, Fl.insertKnotsPS]
      rfl
    | succ m ih =>
      intro hsz
      obtain ⟨s1, e1, w1, b1, d1, k1, g1⟩ := ih (by omega)
      have hk1 : s1.ps.knots[d]? = some (insMany U t m) := by
        rw [k1, List.getElem?_set]; simp [lt_of_some hU]
      have hd1 : s1.ps.degree[d]? = some p := by rw [d1]; exact hp
      obtain ⟨s2, e2, w2, d2, k2, n2, b2, f2⟩ := fl_insertKnot_one w1 hk1 hd1 (hf m).adm (by rw [(hf m).length]; omega) (Or.inl b1)
      refine ⟨s2, ?_, w2, b2.1 b1, d2.trans d1, ?_, ?_⟩
      · rw [fl_insertKnot_succ hw hU hp ht (by omega) e1 hk1 hd1, e2]
      · rw [k2, k1, List.set_set]; rfl
      · rw [pow_succ]
        exact g1.trans (drift_one r w1 w2 b1 hk1 hd1 (hf m).adm d2 k2 n2 f2)
  obtain ⟨s', e1, w1, b1, d1, k1, g1⟩ := key m hsz
  exact ⟨s', insMany U t m, e1, w1, b1, d1, k1, ⟨(hf m).wf.sorted, (hf m).length, (hf m).count⟩, g1⟩

/-- **C76**: `RefineKnots` with any list of admissible knots. -/
theorem C76_refine_bspline (r : Rounding K) {s : Spl K} (h : Fl.WF r s) (hb : IsBSpline s) {d : ℕ} {U : List K} {p : ℕ}
    (hU : s.ps.knots[d]? = some U) (hp : s.ps.degree[d]? = some p) (xs : List K) (hx : ∀ t ∈ xs, knot U 0 < t ∧ t < lastKnot U)
    (hsep : Separated (xs ++ U)) (hsz : U.length + xs.length < 2 ^ 63) :
    ∃ s' V, Fl.refineKnots r s xs d = .ok s' ∧ Fl.WF r s' ∧ IsBSpline s' ∧ s'.ps.degree = s.ps.degree ∧
      s'.ps.knots = s.ps.knots.set d V ∧ SortedKnots V ∧ (∀ y, V.count y = U.count y + xs.count y) ∧
      Drift ((1 + 3 * growth r 6) ^ xs.length) s s' := by
  induction xs generalizing s U with
  | nil => exact ⟨s, U, rfl, h, hb, rfl, (set_same hU).symm, (forall₂_get h.knots hU hp).sorted, by simp, by simpa using Drift.refl s⟩
  | cons t xs ih =>
    have hw := forall₂_get h.knots hU hp
    have ht : Admissible U t := ⟨(hx t (by simp)).1, (hx t (by simp)).2, fun a ha b hb => hsep a (by simp at ha ⊢; tauto) b (by simp at hb ⊢; tauto)⟩
    simp only [List.length_cons] at hsz
    obtain ⟨s1, e1, w1, d1, k1, n1, b1, f1⟩ := fl_insertKnot_one h hU hp ht (by omega) (Or.inl hb)
    have hi := (ht.pos hw).1
    have hh := hi.hi
    obtain ⟨s2, V, e2, w2, b2, d2, k2, v1, v2, g2⟩ := ih (s := s1) (U := U.insertIdx (spanIx U t + 1) t) w1 (b1.1 hb)
      (by rw [k1, List.getElem?_set]; simp [lt_of_some hU]) (by rw [d1]; exact hp)
      (by intro y hy; rw [hi.firstKnot, hi.lastKnot]; exact hx y (by simp [hy]))
      (by
        intro a ha b hb
        refine hsep a ?_ b ?_
        · simp only [List.mem_append, hi.mem] at ha
          simp only [List.cons_append, List.mem_cons, List.mem_append]; tauto
        · simp only [List.mem_append, hi.mem] at hb
          simp only [List.cons_append, List.mem_cons, List.mem_append]; tauto)
      (by rw [hi.length]; omega)
    refine ⟨s2, V, ?_, w2, b2, d2.trans d1, by rw [k2, k1, List.set_set], v1, ?_, ?_⟩
    · unfold Fl.refineKnots at e2 ⊢
      simp only [PS.forEach, e1, ok_bind]
      exact e2
    · intro y
      rw [v2, count_insertIdx (by omega), List.count_cons]
      by_cases hy : y = t
      · subst hy; simp; ring
      · have : (t == y) = false := by simpa using Ne.symm hy
        rw [if_neg hy, this]; simp
    · rw [List.length_cons, pow_succ']
      exact (drift_one r h w1 hb hU hp ht d1 k1 n1 f1).trans g2

/-- **C76**: refinement and evaluation together, both with rounding, against the exact value of the original spline. -/
theorem C76_refine_evaluate (r : Rounding K) {s : Spl K} (h : Fl.WF r s) (hb : IsBSpline s) {d : ℕ} {U : List K} {p : ℕ}
    (hU : s.ps.knots[d]? = some U) (hp : s.ps.degree[d]? = some p) (xs : List K) (hx : ∀ t ∈ xs, knot U 0 < t ∧ t < lastKnot U)
    (hsep : Separated (xs ++ U)) (hsz : U.length + xs.length < 2 ^ 63) {x : List K} (hx' : InDomain s x) (dims : List ℕ)
    (hd : ∀ c ∈ dims, c < s.ph.dim) {B : K} (hB : ∀ c ∈ dims, ∀ I, InBox (npts s) I → |cpt s I c| ≤ B) :
    ∃ v, (Fl.refineKnots r s xs d >>= fun s' => Fl.evaluate r s' x (zl dims)) = .ok v ∧ List.Forall₂ (fun c a => |a - bsplineValue s x c| ≤
      ((1 + growth r (basisSteps s.ps.degree + 1 + (s.ps.degree.map (· + 1)).prod)) * (1 + 3 * growth r 6) ^ xs.length - 1) * B) dims v := by
  obtain ⟨s', V, e1, w1, b1, d1, _, _, _, g1⟩ := C76_refine_bspline r h hb hU hp xs hx hsep hsz
  obtain ⟨v, e2, e3⟩ := C70_bspline_uniform r w1 b1 ((g1.domain x).2 hx') dims (fun c hc => by rw [g1.dim]; exact hd c hc)
    (B := (1 + 3 * growth r 6) ^ xs.length * B) (fun c hc => g1.size c (hd c hc) B (hB c hc))
  refine ⟨v, by rw [e1, ok_bind, e2], ?_⟩
  refine List.Forall₂.imp ?_ (forall₂_mem e3)
  rintro c a ⟨hc, hca⟩
  have h2 := g1.values c (hd c hc) B (hB c hc) x hx'
  rw [d1] at hca
  have h3 := abs_sub_le a (bsplineValue s' x c) (bsplineValue s x c)
  calc |a - bsplineValue s x c| ≤ _ := h3
    _ ≤ _ := add_le_add hca h2
    _ = _ := by ring

theorem Rounding.Close.step {r : Rounding K} {a a' b c : K} {k : ℕ} (h : r.Close k a b c) (ha : |a' - a| ≤ r.u * |a|) : r.Close (k + 1) a' b c := by
  refine ⟨?_, h.2⟩
  have h1 := h.1
  have h2 := h.abs_le
  have h3 := r.one_add_le_t
  have h4 := r.pow_pos' k
  have h5 := h.nonneg
  have h6 := abs_sub_le a' a b
  have h7 := mul_le_mul_of_nonneg_left h2 r.u_nonneg
  have h8 : (1 + r.u) * (r.t ^ k * c) ≤ r.t * (r.t ^ k * c) := mul_le_mul_of_nonneg_right h3 (by positivity)
  calc |a' - b| ≤ r.u * (r.t ^ k * c) + (r.t ^ k - 1) * c := by linarith
    _ ≤ (r.t ^ (k + 1) - 1) * c := by rw [pow_succ]; linarith

theorem nurbs_of_iff {s s' : Spl K} (h : s.ph.weights = none ↔ s'.ph.weights = none) (hn : IsNurbs s) : IsNurbs s' := by
  obtain ⟨w0, hw0⟩ := hn
  cases hc : s'.ph.weights with
  | none => rw [h.2 hc] at hw0; simp at hw0
  | some w => exact ⟨w, hc⟩

/-- `s'` is a NURBS on the same domain as `s`. The weights and the homogeneous coordinates (weight times coordinate) grew at most by
the factor `f`, and the weight function and the homogeneous curve moved at most by `f - 1` times their bounds. -/
structure HomDrift (f : K) (s s' : Spl K) : Prop where
  dim : s'.ph.dim = s.ph.dim
  domain : ∀ x, InDomain s' x ↔ InDomain s x
  weights : ∀ W, (∀ I, InBox (npts s) I → wgt s I ≤ W) → (∀ I, InBox (npts s') I → wgt s' I ≤ f * W) ∧
    ∀ x, InDomain s x → |weightValue s' x - weightValue s x| ≤ (f - 1) * W
  points : ∀ c < s.ph.dim, ∀ H, (∀ I, InBox (npts s) I → |wgt s I * cpt s I c| ≤ H) →
    (∀ I, InBox (npts s') I → |wgt s' I * cpt s' I c| ≤ f * H) ∧ ∀ x, InDomain s x →
      |tensorSum s' x (fun I => wgt s' I * cpt s' I c) - tensorSum s x (fun I => wgt s I * cpt s I c)| ≤ (f - 1) * H

theorem HomDrift.refl (s : Spl K) : HomDrift 1 s s :=
  ⟨rfl, fun _ => Iff.rfl, fun W hW => ⟨fun I hI => by simpa using hW I hI, fun _ _ => by simp⟩,
    fun _ _ H hH => ⟨fun I hI => by simpa using hH I hI, fun _ _ => by simp⟩⟩

theorem HomDrift.trans {f g : K} {s s' s'' : Spl K} (h : HomDrift f s s') (h' : HomDrift g s' s'') : HomDrift (f * g) s s'' := by
  refine ⟨h'.dim.trans h.dim, fun x => (h'.domain x).trans (h.domain x), ?_, ?_⟩
  · intro W hW
    obtain ⟨a1, a2⟩ := h.weights W hW
    obtain ⟨b1, b2⟩ := h'.weights _ a1
    refine ⟨fun I hI => by have := b1 I hI; linarith, fun x hx => ?_⟩
    have c1 := a2 x hx
    have c2 := b2 x ((h.domain x).2 hx)
    calc _ ≤ |weightValue s'' x - weightValue s' x| + |weightValue s' x - weightValue s x| := abs_sub_le _ _ _
      _ ≤ (g - 1) * (f * W) + (f - 1) * W := add_le_add c2 c1
      _ = (f * g - 1) * W := by ring
  · intro c hc H hH
    obtain ⟨a1, a2⟩ := h.points c hc H hH
    obtain ⟨b1, b2⟩ := h'.points c (by rw [h.dim]; exact hc) _ a1
    refine ⟨fun I hI => by have := b1 I hI; linarith, fun x hx => ?_⟩
    have c1 := a2 x hx
    have c2 := b2 x ((h.domain x).2 hx)
    have c3 := abs_sub_le (tensorSum s'' x fun I => wgt s'' I * cpt s'' I c) (tensorSum s' x fun I => wgt s' I * cpt s' I c)
      (tensorSum s x fun I => wgt s I * cpt s I c)
    calc _ ≤ _ := c3
      _ ≤ (g - 1) * (f * H) + (f - 1) * H := add_le_add c2 c1
      _ = (f * g - 1) * H := by ring

theorem homDrift_one (r : Rounding K) {s s' : Spl K} (h : Fl.WF r s) (h' : Fl.WF r s') (hn : IsNurbs s) {d : ℕ} {U : List K} {p : ℕ}
    (hU : s.ps.knots[d]? = some U) (hp : s.ps.degree[d]? = some p) {t : K} (ht : Admissible U t) (hdeg : s'.ps.degree = s.ps.degree)
    (hkn : s'.ps.knots = s.ps.knots.set d (U.insertIdx (spanIx U t + 1) t)) (hdim : s'.ph.dim = s.ph.dim)
    (hbl : FlInsBlend r s s' d U p t) : HomDrift (1 + 3 * growth r 8) s s' := by
  have hw := forall₂_get h.knots hU hp
  obtain ⟨hi, hlt, hm, hl1, hl2⟩ := ht.pos hw
  have hh := hi.hi
  obtain ⟨w0, hw0⟩ := hn
  have hnew : npts s' = (npts s).set d (U.length - p - 1 + 1) := by
    rw [npts_eq, hkn, hdeg, nptsOf_set _ hp, hi.length, npts_eq]; congr 1; omega
  have hdom : ∀ x, InDomain s' x ↔ InDomain s x := fun x => by
    unfold InDomain; rw [hkn]; exact dom_set hU hi.firstKnot hi.lastKnot
  have hpos' : ∀ I, InBox (npts s') I → 0 < wgt s' I := fun I hI => wgt_pos h'.exact hI
  have hposs : ∀ I, InBox (npts s) I → 0 < wgt s I := fun I hI => wgt_pos h.exact hI
  obtain ⟨I0, hI0⟩ : ∃ I, InBox (npts s) I := ⟨_, unlin_inBox (nptsOf_pos h.knots) 0⟩
  have hg68 := growth_mono r (show 6 ≤ 8 by norm_num)
  have hg8 := growth_nonneg r 8
  have blendLe : ∀ (F : List ℕ → K) (B : K), (∀ I, InBox (npts s) I → |F I| ≤ B) → ∀ I, InBox (npts s') I →
      |blendDir d (spanIx U t + 1 - p) (spanIx U t - kvMult U t) (insα U p t) F I| ≤ B := by
    intro F B hB I hI
    rw [hnew] at hI
    exact (flBlendDir_close (r := r) h.knots hU hp ht hB hI).2
  -- the weights
  have kw : ∀ W, (∀ I, InBox (npts s) I → wgt s I ≤ W) → ∀ I, InBox (npts s') I →
      |wgt s' I - blendDir d (spanIx U t + 1 - p) (spanIx U t - kvMult U t) (insα U p t) (wgt s) I| ≤ 3 * growth r 8 * W := by
    intro W hW I hI
    have hW0 : 0 < W := (hposs I0 hI0).trans_le (hW I0 hI0)
    rw [(hbl I hI).1 w0 hw0]
    rw [hnew] at hI
    refine (flBlendDir_close h.knots hU hp ht (F := wgt s) (fun J hJ => by rw [abs_of_pos (hposs J hJ)]; exact hW J hJ) hI).1.trans ?_
    exact mul_le_mul_of_nonneg_right (mul_le_mul_of_nonneg_left hg68 (by norm_num)) hW0.le
  -- the homogeneous coordinates
  have kp : ∀ c < s.ph.dim, ∀ H, (∀ I, InBox (npts s) I → |wgt s I * cpt s I c| ≤ H) → ∀ I, InBox (npts s') I →
      |wgt s' I * cpt s' I c - blendDir d (spanIx U t + 1 - p) (spanIx U t - kvMult U t) (insα U p t) (fun I => wgt s I * cpt s I c) I| ≤
        3 * growth r 8 * H := by
    intro c hc H hH I hI
    have hH0 : 0 ≤ H := (abs_nonneg _).trans (hH I0 hI0)
    have ew := (hbl I hI).1 w0 hw0
    have ep := (hbl I hI).2 c hc
    have hwp := hpos' I hI
    have hix : ixd (npts s) d = U.length - p - 1 := nptsOf_ixd hU hp
    have hdn : d < (npts s).length := lt_of_some (nptsOf_get hU hp)
    rw [hnew, ← hix] at hI
    have hlt' : ixd I d < ixd (npts s) d + 1 := by
      have : ixd I d < ixd ((npts s).set d (ixd (npts s) d + 1)) d := hI.getD_lt (d := d) (by simpa using hdn)
      rwa [ixd_set_self hdn] at this
    have hIl : d < I.length := by rw [hI.length]; simpa using hdn
    have hself : ixd I d < ixd (npts s) d → InBox (npts s) I := fun hc => by
      have := inBox_set_of (i := ixd I d) hI (by omega)
      rwa [set_ixd hIl] at this
    have hlo := hi.lo
    have hg8H : 0 ≤ 3 * growth r 8 * H := mul_nonneg (by linarith) hH0
    rw [ew] at hwp
    rw [ew, ep, hw0]
    simp only [flNewP, Option.isSome_some, if_true, flNewPw]
    unfold blendDir
    by_cases c1 : spanIx U t - kvMult U t < ixd I d
    · rw [if_pos c1, if_pos c1]
      unfold flBlendDir
      rw [if_pos c1, sub_self, abs_zero]; exact hg8H
    · rw [if_neg c1, if_neg c1]
      by_cases c2 : spanIx U t + 1 - p ≤ ixd I d
      · rw [if_pos c2, if_pos c2]
        have i1 := inBox_set_of (i := ixd I d - 1) hI (by omega)
        have i2 := hself (by omega)
        obtain ⟨_, _, a0, a1⟩ := insα_bounds hi (Nat.sub_le _ _) hl1 c2 (by omega)
        have hmix := mix_close (flα_near (r := r) hi (Nat.sub_le _ _) hl1 c2 (by omega)) a0
          (Close.exact (cpt s I c * wgt s I)).rnd (Close.exact (cpt s (I.set d (ixd I d - 1)) c * wgt s (I.set d (ixd I d - 1)))).rnd
        generalize hW' : flBlendDir r d (spanIx U t + 1 - p) (spanIx U t - kvMult U t) (flα r U p t) (wgt s) I = W' at hwp ⊢
        generalize hM : Fl.mix r _ _ _ = M at hmix ⊢
        have hst : |W' * r.rnd (M / W') - M| ≤ r.u * |M| := by
          have he := r.err (M / W')
          rw [abs_div, abs_of_pos hwp] at he
          have : W' * r.rnd (M / W') - M = W' * (r.rnd (M / W') - M / W') := by field_simp
          rw [this, abs_mul, abs_of_pos hwp]
          calc W' * |r.rnd (M / W') - M / W'| ≤ W' * (r.u * (|M| / W')) := mul_le_mul_of_nonneg_left he hwp.le
            _ = r.u * |M| := by field_simp
        have hcl := (hmix.step hst).1
        have m1 : |cpt s I c * wgt s I| ≤ H := by rw [mul_comm]; exact hH I i2
        have m2 : |cpt s (I.set d (ixd I d - 1)) c * wgt s (I.set d (ixd I d - 1))| ≤ H := by rw [mul_comm]; exact hH _ i1
        have hbd : insα U p t (ixd I d) * |cpt s I c * wgt s I| + (1 + insα U p t (ixd I d)) *
            |cpt s (I.set d (ixd I d - 1)) c * wgt s (I.set d (ixd I d - 1))| ≤ 3 * H := by
          nlinarith [mul_le_mul_of_nonneg_left m1 a0, mul_le_mul_of_nonneg_left m2 (show 0 ≤ 1 + insα U p t (ixd I d) by linarith)]
        have e : insα U p t (ixd I d) * (wgt s I * cpt s I c) + (1 - insα U p t (ixd I d)) *
            (wgt s (I.set d (ixd I d - 1)) * cpt s (I.set d (ixd I d - 1)) c) =
            insα U p t (ixd I d) * (cpt s I c * wgt s I) + (1 - insα U p t (ixd I d)) *
            (cpt s (I.set d (ixd I d - 1)) c * wgt s (I.set d (ixd I d - 1))) := by ring
        rw [e]
        refine hcl.trans ?_
        have hg8' : growth r 8 = r.t ^ 8 - 1 := rfl
        have h8 := r.one_le_pow 8
        rw [show 0 + 1 + 6 + 1 = 8 from rfl, hg8', mul_comm (3 : K), mul_assoc]
        exact mul_le_mul_of_nonneg_left hbd (by linarith)
      · rw [if_neg c2, if_neg c2]
        unfold flBlendDir
        rw [if_neg c1, if_neg c2, sub_self, abs_zero]; exact hg8H
  -- sums
  have sums : ∀ (F : List ℕ → K) x, InDomain s x → tensorSum s x F = msum (npts s') fun I => dprod (basisFns s'.ps.knots s'.ps.degree x) I *
      blendDir d (spanIx U t + 1 - p) (spanIx U t - kvMult U t) (insα U p t) F I := by
    intro F x hx
    rw [hnew, hkn, hdeg]
    exact (blend_sums hU hp hx hi (by omega) hl1 hl2 _).symm
  have hN := fun x (hx : InDomain s x) I hI => tensor_nonneg h'.knots ((hdom x).2 hx) (I := I) hI
  have hone := fun x (hx : InDomain s x) => tensor_unity h'.knots ((hdom x).2 hx)
  have e1 : 1 + 3 * growth r 8 - 1 = 3 * growth r 8 := by ring
  refine ⟨hdim, hdom, ?_, ?_⟩
  · intro W hW
    refine ⟨fun I hI => ?_, fun x hx => ?_⟩
    · have k1 := (abs_le.1 (kw W hW I hI)).2
      have k2 := (abs_le.1 (blendLe (wgt s) W (fun J hJ => by rw [abs_of_pos (hposs J hJ)]; exact hW J hJ) I hI)).2
      linarith
    · have e : weightValue s x = _ := sums (wgt s) x hx
      rw [e, e1]; exact msum_abs_le (hN x hx) (hone x hx) (kw W hW)
  · intro c hc H hH
    refine ⟨fun I hI => ?_, fun x hx => ?_⟩
    · have k1 := kp c hc H hH I hI
      have k2 := blendLe (fun I => wgt s I * cpt s I c) H hH I hI
      have := abs_sub_abs_le_abs_sub (wgt s' I * cpt s' I c)
        (blendDir d (spanIx U t + 1 - p) (spanIx U t - kvMult U t) (insα U p t) (fun I => wgt s I * cpt s I c) I)
      linarith
    · rw [sums (fun I => wgt s I * cpt s I c) x hx, e1]; exact msum_abs_le (hN x hx) (hone x hx) (kp c hc H hH)

/-- How far the points of a NURBS move when its weights lie between `w` and `W`. -/
theorem HomDrift.values {r : Rounding K} {f : K} {s s' : Spl K} (hd : HomDrift f s s') (h : Fl.WF r s) {w W : K}
    (hwW : ∀ I, InBox (npts s) I → w ≤ wgt s I ∧ wgt s I ≤ W) (hsmall : (f - 1) * W < w) (hf : 1 ≤ f) {c : ℕ} (hc : c < s.ph.dim) {B : K}
    (hB : ∀ I, InBox (npts s) I → |cpt s I c| ≤ B) {x : List K} (hx : InDomain s x) :
    |nurbsValue s' x c - nurbsValue s x c| ≤ 2 * (f - 1) * W / (w - (f - 1) * W) * B := by
  have hposs : ∀ I, InBox (npts s) I → 0 < wgt s I := fun I hI => wgt_pos h.exact hI
  obtain ⟨I0, hI0⟩ : ∃ I, InBox (npts s) I := ⟨_, unlin_inBox (nptsOf_pos h.knots) 0⟩
  have hB0 : 0 ≤ B := (abs_nonneg _).trans (hB I0 hI0)
  have hW0 : 0 < W := (hposs I0 hI0).trans_le (hwW I0 hI0).2
  have hf0 : 0 ≤ f - 1 := by linarith
  have dW := (hd.weights W fun I hI => (hwW I hI).2).2 x hx
  have dP := (hd.points c hc (W * B) fun I hI => by
    rw [abs_mul, abs_of_pos (hposs I hI)]
    exact mul_le_mul (hwW I hI).2 (hB I hI) (abs_nonneg _) hW0.le).2 x hx
  have hNs := fun I hI => tensor_nonneg h.knots hx (I := I) hI
  have hones : msum (npts s) (fun I => dprod (basisFns s.ps.knots s.ps.degree x) I) = 1 := tensor_unity h.knots hx
  have lW : w ≤ weightValue s x := by
    have : msum (npts s) (fun I => dprod (basisFns s.ps.knots s.ps.degree x) I * w) ≤ weightValue s x :=
      msum_le fun I hI => mul_le_mul_of_nonneg_left (hwW I hI).1 (hNs I hI)
    rwa [msum_mul_right, hones, one_mul] at this
  have hD : 0 < w - (f - 1) * W := by linarith
  have hD' : w - (f - 1) * W ≤ weightValue s' x := by linarith [(abs_le.1 dW).1]
  have hDp : 0 < weightValue s' x := hD.trans_le hD'
  have hDs : 0 < weightValue s x := by
    have : 0 ≤ (f - 1) * W := mul_nonneg hf0 hW0.le
    linarith
  have hv : |nurbsValue s x c| ≤ B := by
    unfold nurbsValue
    rw [abs_div, abs_of_pos hDs, div_le_iff₀ hDs, abs_le]
    have u1 : tensorSum s x (fun I => wgt s I * cpt s I c) ≤ tensorSum s x (fun I => wgt s I * B) :=
      msum_le fun I hI => mul_le_mul_of_nonneg_left (mul_le_mul_of_nonneg_left (abs_le.1 (hB I hI)).2 (hposs I hI).le) (hNs I hI)
    have u2 : tensorSum s x (fun I => wgt s I * -B) ≤ tensorSum s x (fun I => wgt s I * cpt s I c) :=
      msum_le fun I hI => mul_le_mul_of_nonneg_left (mul_le_mul_of_nonneg_left (abs_le.1 (hB I hI)).1 (hposs I hI).le) (hNs I hI)
    have u3 : ∀ b : K, tensorSum s x (fun I => wgt s I * b) = weightValue s x * b := fun b => by
      unfold tensorSum weightValue tensorSum
      rw [← msum_mul_right]
      exact msum_congr fun I _ => by ring
    rw [u3] at u1 u2
    constructor <;> linarith
  have hid : nurbsValue s' x c - nurbsValue s x c =
      ((tensorSum s' x (fun I => wgt s' I * cpt s' I c) - tensorSum s x (fun I => wgt s I * cpt s I c)) -
        nurbsValue s x c * (weightValue s' x - weightValue s x)) / weightValue s' x := by
    unfold nurbsValue
    field_simp
    ring
  rw [hid, abs_div, abs_of_pos hDp]
  have hnum : |(tensorSum s' x (fun I => wgt s' I * cpt s' I c) - tensorSum s x (fun I => wgt s I * cpt s I c)) -
        nurbsValue s x c * (weightValue s' x - weightValue s x)| ≤ 2 * (f - 1) * W * B := by
    have a1 := abs_sub (tensorSum s' x (fun I => wgt s' I * cpt s' I c) - tensorSum s x (fun I => wgt s I * cpt s I c))
      (nurbsValue s x c * (weightValue s' x - weightValue s x))
    have a2 : |nurbsValue s x c * (weightValue s' x - weightValue s x)| ≤ B * ((f - 1) * W) := by
      rw [abs_mul]
      exact mul_le_mul hv dW (abs_nonneg _) hB0
    calc _ ≤ _ := a1
      _ ≤ (f - 1) * (W * B) + B * ((f - 1) * W) := add_le_add dP a2
      _ = 2 * (f - 1) * W * B := by ring
  rw [div_mul_eq_mul_div]
  exact div_le_div₀ (mul_nonneg (mul_nonneg (by linarith) hW0.le) hB0) hnum hD hD'

/-- **C76**: `RefineKnots` on a NURBS with any list of admissible knots. The weights stay positive (part of `Fl.WF`). -/
theorem C76_refine_nurbs (r : Rounding K) (hr : r.rnd 1 = 1) {s : Spl K} (h : Fl.WF r s) (hn : IsNurbs s) {d : ℕ} {U : List K} {p : ℕ}
    (hU : s.ps.knots[d]? = some U) (hp : s.ps.degree[d]? = some p) (xs : List K) (hx : ∀ t ∈ xs, knot U 0 < t ∧ t < lastKnot U)
    (hsep : Separated (xs ++ U)) (hsz : U.length + xs.length < 2 ^ 63) :
    ∃ s' V, Fl.refineKnots r s xs d = .ok s' ∧ Fl.WF r s' ∧ IsNurbs s' ∧ s'.ps.degree = s.ps.degree ∧
      s'.ps.knots = s.ps.knots.set d V ∧ SortedKnots V ∧ (∀ y, V.count y = U.count y + xs.count y) ∧
      HomDrift ((1 + 3 * growth r 8) ^ xs.length) s s' := by
  induction xs generalizing s U with
  | nil => exact ⟨s, U, rfl, h, hn, rfl, (set_same hU).symm, (forall₂_get h.knots hU hp).sorted, by simp, by simpa using HomDrift.refl s⟩
  | cons t xs ih =>
    have hw := forall₂_get h.knots hU hp
    have ht : Admissible U t := ⟨(hx t (by simp)).1, (hx t (by simp)).2, fun a ha b hb => hsep a (by simp at ha ⊢; tauto) b (by simp at hb ⊢; tauto)⟩
    simp only [List.length_cons] at hsz
    obtain ⟨s1, e1, w1, d1, k1, n1, b1, f1⟩ := fl_insertKnot_one h hU hp ht (by omega) (Or.inr hr)
    have hn1 : IsNurbs s1 := nurbs_of_iff b1 hn
    have hi := (ht.pos hw).1
    have hh := hi.hi
    obtain ⟨s2, V, e2, w2, b2, d2, k2, v1, v2, g2⟩ := ih (s := s1) (U := U.insertIdx (spanIx U t + 1) t) w1 hn1
      (by rw [k1, List.getElem?_set]; simp [lt_of_some hU]) (by rw [d1]; exact hp)
      (by intro y hy; rw [hi.firstKnot, hi.lastKnot]; exact hx y (by simp [hy]))
      (by
        intro a ha b hb
        refine hsep a ?_ b ?_
        · simp only [List.mem_append, hi.mem] at ha
          simp only [List.cons_append, List.mem_cons, List.mem_append]; tauto
        · simp only [List.mem_append, hi.mem] at hb
          simp only [List.cons_append, List.mem_cons, List.mem_append]; tauto)
      (by rw [hi.length]; omega)
    refine ⟨s2, V, ?_, w2, b2, d2.trans d1, by rw [k2, k1, List.set_set], v1, ?_, ?_⟩
    · unfold Fl.refineKnots at e2 ⊢
      simp only [PS.forEach, e1, ok_bind]
      exact e2
    · intro y
      rw [v2, count_insertIdx (by omega), List.count_cons]
      by_cases hy : y = t
      · subst hy; simp; ring
      · have : (t == y) = false := by simpa using Ne.symm hy
        rw [if_neg hy, this]; simp
    · rw [List.length_cons, pow_succ']
      exact (homDrift_one r h w1 hn hU hp ht d1 k1 n1 f1).trans g2

/-- **C76**: `InsertKnot` on a NURBS, with any multiplicity. -/
theorem C76_insert_nurbs (r : Rounding K) (hr : r.rnd 1 = 1) {s : Spl K} (h : Fl.WF r s) (hn : IsNurbs s) {d : ℕ} {U : List K} {p : ℕ}
    (hU : s.ps.knots[d]? = some U) (hp : s.ps.degree[d]? = some p) {t : K} (ht : Admissible U t) (m : ℕ) (hsz : U.length + m < 2 ^ 63) :
    ∃ s' V, Fl.insertKnot r s t d m = .ok s' ∧ Fl.WF r s' ∧ IsNurbs s' ∧ s'.ps.degree = s.ps.degree ∧
      s'.ps.knots = s.ps.knots.set d V ∧ KnotsAdded U t m V ∧ HomDrift ((1 + 3 * growth r 8) ^ m) s s' := by
  have hw := forall₂_get h.knots hU hp
  have hf := insMany_facts hw ht
  have key : ∀ m, U.length + m < 2 ^ 63 → ∃ s', Fl.insertKnot r s t d m = .ok s' ∧ Fl.WF r s' ∧ IsNurbs s' ∧ s'.ps.degree = s.ps.degree ∧
      s'.ps.knots = s.ps.knots.set d (insMany U t m) ∧ HomDrift ((1 + 3 * growth r 8) ^ m) s s' := by
    intro m
    induction m with
    | zero =>
      intro _
      refine ⟨s, ?_, h, hn, rfl, (set_same hU).symm, by rw [pow_zero]; exact HomDrift.refl s⟩
      simp only [Fl.insertKnot, getN_some hU, ok_bind, getN_some hp, fl_span hw ht.lo.le ht.hi.le, Fl.insertRounds, Fl.insertKnotsPS]
      rfl
    | succ m ih =>
      intro hsz
      obtain ⟨s1, e1, w1, b1, d1, k1, g1⟩ := ih (by omega)
      have hk1 : s1.ps.knots[d]? = some (insMany U t m) := by
        rw [k1, List.getElem?_set]; simp [lt_of_some hU]
      have hd1 : s1.ps.degree[d]? = some p := by rw [d1]; exact hp
      obtain ⟨s2, e2, w2, d2, k2, n2, b2, f2⟩ := fl_insertKnot_one w1 hk1 hd1 (hf m).adm (by rw [(hf m).length]; omega) (Or.inr hr)
      refine ⟨s2, ?_, w2, nurbs_of_iff b2 b1, d2.trans d1, ?_, ?_⟩
      · rw [fl_insertKnot_succ hw hU hp ht (by omega) e1 hk1 hd1, e2]
      · rw [k2, k1, List.set_set]; rfl
      · rw [pow_succ]
        exact g1.trans (homDrift_one r w1 w2 b1 hk1 hd1 (hf m).adm d2 k2 n2 f2)
  obtain ⟨s', e1, w1, b1, d1, k1, g1⟩ := key m hsz
  exact ⟨s', insMany U t m, e1, w1, b1, d1, k1, ⟨(hf m).wf.sorted, (hf m).length, (hf m).count⟩, g1⟩

/-- **C76**: the points of a refined NURBS, if the weights lie between `w` and `W` and the coordinates are at most `B`. -/
theorem C76_refine_nurbs_values (r : Rounding K) (hr : r.rnd 1 = 1) {s : Spl K} (h : Fl.WF r s) (hn : IsNurbs s) {d : ℕ} {U : List K} {p : ℕ}
    (hU : s.ps.knots[d]? = some U) (hp : s.ps.degree[d]? = some p) (xs : List K) (hx : ∀ t ∈ xs, knot U 0 < t ∧ t < lastKnot U)
    (hsep : Separated (xs ++ U)) (hsz : U.length + xs.length < 2 ^ 63) {w W e : K} (he : e = (1 + 3 * growth r 8) ^ xs.length - 1)
    (hwW : ∀ I, InBox (npts s) I → w ≤ wgt s I ∧ wgt s I ≤ W) (hsmall : e * W < w) :
    ∃ s', Fl.refineKnots r s xs d = .ok s' ∧ ∀ c < s.ph.dim, ∀ B, (∀ I, InBox (npts s) I → |cpt s I c| ≤ B) → ∀ x, InDomain s x →
      |nurbsValue s' x c - nurbsValue s x c| ≤ 2 * e * W / (w - e * W) * B := by
  obtain ⟨s', V, e1, _, _, _, _, _, _, g⟩ := C76_refine_nurbs r hr h hn hU hp xs hx hsep hsz
  refine ⟨s', e1, fun c hc B hB x hx => ?_⟩
  subst he
  exact g.values h hwW hsmall (one_le_pow₀ (by linarith [growth_nonneg r 8])) hc hB hx

theorem fl_exact_div (a b : K) : Fl.div (exactRounding K) a b = fdiv a b := by
  simp only [Fl.div]
  cases fdiv a b <;> rfl

theorem fl_exact_scaling (U : List K) (x : K) (sh : ℤ) : ∀ n j, Fl.scalingLoop (exactRounding K) U x sh n j = Spl.scalingLoop U x sh n j := by
  intro n
  induction n with
  | zero => intro j; rfl
  | succ n ih => intro j; simp only [Fl.scalingLoop, Spl.scalingLoop, ih, fl_exact_div]; rfl

theorem fl_exact_adjustCPs (ph : Phys K) (sc : List K) (first last : ℤ) (d : ℕ) :
    Fl.adjustCPs (exactRounding K) ph sc first last d = Spl.adjustCPs ph sc first last d := by
  have hcp : Fl.newCPNurbs (exactRounding K) = Spl.newCPNurbs (K := K) := by
    funext ph ix d sc cur first last
    simp only [Fl.newCPNurbs, Spl.newCPNurbs, fl_exact_div]
    rfl
  have hb : Fl.adjustBody (exactRounding K) sc first last d = Spl.adjustBody sc first last d := by
    funext h ph
    simp only [Fl.adjustBody, Spl.adjustBody, hcp]
    rfl
  simp only [Fl.adjustCPs, Spl.adjustCPs, hb]

theorem fl_exact_rounds (U : List K) (p : ℕ) (x : K) (d : ℕ) : ∀ n i k ph,
    Fl.insertRounds (exactRounding K) U p x d n i k ph = Spl.insertRounds U p x d n i k ph := by
  intro n
  induction n with
  | zero => intro i k ph; rfl
  | succ n ih => intro i k ph; simp only [Fl.insertRounds, Spl.insertRounds, ih, fl_exact_scaling, fl_exact_adjustCPs, fl_exact_isLast]

theorem fl_exact_insertPS (x : K) (d : ℕ) : ∀ n ps, Fl.insertKnotsPS (exactRounding K) x d n ps = Spl.insertKnotsPS x d n ps := by
  intro n
  induction n with
  | zero => intro ps; rfl
  | succ n ih =>
    intro ps
    have hk : Fl.kvInsert (exactRounding K) = kvInsert (K := K) := rfl
    have hcp : ∀ ps, Fl.copyPS (exactRounding K) ps = ps.recreate := fun ps => by simp only [Fl.copyPS, PS.recreate, fl_exact_table]
    simp only [Fl.insertKnotsPS, Spl.insertKnotsPS, ih, Fl.psInsertKnot, PS.insertKnot, hk, hcp]

/-- **C76**: without rounding the rounded model is the exact one, for all arguments. -/
theorem C76_exact_arithmetic : (∀ s (x : K) d m, Fl.insertKnot (exactRounding K) s x d m = s.insertKnot x d m) ∧
    ∀ s (xs : List K) d, Fl.refineKnots (exactRounding K) s xs d = s.refineKnots xs d := by
  have h : ∀ s (x : K) d m, Fl.insertKnot (exactRounding K) s x d m = s.insertKnot x d m := fun s x d m => by
    simp only [Fl.insertKnot, Spl.insertKnot, fl_exact_span, fl_exact_rounds, fl_exact_insertPS]
  exact ⟨h, fun s xs d => by simp only [Fl.refineKnots, Spl.refineKnots, h]⟩

/-- A constant curve of degree 1, all of whose control points are 3. -/
def flConst : Spl ℚ := ⟨⟨[[0, 0, 1, 1]], [1], flTable doubleRounding [[0, 0, 1, 1]] [1]⟩, ⟨1, [2], [3, 3], none⟩⟩

example : Fl.WF doubleRounding flConst ∧ IsBSpline flConst ∧ Admissible [0, 0, 1, 1] (doubleRounding.rnd (1 / 5)) ∧
    ∀ I, InBox (npts flConst) I → |cpt flConst I 0| ≤ 3 :=
  ⟨⟨.cons (by decide +kernel) .nil, fl_basisTable_eq (.cons (by decide +kernel) .nil), by decide +kernel, by decide +kernel,
    by decide +kernel, by simp [flConst]⟩, rfl, ⟨by decide +kernel, by decide +kernel, by decide +kernel⟩, by
    intro I hI
    have hn : npts flConst = [2] := by decide +kernel
    rw [hn] at hI
    cases hI with
    | cons h1 h2 =>
      cases h2
      rename_i i
      have : i = 0 ∨ i = 1 := by omega
      rcases this with rfl | rfl <;> decide +kernel⟩

/-- The size of the bound in `double` arithmetic: a single insertion moves points by less than `2^-48` of the largest coordinate. -/
example : 3 * growth doubleRounding 6 < 1 / 2 ^ 48 := by decide +kernel

/-- A NURBS with different weights, with `double` arithmetic. -/
def flWeighted : Spl ℚ := ⟨⟨[[0, 0, 1, 1]], [1], flTable doubleRounding [[0, 0, 1, 1]] [1]⟩, ⟨1, [2], [3, 5], some [1, 2]⟩⟩

example : Fl.WF doubleRounding flWeighted ∧ IsNurbs flWeighted ∧ doubleRounding.rnd 1 = 1 ∧ 3 * growth doubleRounding 6 * 2 < 1 :=
  ⟨⟨.cons (by decide +kernel) .nil, fl_basisTable_eq (.cons (by decide +kernel) .nil), by decide +kernel, by decide +kernel,
    by decide +kernel, by
      intro w hw
      have hw' : w = [1, 2] := by simpa [flWeighted] using hw.symm
      subst hw'
      exact ⟨by decide +kernel, by decide +kernel⟩⟩, ⟨_, rfl⟩, by decide +kernel, by decide +kernel⟩

/-- **C76**: the curve does change. Inserting the knot 0.2 into a constant curve in `double` arithmetic gives a control point that is
outside of the convex hull of the old ones, and a curve that is not constant. -/
theorem C76_not_exact : ∃ s', Fl.insertKnot doubleRounding flConst (doubleRounding.rnd (1 / 5)) 0 = .ok s' ∧
    s'.ph.cps = [3, 3 + 1 / 2 ^ 51, 3] ∧ bsplineValue flConst [doubleRounding.rnd (1 / 5)] 0 = 3 ∧
    bsplineValue s' [doubleRounding.rnd (1 / 5)] 0 = 3 + 1 / 2 ^ 51 :=
  ⟨⟨⟨[[0, 0, doubleRounding.rnd (1 / 5), 1, 1]], [1], flTable doubleRounding [[0, 0, doubleRounding.rnd (1 / 5), 1, 1]] [1]⟩,
    ⟨1, [3], [3, 3 + 1 / 2 ^ 51, 3], none⟩⟩, by decide +kernel, rfl, by decide +kernel, by decide +kernel⟩

end SplineLib
