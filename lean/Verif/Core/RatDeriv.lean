import Verif.Core.TensorDeriv

/-!
# Derivatives of NURBS (helper lemmas)
-/

namespace SplineLib
set_option linter.unusedSectionVars false
open Finset

section field
variable {K : Type} [Field K] [LinearOrder K] [IsStrictOrderedRing K]

/-- A sum over all control points whose terms vanish with the basis function derivatives is a sum over the active box. -/
theorem msum_active_gen {Us : List (List K)} {ps : List ℕ} (h : List.Forall₂ WFKnots Us ps) :
    ∀ {xs : List K} (F : List ℕ → K), Dom Us xs →
      (∀ I, InBox (List.zipWith (fun U p => U.length - p - 1) Us ps) I →
        (∀ ks : List ℕ, ks.length = Us.length → dprod (basisDerivFns Us ps xs ks) I = 0) → F I = 0) →
      msum (actBox ps) (fun J => F (List.zipWith (· + ·) J (offs Us ps xs))) =
        msum (List.zipWith (fun U p => U.length - p - 1) Us ps) F := by
  induction h with
  | nil => intro xs F hx hF; cases hx; simp [msum]
  | @cons U p Us ps h _ ih =>
    intro xs F hx hF
    cases hx with
    | @cons _ a _ as hx hxs =>
      obtain ⟨h1, h2, h3, h4⟩ := h.span hx.1 hx.2
      simp only [actBox, List.map_cons, List.zipWith_cons_cons, offs, msum]
      rw [sum_window (n := U.length - p - 1) (o := spanIx U a - p) (w := p + 1) (by omega) ?_]
      · apply sum_congr rfl
        intro j hj
        refine ih (xs := as) (fun I => F ((j + (spanIx U a - p)) :: I)) hxs ?_
        intro I hI hz
        apply hF
        · simp only [List.zipWith_cons_cons, inBox_cons]
          exact ⟨by have := mem_range.1 hj; omega, hI⟩
        · intro ks hk
          cases ks with
          | nil => simp at hk
          | cons k ks => simp only [basisDerivFns, dprod]; rw [hz ks (by simpa using hk), mul_zero]
      · intro i hi hio
        have : ∀ I, InBox (List.zipWith (fun U p => U.length - p - 1) Us ps) I → F (i :: I) = 0 := by
          intro I hI
          apply hF
          · simp only [List.zipWith_cons_cons, inBox_cons]; exact ⟨hi, hI⟩
          · intro ks hk
            cases ks with
            | nil => simp at hk
            | cons k ks =>
              simp only [basisDerivFns, dprod]
              rw [coxDeBoorDeriv_zero_of h hx.1 hx.2 (by omega) (by omega), zero_mul]
        rw [msum_congr this, msum_zero]

theorem ratR_zero_of {A W : List ℕ → K} {D : ℕ} (hA : ∀ k, k.length = D → A k = 0) : ∀ (n : ℕ) (k : List ℕ), k.length = D →
    k.sum ≤ n → ratR A W k = 0 := by
  intro n
  induction n using Nat.strong_induction_on with
  | _ n ih =>
    intro k hk hn
    rw [ratR_rec, hA k hk, sum_eq_zero, sub_zero, zero_div]
    intro m hm
    have hm' := mem_range.1 hm
    have hb := unlin_inBox (mem_actBox_pos (k := k)) (m + 1)
    have hlt := msub_sum_lt hb (by
      have := unlin_ne_zero (ns := k.map (· + 1)) (m := m + 1) (by omega) (by omega)
      rwa [show (List.map (fun _ => 0) (unlin (k.map (· + 1)) (m + 1))) = (k.map (· + 1)).map fun _ => 0 by
        simp only [List.map_const', unlin_length]])
    rw [ih (msub k (unlin (k.map (· + 1)) (m + 1))).sum (by omega) _ (by rw [msub_length (by simp), hk]) (le_refl _)]
    simp

/-- The rational basis function derivative. -/
def ratBasis (s : Spl K) (x : List K) (k I : List ℕ) : K :=
  ratR (fun k => dprod (basisDerivFns s.ps.knots s.ps.degree x k) I * wgt s I) (fun k => tensorDerivSum s x k fun I => wgt s I) k

theorem foldl_zl (k : List ℕ) : ((zl k).foldl (· + ·) 0).toNat = k.sum := by
  have : ∀ (l : List ℕ) (a : ℤ), (zl l).foldl (· + ·) a = a + (l.sum : ℤ) := by
    intro l
    induction l with
    | nil => intro a; simp
    | cons b l ih => intro a; simp only [List.map_cons, List.foldl_cons, ih, List.sum_cons]; push_cast; ring
  rw [this]; simp only [zero_add, Int.toNat_natCast]

theorem evaluateDerivative_nurbs {s : Spl K} (h : WFSpl s) (hn : IsNurbs s) {x : List K} (hx : InDomain s x)
    (dims : List ℕ) (hd : ∀ c ∈ dims, c < s.ph.dim) {k : List ℕ} (hk : k.length = s.ps.knots.length) :
    s.evaluateDerivative x (zl dims) (zl k) = .ok (dims.map fun c => msum (npts s) fun I => ratBasis s x k I * cpt s I c) := by
  obtain ⟨w, hw⟩ := hn
  unfold Spl.evaluateDerivative
  rw [evalWith_eq h.knots hx (g := fun I c => ratBasis s x k I * cpt s I c.toNat)]
  · congr 1
    simp only [zl, List.map_map]
    apply List.map_congr_left
    intro c hc
    simp only [Function.comp_apply, Int.toNat_natCast]
    refine msum_active_gen h.knots (fun I => ratBasis s x k I * cpt s I c) hx ?_
    intro I hI hz
    rw [ratBasis, ratR_zero_of (D := s.ps.knots.length) (fun k hk => by rw [hz k hk, zero_mul]) _ k hk (le_refl _), zero_mul]
  · intro J hJ c hc
    obtain ⟨c, hc', rfl⟩ := List.mem_map.1 hc
    have hI : InBox (npts s) _ := act_inBox h.knots hx hJ
    simp only [Spl.evaluatedDerivCP, hw, foldl_zl, rationalDeriv_eq h hx hJ k.sum k hk (le_refl _), ok_bind,
      controlPoint_eq h hI (hd c hc'), pure_ok, Int.toNat_natCast]
    rfl

theorem weightDeriv_zero {s : Spl K} {x : List K} {k : List ℕ} (hk : k.length = s.ps.knots.length) :
    (tensorDerivSum s x (k.map fun _ => 0) fun I => wgt s I) = weightValue s x := by
  have : (k.map fun _ => 0) = s.ps.knots.map fun _ => 0 := by simp only [List.map_const', hk]
  simp only [tensorDerivSum, weightValue, tensorSum, this, basisDerivFns_zero]

theorem msum_ratBasis_zero {s : Spl K} {x : List K} (c : ℕ) :
    (msum (npts s) fun I => ratBasis s x (s.ps.knots.map fun _ => 0) I * cpt s I c) = nurbsValue s x c := by
  unfold nurbsValue
  have hz : (s.ps.knots.map fun _ => 0).all (fun a : ℕ => decide (a = 0)) = true := by simp
  have hw : (tensorDerivSum s x (s.ps.knots.map fun _ => 0) fun I => wgt s I) = weightValue s x := by
    simp only [tensorDerivSum, weightValue, tensorSum, basisDerivFns_zero]
  simp only [ratBasis, ratR, ratD_zero hz, hw, basisDerivFns_zero, tensorSum]
  rw [div_eq_mul_inv, ← msum_mul_right]
  apply msum_congr
  intro I _
  ring

theorem Dom.set {Us : List (List K)} {xs : List K} (h : Dom Us xs) {d : ℕ} {t : K} (ht : ∀ U, Us[d]? = some U → knot U 0 ≤ t ∧ t ≤ lastKnot U) :
    Dom Us (xs.set d t) := by
  induction h generalizing d with
  | nil => exact .nil
  | cons h hr ih =>
    cases d with
    | zero => exact .cons (ht _ rfl) hr
    | succ d => exact .cons h (ih fun U hU => ht U (by simpa using hU))

end field

/-- Only the values in the parameter range matter. -/
theorem SpanDeriv.congr {U : List ℝ} {p : ℕ} (hw : WFKnots U p) {f g : ℝ → ℝ} {f' x : ℝ} (h0 : knot U 0 ≤ x) (h1 : x ≤ lastKnot U)
    (hg : SpanDeriv U g f' x) (hf : ∀ y, knot U 0 ≤ y → y ≤ lastKnot U → f y = g y) : SpanDeriv U f f' x := by
  have hlt : knot U 0 < lastKnot U := hw.range
  refine ⟨?_, ?_, ?_⟩
  · intro j hj ha hb
    refine (hg.inner j hj ha hb).congr_of_eventuallyEq ?_
    have hmono := hw.sorted
    filter_upwards [Ioo_mem_nhds ha hb] with y hy
    exact hf y ((hmono.first_le (by omega)).trans hy.1.le) (hy.2.le.trans (hmono.le_last (by omega)))
  · intro ha
    refine (hg.right ha).congr_of_eventuallyEq ?_ (hf x h0 h1)
    filter_upwards [Icc_mem_nhdsGE ha] with y hy
    exact hf y (h0.trans hy.1) hy.2
  · intro ha
    refine (hg.left ha).congr_of_eventuallyEq ?_ (hf x h0 h1)
    have : knot U 0 < x := by rw [ha]; exact hlt
    filter_upwards [Icc_mem_nhdsLE this] with y hy
    exact hf y hy.1 (hy.2.trans h1)

end SplineLib
