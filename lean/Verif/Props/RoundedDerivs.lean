import Verif.Props.Rounding
import Verif.Core.RatDeriv

/-!
# C79: derivatives of NURBS with rounded arithmetic

The error of `EvaluateDerivative` of a NURBS is bounded by the growth factor of a number of operations that depends on the degrees and the
order only, times the sum in which every subtraction of the recursion is replaced by an addition.
-/

namespace SplineLib
set_option linter.unusedSectionVars false
open Finset Rounding
variable {K : Type} [Field K] [LinearOrder K] [IsStrictOrderedRing K] {r : Rounding K}

/-- The quotient rule for derivatives of order `k` with all terms added: `A k` bounds the derivative of the numerator, `W k` that of the
denominator, `w` is the value of the denominator. -/
def quotientMag (A W : List ℕ → K) (w : K) : ℕ → List ℕ → K
  | fuel, k =>
    if k.all (fun a => a = 0) then A k / w
    else match fuel with
      | 0 => 0
      | fuel + 1 =>
        (A k + ∑ m ∈ range ((k.map (· + 1)).prod - 1), (mbinom k (unlin (k.map (· + 1)) (m + 1)) : K) *
          quotientMag A W w fuel (msub k (unlin (k.map (· + 1)) (m + 1))) * W (unlin (k.map (· + 1)) (m + 1))) / w

theorem quotientMag_zero {A W : List ℕ → K} {w : K} {fuel : ℕ} {k : List ℕ} (h : k.all (fun a => decide (a = 0)) = true) :
    quotientMag A W w fuel k = A k / w := by
  rw [quotientMag.eq_def]; dsimp only; rw [if_pos h]

theorem quotientMag_succ {A W : List ℕ → K} {w : K} {fuel : ℕ} {k : List ℕ} (h : ¬ k.all (fun a => decide (a = 0)) = true) :
    quotientMag A W w (fuel + 1) k =
      (A k + ∑ m ∈ range ((k.map (· + 1)).prod - 1), (mbinom k (unlin (k.map (· + 1)) (m + 1)) : K) *
        quotientMag A W w fuel (msub k (unlin (k.map (· + 1)) (m + 1))) * W (unlin (k.map (· + 1)) (m + 1))) / w := by
  rw [quotientMag, if_neg h]

/-- Invariant rule for a loop that starts inside the box. -/
theorem upLoop_inv_from {σ : Type} {ns : List ℕ} (hpos : ∀ n ∈ ns, 0 < n) {body : MIH → σ → M σ} {Inv : ℕ → σ → Prop} :
    ∀ (n k : ℕ) (st : σ), Inv k st →
    (∀ m, k ≤ m → m < k + n → ∀ st, Inv m st → ∃ st', body ⟨zl ns, zl (unlin ns m)⟩ st = .ok st' ∧ Inv (m + 1) st') →
    ∃ st', upLoop body n ⟨zl ns, zl (unlin ns k)⟩ st = .ok st' ∧ Inv (k + n) st' := by
  intro n
  induction n with
  | zero => intro k st h _; exact ⟨st, rfl, h⟩
  | succ n ih =>
    intro k st h hstep
    obtain ⟨st', h1, h2⟩ := hstep k le_rfl (by omega) st h
    obtain ⟨st'', h3, h4⟩ := ih (k + 1) st' h2 fun m a b => hstep m (by omega) (by omega)
    refine ⟨st'', ?_, by rw [show k + (n + 1) = k + 1 + n by omega]; exact h4⟩
    simp only [upLoop, h1, ok_bind, incr_zl hpos, h3]

theorem quotientMag_zero_of {A W : List ℕ → K} {w : K} {D : ℕ} (hA : ∀ k, k.length = D → A k = 0) : ∀ (fuel : ℕ) (k : List ℕ),
    k.length = D → quotientMag A W w fuel k = 0 := by
  intro fuel
  induction fuel with
  | zero =>
    intro k hk
    rw [quotientMag.eq_def]; dsimp only
    split
    · rw [hA k hk, zero_div]
    · rfl
  | succ fuel ih =>
    intro k hk
    by_cases hz : k.all (fun a => decide (a = 0)) = true
    · rw [quotientMag_zero hz, hA k hk, zero_div]
    · rw [quotientMag_succ hz, hA k hk, sum_eq_zero, add_zero, zero_div]
      intro m hm
      rw [ih _ (by rw [msub_length (by simp), hk])]
      simp

theorem msum_active_magGen {Us : List (List K)} {ps : List ℕ} (h : List.Forall₂ WFKnots Us ps) :
    ∀ {xs : List K} (F : List ℕ → K), Dom Us xs →
      (∀ I, InBox (List.zipWith (fun U p => U.length - p - 1) Us ps) I →
        (∀ ks : List ℕ, ks.length = Us.length → dprod (basisDerivMags Us ps xs ks) I = 0) → F I = 0) →
      msum (actBox ps) (fun J => F (List.zipWith (· + ·) J (offs Us ps xs))) =
        msum (List.zipWith (fun U p => U.length - p - 1) Us ps) F := by
  induction h with
  | nil => intro xs F hx hF; cases hx; simp [msum]
  | @cons U p Us ps h _ ih =>
    intro xs F hx hF
    cases hx with
    | @cons _ a _ as hx hxs =>
      obtain ⟨h1, h2, h3, h4⟩ := h.span hx.1 hx.2
      simp only [actBox, List.map_cons, List.zipWith_cons_cons, offs, msum]
      rw [sum_window (n := U.length - p - 1) (o := spanIx U a - p) (w := p + 1) (by omega) ?_]
      · apply sum_congr rfl
        intro j hj
        refine ih (xs := as) (fun I => F ((j + (spanIx U a - p)) :: I)) hxs ?_
        intro I hI hz
        apply hF
        · simp only [List.zipWith_cons_cons, inBox_cons]
          exact ⟨by have := mem_range.1 hj; omega, hI⟩
        · intro ks hk
          cases ks with
          | nil => simp at hk
          | cons k ks => simp only [basisDerivMags, dprod]; rw [hz ks (by simpa using hk), mul_zero]
      · intro i hi hio
        have : ∀ I, InBox (List.zipWith (fun U p => U.length - p - 1) Us ps) I → F (i :: I) = 0 := by
          intro I hI
          apply hF
          · simp only [List.zipWith_cons_cons, inBox_cons]; exact ⟨hi, hI⟩
          · intro ks hk
            cases ks with
            | nil => simp at hk
            | cons k ks =>
              simp only [basisDerivMags, dprod]
              rw [coxMag_zero k p i fun j hj1 hj2 hj3 => ?_, zero_mul]
              have := InSpan.unique h.sorted (by omega) (by omega) hj3 h2
              omega
        rw [msum_congr this, msum_zero]

/-- Bound of the derivative of the weight function: the derivatives of the basis functions with all terms added. -/
def weightMag (s : Spl K) (x : List K) (k : List ℕ) : K :=
  msum (npts s) fun I => dprod (basisDerivMags s.ps.knots s.ps.degree x k) I * wgt s I

/-- Bound of the derivative of a rational basis function. -/
def ratMag (s : Spl K) (x : List K) (k I : List ℕ) : K :=
  quotientMag (fun k => dprod (basisDerivMags s.ps.knots s.ps.degree x k) I * wgt s I) (weightMag s x) (weightValue s x) k.sum k

theorem basisDerivMags_zero : ∀ {Us : List (List K)} {ps : List ℕ} {xs : List K},
    basisDerivMags Us ps xs (Us.map fun _ => 0) = basisFns Us ps xs
  | [], _, _ => by simp [basisDerivMags, basisFns]
  | _ :: _, [], _ => by simp [basisDerivMags, basisFns]
  | _ :: _, _ :: _, [] => by simp [basisDerivMags, basisFns]
  | U :: Us, p :: ps, x :: xs => by
    simp only [List.map_cons, basisDerivMags, basisFns, basisDerivMags_zero]
    congr 1
    funext i
    cases p <;> simp [coxDerivMag]

/-- Number of roundings in the sum of the weights. -/
def weightSteps (ps : List ℕ) : ℕ := basisSteps ps + 1 + (actBox ps).prod

variable {s : Spl K}

theorem fl_derivWeight (h : Fl.WF r s) {x : List K} (hx : Dom s.ps.knots x) {J : List ℕ} (hJ : InBox (actBox s.ps.degree) J)
    {k : List ℕ} (hk : k.length = s.ps.knots.length) :
    ∃ a, Fl.evaluatedDerivWeight r s x (zl k) (zl (List.zipWith (· + ·) J (offs s.ps.knots s.ps.degree x))) = .ok a ∧
      r.Close (basisSteps s.ps.degree + 1) a
        (dprod (basisDerivFns s.ps.knots s.ps.degree x k) (List.zipWith (· + ·) J (offs s.ps.knots s.ps.degree x)) *
          wgt s (List.zipWith (· + ·) J (offs s.ps.knots s.ps.degree x)))
        (dprod (basisDerivMags s.ps.knots s.ps.degree x k) (List.zipWith (· + ·) J (offs s.ps.knots s.ps.degree x)) *
          wgt s (List.zipWith (· + ·) J (offs s.ps.knots s.ps.degree x))) := by
  have hI : InBox (npts s) _ := act_inBox h.knots hx hJ
  obtain ⟨b, b1, b2⟩ := fl_basisDerivProd (r := r) h.knots hx hJ hk ((Near.refl 1 zero_le_one).close zero_le_one)
  rw [one_mul, one_mul, zero_add] at b2
  have hw : s.ph.getWeight (zl (List.zipWith (· + ·) J (offs s.ps.knots s.ps.degree x))) =
      .ok (wgt s (List.zipWith (· + ·) J (offs s.ps.knots s.ps.degree x))) := getWeight_eq h.exact hI
  have hwp : 0 < wgt s (List.zipWith (· + ·) J (offs s.ps.knots s.ps.degree x)) := wgt_pos h.exact hI
  simp only [Fl.evaluatedDerivWeight, h.table, b1, hw, ok_bind, pure_ok]
  exact ⟨_, rfl, (b2.mul ((Near.refl _ hwp.le).close hwp.le)).rnd⟩

theorem fl_derivWeightSum (h : Fl.WF r s) {x : List K} (hx : Dom s.ps.knots x) {k : List ℕ} (hk : k.length = s.ps.knots.length) :
    ∃ a, Fl.evaluatedDerivWeightSum r s x (zl k) = .ok a ∧
      r.Close (weightSteps s.ps.degree) a (tensorDerivSum s x k fun I => wgt s I) (weightMag s x k) := by
  have hpos : ∀ n ∈ actBox s.ps.degree, 0 < n := by simp [actBox]
  simp only [Fl.evaluatedDerivWeightSum, fl_firstNonZero_eq h.knots hx, ok_bind, numBasis_eq]
  obtain ⟨v, e1, e2⟩ := upLoop_inv (ns := actBox s.ps.degree)
    (body := fun h sum => do
      let v ← Fl.evaluatedDerivWeight r s x (zl k) (List.zipWith (· + ·) h.cur (zl (offs s.ps.knots s.ps.degree x)))
      return r.rnd (sum + v))
    (s := (0 : K))
    (fun n a => r.Close (basisSteps s.ps.degree + 1 + n) a
      (∑ j ∈ range n, dprod (basisDerivFns s.ps.knots s.ps.degree x k)
          (List.zipWith (· + ·) (unlin (actBox s.ps.degree) j) (offs s.ps.knots s.ps.degree x)) *
        wgt s (List.zipWith (· + ·) (unlin (actBox s.ps.degree) j) (offs s.ps.knots s.ps.degree x)))
      (∑ j ∈ range n, dprod (basisDerivMags s.ps.knots s.ps.degree x k)
          (List.zipWith (· + ·) (unlin (actBox s.ps.degree) j) (offs s.ps.knots s.ps.degree x)) *
        wgt s (List.zipWith (· + ·) (unlin (actBox s.ps.degree) j) (offs s.ps.knots s.ps.degree x))))
      (by simpa using Close.zero) (by
      intro n hn a h1
      have hJ := unlin_inBox hpos n
      obtain ⟨b, b1, b2⟩ := fl_derivWeight h hx hJ hk
      simp only [zipWith_zl, b1, ok_bind, pure_ok]
      refine ⟨_, rfl, ?_⟩
      rw [sum_range_succ, sum_range_succ]
      exact (h1.add (b2.mono (by omega))).rnd)
  refine ⟨v, e1, ?_⟩
  have e3 := msum_active h.knots (fun I => wgt s I) hx hk
  have e4 := msum_active_mag h.knots (fun I => wgt s I) hx hk
  rw [msum_eq_sum_unlin] at e3 e4
  rw [e3, e4] at e2
  exact e2

/-- Number of roundings in a derivative of order `n` of a rational basis function, if no more than `P` terms are added at once. -/
def ratSteps (ps : List ℕ) (P n : ℕ) : ℕ := 2 * weightSteps ps + n * (2 * weightSteps ps + 3 + P)

theorem msub_prod_le : ∀ {k j : List ℕ}, ((msub k j).map (· + 1)).prod ≤ (k.map (· + 1)).prod := by
  intro k
  induction k with
  | nil => intro j; simp [msub]
  | cons n k ih =>
    intro j
    cases j with
    | nil =>
      simp only [msub, List.zipWith_nil_right, List.map_nil, List.prod_nil]
      exact Nat.one_le_iff_ne_zero.2 (by
        have := prod_pos_of (mem_actBox_pos (k := n :: k)); omega)
    | cons m j =>
      have := ih (j := j)
      simp only [msub] at this ⊢
      simp only [List.zipWith_cons_cons, List.map_cons, List.prod_cons]
      exact Nat.mul_le_mul (by omega) this

theorem fl_div_close {a b b' w c : K} {m n : ℕ} (ha : r.Close m a b c) (hw : r.Near n b' w) (hpos : 0 < w) :
    ∃ q, Fl.div r a b' = .ok q ∧ r.Close (m + n + 1) q (b / w) (c / w) := by
  have hb' := hw.pos hpos
  refine ⟨r.rnd (a / b'), by simp [Fl.div, fdiv, hb'.ne'], ?_⟩
  have h1 : 0 ≤ 1 / w := by positivity
  have := (ha.mul ((hw.inv hpos).close h1)).rnd
  simpa only [mul_one_div] using this

theorem fl_rationalDeriv (h : Fl.WF r s) {x : List K} (hx : Dom s.ps.knots x) {J : List ℕ}
    (hJ : InBox (actBox s.ps.degree) J) (P : ℕ) : ∀ (fuel : ℕ) (k : List ℕ), k.length = s.ps.knots.length → k.sum ≤ fuel →
    (k.map (· + 1)).prod ≤ P →
    ∃ a, Fl.rationalDeriv r s x (zl (List.zipWith (· + ·) J (offs s.ps.knots s.ps.degree x))) fuel (zl k) = .ok a ∧
      r.Close (ratSteps s.ps.degree P fuel) a
        (ratD (fun k => dprod (basisDerivFns s.ps.knots s.ps.degree x k)
          (List.zipWith (· + ·) J (offs s.ps.knots s.ps.degree x)) * wgt s (List.zipWith (· + ·) J (offs s.ps.knots s.ps.degree x)))
          (fun k => tensorDerivSum s x k fun I => wgt s I) fuel k)
        (quotientMag (fun k => dprod (basisDerivMags s.ps.knots s.ps.degree x k)
          (List.zipWith (· + ·) J (offs s.ps.knots s.ps.degree x)) * wgt s (List.zipWith (· + ·) J (offs s.ps.knots s.ps.degree x)))
          (weightMag s x) (weightValue s x) fuel k) := by
  have hI : InBox (npts s) _ := act_inBox h.knots hx hJ
  have hwpos : 0 < weightValue s x := weightValue_pos h.exact hx
  obtain ⟨ws, w1, w2⟩ := fl_weightSum h hx
  have hzero : ∀ (fuel : ℕ) (k : List ℕ), k.length = s.ps.knots.length → k.all (fun a => decide (a = 0)) = true →
    ∃ a, Fl.rationalDeriv r s x (zl (List.zipWith (· + ·) J (offs s.ps.knots s.ps.degree x))) fuel (zl k) = .ok a ∧
      r.Close (ratSteps s.ps.degree P fuel) a
        (ratD (fun k => dprod (basisDerivFns s.ps.knots s.ps.degree x k)
          (List.zipWith (· + ·) J (offs s.ps.knots s.ps.degree x)) * wgt s (List.zipWith (· + ·) J (offs s.ps.knots s.ps.degree x)))
          (fun k => tensorDerivSum s x k fun I => wgt s I) fuel k)
        (quotientMag (fun k => dprod (basisDerivMags s.ps.knots s.ps.degree x k)
          (List.zipWith (· + ·) J (offs s.ps.knots s.ps.degree x)) * wgt s (List.zipWith (· + ·) J (offs s.ps.knots s.ps.degree x)))
          (weightMag s x) (weightValue s x) fuel k) := by
    intro fuel k hk hz
    have hkz : k = s.ps.knots.map fun _ => 0 := by
      rw [all_zero_iff.1 hz]; simp only [List.map_const', hk]
    have hzl : (zl k).all (fun a => decide (a = 0)) = true := by rw [zl_all_zero]; exact hz
    rw [Fl.rationalDeriv.eq_def, ratD_zero hz, quotientMag_zero hz]
    dsimp only
    rw [if_pos hzl, hkz]
    obtain ⟨b, b1, b2, b3⟩ := fl_basisProd (r := r) h.knots hx hJ (Near.refl 1 zero_le_one) zero_le_one
    rw [one_mul, zero_add] at b2
    rw [one_mul] at b3
    have hw : s.ph.getWeight (zl (List.zipWith (· + ·) J (offs s.ps.knots s.ps.degree x))) =
        .ok (wgt s (List.zipWith (· + ·) J (offs s.ps.knots s.ps.degree x))) := getWeight_eq h.exact hI
    have hwp : 0 < wgt s (List.zipWith (· + ·) J (offs s.ps.knots s.ps.degree x)) := wgt_pos h.exact hI
    have n1 := (b2.mul (Near.refl _ hwp.le) b3 hwp.le).rnd (mul_nonneg b3 hwp.le)
    have hw0 : (tensorDerivSum s x (s.ps.knots.map fun _ => 0) fun I => wgt s I) = weightValue s x := by
      simp only [tensorDerivSum, weightValue, tensorSum, basisDerivFns_zero]
    obtain ⟨q, q1, q2⟩ := fl_div_close (n1.close (mul_nonneg b3 hwp.le)) w2 hwpos
    refine ⟨q, ?_, ?_⟩
    · rw [h.table] 
      simp only [b1, hw, w1, ok_bind, q1]
    · rw [hw0, basisDerivFns_zero, basisDerivMags_zero]
      refine q2.mono ?_
      have : 0 < (actBox s.ps.degree).prod := prod_pos_of (by simp [actBox])
      simp only [ratSteps, weightSteps]
      have := Nat.zero_le (fuel * (2 * (basisSteps s.ps.degree + 1 + (actBox s.ps.degree).prod) + 3 + P))
      omega
  intro fuel
  induction fuel with
  | zero =>
    intro k hk hs hP
    refine hzero 0 k hk ?_
    rw [List.all_eq_true]; intro a ha
    have := List.single_le_sum (l := k) (by simp) a ha
    simp; omega
  | succ fuel ih =>
    intro k hk hs hkP
    by_cases hz : k.all (fun a => decide (a = 0)) = true
    · exact hzero _ k hk hz
    have hzl : ¬ (zl k).all (fun a => decide (a = 0)) = true := by rw [zl_all_zero]; exact hz
    rw [Fl.rationalDeriv, if_neg hzl, ratD_succ hz, quotientMag_succ hz]
    have e1 : (zl k).map (· + 1) = zl (k.map (· + 1)) := by simp [zl]
    have hP := mem_actBox_pos (k := k)
    simp only [e1]
    rw [mk'_zl, incr_zl hP, length1D_zl]
    have hPP := prod_pos_of hP
    have hcnt : ((((k.map (· + 1)).prod : ℕ) : ℤ) - 1).toNat = (k.map (· + 1)).prod - 1 := by omega
    rw [hcnt]
    set A := fun k => dprod (basisDerivFns s.ps.knots s.ps.degree x k)
          (List.zipWith (· + ·) J (offs s.ps.knots s.ps.degree x)) * wgt s (List.zipWith (· + ·) J (offs s.ps.knots s.ps.degree x)) with hA
    set B := fun k => dprod (basisDerivMags s.ps.knots s.ps.degree x k)
          (List.zipWith (· + ·) J (offs s.ps.knots s.ps.degree x)) * wgt s (List.zipWith (· + ·) J (offs s.ps.knots s.ps.degree x)) with hB
    obtain ⟨sum, s1, s2⟩ := upLoop_inv_from hP (body := fun h sum => do
        let c ← Spl.binomialCoefficients (zl k) h.cur
        let v ← Fl.rationalDeriv r s x (zl (List.zipWith (· + ·) J (offs s.ps.knots s.ps.degree x))) fuel h.differenceIndices
        let ws ← Fl.evaluatedDerivWeightSum r s x h.cur
        return r.rnd (sum + r.rnd (r.rnd ((c : K) * v) * ws)))
      (Inv := fun n a => r.Close (ratSteps s.ps.degree P fuel + weightSteps s.ps.degree + 2 + (n - 1)) a
        (∑ m ∈ range (n - 1), (mbinom k (unlin (k.map (· + 1)) (m + 1)) : K) *
          ratD A (fun k => tensorDerivSum s x k fun I => wgt s I) fuel (msub k (unlin (k.map (· + 1)) (m + 1))) *
            (tensorDerivSum s x (unlin (k.map (· + 1)) (m + 1)) fun I => wgt s I))
        (∑ m ∈ range (n - 1), (mbinom k (unlin (k.map (· + 1)) (m + 1)) : K) *
          quotientMag B (weightMag s x) (weightValue s x) fuel (msub k (unlin (k.map (· + 1)) (m + 1))) *
            weightMag s x (unlin (k.map (· + 1)) (m + 1))))
      ((k.map (· + 1)).prod - 1) 1 0 (by simpa using Close.zero) (by
        intro m hm1 hm2 a ha
        have hb := unlin_inBox hP m
        have hl : (unlin (k.map (· + 1)) m).length = s.ps.knots.length := by simp [hk]
        have hlt := msub_sum_lt hb (by
          have := unlin_ne_zero (ns := k.map (· + 1)) (m := m) (by omega) (by omega)
          rwa [show (List.map (fun _ => 0) (unlin (k.map (· + 1)) m)) = (k.map (· + 1)).map fun _ => 0 by
            simp only [List.map_const', unlin_length]])
        simp only [binomialCoefficients_eq hb, differenceIndices_zl hb]
        obtain ⟨v, v1, v2⟩ := ih (msub k (unlin (k.map (· + 1)) m)) (by rw [msub_length (by simp)]; exact hk) (by omega)
          (msub_prod_le.trans hkP)
        obtain ⟨w, u1, u2⟩ := fl_derivWeightSum h hx hl
        rw [v1]
        simp only [u1, ok_bind, pure_ok]
        refine ⟨_, rfl, ?_⟩
        rw [show m + 1 - 1 = (m - 1) + 1 by omega, sum_range_succ, sum_range_succ, show m - 1 + 1 = m by omega]
        have hc : r.Close 0 ((mbinom k (unlin (k.map (· + 1)) m) : ℕ) : K) (mbinom k (unlin (k.map (· + 1)) m) : ℕ)
            (mbinom k (unlin (k.map (· + 1)) m) : ℕ) := (Near.refl _ (Nat.cast_nonneg _)).close (Nat.cast_nonneg _)
        have t1 := (((hc.mul v2).rnd.mul u2).rnd)
        have t2 := (ha.add (t1.mono (l := ratSteps s.ps.degree P fuel + weightSteps s.ps.degree + 2 + (m - 1)) (by omega))).rnd
        exact t2.mono (by omega))
    simp only [zero_add]
    rw [s1]
    obtain ⟨dw, d1, d2⟩ := fl_derivWeight h hx hJ hk
    have hw0 : (tensorDerivSum s x (k.map fun _ => 0) fun I => wgt s I) = weightValue s x := weightDeriv_zero hk
    rw [show 1 + ((k.map (· + 1)).prod - 1) - 1 = (k.map (· + 1)).prod - 1 by omega] at s2
    rw [hw0]
    obtain ⟨q, q1, q2⟩ := fl_div_close (((d2.mono (by simp only [ratSteps, weightSteps]; omega)).sub s2).rnd) w2 hwpos
    refine ⟨q, by simp only [d1, w1, ok_bind, q1], q2.mono ?_⟩
    simp only [ratSteps, weightSteps] at *
    rw [Nat.add_mul]
    omega

/-- Derivatives of NURBS, of any order: the error of `EvaluateDerivative` is bounded by the growth of a number of operations that depends on
the degrees and the order only, relative to the sum in which every difference in the quotient rule and in the derivatives of the basis
functions is replaced by a sum. -/
theorem C79_nurbs_derivative (r : Rounding K) {s : Spl K} (h : Fl.WF r s) (hn : IsNurbs s) {x : List K} (hx : InDomain s x)
    (dims : List ℕ) (hd : ∀ c ∈ dims, c < s.ph.dim) {k : List ℕ} (hk : k.length = s.ps.knots.length) :
    ∃ v w, Fl.evaluateDerivative r s x (zl dims) (zl k) = .ok v ∧ (exactOf s).evaluateDerivative x (zl dims) (zl k) = .ok w ∧
      List.Forall₂ (fun c a => |a - msum (npts s) fun I => ratBasis s x k I * cpt s I c| ≤
        growth r (ratSteps s.ps.degree (k.map (· + 1)).prod k.sum + 1 + (s.ps.degree.map (· + 1)).prod) *
          msum (npts s) fun I => ratMag s x k I * |cpt s I c|) dims v ∧
      w = dims.map fun c => msum (npts s) fun I => ratBasis s x k I * cpt s I c := by
  obtain ⟨w, hw⟩ := hn
  obtain ⟨v, e1, e2⟩ := fl_evalWith (r := r) h.knots hx (dims := zl dims) (f := Fl.evaluatedDerivCP r s x (zl k))
    (m := ratSteps s.ps.degree (k.map (· + 1)).prod k.sum + 1)
    (g := fun I c => ratBasis s x k I * cpt s I c.toNat)
    (e := fun I c => ratMag s x k I * |cpt s I c.toNat|) (by
      intro J hJ c hc
      obtain ⟨c, hc', rfl⟩ := List.mem_map.1 hc
      have hI : InBox (npts s) _ := act_inBox h.knots hx hJ
      obtain ⟨b, b1, b2⟩ := fl_rationalDeriv h hx hJ (k.map (· + 1)).prod k.sum k hk le_rfl le_rfl
      have hcp : s.controlPoint _ (c : ℤ) = .ok (cpt s _ c) := controlPoint_eq h.exact hI (hd c hc')
      simp only [Fl.evaluatedDerivCP, hw, foldl_zl, b1, hcp, ok_bind, pure_ok]
      exact ⟨_, rfl, (b2.mul (Close.exact _)).rnd⟩)
  refine ⟨v, _, e1, evaluateDerivative_nurbs h.exact ⟨w, hw⟩ hx dims hd hk, ?_, rfl⟩
  rw [zl, List.forall₂_map_left_iff] at e2
  refine e2.imp fun c a hca => ?_
  simp only [Int.toNat_natCast] at hca
  rw [msum_active_gen h.knots (fun I => ratBasis s x k I * cpt s I c) hx ?_,
    msum_active_magGen h.knots (fun I => ratMag s x k I * |cpt s I c|) hx ?_] at hca
  · exact hca.1
  · intro I hI hz
    rw [ratMag, quotientMag_zero_of (D := s.ps.knots.length) (fun k hk => by rw [hz k hk, zero_mul]) _ k hk, zero_mul]
  · intro I hI hz
    rw [ratBasis, ratR_zero_of (D := s.ps.knots.length) (fun k hk => by rw [hz k hk, zero_mul]) _ k hk (le_refl _), zero_mul]

theorem fl_exact_rationalDeriv (s : Spl K) (x : List K) (ix : List ℤ) : ∀ (fuel : ℕ) (k : List ℤ),
    Fl.rationalDeriv (exactRounding K) s x ix fuel k = s.rationalDeriv x ix fuel k := by
  have hws : Fl.evaluatedWeightSum (exactRounding K) s x = s.evaluatedWeightSum x := by
    simp only [Fl.evaluatedWeightSum, Spl.evaluatedWeightSum, Spl.weightSumWith, Fl.evaluatedWeight, Spl.evaluatedWeight,
      fl_exact_firstNonZero, fl_exact_prod, PS.getBasisFunctions]
    rfl
  have hdw : ∀ k ix, Fl.evaluatedDerivWeight (exactRounding K) s x k ix = s.evaluatedDerivWeight x k ix := fun k ix => by
    simp only [Fl.evaluatedDerivWeight, Spl.evaluatedDerivWeight, fl_exact_derivProd, PS.getBasisFunctionDerivatives]
    rfl
  have hdws : ∀ k, Fl.evaluatedDerivWeightSum (exactRounding K) s x k = s.evaluatedDerivWeightSum x k := fun k => by
    simp only [Fl.evaluatedDerivWeightSum, Spl.evaluatedDerivWeightSum, Spl.weightSumWith, hdw, fl_exact_firstNonZero]
    rfl
  have hdiv : ∀ a b, Fl.div (exactRounding K) a b = fdiv a b := fun a b => by
    simp only [Fl.div]
    cases fdiv a b <;> rfl
  intro fuel
  induction fuel with
  | zero =>
    intro k
    rw [Fl.rationalDeriv, Spl.rationalDeriv]
    simp only [hws, hdiv, fl_exact_prod, PS.getBasisFunctions]
    rfl
  | succ fuel ih =>
    intro k
    rw [Fl.rationalDeriv, Spl.rationalDeriv]
    simp only [hws, hdiv, fl_exact_prod, PS.getBasisFunctions, hdw, hdws, ih]
    rfl

/-- Without rounding the rounded model is the exact one: `EvaluateDerivative` of B-splines and NURBS, for all arguments. -/
theorem C79_exact_arithmetic (s : Spl K) (x : List K) (dims k : List ℤ) :
    Fl.evaluateDerivative (exactRounding K) s x dims k = s.evaluateDerivative x dims k := by
  have hcpt : Fl.evaluatedDerivCP (exactRounding K) s x k = s.evaluatedDerivCP x k := by
    funext ix c
    simp only [Fl.evaluatedDerivCP, Spl.evaluatedDerivCP, fl_exact_derivProd, PS.getBasisFunctionDerivatives, fl_exact_rationalDeriv]
    rfl
  simp only [Fl.evaluateDerivative, Spl.evaluateDerivative, fl_exact_evalWith, hcpt]

/-- A quarter circle with rational weights in `double` arithmetic. -/
def flArc : Spl ℚ := ⟨⟨[[0, 0, 0, 1, 1, 1]], [2], flTable doubleRounding [[0, 0, 0, 1, 1, 1]] [2]⟩,
  ⟨2, [3], [1, 0, 1, 1, 0, 1], some [1, 1, 2]⟩⟩

example : Fl.WF doubleRounding flArc ∧ IsNurbs flArc ∧ InDomain flArc [1 / 3] :=
  ⟨⟨.cons (by decide +kernel) .nil, fl_basisTable_eq (.cons (by decide +kernel) .nil), by decide +kernel, by decide +kernel,
    by decide +kernel, by intro w hw; cases hw; decide +kernel⟩, ⟨_, rfl⟩, .cons (by decide +kernel) .nil⟩

/-- A NURBS curve whose control points coincide, in `double` arithmetic. -/
def flPoint : Spl ℚ := ⟨⟨[[0, 0, 0, 1, 1, 1]], [2], flTable doubleRounding [[0, 0, 0, 1, 1, 1]] [2]⟩, ⟨1, [3], [1, 1, 1], some [1, 1, 2]⟩⟩

/-- The error cannot be bounded relative to the derivative itself: the curve is constant, its derivative is zero, and the computed
derivative is not. -/
theorem C79_not_relative : Fl.newNurbs doubleRounding [[0, 0, 0, 1, 1, 1]] [2] [[1], [1], [1]] [1, 1, 2] = .ok flPoint ∧
    Fl.evaluateDerivative doubleRounding flPoint [1 / 4] [0] [1] = .ok [1 / 2 ^ 53] ∧
    (exactOf flPoint).evaluateDerivative [1 / 4] [0] [1] = .ok [0] := by
  refine ⟨by decide +kernel, by decide +kernel, by decide +kernel⟩

end SplineLib
