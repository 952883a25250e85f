import Verif.Core.CloseKnots
import Verif.Core.RatDeriv

/-!
# Derivatives for knots that may be closer than `kEpsilon` (helper lemmas)
-/

namespace SplineLib
set_option linter.unusedSectionVars false
open Finset

section
variable {K : Type} [Field K] [LinearOrder K] [IsStrictOrderedRing K]

/-- The derivatives of the basis function objects at `x`. -/
def codeDerivFns : List (List K) → List ℕ → List K → List ℕ → List (ℕ → K)
  | U :: Us, p :: ps, x :: xs, k :: ks => (fun i => (mkBasis U p i).evalDeriv x (k : ℤ)) :: codeDerivFns Us ps xs ks
  | _, _, _, _ => []

theorem codeDerivFns_zero (Us : List (List K)) : ∀ (ps : List ℕ) (xs : List K),
    codeDerivFns Us ps xs (Us.map fun _ => 0) = codeFns Us ps xs := by
  induction Us with
  | nil => intro ps xs; simp [codeDerivFns, codeFns]
  | cons U Us ih =>
    intro ps xs
    cases ps with
    | nil => simp [codeDerivFns, codeFns]
    | cons p ps => cases xs with
      | nil => simp [codeDerivFns, codeFns]
      | cons x xs =>
        simp only [List.map_cons, codeDerivFns, codeFns, ih]
        congr 1
        funext i
        cases p <;> simp [mkBasis, Basis.evalDeriv]

theorem basisDerivProd_code {Us : List (List K)} {ps : List ℕ} (h : List.Forall₂ WideKnots Us ps) :
    ∀ {xs : List K} {J : List ℕ} {ks : List ℕ} (v : K), Dom Us xs → InBox (actBox ps) J → ks.length = Us.length →
      PS.basisDerivProd (mkTable Us ps) (zl (List.zipWith (· + ·) J (offs Us ps xs))) xs (zl ks) v =
        .ok (v * dprod (codeDerivFns Us ps xs ks) (List.zipWith (· + ·) J (offs Us ps xs))) := by
  induction h with
  | nil => intro xs J ks v hx hJ hk; cases hx; simp [offs, codeDerivFns, dprod, PS.basisDerivProd, mkTable]
  | @cons U p Us ps h _ ih =>
    intro xs J ks v hx hJ hk
    cases hx with
    | @cons _ a _ as hx hxs =>
      cases J with
      | nil => simp at hJ
      | cons j J =>
        cases ks with
        | nil => simp at hk
        | cons k ks =>
          simp only [actBox, List.map_cons, inBox_cons] at hJ
          obtain ⟨h1, h3, h4⟩ := h.span hx.1 hx.2
          simp only [mkTable, List.zipWith_cons_cons, offs, List.map_cons, PS.basisDerivProd, codeDerivFns, dprod]
          rw [getI_row (by omega)]
          have := ih (v * (mkBasis U p (j + (spanIx U a - p))).evalDeriv a (k : ℤ)) hxs hJ.2 (by simpa using hk)
          simp only [mkTable, zl] at this
          simp only [ok_bind, this]
          rw [mul_assoc]

variable {s : Spl K} {x : List K} {k : List ℕ}

theorem WideSpl.basisDerivs_eq (h : WideSpl s) (hx : Dom s.ps.knots x) {J : List ℕ} (hJ : InBox (actBox s.ps.degree) J)
    (hk : k.length = s.ps.knots.length) :
    s.ps.getBasisFunctionDerivatives (zl (List.zipWith (· + ·) J (offs s.ps.knots s.ps.degree x))) x (zl k) =
      .ok (dprod (codeDerivFns s.ps.knots s.ps.degree x k) (List.zipWith (· + ·) J (offs s.ps.knots s.ps.degree x))) := by
  simp only [PS.getBasisFunctionDerivatives, h.basis, basisDerivProd_code h.knots 1 hx hJ hk, one_mul]

/-- The sum that the loops of `EvaluateDerivative` form. -/
def windowDerivSum (s : Spl K) (x : List K) (k : List ℕ) (F : List ℕ → K) : K :=
  msum (actBox s.ps.degree) fun J =>
    dprod (codeDerivFns s.ps.knots s.ps.degree x k) (List.zipWith (· + ·) J (offs s.ps.knots s.ps.degree x)) *
      F (List.zipWith (· + ·) J (offs s.ps.knots s.ps.degree x))

theorem windowDerivSum_zero (hk : k.length = s.ps.knots.length) (F : List ℕ → K) :
    windowDerivSum s x (k.map fun _ => 0) F = windowSum s x F := by
  have : (k.map fun _ => 0) = s.ps.knots.map fun _ => 0 := by simp only [List.map_const', hk]
  simp only [windowDerivSum, windowSum, this, codeDerivFns_zero]

theorem WideSpl.derivWeightSum_eq (h : WideSpl s) (hx : Dom s.ps.knots x) (hk : k.length = s.ps.knots.length) :
    s.evaluatedDerivWeightSum x (zl k) = .ok (windowDerivSum s x k (wgt s)) := by
  unfold Spl.evaluatedDerivWeightSum windowDerivSum
  refine h.weightSumWith_eq hx (g := fun I => dprod (codeDerivFns s.ps.knots s.ps.degree x k) I * wgt s I) fun J hJ => ?_
  have hI : InBox (npts s) _ := act_inBox_wide h.knots hx hJ
  simp only [Spl.evaluatedDerivWeight, h.basisDerivs_eq hx hJ hk, h.getWeight hI, ok_bind, pure_ok]

theorem WideSpl.evaluateDerivative_bspline (h : WideSpl s) (hx : Dom s.ps.knots x) (hb : IsBSpline s)
    (hk : k.length = s.ps.knots.length) (dims : List ℕ) (hd : ∀ c ∈ dims, c < s.ph.dim) :
    s.evaluateDerivative x (zl dims) (zl k) = .ok (dims.map fun c => windowDerivSum s x k fun I => cpt s I c) := by
  have hb : s.ph.weights = none := hb
  unfold Spl.evaluateDerivative windowDerivSum
  rw [h.evalWith_eq hx (g := fun I c => dprod (codeDerivFns s.ps.knots s.ps.degree x k) I * cpt s I c.toNat)]
  · simp
  · intro J hJ c hc
    obtain ⟨c, hc', rfl⟩ := List.mem_map.1 hc
    have hI : InBox (npts s) _ := act_inBox_wide h.knots hx hJ
    simp only [Spl.evaluatedDerivCP, hb, h.basisDerivs_eq hx hJ hk, h.controlPoint hI (hd c hc'), ok_bind, pure_ok, Int.toNat_natCast]

theorem WideSpl.rationalDeriv_eq (h : WideSpl s) (hx : Dom s.ps.knots x) (hne : windowSum s x (wgt s) ≠ 0) {J : List ℕ}
    (hJ : InBox (actBox s.ps.degree) J) : ∀ (fuel : ℕ) (k : List ℕ), k.length = s.ps.knots.length → k.sum ≤ fuel →
    s.rationalDeriv x (zl (List.zipWith (· + ·) J (offs s.ps.knots s.ps.degree x))) fuel (zl k) =
      .ok (ratD (fun k => dprod (codeDerivFns s.ps.knots s.ps.degree x k)
          (List.zipWith (· + ·) J (offs s.ps.knots s.ps.degree x)) * wgt s (List.zipWith (· + ·) J (offs s.ps.knots s.ps.degree x)))
        (fun k => windowDerivSum s x k (wgt s)) fuel k) := by
  have hI : InBox (npts s) _ := act_inBox_wide h.knots hx hJ
  have hw0 : ∀ k : List ℕ, k.length = s.ps.knots.length →
      windowDerivSum s x (k.map fun _ => 0) (wgt s) = windowSum s x (wgt s) := fun k hk => windowDerivSum_zero hk _
  intro fuel
  induction fuel with
  | zero =>
    intro k hk hs
    have hz : k.all (fun a => decide (a = 0)) = true := by
      rw [List.all_eq_true]; intro a ha
      have := List.single_le_sum (l := k) (by simp) a ha
      simp; omega
    have hkz := all_zero_iff.1 hz
    rw [Spl.rationalDeriv, zl_all_zero, if_pos hz, ratD_zero hz]
    simp only [h.basisFunctions_eq hx hJ, h.getWeight hI, h.weightSum_eq hx, ok_bind]
    rw [hkz, hw0 k hk]
    have : (k.map fun _ => 0) = s.ps.knots.map fun _ => 0 := by simp only [List.map_const', hk]
    rw [this, codeDerivFns_zero]
    simp [fdiv, hne]
  | succ fuel ih =>
    intro k hk hs
    by_cases hz : k.all (fun a => decide (a = 0)) = true
    · have hkz := all_zero_iff.1 hz
      rw [Spl.rationalDeriv, zl_all_zero, if_pos hz, ratD_zero hz]
      simp only [h.basisFunctions_eq hx hJ, h.getWeight hI, h.weightSum_eq hx, ok_bind]
      rw [hkz, hw0 k hk]
      have : (k.map fun _ => 0) = s.ps.knots.map fun _ => 0 := by simp only [List.map_const', hk]
      rw [this, codeDerivFns_zero]
      simp [fdiv, hne]
    · rw [Spl.rationalDeriv, zl_all_zero, if_neg hz, ratD_succ hz]
      have e1 : (zl k).map (· + 1) = zl (k.map (· + 1)) := by simp [zl]
      have hP := mem_actBox_pos (k := k)
      simp only [e1]
      rw [mk'_zl, incr_zl hP, length1D_zl]
      have hPP := prod_pos_of hP
      have hcnt : ((((k.map (· + 1)).prod : ℕ) : ℤ) - 1).toNat = (k.map (· + 1)).prod - 1 := by omega
      rw [hcnt]
      have hloop := upLoop_fun_from hP (body := fun h sum => do
          let c ← Spl.binomialCoefficients (zl k) h.cur
          let r ← s.rationalDeriv x (zl (List.zipWith (· + ·) J (offs s.ps.knots s.ps.degree x))) fuel h.differenceIndices
          let ws ← s.evaluatedDerivWeightSum x h.cur
          return sum + (c : K) * r * ws)
        (fun n => ∑ m ∈ range (n - 1), (mbinom k (unlin (k.map (· + 1)) (m + 1)) : K) *
          ratD (fun k => dprod (codeDerivFns s.ps.knots s.ps.degree x k)
            (List.zipWith (· + ·) J (offs s.ps.knots s.ps.degree x)) * wgt s (List.zipWith (· + ·) J (offs s.ps.knots s.ps.degree x)))
            (fun k => windowDerivSum s x k (wgt s)) fuel (msub k (unlin (k.map (· + 1)) (m + 1))) *
            (windowDerivSum s x (unlin (k.map (· + 1)) (m + 1)) (wgt s)))
        ((k.map (· + 1)).prod - 1) 1 (by
          intro m hm1 hm2
          have hb := unlin_inBox hP m
          have hl : (unlin (k.map (· + 1)) m).length = s.ps.knots.length := by simp [hk]
          have hlt := msub_sum_lt hb (by
            have := unlin_ne_zero (ns := k.map (· + 1)) (m := m) (by omega) (by omega)
            rwa [show (List.map (fun _ => 0) (unlin (k.map (· + 1)) m)) = (k.map (· + 1)).map fun _ => 0 by
              simp only [List.map_const', unlin_length]])
          simp only [binomialCoefficients_eq hb, differenceIndices_zl hb]
          rw [ih _ (by rw [msub_length (by simp)]; exact hk) (by omega)]
          rw [h.derivWeightSum_eq hx hl]
          simp only [ok_bind, pure_ok]
          rw [show m + 1 - 1 = (m - 1) + 1 by omega, sum_range_succ, show m - 1 + 1 = m by omega])
      simp only [Nat.sub_self, range_zero, sum_empty] at hloop
      simp only [zero_add]
      rw [hloop]
      rw [show 1 + ((k.map (· + 1)).prod - 1) - 1 = (k.map (· + 1)).prod - 1 by omega]
      simp only [Spl.evaluatedDerivWeight, h.basisDerivs_eq hx hJ hk, h.getWeight hI, h.weightSum_eq hx, ok_bind, pure_ok]
      rw [hw0 k hk]
      simp [fdiv, hne]

theorem WideSpl.rationalDeriv_zero (h : WideSpl s) (hx : Dom s.ps.knots x) (h0 : windowSum s x (wgt s) = 0) {J : List ℕ}
    (hJ : InBox (actBox s.ps.degree) J) : ∀ (fuel : ℕ) (k : List ℕ), k.length = s.ps.knots.length → k.sum ≤ fuel →
    s.rationalDeriv x (zl (List.zipWith (· + ·) J (offs s.ps.knots s.ps.degree x))) fuel (zl k) = .error .nonfinite := by
  have hI : InBox (npts s) _ := act_inBox_wide h.knots hx hJ
  have hbase : ∀ fuel (k : List ℕ), k.all (fun a => decide (a = 0)) = true →
      s.rationalDeriv x (zl (List.zipWith (· + ·) J (offs s.ps.knots s.ps.degree x))) fuel (zl k) = .error .nonfinite := by
    intro fuel k hz
    rw [Spl.rationalDeriv.eq_def]
    dsimp only
    rw [zl_all_zero, if_pos hz]
    simp only [h.basisFunctions_eq hx hJ, h.getWeight hI, h.weightSum_eq hx, ok_bind, h0]
    simp [fdiv]
  intro fuel
  induction fuel with
  | zero =>
    intro k hk hs
    refine hbase _ _ ?_
    rw [List.all_eq_true]; intro a ha
    have := List.single_le_sum (l := k) (by simp) a ha
    simp; omega
  | succ fuel ih =>
    intro k hk hs
    by_cases hz : k.all (fun a => decide (a = 0)) = true
    · exact hbase _ _ hz
    · rw [Spl.rationalDeriv, zl_all_zero, if_neg hz]
      have e1 : (zl k).map (· + 1) = zl (k.map (· + 1)) := by simp [zl]
      have hP := mem_actBox_pos (k := k)
      simp only [e1]
      rw [mk'_zl, incr_zl hP, length1D_zl]
      have hPP : 1 < (k.map (· + 1)).prod := by
        by_contra hc
        apply hz
        rw [List.all_eq_true]; intro a ha
        have hd := List.dvd_prod (List.mem_map_of_mem (f := (· + 1)) ha)
        have := prod_pos_of hP
        have := Nat.le_of_dvd this hd
        simp; omega
      obtain ⟨n, hn⟩ : ∃ n, ((((k.map (· + 1)).prod : ℕ) : ℤ) - 1).toNat = n + 1 := ⟨(k.map (· + 1)).prod - 2, by omega⟩
      rw [hn, upLoop]
      have hb := unlin_inBox hP (0 + 1)
      have hlt := msub_sum_lt hb (by
        have := unlin_ne_zero (ns := k.map (· + 1)) (m := 0 + 1) (by omega) (by omega)
        rwa [show (List.map (fun _ => 0) (unlin (k.map (· + 1)) (0 + 1))) = (k.map (· + 1)).map fun _ => 0 by
          simp only [List.map_const', unlin_length]])
      simp only [binomialCoefficients_eq hb, differenceIndices_zl hb, Spl.evaluatedDerivWeight, h.basisDerivs_eq hx hJ hk,
        h.getWeight hI, ok_bind, pure_ok]
      rw [ih _ (by rw [msub_length (by simp)]; exact hk) (by omega)]
      rfl

theorem WideSpl.evaluateDerivative_nurbs (h : WideSpl s) (hx : Dom s.ps.knots x) (hn : IsNurbs s)
    (hne : windowSum s x (wgt s) ≠ 0) (hk : k.length = s.ps.knots.length) (dims : List ℕ) (hd : ∀ c ∈ dims, c < s.ph.dim) :
    s.evaluateDerivative x (zl dims) (zl k) = .ok (dims.map fun c => msum (actBox s.ps.degree) fun J =>
      ratR (fun k => dprod (codeDerivFns s.ps.knots s.ps.degree x k) (List.zipWith (· + ·) J (offs s.ps.knots s.ps.degree x)) *
          wgt s (List.zipWith (· + ·) J (offs s.ps.knots s.ps.degree x))) (fun k => windowDerivSum s x k (wgt s)) k *
        cpt s (List.zipWith (· + ·) J (offs s.ps.knots s.ps.degree x)) c) := by
  obtain ⟨w, hw⟩ := hn
  unfold Spl.evaluateDerivative
  rw [h.evalWith_eq hx (g := fun I c => ratR (fun k => dprod (codeDerivFns s.ps.knots s.ps.degree x k) I * wgt s I)
    (fun k => windowDerivSum s x k (wgt s)) k * cpt s I c.toNat)]
  · simp
  · intro J hJ c hc
    obtain ⟨c, hc', rfl⟩ := List.mem_map.1 hc
    have hI : InBox (npts s) _ := act_inBox_wide h.knots hx hJ
    simp only [Spl.evaluatedDerivCP, hw, foldl_zl, h.rationalDeriv_eq hx hne hJ k.sum k hk (le_refl _), ok_bind,
      h.controlPoint hI (hd c hc'), pure_ok, Int.toNat_natCast]
    rfl

theorem WideSpl.evaluateDerivative_nurbs_zero (h : WideSpl s) (hx : Dom s.ps.knots x) (hn : IsNurbs s)
    (h0 : windowSum s x (wgt s) = 0) (hk : k.length = s.ps.knots.length) (c : ℕ) (dims : List ℕ) :
    s.evaluateDerivative x (zl (c :: dims)) (zl k) = .error .nonfinite := by
  obtain ⟨w, hw⟩ := hn
  have hpos : ∀ n ∈ actBox s.ps.degree, 0 < n := by simp [actBox]
  have hJ := unlin_inBox hpos 0
  have e := h.rationalDeriv_zero hx h0 hJ k.sum k hk (le_refl _)
  have e0 : ((actBox s.ps.degree).map fun _ => 0) = unlin (actBox s.ps.degree) 0 := by
    clear e hJ
    generalize actBox s.ps.degree = ns at hpos
    induction ns with
    | nil => simp [unlin]
    | cons n ns ih => simp [unlin, ← ih fun a ha => hpos a (by simp [ha])]
  unfold Spl.evaluateDerivative
  simp only [Spl.evalWith, (throwIfOutside_wide h.ne_nil hx.length_eq.symm).1 hx, firstNonZero_wide h.knots hx, ok_bind, numBasis_eq]
  rw [mk'_zl, length1D_zl, Int.toNat_natCast]
  obtain ⟨m, hm⟩ : ∃ m, (actBox s.ps.degree).prod = m + 1 := ⟨(actBox s.ps.degree).prod - 1, by have := prod_pos_of hpos; omega⟩
  rw [hm, upLoop]
  have e2 : zl (c :: dims) = (c : ℤ) :: zl dims := rfl
  simp only [zipWith_zl, e0, List.map_cons, Spl.addEach, Spl.evaluatedDerivCP, hw, foldl_zl, e, e2]
  rfl

/-- The quotient rule depends only on the derivatives of numerator and denominator. -/
theorem ratR_congr {A A' W W' : List ℕ → K} {D : ℕ} (hA : ∀ k, k.length = D → A k = A' k) (hW : ∀ k, k.length = D → W k = W' k) :
    ∀ (n : ℕ) (k : List ℕ), k.length = D → k.sum ≤ n → ratR A W k = ratR A' W' k := by
  intro n
  induction n using Nat.strong_induction_on with
  | _ n ih =>
    intro k hk hn
    rw [ratR_rec, ratR_rec, hA k hk, hW _ (by simpa using hk)]
    congr 2
    refine sum_congr rfl fun m hm => ?_
    have hm' := mem_range.1 hm
    have hb := unlin_inBox (mem_actBox_pos (k := k)) (m + 1)
    have hlt := msub_sum_lt hb (by
      have := unlin_ne_zero (ns := k.map (· + 1)) (m := m + 1) (by omega) (by omega)
      rwa [show (List.map (fun _ => 0) (unlin (k.map (· + 1)) (m + 1))) = (k.map (· + 1)).map fun _ => 0 by
        simp only [List.map_const', unlin_length]])
    rw [ih (msub k (unlin (k.map (· + 1)) (m + 1))).sum (by omega) _ (by rw [msub_length (by simp), hk]) (le_refl _),
      hW _ (by simp [hk])]

/-! ### Spans of length at least `kEpsilon` -/

theorem invOrZero_mul_deriv {U : List K} (hs : SortedKnots U) {l : ℕ} (hl' : l + 1 < U.length) {x : K} (hx : InSpan U l x)
    (hl : kEps K ≤ knot U (l + 1) - knot U l) {p i k : ℕ} (h : i + p + 1 < U.length) {a : K}
    (ha : knot U i < knot U (i + p + 1) → a = coxDeBoorDeriv U p k i x) :
    Basis.invOrZero (knot U (i + p + 1) - knot U i) * a = coxDeBoorDeriv U p k i x / (knot U (i + p + 1) - knot U i) := by
  rcases lt_or_eq_of_le (hs.mono (show i ≤ i + p + 1 by omega) h) with hlt | heq
  · rw [ha hlt]
    by_cases hin : i ≤ l ∧ l ≤ i + p
    · have h1 := hs.mono hin.1 (show l < U.length by omega)
      have h2 := hs.mono (show l + 1 ≤ i + p + 1 by omega) h
      have h3 : ¬ |knot U (i + p + 1) - knot U i| < kEps K := by
        rw [abs_lt]; intro hc; linarith [hc.2]
      simp only [Basis.invOrZero, h3, if_false, one_div, inv_mul_eq_div]
    · have : coxDeBoorDeriv U p k i x = 0 := by
        apply coxDeriv_zero
        intro j j1 j2 j3
        have := InSpan.unique hs (by omega) hl' j3 hx
        omega
      rw [this]; simp
  · rw [← heq]; simp [Basis.invOrZero]

theorem mkBasis_evalDeriv_local {U : List K} (hs : SortedKnots U) {l : ℕ} (hl' : l + 1 < U.length) {x : K} (hx : InSpan U l x)
    (hl : kEps K ≤ knot U (l + 1) - knot U l) : ∀ (p k i : ℕ), i + p + 1 < U.length →
    (p = 0 → knot U i < knot U (i + 1)) → (mkBasis U p i).evalDeriv x (k : ℤ) = coxDeBoorDeriv U p k i x := by
  intro p
  induction p with
  | zero =>
    intro k i h hnd
    cases k with
    | zero =>
      have : (mkBasis U 0 i).evalDeriv x ((0 : ℕ) : ℤ) = (mkBasis U 0 i).eval x := by simp [mkBasis, Basis.evalDeriv]
      rw [this, mkBasis_eval_local hs hl' hx hl 0 i h hnd]; rfl
    | succ k =>
      have hne : ¬ ((k : ℤ) + 1 = 0) := by omega
      simp [mkBasis, Basis.evalDeriv, coxDeBoorDeriv, hne]
  | succ p ih =>
    intro k i h hnd
    cases k with
    | zero =>
      have : (mkBasis U (p + 1) i).evalDeriv x ((0 : ℕ) : ℤ) = (mkBasis U (p + 1) i).eval x := by
        simp [mkBasis, Basis.evalDeriv]
      rw [this, mkBasis_eval_local hs hl' hx hl (p + 1) i h hnd]; rfl
    | succ k =>
      have hne : ¬ (((k + 1 : ℕ) : ℤ) = 0) := by omega
      have hk : ((k + 1 : ℕ) : ℤ) - 1 = (k : ℤ) := by omega
      by_cases hsup : (mkBasis U (p + 1) i).inSupport x = true
      · have he : (mkBasis U (p + 1) i).evalDeriv x ((k + 1 : ℕ) : ℤ) = ((p + 1 : ℕ) : K) *
            (Basis.invOrZero (knot U (i + p + 1) - knot U i) * (mkBasis U p i).evalDeriv x (k : ℤ) -
            Basis.invOrZero (knot U (i + p + 2) - knot U (i + 1)) * (mkBasis U p (i + 1)).evalDeriv x (k : ℤ)) := by
          simp only [mkBasis, Basis.evalDeriv] at hsup ⊢
          rw [if_pos hsup, if_neg hne, hk]
        rw [he, coxDeBoorDeriv, invOrZero_mul_deriv hs hl' hx hl (p := p) (i := i) (k := k) (by omega)
          (fun hlt => ih k i (by omega) (by rintro rfl; exact hlt))]
        have := invOrZero_mul_deriv hs hl' hx hl (p := p) (i := i + 1) (k := k) (by omega)
          (fun hlt => ih k (i + 1) (by omega) (by rintro rfl; exact hlt))
        rw [show i + 1 + p + 1 = i + p + 2 by omega] at this
        rw [this]
        push_cast
        rfl
      · have he : (mkBasis U (p + 1) i).evalDeriv x ((k + 1 : ℕ) : ℤ) = 0 := by
          simp only [mkBasis, Basis.evalDeriv] at hsup ⊢
          rw [if_neg hsup, if_neg hne]
        rw [he, coxDeriv_zero _ _ _ (not_inSpan_local hs hl' hx hl h hsup)]

/-! ### Spans that are shorter -/

/-- In a span shorter than `kEpsilon` all derivatives of basis functions of positive degree evaluate to zero. -/
theorem mkBasis_evalDeriv_short {U : List K} (hs : SortedKnots U) {l : ℕ} (hl' : l + 1 < U.length) {x : K} (h0 : knot U l ≤ x)
    (h1 : x < knot U (l + 1)) (hl : knot U (l + 1) - knot U l < kEps K) (hx : x + kEps K ≤ lastKnot U) :
    ∀ (p k i : ℕ), i + p + 2 < U.length → (mkBasis U (p + 1) i).evalDeriv x (k : ℤ) = 0 := by
  have hz : ∀ i, i + 1 < U.length → i ≠ l → (mkBasis U 0 i).eval x = 0 := by
    intro i hi hik
    have he : (mkBasis U 0 i).eval x = if (mkBasis U 0 i).inSupport x then 1 else 0 := rfl
    rw [he, if_neg]
    simp only [Basis.inSupport, mkBasis_start, mkBasis_stop, mkBasis_stopIsLast, Bool.or_eq_true, Bool.and_eq_true,
      decide_eq_true_eq, Nat.add_zero]
    rintro (⟨a, b⟩ | ⟨a, b⟩)
    · rcases Nat.lt_or_gt_of_ne hik with hc | hc
      · have := hs.mono (show i + 1 ≤ l by omega) (by omega)
        linarith
      · have := hs.mono (show l + 1 ≤ i by omega) (by omega)
        linarith
    · rw [abs_lt, ← b] at a
      linarith [a.1]
  have hinv : Basis.invOrZero (knot U (l + 1) - knot U l) = 0 := by
    unfold Basis.invOrZero
    rw [if_pos]
    rw [abs_lt]
    have := kEps_pos (K := K)
    exact ⟨by linarith, hl⟩
  have h00 : ∀ (k i : ℕ), i + 1 < U.length → i ≠ l → (mkBasis U 0 i).evalDeriv x (k : ℤ) = 0 := by
    intro k i hi hil
    have he : (mkBasis U 0 i).evalDeriv x (k : ℤ) = if (k : ℤ) = 0 then (mkBasis U 0 i).eval x else 0 := rfl
    rw [he, hz i hi hil, ite_self]
  have h01 : ∀ (k i : ℕ), i + 1 < U.length →
      Basis.invOrZero (knot U (i + 1) - knot U i) * (mkBasis U 0 i).evalDeriv x (k : ℤ) = 0 := by
    intro k i hi
    by_cases hik : i = l
    · rw [hik, hinv]; simp
    · rw [h00 k i hi hik]; simp
  intro p
  have hd0 : ∀ i, i + p + 2 < U.length → (mkBasis U (p + 1) i).evalDeriv x ((0 : ℕ) : ℤ) = 0 := by
    intro i hi
    have : (mkBasis U (p + 1) i).evalDeriv x ((0 : ℕ) : ℤ) = (mkBasis U (p + 1) i).eval x := by simp [mkBasis, Basis.evalDeriv]
    rw [this, mkBasis_eval_short hs hl' h0 h1 hl hx p i hi]
  have he : ∀ p (k i : ℕ), (mkBasis U (p + 1) i).evalDeriv x ((k + 1 : ℕ) : ℤ) = 0 ∨
      (mkBasis U (p + 1) i).evalDeriv x ((k + 1 : ℕ) : ℤ) = ((p + 1 : ℕ) : K) *
      (Basis.invOrZero (knot U (i + p + 1) - knot U i) * (mkBasis U p i).evalDeriv x (k : ℤ) -
      Basis.invOrZero (knot U (i + p + 2) - knot U (i + 1)) * (mkBasis U p (i + 1)).evalDeriv x (k : ℤ)) := by
    intro p k i
    have hne : ¬ (((k + 1 : ℕ) : ℤ) = 0) := by omega
    have hk : ((k + 1 : ℕ) : ℤ) - 1 = (k : ℤ) := by omega
    simp only [mkBasis, Basis.evalDeriv, hne, if_false, hk]
    split
    · exact Or.inr rfl
    · exact Or.inl rfl
  induction p with
  | zero =>
    intro k i hi
    cases k with
    | zero => exact hd0 i hi
    | succ k =>
      rcases he 0 k i with e | e
      · exact e
      · rw [e]
        have a := h01 k i (by omega)
        have b := h01 k (i + 1) (by omega)
        simp only [Nat.add_zero] at *
        rw [a, b, sub_zero, mul_zero]
  | succ p ih =>
    intro k i hi
    cases k with
    | zero => exact hd0 i hi
    | succ k =>
      have hp0 : ∀ i, i + p + 2 < U.length → (mkBasis U (p + 1) i).evalDeriv x ((0 : ℕ) : ℤ) = 0 := by
        intro i hi
        have : (mkBasis U (p + 1) i).evalDeriv x ((0 : ℕ) : ℤ) = (mkBasis U (p + 1) i).eval x := by simp [mkBasis, Basis.evalDeriv]
        rw [this, mkBasis_eval_short hs hl' h0 h1 hl hx p i hi]
      rcases he (p + 1) k i with e | e
      · exact e
      · rw [e, ih hp0 k i (by omega), ih hp0 k (i + 1) (by omega)]; simp

end
end SplineLib
