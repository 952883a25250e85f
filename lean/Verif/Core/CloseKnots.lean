import Verif.Core.Safe

/-!
# Evaluation for knots that may be closer than `kEpsilon` (helper lemmas)
-/

namespace SplineLib
set_option linter.unusedSectionVars false
open Finset

section
variable {K : Type} [Field K] [LinearOrder K] [IsStrictOrderedRing K]

/-- The values of the basis function objects at `x`. -/
def codeFns : List (List K) → List ℕ → List K → List (ℕ → K)
  | U :: Us, p :: ps, x :: xs => (fun i => (mkBasis U p i).eval x) :: codeFns Us ps xs
  | _, _, _ => []

theorem basisProd_code {Us : List (List K)} {ps : List ℕ} (h : List.Forall₂ WideKnots Us ps) :
    ∀ {xs : List K} {J : List ℕ} (v : K), Dom Us xs → InBox (actBox ps) J →
      PS.basisProd (mkTable Us ps) (zl (List.zipWith (· + ·) J (offs Us ps xs))) xs v =
        .ok (v * dprod (codeFns Us ps xs) (List.zipWith (· + ·) J (offs Us ps xs))) := by
  induction h with
  | nil => intro xs J v hx hJ; cases hx; simp [offs, codeFns, dprod, PS.basisProd, mkTable]
  | @cons U p Us ps h _ ih =>
    intro xs J v hx hJ
    cases hx with
    | @cons _ a _ as hx hxs =>
      cases J with
      | nil => simp at hJ
      | cons j J =>
        simp only [actBox, List.map_cons, inBox_cons] at hJ
        obtain ⟨h1, h3, h4⟩ := h.span hx.1 hx.2
        simp only [mkTable, List.zipWith_cons_cons, offs, List.map_cons, PS.basisProd, codeFns, dprod]
        rw [getI_row (by omega)]
        have := ih (v * (mkBasis U p (j + (spanIx U a - p))).eval a) hxs hJ.2
        simp only [mkTable, zl] at this
        simp only [ok_bind, this]
        rw [mul_assoc]

variable {s : Spl K} {x : List K}

theorem WideSpl.basisFunctions_eq (h : WideSpl s) (hx : Dom s.ps.knots x) {J : List ℕ} (hJ : InBox (actBox s.ps.degree) J) :
    s.ps.getBasisFunctions (zl (List.zipWith (· + ·) J (offs s.ps.knots s.ps.degree x))) x =
      .ok (dprod (codeFns s.ps.knots s.ps.degree x) (List.zipWith (· + ·) J (offs s.ps.knots s.ps.degree x))) := by
  simp only [PS.getBasisFunctions, h.basis, basisProd_code h.knots 1 hx hJ, one_mul]

theorem WideSpl.ne_nil (h : WideSpl s) : ∀ U ∈ s.ps.knots, U ≠ [] := by
  intro U hU
  obtain ⟨i, hi, rfl⟩ := List.getElem_of_mem hU
  have h2 := (List.forall₂_iff_get.1 h.knots).2 i hi (by rw [← h.knots.length_eq]; exact hi)
  exact h2.ne_nil

theorem WideSpl.evalWith_eq (h : WideSpl s) (hx : Dom s.ps.knots x) {dims : List ℤ} {f : List ℤ → ℤ → M K} {g : List ℕ → ℤ → K}
    (hf : ∀ J, InBox (actBox s.ps.degree) J → ∀ c ∈ dims,
      f (zl (List.zipWith (· + ·) J (offs s.ps.knots s.ps.degree x))) c =
        .ok (g (List.zipWith (· + ·) J (offs s.ps.knots s.ps.degree x)) c)) :
    s.evalWith x dims f = .ok (dims.map fun c =>
      msum (actBox s.ps.degree) fun J => g (List.zipWith (· + ·) J (offs s.ps.knots s.ps.degree x)) c) := by
  have hpos : ∀ n ∈ actBox s.ps.degree, 0 < n := by simp [actBox]
  simp only [Spl.evalWith, (throwIfOutside_wide h.ne_nil hx.length_eq.symm).1 hx, firstNonZero_wide h.knots hx, ok_bind, numBasis_eq]
  have := upLoop_fun (ns := actBox s.ps.degree)
    (body := fun h acc => Spl.addEach (f (List.zipWith (· + ·) h.cur (zl (offs s.ps.knots s.ps.degree x)))) dims acc)
    (fun n => dims.map fun c => ∑ j ∈ range n,
      g (List.zipWith (· + ·) (unlin (actBox s.ps.degree) j) (offs s.ps.knots s.ps.degree x)) c) (by
      intro k hk
      have hJ := unlin_inBox hpos k
      simp only [zipWith_zl]
      rw [addEach_eq (g := fun c => g (List.zipWith (· + ·) (unlin (actBox s.ps.degree) k) (offs s.ps.knots s.ps.degree x)) c)
        _ (fun c hc => hf _ hJ c hc)]
      congr 1
      apply List.map_congr_left
      intro c _
      rw [sum_range_succ])
  simp only [range_zero, sum_empty] at this
  rw [this]
  congr 1
  apply List.map_congr_left
  intro c _
  rw [msum_eq_sum_unlin]

theorem WideSpl.weightSumWith_eq (h : WideSpl s) (hx : Dom s.ps.knots x) {f : List ℤ → M K} {g : List ℕ → K}
    (hf : ∀ J, InBox (actBox s.ps.degree) J →
      f (zl (List.zipWith (· + ·) J (offs s.ps.knots s.ps.degree x))) =
        .ok (g (List.zipWith (· + ·) J (offs s.ps.knots s.ps.degree x)))) :
    s.weightSumWith x f = .ok (
      msum (actBox s.ps.degree) fun J => g (List.zipWith (· + ·) J (offs s.ps.knots s.ps.degree x))) := by
  have hpos : ∀ n ∈ actBox s.ps.degree, 0 < n := by simp [actBox]
  simp only [Spl.weightSumWith, firstNonZero_wide h.knots hx, ok_bind, numBasis_eq]
  have := upLoop_fun (ns := actBox s.ps.degree)
    (body := fun h sum => do
      let v ← f (List.zipWith (· + ·) h.cur (zl (offs s.ps.knots s.ps.degree x)))
      return sum + v)
    (fun n => ∑ j ∈ range n,
      g (List.zipWith (· + ·) (unlin (actBox s.ps.degree) j) (offs s.ps.knots s.ps.degree x))) (by
      intro k hk
      have hJ := unlin_inBox hpos k
      simp only [zipWith_zl, hf _ hJ, ok_bind, pure_ok]
      rw [sum_range_succ])
  simp only [range_zero, sum_empty] at this
  rw [this, msum_eq_sum_unlin]

/-- The sum that the loops of `Evaluate` form. -/
def windowSum (s : Spl K) (x : List K) (F : List ℕ → K) : K :=
  msum (actBox s.ps.degree) fun J =>
    dprod (codeFns s.ps.knots s.ps.degree x) (List.zipWith (· + ·) J (offs s.ps.knots s.ps.degree x)) *
      F (List.zipWith (· + ·) J (offs s.ps.knots s.ps.degree x))

theorem WideSpl.weightSum_eq (h : WideSpl s) (hx : Dom s.ps.knots x) :
    s.evaluatedWeightSum x = .ok (windowSum s x (wgt s)) := by
  unfold Spl.evaluatedWeightSum windowSum
  refine h.weightSumWith_eq hx (g := fun I => dprod (codeFns s.ps.knots s.ps.degree x) I * wgt s I) fun J hJ => ?_
  have hI : InBox (npts s) _ := act_inBox_wide h.knots hx hJ
  simp only [Spl.evaluatedWeight, h.basisFunctions_eq hx hJ, h.getWeight hI, ok_bind, pure_ok]

theorem WideSpl.evaluate_bspline (h : WideSpl s) (hx : Dom s.ps.knots x) (hb : IsBSpline s) (dims : List ℕ) (hd : ∀ c ∈ dims, c < s.ph.dim) :
    s.evaluate x (zl dims) = .ok (dims.map fun c => windowSum s x fun I => cpt s I c) := by
  have hb : s.ph.weights = none := hb
  unfold Spl.evaluate windowSum
  rw [h.evalWith_eq hx (g := fun I c => dprod (codeFns s.ps.knots s.ps.degree x) I * cpt s I c.toNat)]
  · simp
  · intro J hJ c hc
    obtain ⟨c, hc', rfl⟩ := List.mem_map.1 hc
    have hI : InBox (npts s) _ := act_inBox_wide h.knots hx hJ
    simp only [Spl.evaluatedCP, hb, h.basisFunctions_eq hx hJ, h.controlPoint hI (hd c hc'), ok_bind, pure_ok, Int.toNat_natCast]

theorem WideSpl.evaluatedCP_nurbs (h : WideSpl s) (hx : Dom s.ps.knots x) {w : List K} (hw : s.ph.weights = some w) {c : ℕ}
    (hc : c < s.ph.dim) {J : List ℕ} (hJ : InBox (actBox s.ps.degree) J) :
    s.evaluatedCP x (zl (List.zipWith (· + ·) J (offs s.ps.knots s.ps.degree x))) (c : ℤ) =
      fdiv (dprod (codeFns s.ps.knots s.ps.degree x) (List.zipWith (· + ·) J (offs s.ps.knots s.ps.degree x)) *
        (cpt s (List.zipWith (· + ·) J (offs s.ps.knots s.ps.degree x)) c *
          wgt s (List.zipWith (· + ·) J (offs s.ps.knots s.ps.degree x)))) (windowSum s x (wgt s)) := by
  have hI : InBox (npts s) _ := act_inBox_wide h.knots hx hJ
  have hne : ¬ (s.ph.dim : ℤ) = (c : ℤ) := by omega
  simp only [Spl.evaluatedCP, hw, if_neg hne, h.basisFunctions_eq hx hJ, h.getHomCP hI (by omega) hw, ok_bind, h.weightSum_eq hx]
  rw [getI_nat, getN_of_lt (by simp; omega)]
  simp only [ok_bind]
  rw [List.getElem_append_left (by simpa using hc)]
  simp

theorem WideSpl.evaluate_nurbs (h : WideSpl s) (hx : Dom s.ps.knots x) (hn : IsNurbs s) (hne : windowSum s x (wgt s) ≠ 0)
    (dims : List ℕ) (hd : ∀ c ∈ dims, c < s.ph.dim) :
    s.evaluate x (zl dims) =
      .ok (dims.map fun c => windowSum s x (fun I => cpt s I c * wgt s I) / windowSum s x (wgt s)) := by
  obtain ⟨w, hw⟩ := hn
  unfold Spl.evaluate
  rw [h.evalWith_eq hx (g := fun I c => dprod (codeFns s.ps.knots s.ps.degree x) I * (cpt s I c.toNat * wgt s I) / windowSum s x (wgt s))]
  · simp only [List.map_map]
    congr 1
    apply List.map_congr_left
    intro c _
    simp only [Function.comp, Int.toNat_natCast]
    conv_rhs => rw [windowSum, div_eq_mul_inv, mul_comm, ← msum_mul_left]
    congr 1
    funext J
    rw [div_eq_mul_inv, mul_comm]
  · intro J hJ c hc
    obtain ⟨c, hc', rfl⟩ := List.mem_map.1 hc
    rw [h.evaluatedCP_nurbs hx hw (hd c hc') hJ]
    simp [fdiv, hne]

theorem WideSpl.evaluate_nurbs_zero (h : WideSpl s) (hx : Dom s.ps.knots x) (hn : IsNurbs s) (h0 : windowSum s x (wgt s) = 0)
    (c : ℕ) (dims : List ℕ) (hd : c < s.ph.dim) : s.evaluate x (zl (c :: dims)) = .error .nonfinite := by
  obtain ⟨w, hw⟩ := hn
  have hpos : ∀ n ∈ actBox s.ps.degree, 0 < n := by simp [actBox]
  have hJ := unlin_inBox hpos 0
  have e := h.evaluatedCP_nurbs hx hw hd hJ
  rw [h0] at e
  simp only [fdiv, if_true] at e
  have e0 : ((actBox s.ps.degree).map fun _ => 0) = unlin (actBox s.ps.degree) 0 := by
    clear e hJ
    generalize actBox s.ps.degree = ns at hpos
    induction ns with
    | nil => simp [unlin]
    | cons n ns ih => simp [unlin, ← ih fun a ha => hpos a (by simp [ha])]
  unfold Spl.evaluate
  simp only [Spl.evalWith, (throwIfOutside_wide h.ne_nil hx.length_eq.symm).1 hx, firstNonZero_wide h.knots hx, ok_bind, numBasis_eq]
  rw [mk'_zl, length1D_zl, Int.toNat_natCast]
  obtain ⟨m, hm⟩ : ∃ m, (actBox s.ps.degree).prod = m + 1 := ⟨(actBox s.ps.degree).prod - 1, by have := prod_pos_of hpos; omega⟩
  rw [hm, upLoop]
  simp only [zipWith_zl, e0, zl, List.map_cons, Spl.addEach] at e ⊢
  rw [e]
  rfl

/-! ### Spans of length at least `kEpsilon` -/

theorem inSupport_local {U : List K} (hs : SortedKnots U) {k : ℕ} (hk : k + 1 < U.length) {x : K} (hx : InSpan U k x)
    (hl : kEps K ≤ knot U (k + 1) - knot U k) {p i : ℕ} (h : i + p + 1 < U.length) :
    (mkBasis U p i).inSupport x = true ↔
      (knot U i ≤ x ∧ x < knot U (i + p + 1)) ∨ (knot U (i + p + 1) = lastKnot U ∧ x = lastKnot U) := by
  simp only [Basis.inSupport, mkBasis_start, mkBasis_stop, mkBasis_stopIsLast, Bool.or_eq_true, Bool.and_eq_true,
    decide_eq_true_eq]
  have hle := hs.le_last hk
  constructor
  · rintro (h1 | ⟨h1, h2⟩)
    · exact Or.inl h1
    · refine Or.inr ?_
      rw [abs_lt, ← h2] at h1
      rcases hx with ⟨a1, a2⟩ | ⟨a1, a2, a3⟩
      · exfalso
        rcases Nat.lt_or_ge k (i + p + 1) with hc | hc
        · have := hs.mono (show k + 1 ≤ i + p + 1 by omega) h
          linarith
        · have := hs.mono hc (by omega)
          linarith [h1.1]
      · exact ⟨h2.symm.trans a3, a3⟩
  · rintro (h1 | ⟨h1, h2⟩)
    · exact Or.inl h1
    · refine Or.inr ⟨?_, h2.trans h1.symm⟩
      rw [h1]; simpa using kEps_pos

theorem not_inSpan_local {U : List K} (hs : SortedKnots U) {k : ℕ} (hk : k + 1 < U.length) {x : K} (hx : InSpan U k x)
    (hl : kEps K ≤ knot U (k + 1) - knot U k) {p i : ℕ} (h : i + p + 1 < U.length)
    (hn : ¬ (mkBasis U p i).inSupport x = true) : ∀ j, i ≤ j → j ≤ i + p → ¬ InSpan U j x := by
  intro j h1 h2 h3
  rw [inSupport_local hs hk hx hl h] at hn
  apply hn
  have a1 := hs.mono h1 (by omega)
  have a2 := hs.mono (show j + 1 ≤ i + p + 1 by omega) h
  rcases h3 with ⟨b1, b2⟩ | ⟨b1, b2, b3⟩
  · exact Or.inl ⟨a1.trans b1, lt_of_lt_of_le b2 a2⟩
  · refine Or.inr ⟨le_antisymm (hs.le_last h) ?_, b3⟩
    rw [← b3, b2]; exact a2

/-- A function that is not affected by dropped quotients: either its knots are far apart, or the spline does not see it. -/
theorem invOrZero_mul {U : List K} (hs : SortedKnots U) {k : ℕ} (hk : k + 1 < U.length) {x : K} (hx : InSpan U k x)
    (hl : kEps K ≤ knot U (k + 1) - knot U k) {p i : ℕ} (h : i + p + 1 < U.length) {a : K} (y : K)
    (ha : knot U i < knot U (i + p + 1) → a = coxDeBoor U p i x) :
    y * Basis.invOrZero (knot U (i + p + 1) - knot U i) * a = y / (knot U (i + p + 1) - knot U i) * coxDeBoor U p i x := by
  rcases lt_or_eq_of_le (hs.mono (show i ≤ i + p + 1 by omega) h) with hlt | heq
  · rw [ha hlt]
    by_cases hin : i ≤ k ∧ k ≤ i + p
    · have h1 := hs.mono hin.1 (show k < U.length by omega)
      have h2 := hs.mono (show k + 1 ≤ i + p + 1 by omega) h
      have h3 : ¬ |knot U (i + p + 1) - knot U i| < kEps K := by
        rw [abs_lt]; intro hc; linarith [hc.2]
      simp only [Basis.invOrZero, h3, if_false, mul_one_div]
    · have : coxDeBoor U p i x = 0 := by
        apply cox_zero
        intro j j1 j2 j3
        have := InSpan.unique hs (by omega) hk j3 hx
        omega
      rw [this]; simp
  · rw [← heq]; simp [Basis.invOrZero]

theorem mkBasis_eval_local {U : List K} (hs : SortedKnots U) {k : ℕ} (hk : k + 1 < U.length) {x : K} (hx : InSpan U k x)
    (hl : kEps K ≤ knot U (k + 1) - knot U k) : ∀ (p i : ℕ), i + p + 1 < U.length →
    (p = 0 → knot U i < knot U (i + 1)) → (mkBasis U p i).eval x = coxDeBoor U p i x := by
  intro p
  induction p with
  | zero =>
    intro i h hnd
    have hsup := inSupport_local (p := 0) (i := i) hs hk hx hl h
    simp only [Nat.add_zero] at hsup
    have he : (mkBasis U 0 i).eval x = if (mkBasis U 0 i).inSupport x then 1 else 0 := rfl
    rw [he, coxDeBoor]
    have : (mkBasis U 0 i).inSupport x = true ↔ InSpan U i x := by
      rw [hsup, InSpan]
      constructor
      · rintro (h1 | ⟨h1, h2⟩)
        · exact Or.inl h1
        · exact Or.inr ⟨by rw [h2, ← h1]; exact hnd rfl, h2.trans h1.symm, h2⟩
      · rintro (h1 | ⟨h1, h2, h3⟩)
        · exact Or.inl h1
        · exact Or.inr ⟨h2.symm.trans h3, h3⟩
    simp only [this]
  | succ p ih =>
    intro i h _
    by_cases hsup : (mkBasis U (p + 1) i).inSupport x = true
    · have he : (mkBasis U (p + 1) i).eval x =
          (x - knot U i) * Basis.invOrZero (knot U (i + p + 1) - knot U i) * (mkBasis U p i).eval x +
          (knot U (i + p + 2) - x) * Basis.invOrZero (knot U (i + p + 2) - knot U (i + 1)) * (mkBasis U p (i + 1)).eval x := by
        simp only [mkBasis, Basis.eval] at hsup ⊢
        rw [if_pos hsup]
      rw [he, coxDeBoor]
      congr 1
      · exact invOrZero_mul hs hk hx hl (by omega) _ fun hlt => ih i (by omega) (by rintro rfl; exact hlt)
      · have := invOrZero_mul hs hk hx hl (p := p) (i := i + 1) (by omega) (a := (mkBasis U p (i + 1)).eval x) (knot U (i + p + 2) - x)
          fun hlt => ih (i + 1) (by omega) (by rintro rfl; exact hlt)
        rwa [show i + 1 + p + 1 = i + p + 2 by omega] at this
    · have he : (mkBasis U (p + 1) i).eval x = 0 := by
        simp only [mkBasis, Basis.eval] at hsup ⊢
        rw [if_neg hsup]
      rw [he, cox_zero (not_inSpan_local hs hk hx hl h hsup)]

/-- `GetKnotSpan` in such a span. -/
theorem spanIx_local {U : List K} (hs : SortedKnots U) {k : ℕ} (hk : k + 1 < U.length) {x : K} (hx : InSpan U k x)
    (hl : kEps K ≤ knot U (k + 1) - knot U k) : spanIx U x = k := by
  unfold spanIx
  have hle := hs.le_last hk
  by_cases hc : |x - lastKnot U| < kEps K
  · simp only [hc, if_true]
    rw [abs_lt] at hc
    obtain ⟨l1, l2, l3⟩ := lowerBound_weak U x
    have hk1 : knot U k < x := by linarith [hc.1]
    have hx2 : x ≤ knot U (k + 1) := by
      rcases hx with ⟨_, a⟩ | ⟨_, a, _⟩
      · exact a.le
      · exact a.le
    generalize lowerBound U x = r at *
    have h1 : k < r := by
      by_contra hcon
      exact l2 (by omega) (lt_of_le_of_lt (hs.mono (by omega) (by omega)) hk1)
    have h2 : r ≤ k + 1 := by
      by_contra hcon
      have := l3 (by omega)
      have := hs.mono (show k + 1 ≤ r - 1 by omega) (by omega)
      linarith
    omega
  · simp only [hc, if_false]
    have hlt : x ≠ lastKnot U := by
      rintro rfl; exact hc (by simpa using kEps_pos)
    have hx : knot U k ≤ x ∧ x < knot U (k + 1) := by
      rcases hx with a | ⟨_, _, a⟩
      · exact a
      · exact absurd a hlt
    obtain ⟨l1, l2, l3⟩ := upperBound_weak U x
    generalize upperBound U x = r at *
    have h1 : k < r := by
      by_contra hcon
      have := l2 (by omega)
      have := hs.mono (show r ≤ k by omega) (by omega)
      linarith [hx.1]
    have h2 : r ≤ k + 1 := by
      by_contra hcon
      have := l3 (by omega)
      have := hs.mono (show k + 1 ≤ r - 1 by omega) (by omega)
      linarith [hx.2]
    omega

/-! ### Spans that are shorter -/

/-- `GetKnotSpan` away from the last knot. -/
theorem spanIx_away {U : List K} (hs : SortedKnots U) {k : ℕ} (hk : k + 1 < U.length) {x : K} (h0 : knot U k ≤ x)
    (h1 : x < knot U (k + 1)) (hx : x + kEps K ≤ lastKnot U) : spanIx U x = k := by
  have hc : ¬ |x - lastKnot U| < kEps K := by rw [abs_lt]; intro hc; linarith [hc.1]
  unfold spanIx
  simp only [hc, if_false]
  obtain ⟨l1, l2, l3⟩ := upperBound_weak U x
  generalize upperBound U x = r at *
  have h1 : k < r := by
    by_contra hcon
    have := l2 (by omega)
    have := hs.mono (show r ≤ k by omega) (by omega)
    linarith
  have h2 : r ≤ k + 1 := by
    by_contra hcon
    have := l3 (by omega)
    have := hs.mono (show k + 1 ≤ r - 1 by omega) (by omega)
    linarith
  omega

/-- In a span shorter than `kEpsilon` all basis functions of positive degree evaluate to zero. -/
theorem mkBasis_eval_short {U : List K} (hs : SortedKnots U) {k : ℕ} (hk : k + 1 < U.length) {x : K} (h0 : knot U k ≤ x)
    (h1 : x < knot U (k + 1)) (hl : knot U (k + 1) - knot U k < kEps K) (hx : x + kEps K ≤ lastKnot U) :
    ∀ (p i : ℕ), i + p + 2 < U.length → (mkBasis U (p + 1) i).eval x = 0 := by
  have hz : ∀ i, i + 1 < U.length → i ≠ k → (mkBasis U 0 i).eval x = 0 := by
    intro i hi hik
    have he : (mkBasis U 0 i).eval x = if (mkBasis U 0 i).inSupport x then 1 else 0 := rfl
    rw [he, if_neg]
    simp only [Basis.inSupport, mkBasis_start, mkBasis_stop, mkBasis_stopIsLast, Bool.or_eq_true, Bool.and_eq_true,
      decide_eq_true_eq, Nat.add_zero]
    rintro (⟨a, b⟩ | ⟨a, b⟩)
    · rcases Nat.lt_or_gt_of_ne hik with hc | hc
      · have := hs.mono (show i + 1 ≤ k by omega) (by omega)
        linarith
      · have := hs.mono (show k + 1 ≤ i by omega) (by omega)
        linarith
    · rw [abs_lt, ← b] at a
      linarith [a.1]
  have hinv : Basis.invOrZero (knot U (k + 1) - knot U k) = 0 := by
    unfold Basis.invOrZero
    rw [if_pos]
    rw [abs_lt]
    have := kEps_pos (K := K)
    exact ⟨by linarith, hl⟩
  have h01 : ∀ i, i + 1 < U.length → ∀ y : K, y * Basis.invOrZero (knot U (i + 1) - knot U i) * (mkBasis U 0 i).eval x = 0 := by
    intro i hi y
    by_cases hik : i = k
    · rw [hik, hinv]; simp
    · rw [hz i hi hik]; simp
  have he : ∀ p i, (mkBasis U (p + 1) i).eval x = 0 ∨ (mkBasis U (p + 1) i).eval x =
      (x - knot U i) * Basis.invOrZero (knot U (i + p + 1) - knot U i) * (mkBasis U p i).eval x +
      (knot U (i + p + 2) - x) * Basis.invOrZero (knot U (i + p + 2) - knot U (i + 1)) * (mkBasis U p (i + 1)).eval x := by
    intro p i
    simp only [mkBasis, Basis.eval]
    split
    · exact Or.inr rfl
    · exact Or.inl rfl
  intro p
  induction p with
  | zero =>
    intro i hi
    rcases he 0 i with e | e
    · exact e
    · rw [e]
      have a := h01 i (by omega) (x - knot U i)
      have b := h01 (i + 1) (by omega) (knot U (i + 0 + 2) - x)
      simp only [Nat.add_zero] at *
      rw [a, b, add_zero]
  | succ p ih =>
    intro i hi
    rcases he (p + 1) i with e | e
    · exact e
    · rw [e, ih i (by omega), ih (i + 1) (by omega)]; simp

end
end SplineLib
