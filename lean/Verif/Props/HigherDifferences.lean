import Verif.Props.SamplingError

/-!
# Higher derivatives of B-splines are B-splines of repeated differences

NURBS book, equations 3.7 and 3.8: the derivative of order `k` of a B-spline is the B-spline of degree `p - k` whose control points are the `k` times
repeated scaled differences. Hence the differences of the control points bound all derivatives that `EvaluateDerivative` (`/repo/src/spl/spline.h:67-84`)
returns, and the error of the polylines in VTK files (`/repo/src/io/vtk_writer.cc:20-137`) can be computed before the file is written.
-/

namespace SplineLib
set_option linter.unusedSectionVars false
open Finset

section
variable {K : Type} [Field K] [LinearOrder K] [IsStrictOrderedRing K]

/-- The `k` times repeated scaled differences of the numbers `a` for the knots `U` and the degree `p` (NURBS book, equation 3.8). -/
def diffs (U : List K) (p : ℕ) (a : ℕ → K) : ℕ → ℕ → K
  | 0, i => a i
  | k + 1, i => (p - k : ℕ) * (diffs U p a k (i + 1) - diffs U p a k i) / (knot U (i + p + 1) - knot U (i + k + 1))

/-- One difference first is one difference less for the inner knots. -/
theorem diffs_inner {U : List K} {q : ℕ} (a : ℕ → K) : ∀ k i, i + k + q + 3 < U.length →
    diffs U (q + 1) a (k + 1) i = diffs U.tail.dropLast q (fun i => diffs U (q + 1) a 1 i) k i := by
  intro k
  induction k with
  | zero => intro i _; rfl
  | succ k ih =>
    intro i hi
    rw [diffs, ih (i + 1) (by omega), ih i (by omega), show q + 1 - (k + 1) = q - k by omega]
    conv_rhs => rw [diffs, knot_inner (by omega), knot_inner (by omega)]
    rw [show i + (q + 1) + 1 = i + q + 1 + 1 by omega, show i + (k + 1) + 1 = i + k + 1 + 1 by omega]

/-- The derivative of a univariate sum lies between the bounds of the repeated differences. -/
theorem deriv_between {lo hi : K} : ∀ (k : ℕ) {U : List K} {p : ℕ} (a : ℕ → K) (x : K), WFKnots U p → k ≤ p → knot U 0 ≤ x → x ≤ lastKnot U →
    (∀ i, i + k + p + 1 < U.length → knot U (i + k) < knot U (i + p + 1) → lo ≤ diffs U p a k i ∧ diffs U p a k i ≤ hi) →
    lo ≤ ∑ i ∈ range (U.length - p - 1), coxDeBoorDeriv U p k i x * a i ∧ ∑ i ∈ range (U.length - p - 1), coxDeBoorDeriv U p k i x * a i ≤ hi := by
  intro k
  induction k with
  | zero =>
    intro U p a x h _ h0 h1 hd
    have hnn : ∀ j ∈ range (U.length - p - 1), 0 ≤ coxDeBoor U p j x := fun j hj => cox_nonneg h h0 h1 (by have := mem_range.1 hj; omega)
    have hsum := cox_sum h h0 h1
    have hz : ∀ j ∈ range (U.length - p - 1), coxDeBoor U p j x = 0 ∨ (lo ≤ a j ∧ a j ≤ hi) := fun j hj => by
      have hj := mem_range.1 hj
      by_cases hne : knot U j < knot U (j + p + 1)
      · exact Or.inr (hd j (by omega) hne)
      · exact Or.inl (cox_empty h.sorted x p j (by omega) (le_antisymm (h.sorted.mono (by omega) (by omega)) (not_lt.1 hne)))
    simp only [coxDeBoorDeriv]
    constructor
    · calc lo = ∑ i ∈ range (U.length - p - 1), coxDeBoor U p i x * lo := by rw [← sum_mul, hsum, one_mul]
        _ ≤ _ := sum_le_sum fun i hi => by
          rcases hz i hi with g | g
          · rw [g, zero_mul, zero_mul]
          · exact mul_le_mul_of_nonneg_left g.1 (hnn i hi)
    · calc _ ≤ ∑ i ∈ range (U.length - p - 1), coxDeBoor U p i x * hi := sum_le_sum fun i hi => by
            rcases hz i hi with g | g
            · rw [g, zero_mul, zero_mul]
            · exact mul_le_mul_of_nonneg_left g.2 (hnn i hi)
        _ = hi := by rw [← sum_mul, hsum, one_mul]
  | succ k ih =>
    intro U p a x h hk h0 h1 hd
    obtain ⟨q, rfl⟩ : ∃ q, p = q + 1 := ⟨p - 1, by omega⟩
    rw [cox_difference h x k a]
    refine ih (fun i => diffs U (q + 1) a 1 i) x (inner_wf h) (by omega) (by rw [inner_first h]; exact h0) (by rw [inner_last h]; exact h1) ?_
    intro i hi hne
    rw [inner_length] at hi
    rw [knot_inner (by omega), knot_inner (by omega)] at hne
    rw [← diffs_inner a k i (by omega)]
    exact hd i (by omega) hne

/-- **C112 (curves).** For a B-spline curve, `EvaluateDerivative` of every order up to the degree lies between the smallest and the largest of the
repeated scaled differences of the control points. -/
theorem C112_bounds {s : Spl K} (h : WFSpl s) (hb : IsBSpline s) {U : List K} {p : ℕ} (hU : s.ps.knots = [U]) (hp : s.ps.degree = [p]) {c : ℕ}
    (hc : c < s.ph.dim) {k : ℕ} (hk : k ≤ p) {lo hi : K}
    (hd : ∀ i, i + k + p + 1 < U.length → knot U (i + k) < knot U (i + p + 1) →
      lo ≤ diffs U p (fun i => cpt s [i] c) k i ∧ diffs U p (fun i => cpt s [i] c) k i ≤ hi)
    {x : K} (h0 : knot U 0 ≤ x) (h1 : x ≤ lastKnot U) : ∃ v, s.evaluateDerivative [x] [(c : ℤ)] [(k : ℤ)] = .ok [v] ∧ lo ≤ v ∧ v ≤ hi := by
  have hw : WFKnots U p := by have := h.knots; rw [hU, hp] at this; exact (List.forall₂_cons.1 this).1
  have e := evaluateDerivative_bspline h hb (x := [x]) (by rw [InDomain, hU]; exact .cons ⟨h0, h1⟩ .nil) [c] (by simpa using hc) (k := [k]) (by rw [hU]; rfl)
  refine ⟨_, e, ?_⟩
  have e1 : (tensorDerivSum s [x] [k] fun I => cpt s I c) = ∑ i ∈ range (U.length - p - 1), coxDeBoorDeriv U p k i x * cpt s [i] c := by
    simp [tensorDerivSum, hU, hp, npts, msum, dprod, basisDerivFns]
  dsimp only
  rw [e1]
  exact deriv_between k _ x hw hk h0 h1 hd

/-- `r` arises from `s` by repeated differences, `k` says how often in every direction. -/
inductive Derived (s : Spl K) : List ℕ → Spl K → Prop
  | refl : Derived s (List.replicate s.ps.knots.length 0) s
  | step {k : List ℕ} {r r' : Spl K} {d : ℕ} {U : List K} {p : ℕ} : Derived s k r → r.ps.knots[d]? = some U → r.ps.degree[d]? = some p → 1 ≤ p →
      DifferenceSpline r r' d U p → Derived s (k.modify d (· + 1)) r'

theorem Derived.facts {s r : Spl K} {k : List ℕ} (h : WFSpl s) (hb : IsBSpline s) (hr : Derived s k r) :
    WFSpl r ∧ IsBSpline r ∧ r.ph.dim = s.ph.dim ∧ r.ps.knots.length = s.ps.knots.length ∧ k.length = s.ps.knots.length ∧
      r.ps.degree = List.zipWith (· - ·) s.ps.degree k ∧ List.Forall₂ (· ≤ ·) k s.ps.degree ∧ ∀ x, InDomain s x → InDomain r x := by
  induction hr with
  | refl =>
    have e : s.ps.degree.length = s.ps.knots.length := h.knots.length_eq.symm
    refine ⟨h, hb, rfl, rfl, by simp, ?_, ?_, fun x hx => hx⟩
    · apply List.ext_getElem
      · simp [e]
      · intro i _ _; simp
    · rw [List.forall₂_iff_get]
      exact ⟨by simp [e], fun i _ _ => by simp⟩
  | @step k r r' d U p hr hU hp hp1 hd ih =>
    obtain ⟨i1, i2, i3, i4, i5, i6, i7, i8⟩ := ih
    have hdl : d < s.ps.knots.length := by rw [← i4]; exact lt_of_some hU
    have e : s.ps.degree.length = s.ps.knots.length := h.knots.length_eq.symm
    have hpe : p = s.ps.degree[d]'(by omega) - k[d]'(by omega) := by
      rw [i6, List.getElem?_zipWith, List.getElem?_eq_getElem (by omega), List.getElem?_eq_getElem (by omega)] at hp
      simpa using hp.symm
    refine ⟨hd.wf, hd.bspline, hd.dim.trans i3, by rw [hd.knots, List.length_set, i4], by rw [List.length_modify, i5], ?_, ?_, fun x hx => ?_⟩
    · rw [hd.degree, i6]
      apply List.ext_getElem
      · simp
      · intro i g1 g2
        simp only [List.getElem_set, List.getElem_zipWith, List.getElem_modify]
        split
        · rename_i hi; subst hi; rw [hpe]; omega
        · rfl
    · rw [List.forall₂_iff_get] at i7 ⊢
      refine ⟨by simpa using i7.1, fun i g1 g2 => ?_⟩
      have := i7.2 i (by simpa using g1) g2
      simp only [List.get_eq_getElem, List.getElem_modify] at this ⊢
      split
      · rename_i hi; subst hi; omega
      · exact this
    · exact difference_domain i1 hU hp hp1 hd (i8 x hx)

/-- **C112 (any dimension).** All partial derivatives of the B-spline are partial derivatives of the B-spline of the repeated differences. -/
theorem C112_derivative {s r : Spl K} {k : List ℕ} (h : WFSpl s) (hb : IsBSpline s) (hr : Derived s k r) {x : List K} (hx : InDomain s x) (dims : List ℕ)
    (hd : ∀ c ∈ dims, c < s.ph.dim) : ∀ {j : List ℕ}, j.length = s.ps.knots.length →
      s.evaluateDerivative x (zl dims) (zl (List.zipWith (· + ·) k j)) = r.evaluateDerivative x (zl dims) (zl j) := by
  induction hr with
  | refl =>
    intro j hj
    congr 2
    apply List.ext_getElem
    · simp [hj]
    · intro i _ _; simp
  | @step k r r' d U p hr hU hp hp1 hdf ih =>
    intro j hj
    obtain ⟨i1, i2, i3, i4, i5, i6, i7, i8⟩ := hr.facts h hb
    rw [← C99_derivative i1 i2 hU hp hp1 hdf (i8 x hx) dims (by rw [i3]; exact hd) (k := j) (by rw [i4]; exact hj),
      ← ih (j := j.modify d (· + 1)) (by rw [List.length_modify]; exact hj)]
    congr 2
    apply List.ext_getElem
    · simp
    · intro i _ _
      simp only [List.getElem_zipWith, List.getElem_modify]
      split <;> omega

/-- **C112 (any dimension).** The derivative itself is the value of the B-spline of the repeated differences. -/
theorem C112_value {s r : Spl K} {k : List ℕ} (h : WFSpl s) (hb : IsBSpline s) (hr : Derived s k r) {x : List K} (hx : InDomain s x) (dims : List ℕ)
    (hd : ∀ c ∈ dims, c < s.ph.dim) : s.evaluateDerivative x (zl dims) (zl k) = r.evaluate x (zl dims) := by
  obtain ⟨i1, i2, i3, i4, i5, i6, i7, i8⟩ := hr.facts h hb
  have e := C112_derivative h hb hr hx dims hd (j := List.replicate s.ps.knots.length 0) (by simp)
  rw [show List.zipWith (· + ·) k (List.replicate s.ps.knots.length 0) = k from by
    apply List.ext_getElem
    · simp [i5]
    · intro i _ _; simp] at e
  rw [e, evaluate_bspline i1 i2 (i8 x hx) dims (by rw [i3]; exact hd),
    evaluateDerivative_bspline i1 i2 (i8 x hx) dims (by rw [i3]; exact hd) (by rw [i4]; simp)]
  congr 1
  refine List.map_congr_left fun c _ => ?_
  unfold tensorDerivSum bsplineValue tensorSum
  rw [← i4, ← List.map_const', basisDerivFns_zero]

/-- **C112 (any dimension).** Hence bounds for the repeated differences of the control points bound the derivative. -/
theorem C112_between {s r : Spl K} {k : List ℕ} (h : WFSpl s) (hb : IsBSpline s) (hr : Derived s k r) {x : List K} (hx : InDomain s x) {c : ℕ}
    (hc : c < s.ph.dim) {lo hi : K} (hlo : ∀ I, InBox (npts r) I → lo ≤ cpt r I c) (hhi : ∀ I, InBox (npts r) I → cpt r I c ≤ hi) :
    ∃ v, s.evaluateDerivative x [(c : ℤ)] (zl k) = .ok [v] ∧ lo ≤ v ∧ v ≤ hi := by
  obtain ⟨i1, -, i3, -, -, -, -, i8⟩ := hr.facts h hb
  obtain ⟨v, e, b⟩ := C05_between i1 (i8 x hx) (c := c) (by rw [i3]; exact hc) hlo hhi
  exact ⟨v, (C112_value h hb hr hx [c] (by simpa using hc)).trans e, b⟩

/-- **C112 (any dimension).** The B-spline of the repeated differences exists for all orders up to the degrees. -/
theorem C112_exists {s : Spl K} (h : WFSpl s) (hb : IsBSpline s) {k : List ℕ} (hk : List.Forall₂ (· ≤ ·) k s.ps.degree) : ∃ r, Derived s k r := by
  obtain ⟨n, hn⟩ : ∃ n, k.sum = n := ⟨_, rfl⟩
  induction n generalizing k with
  | zero =>
    refine ⟨s, ?_⟩
    have : k = List.replicate s.ps.knots.length 0 := by
      rw [List.eq_replicate_iff]
      exact ⟨hk.length_eq.trans h.knots.length_eq.symm, fun b hb => List.sum_eq_zero_iff.1 hn b hb⟩
    rw [this]
    exact .refl
  | succ n ih =>
    obtain ⟨d, hd, hpos⟩ : ∃ d, ∃ hd : d < k.length, 0 < k[d] := by
      by_contra hcon
      push Not at hcon
      have : k.sum = 0 := List.sum_eq_zero_iff.2 fun b hb => by
        obtain ⟨i, hi, rfl⟩ := List.getElem_of_mem hb
        exact Nat.le_zero.1 (hcon i hi)
      omega
    have hk' := List.forall₂_iff_get.1 hk
    have hl := hk'.1
    have hdl : d < s.ps.degree.length := by omega
    have hle := hk'.2 d hd hdl
    simp only [List.get_eq_getElem] at hle
    obtain ⟨r, hr⟩ := ih (k := k.set d (k[d] - 1)) (by
      rw [List.forall₂_iff_get]
      refine ⟨by simpa using hl, fun i g1 g2 => ?_⟩
      have := hk'.2 i (by simpa using g1) g2
      simp only [List.get_eq_getElem, List.getElem_set] at this ⊢
      split
      · rename_i hi; subst hi; omega
      · exact this) (by
      have := List.sum_set (L := k) (n := d) (a := k[d] - 1)
      have h2 := List.sum_set (L := k) (n := d) (a := k[d])
      simp only [hd, if_true, List.set_getElem_self] at this h2
      omega)
    obtain ⟨i1, i2, i3, i4, i5, i6, i7, i8⟩ := hr.facts h hb
    have hkl : d < r.ps.knots.length := by rw [i4]; have := h.knots.length_eq; omega
    have hrd : r.ps.degree[d]? = some (s.ps.degree[d] - (k[d] - 1)) := by
      rw [i6, List.getElem?_zipWith, List.getElem?_eq_getElem hdl, List.getElem?_eq_getElem (by simpa using hd)]
      simp
    obtain ⟨r', hr'⟩ := C99_exists i1 (List.getElem?_eq_getElem hkl) hrd (by omega)
    refine ⟨r', ?_⟩
    have := Derived.step hr (List.getElem?_eq_getElem hkl) hrd (by omega) hr'
    convert this using 1
    apply List.ext_getElem
    · simp
    · intro i g1 g2
      simp only [List.getElem_modify, List.getElem_set]
      split
      · rename_i hi; subst hi; omega
      · rfl

end

example : ∃ r, Derived exSurface [2, 1] r := C112_exists exSurface_wf rfl (.cons (by decide) (.cons (by decide) .nil))

example (x : List ℚ) (hx : InDomain exSurface x) : exSurface.evaluateDerivative x [0] [1, 0] = exDiff.evaluate x [0] :=
  C112_value exSurface_wf rfl (.step (d := 0) .refl rfl rfl (by omega) exDiff_difference) hx [0] (by decide)

/-- The derivatives of order one of this surface in the first direction lie between the smallest and the largest difference, -12 and 16. -/
example (x : List ℚ) (hx : InDomain exSurface x) : ∃ v, exSurface.evaluateDerivative x [0] [1, 0] = .ok [v] ∧ -12 ≤ v ∧ v ≤ 16 := by
  have hI : ∀ I, InBox (npts exDiff) I → -12 ≤ cpt exDiff I 0 ∧ cpt exDiff I 0 ≤ 16 := by
    intro I hI
    match I, hI with
    | [i, j], hI =>
      have h1 : i < 3 := hI.getD_lt (d := 0) (by decide)
      have h2 : j < 2 := hI.getD_lt (d := 1) (by decide)
      exact (by decide +kernel : ∀ i < 3, ∀ j < 2, -12 ≤ cpt exDiff [i, j] 0 ∧ cpt exDiff [i, j] 0 ≤ 16) i h1 j h2
    | [], hI => exact absurd hI.length (by decide)
    | [_], hI => exact absurd hI.length (by simp [npts, exDiff])
    | _ :: _ :: _ :: _, hI => exact absurd hI.length (by simp [npts, exDiff])
  exact C112_between exSurface_wf rfl (.step (d := 0) .refl rfl rfl (by omega) exDiff_difference) hx (c := 0) (by decide) (fun I h => (hI I h).1)
    (fun I h => (hI I h).2)

/-- The second differences of the control points 1, 2, 3, 4 for the knots 0, 0, 0, 1, 2, 2, 2 are -1 and 1. -/
example : diffs [0, 0, 0, 1, 2, 2, (2 : ℚ)] 2 (fun i => i + 1) 2 0 = -1 ∧ diffs [0, 0, 0, 1, 2, 2, (2 : ℚ)] 2 (fun i => i + 1) 2 1 = 1 := by decide +kernel

namespace Vtk

/-- **C112 (VTK files).** For a B-spline curve of degree 2 or more without interior knots of a multiplicity of the degree or more, the lines in the VTK file
differ from the curve by at most the largest second difference of the control points times `((last - first) / n)² / 8` in every coordinate. -/
theorem C112_vtk {s : Spl ℝ} (h : WFSpl s) (hs : IsBSpline s) {U : List ℝ} {p : ℕ} (hU : s.ps.knots = [U]) (hp : s.ps.degree = [p]) (h2 : 2 ≤ p) {n : ℕ}
    (hn : 0 < n) (hm : ∀ t ∈ U, knot U 0 < t → t < lastKnot U → U.count t + 1 ≤ p) {M : ℝ}
    (hM : ∀ c < s.ph.dim, ∀ i, i + 2 + p + 1 < U.length → knot U (i + 2) < knot U (i + p + 1) → |diffs U p (fun i => cpt s [i] c) 2 i| ≤ M) :
    ∃ file, writeFile [s] [[(n : ℤ)]] = .ok file ∧ file.points.length = n + 1 ∧ ∀ j < n, ∃ P Q, file.points[j]? = some P ∧ file.points[j + 1]? = some Q ∧
      ∀ c < s.ph.dim, c < 3 → ∀ u : ℝ, 0 ≤ u → u ≤ 1 → ∃ v, s.evaluate [knot U 0 + (j + u) * (lastKnot U - knot U 0) / n] [(c : ℤ)] = .ok [v] ∧
        |v - ((1 - u) * P.getD c 0 + u * Q.getD c 0)| ≤ M * ((lastKnot U - knot U 0) / n) ^ 2 / 8 := by
  refine C111_vtk h hU hp hn hm fun c hc t h0 h1 => ?_
  obtain ⟨v, e, b1, b2⟩ := C112_bounds h hs hU hp hc h2 (lo := -M) (hi := M) (fun i hi hne => abs_le.1 (hM c hc i hi hne)) h0 h1
  exact ⟨v, e, abs_le.2 ⟨b1, b2⟩⟩

/-- Satisfiable: the quadratic curve with the control points 1, 2, 3, 4. -/
example : ∀ c < exQuadratic.ph.dim, ∀ i, i + 2 + 2 + 1 < [0, 0, 0, 1, 2, 2, (2 : ℝ)].length →
    knot [0, 0, 0, 1, 2, 2, (2 : ℝ)] (i + 2) < knot [0, 0, 0, 1, 2, 2, (2 : ℝ)] (i + 2 + 1) →
    |diffs [0, 0, 0, 1, 2, 2, (2 : ℝ)] 2 (fun i => cpt exQuadratic [i] c) 2 i| ≤ 1 := by
  intro c hc i hi _
  obtain rfl : c = 0 := by simpa [exQuadratic] using hc
  have : i = 0 ∨ i = 1 := by simp at hi; omega
  rcases this with rfl | rfl <;> simp [diffs, cpt, exQuadratic, exSmooth, npts, lin, knot] <;> norm_num

end Vtk
end SplineLib
