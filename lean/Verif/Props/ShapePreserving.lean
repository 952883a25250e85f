import Verif.Props.CurveLength

/-!
# Increasing and convex control polygons give increasing and convex splines

The values that `Evaluate` (`/repo/src/spl/spline.h:49-65`) returns for a curve increase if the control points do, for B-splines and NURBS. They are a
convex function of the parameter if the slopes of the control polygon of a B-spline increase. The same holds for the points in VTK files
(`/repo/src/io/vtk_writer.cc:20-137`).
-/

namespace SplineLib
set_option linter.unusedSectionVars false
open Finset

section
variable {K : Type} [Field K] [LinearOrder K] [IsStrictOrderedRing K]

/-- The coordinates of the points of a curve, one by one. -/
theorem curve_ratio_one {s : Spl K} (h : WFSpl s) {U : List K} {p : ℕ} (hU : s.ps.knots = [U]) (hp : s.ps.degree = [p]) {t : K} (h0 : knot U 0 ≤ t)
    (h1 : t ≤ lastKnot U) {c : ℕ} (hc : c < s.ph.dim) {v : K} (hv : s.evaluate [t] [(c : ℤ)] = .ok [v]) :
    v = ratio U p (fun i => wgt s [i]) (fun i => cpt s [i] c) t := by
  have hx : InDomain s [t] := by unfold InDomain; rw [hU]; exact .cons ⟨h0, h1⟩ .nil
  have e := hv.symm.trans (evaluate_quotient h hx [c] (by simpa using hc))
  simp only [Except.ok.injEq, List.map_cons, List.map_nil, List.cons.injEq, and_true] at e
  have hsum : ∀ a : List ℕ → K, tensorSum s [t] a = ∑ i ∈ range (U.length - p - 1), coxDeBoor U p i t * a [i] := by
    intro a; simp [tensorSum, npts, hU, hp, msum, dprod, basisFns]
  rw [e]
  simp only [nurbsValue, weightValue, hsum]
  rfl

/-- **C114** If a coordinate of the control points of a curve does not decrease, neither does this coordinate of the values of `Evaluate`. -/
theorem C114_increasing {s : Spl K} (h : WFSpl s) {U : List K} {p : ℕ} (hU : s.ps.knots = [U]) (hp : s.ps.degree = [p]) {c : ℕ} (hc : c < s.ph.dim)
    (hi : ∀ i, i + 1 < U.length - p - 1 → cpt s [i] c ≤ cpt s [i + 1] c) {t t' : K} (h0 : knot U 0 ≤ t) (htt : t ≤ t') (h1 : t' ≤ lastKnot U) :
    ∃ v v', s.evaluate [t] [(c : ℤ)] = .ok [v] ∧ s.evaluate [t'] [(c : ℤ)] = .ok [v'] ∧ v ≤ v' := by
  have hw : WFKnots U p := by have := h.knots; rw [hU, hp] at this; exact (List.forall₂_cons.1 this).1
  have hx : ∀ x, knot U 0 ≤ x → x ≤ lastKnot U → InDomain s [x] := fun x a b => by unfold InDomain; rw [hU]; exact .cons ⟨a, b⟩ .nil
  have e := evaluate_quotient h (hx t h0 (htt.trans h1)) [c] (by simpa using hc)
  have e' := evaluate_quotient h (hx t' (h0.trans htt) h1) [c] (by simpa using hc)
  refine ⟨_, _, e, e', ?_⟩
  rw [curve_ratio_one h hU hp h0 (htt.trans h1) hc e, curve_ratio_one h hU hp (h0.trans htt) h1 hc e']
  refine ratio_mono hw (fun i hi => ?_) hi h0 htt h1
  exact wgt_pos h (by rw [npts, hU, hp]; exact .cons hi .nil)

/-- **C114** The same for control points that do not increase. -/
theorem C114_decreasing {s : Spl K} (h : WFSpl s) {U : List K} {p : ℕ} (hU : s.ps.knots = [U]) (hp : s.ps.degree = [p]) {c : ℕ} (hc : c < s.ph.dim)
    (hi : ∀ i, i + 1 < U.length - p - 1 → cpt s [i + 1] c ≤ cpt s [i] c) {t t' : K} (h0 : knot U 0 ≤ t) (htt : t ≤ t') (h1 : t' ≤ lastKnot U) :
    ∃ v v', s.evaluate [t] [(c : ℤ)] = .ok [v] ∧ s.evaluate [t'] [(c : ℤ)] = .ok [v'] ∧ v' ≤ v := by
  have hw : WFKnots U p := by have := h.knots; rw [hU, hp] at this; exact (List.forall₂_cons.1 this).1
  have hx : ∀ x, knot U 0 ≤ x → x ≤ lastKnot U → InDomain s [x] := fun x a b => by unfold InDomain; rw [hU]; exact .cons ⟨a, b⟩ .nil
  have e := evaluate_quotient h (hx t h0 (htt.trans h1)) [c] (by simpa using hc)
  have e' := evaluate_quotient h (hx t' (h0.trans htt) h1) [c] (by simpa using hc)
  refine ⟨_, _, e, e', ?_⟩
  rw [curve_ratio_one h hU hp h0 (htt.trans h1) hc e, curve_ratio_one h hU hp (h0.trans htt) h1 hc e']
  have hpos : ∀ i < U.length - p - 1, 0 < wgt s [i] := fun i hi => wgt_pos h (by rw [npts, hU, hp]; exact .cons hi .nil)
  have := ratio_mono hw (c := fun i => - cpt s [i] c) hpos (fun i g => neg_le_neg (hi i g)) h0 htt h1
  simpa only [ratio, coxSum, mul_neg, sum_neg_distrib, neg_div, neg_le_neg_iff] using this

/-- The first derivative does not decrease if the slopes of the control polygon do not. -/
theorem first_derivative_mono {s : Spl K} (h : WFSpl s) (hb : IsBSpline s) {U : List K} {q : ℕ} (hU : s.ps.knots = [U]) (hp : s.ps.degree = [q + 1]) {c : ℕ}
    (hc : c < s.ph.dim)
    (hd : ∀ i, i + 2 < U.length - (q + 1) - 1 → (cpt s [i + 1] c - cpt s [i] c) / (knot U (i + 1 + (q + 1)) - knot U (i + 1)) ≤
      (cpt s [i + 2] c - cpt s [i + 1] c) / (knot U (i + 2 + (q + 1)) - knot U (i + 2)))
    {t t' : K} (h0 : knot U 0 ≤ t) (htt : t ≤ t') (h1 : t' ≤ lastKnot U) :
    ∃ v v', s.evaluateDerivative [t] [(c : ℤ)] [1] = .ok [v] ∧ s.evaluateDerivative [t'] [(c : ℤ)] [1] = .ok [v'] ∧ v ≤ v' := by
  have hw : WFKnots U (q + 1) := by have := h.knots; rw [hU, hp] at this; exact (List.forall₂_cons.1 this).1
  have e := fun x (a : knot U 0 ≤ x) (b : x ≤ lastKnot U) => evaluateDerivative_bspline h hb (x := [x])
    (by rw [InDomain, hU]; exact .cons ⟨a, b⟩ .nil) [c] (by simpa using hc) (k := [1]) (by rw [hU]; rfl)
  refine ⟨_, _, e t h0 (htt.trans h1), e t' (h0.trans htt) h1, ?_⟩
  have e1 : ∀ x, (tensorDerivSum s [x] [1] fun I => cpt s I c) =
      ∑ i ∈ range (U.length - (q + 1) - 1), coxDeBoorDeriv U (q + 1) (0 + 1) i x * cpt s [i] c := fun x => by
    simp [tensorDerivSum, hU, hp, npts, msum, dprod, basisDerivFns]
  dsimp only
  rw [e1, e1, cox_difference hw, cox_difference hw]
  have hr : ∀ x, knot U 0 ≤ x → x ≤ lastKnot U → ∀ a : ℕ → K,
      ∑ i ∈ range (U.tail.dropLast.length - q - 1), coxDeBoorDeriv U.tail.dropLast q 0 i x * a i = ratio U.tail.dropLast q (fun _ => 1) a x := by
    intro x a b f
    have := cox_sum (inner_wf hw) (x := x) (by rw [inner_first hw]; exact a) (by rw [inner_last hw]; exact b)
    simp only [ratio, coxSum, one_mul, mul_one, this, div_one, coxDeBoorDeriv]
  rw [hr t h0 (htt.trans h1), hr t' (h0.trans htt) h1]
  refine ratio_mono (inner_wf hw) (fun _ _ => one_pos) ?_ (by rw [inner_first hw]; exact h0) htt (by rw [inner_last hw]; exact h1)
  intro i hi
  rw [inner_length] at hi
  have := mul_le_mul_of_nonneg_left (hd i (by omega)) (Nat.cast_nonneg (α := K) (q + 1))
  rw [mul_div_assoc, mul_div_assoc]
  rw [show i + 1 + (q + 1) = i + (q + 1) + 1 by omega, show i + 2 + (q + 1) = i + 1 + (q + 1) + 1 by omega] at this
  exact this

end

/-- **C114** If the slopes of the control polygon of a B-spline curve (over the Greville points, up to the common factor) do not decrease, then this
coordinate of `Evaluate` is a convex function of the parameter. -/
theorem C114_convex {s : Spl ℝ} (h : WFSpl s) (hb : IsBSpline s) {U : List ℝ} {p : ℕ} (hU : s.ps.knots = [U]) (hp : s.ps.degree = [p]) (hp1 : 1 ≤ p) {c : ℕ}
    (hc : c < s.ph.dim) (hm : ∀ t ∈ U, knot U 0 < t → t < lastKnot U → U.count t ≤ p)
    (hd : ∀ i, i + 2 < U.length - p - 1 → (cpt s [i + 1] c - cpt s [i] c) / (knot U (i + 1 + p) - knot U (i + 1)) ≤
      (cpt s [i + 2] c - cpt s [i + 1] c) / (knot U (i + 2 + p) - knot U (i + 2)))
    {f : ℝ → ℝ} (hf : ∀ t, knot U 0 ≤ t → t ≤ lastKnot U → s.evaluate [t] [(c : ℤ)] = .ok [f t]) :
    ConvexOn ℝ (Set.Icc (knot U 0) (lastKnot U)) f := by
  obtain ⟨q, rfl⟩ : ∃ q, p = q + 1 := ⟨p - 1, by omega⟩
  obtain ⟨F, f1, f2, f3, f4, -⟩ := curve_functions h hU hp hc
  have hs0 : SmoothAt U (q + 1) 0 := fun t ht g0 g1 => by have := hm t ht g0 g1; omega
  have ef : ∀ t, knot U 0 ≤ t → t ≤ lastKnot U → f t = F 0 t := fun t g0 g1 => by
    have := (hf t g0 g1).symm.trans (f2 t g0 g1); simpa using this
  have hmono : ∀ t t', knot U 0 ≤ t → t ≤ t' → t' ≤ lastKnot U → F 1 t ≤ F 1 t' := fun t t' g0 g g1 => by
    obtain ⟨v, v', a, b, hv⟩ := first_derivative_mono h hb hU hp hc hd g0 g g1
    have a' := a.symm.trans (f1 1 t g0 (g.trans g1))
    have b' := b.symm.trans (f1 1 t' (g0.trans g) g1)
    simp only [Except.ok.injEq, List.cons.injEq, and_true] at a' b'
    rwa [← a', ← b']
  have hlin : ∀ m z x : ℝ, HasDerivWithinAt (fun y : ℝ => z + m * y) m (Set.Ici x) x := fun m z x => by
    simpa using (((hasDerivAt_id x).const_mul m).const_add z).hasDerivWithinAt
  have hle : ∀ x y, knot U 0 ≤ x → x ≤ y → y ≤ lastKnot U → F 0 y - F 0 x ≤ F 1 y * (y - x) := by
    intro x y hx hxy hy
    have := image_le_of_deriv_right_le_deriv_boundary (f := F 0) (f' := F 1) (a := x) (b := y) ((f4 0 hs0).mono (Set.Icc_subset_Icc hx hy))
      (fun z hz => f3 0 z (hx.trans hz.1) (hz.2.trans_le hy)) (B := fun z => (F 0 x - F 1 y * x) + F 1 y * z) (B' := fun _ => F 1 y) (by simp)
      (by fun_prop) (fun z _ => hlin _ _ z) (fun z hz => hmono z y (hx.trans hz.1) hz.2.le hy) ⟨hxy, le_rfl⟩
    linarith
  have hge : ∀ x y, knot U 0 ≤ x → x ≤ y → y ≤ lastKnot U → F 1 x * (y - x) ≤ F 0 y - F 0 x := by
    intro x y hx hxy hy
    have := image_le_of_deriv_right_le_deriv_boundary (f := fun z => (F 0 x - F 1 x * x) + F 1 x * z) (f' := fun _ => F 1 x) (a := x) (b := y)
      (by fun_prop) (fun z _ => hlin _ _ z) (B := F 0) (B' := F 1) (by simp) ((f4 0 hs0).mono (Set.Icc_subset_Icc hx hy))
      (fun z hz => f3 0 z (hx.trans hz.1) (hz.2.trans_le hy)) (fun z hz => hmono x z hx hz.1 (hz.2.le.trans hy)) ⟨hxy, le_rfl⟩
    linarith
  refine LinearOrder.convexOn_of_lt (convex_Icc _ _) ?_
  intro x hx y hy hxy a b ha hb' hab
  simp only [smul_eq_mul]
  set m := a * x + b * y with hmdef
  have e1 : m - x = b * (y - x) := by rw [hmdef, show a = 1 - b by linarith]; ring
  have e2 : y - m = a * (y - x) := by rw [hmdef, show b = 1 - a by linarith]; ring
  have h1 : x ≤ m := by have := mul_nonneg hb'.le (sub_nonneg.2 hxy.le); linarith
  have h2 : m ≤ y := by have := mul_nonneg ha.le (sub_nonneg.2 hxy.le); linarith
  rw [ef x hx.1 hx.2, ef y hy.1 hy.2, ef _ (hx.1.trans h1) (h2.trans hy.2)]
  have g1 := hle x _ hx.1 h1 (h2.trans hy.2)
  have g2 := hge _ y (hx.1.trans h1) h2 hy.2
  rw [e1] at g1
  rw [e2] at g2
  have g1' := mul_le_mul_of_nonneg_left g1 ha.le
  have g2' := mul_le_mul_of_nonneg_left g2 hb'.le
  have e3 : a * F 0 m + b * F 0 m = F 0 m := by rw [← add_mul, hab, one_mul]
  nlinarith

namespace Vtk

/-- The parameters of the points of a curve in a VTK file. -/
theorem point_param_range {u v : ℝ} (huv : u < v) {n : ℕ} (hn : 0 < n) {j : ℕ} (hj : j ≤ n) :
    u ≤ u + (j : ℝ) * (v - u) / n ∧ u + (j : ℝ) * (v - u) / n ≤ v := by
  have hn' : (0 : ℝ) < n := by exact_mod_cast hn
  have hj' : (j : ℝ) ≤ n := by exact_mod_cast hj
  have b0 : 0 ≤ (j : ℝ) * (v - u) / n := div_nonneg (mul_nonneg (Nat.cast_nonneg _) (by linarith)) hn'.le
  have b1 : (j : ℝ) * (v - u) / n ≤ v - u := by
    rw [div_le_iff₀ hn', mul_comm]
    exact mul_le_mul_of_nonneg_left hj' (by linarith)
  exact ⟨by linarith, by linarith⟩

/-- **C114** If a coordinate of the control points does not decrease, it does not decrease along the points in the VTK file. If the slopes of the
control polygon of a B-spline do not decrease, every point of the VTK file is in this coordinate at most the mean of its neighbours. -/
theorem C114_vtk {s : Spl ℝ} (h : WFSpl s) {U : List ℝ} {p : ℕ} (hU : s.ps.knots = [U]) (hp : s.ps.degree = [p]) {n : ℕ} (hn : 0 < n) :
    ∃ file, writeFile [s] [[(n : ℤ)]] = .ok file ∧ file.points.length = n + 1 ∧ ∀ c < s.ph.dim, c < 3 →
      ((∀ i, i + 1 < U.length - p - 1 → cpt s [i] c ≤ cpt s [i + 1] c) →
        ∀ j < n, (file.points.getD j []).getD c 0 ≤ (file.points.getD (j + 1) []).getD c 0) ∧
      (IsBSpline s → 1 ≤ p → (∀ t ∈ U, knot U 0 < t → t < lastKnot U → U.count t ≤ p) →
        (∀ i, i + 2 < U.length - p - 1 → (cpt s [i + 1] c - cpt s [i] c) / (knot U (i + 1 + p) - knot U (i + 1)) ≤
          (cpt s [i + 2] c - cpt s [i + 1] c) / (knot U (i + 2 + p) - knot U (i + 2))) →
        ∀ j, j + 2 ≤ n → (file.points.getD (j + 1) []).getD c 0 ≤ ((file.points.getD j []).getD c 0 + (file.points.getD (j + 2) []).getD c 0) / 2) := by
  obtain ⟨file, e1, e2, e3⟩ := curve_points h hU hn
  refine ⟨file, e1, e2, fun c hc hc3 => ?_⟩
  have hw : knot U 0 < lastKnot U := by have := h.knots; rw [hU, hp] at this; exact (List.forall₂_cons.1 this).1.range
  have hn' : (0 : ℝ) < n := by exact_mod_cast hn
  have hv : ∀ j ≤ n, s.evaluate [knot U 0 + (j : ℝ) * (lastKnot U - knot U 0) / n] [(c : ℤ)] = .ok [(file.points.getD j []).getD c 0] := by
    intro j hj
    obtain ⟨P, hP, eP⟩ := e3 j hj
    have e : file.points.getD j [] = P := by rw [List.getD_eq_getElem?_getD, hP]; rfl
    rw [eP c hc hc3, e]
  refine ⟨fun hi j hj => ?_, fun hb hp1 hm hd j hj => ?_⟩
  · have hle : knot U 0 + (j : ℝ) * (lastKnot U - knot U 0) / n ≤ knot U 0 + ((j + 1 : ℕ) : ℝ) * (lastKnot U - knot U 0) / n := by
      have : (j : ℝ) * (lastKnot U - knot U 0) / n ≤ ((j + 1 : ℕ) : ℝ) * (lastKnot U - knot U 0) / n := by
        apply div_le_div_of_nonneg_right _ hn'.le
        apply mul_le_mul_of_nonneg_right _ (by linarith)
        exact_mod_cast Nat.le_succ j
      linarith
    obtain ⟨v, v', a, b, g⟩ := C114_increasing h hU hp hc hi (point_param_range hw hn hj.le).1 hle (point_param_range hw hn (j := j + 1) hj).2
    have a' := (hv j hj.le).symm.trans a
    have b' := (hv (j + 1) hj).symm.trans b
    simp only [Except.ok.injEq, List.cons.injEq, and_true] at a' b'
    rwa [a', b']
  · obtain ⟨F, -, f2, -⟩ := curve_functions h hU hp hc
    have hconv := C114_convex h hb hU hp hp1 hc hm hd f2
    have key := hconv.2 (point_param_range hw hn (j := j) (by omega)) (point_param_range hw hn (j := j + 2) hj) (show (0 : ℝ) ≤ 1 / 2 by norm_num)
      (show (0 : ℝ) ≤ 1 / 2 by norm_num) (by norm_num)
    simp only [smul_eq_mul] at key
    have em : 1 / 2 * (knot U 0 + (j : ℝ) * (lastKnot U - knot U 0) / n) + 1 / 2 * (knot U 0 + ((j + 2 : ℕ) : ℝ) * (lastKnot U - knot U 0) / n) =
        knot U 0 + ((j + 1 : ℕ) : ℝ) * (lastKnot U - knot U 0) / n := by push_cast; ring
    rw [em] at key
    have ev : ∀ i ≤ n, (file.points.getD i []).getD c 0 = F 0 (knot U 0 + (i : ℝ) * (lastKnot U - knot U 0) / n) := fun i hi => by
      have := (hv i hi).symm.trans (f2 _ (point_param_range hw hn hi).1 (point_param_range hw hn hi).2)
      simpa using this
    rw [ev j (by omega), ev (j + 1) (by omega), ev (j + 2) hj]
    linarith

end Vtk

/-- Satisfiable: the first coordinates 0, 1, 3, 4 of the control points of the NURBS curve increase. -/
example : (∀ i, i + 1 < [0, 0, 0, 1/2, 1, 1, (1 : ℚ)].length - 2 - 1 → cpt exNurbs [i] 0 ≤ cpt exNurbs [i + 1] 0) ∧ exNurbs.ps.knots = [[0, 0, 0, 1/2, 1, 1, 1]] ∧
    exNurbs.ps.degree = [2] ∧ 0 < exNurbs.ph.dim := by
  refine ⟨?_, rfl, rfl, by decide⟩
  intro i hi
  exact (by decide +kernel : ∀ i < 3, cpt exNurbs [i] 0 ≤ cpt exNurbs [i + 1] 0) i (by simp at hi; omega)

/-- The quadratic curve with the control points 3, 1, 0, 2. -/
noncomputable def exConvex : Spl ℝ := ⟨exSmooth.ps, ⟨1, [4], [3, 1, 0, 2], none⟩⟩

theorem exConvex_wf : WFSpl exConvex where
  knots := .cons exSmooth_knots .nil
  basis := exSmooth_wf.basis
  num := exSmooth_wf.num
  dim := by simp [exConvex]
  cps := by simp [exConvex, exSmooth, npts]
  weights := by intro w hw; simp [exConvex] at hw

/-- Satisfiable: the slopes -2, -1/2, 2 increase, so the curve is convex. -/
example {f : ℝ → ℝ} (hf : ∀ t, knot [0, 0, 0, 1, 2, 2, (2 : ℝ)] 0 ≤ t → t ≤ lastKnot [0, 0, 0, 1, 2, 2, (2 : ℝ)] → exConvex.evaluate [t] [((0 : ℕ) : ℤ)] = .ok [f t]) :
    ConvexOn ℝ (Set.Icc (knot [0, 0, 0, 1, 2, 2, (2 : ℝ)] 0) (lastKnot [0, 0, 0, 1, 2, 2, (2 : ℝ)])) f := by
  refine C114_convex exConvex_wf rfl (U := [0, 0, 0, 1, 2, 2, 2]) (p := 2) rfl rfl (by decide) (c := 0) (by simp [exConvex]) ?_ ?_ hf
  · intro t ht h0 h1
    simp only [List.mem_cons, List.not_mem_nil, or_false] at ht
    rcases ht with rfl | rfl | rfl | rfl | rfl | rfl | rfl
    · exact absurd h0 (by norm_num [knot])
    · exact absurd h0 (by norm_num [knot])
    · exact absurd h0 (by norm_num [knot])
    · norm_num [List.count_cons]
    · exact absurd h1 (by norm_num [lastKnot, knot])
    · exact absurd h1 (by norm_num [lastKnot, knot])
    · exact absurd h1 (by norm_num [lastKnot, knot])
  · intro i hi
    have : i = 0 ∨ i = 1 := by simp at hi; omega
    rcases this with rfl | rfl <;> simp [cpt, exConvex, exSmooth, npts, lin, knot] <;> norm_num

end SplineLib
