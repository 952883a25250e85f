import Verif.Props.SameDerivatives
import Verif.Props.Vtk
import Verif.Props.SplineIntegral
import Mathlib.Analysis.Convex.Deriv
import Mathlib.Analysis.Calculus.MeanValue
import Mathlib.Analysis.Calculus.Deriv.Pow

/-!
# How far the polylines in VTK files are from the curves

The VTK writer (`/repo/src/io/vtk_writer.cc:20-137`, `/repo/src/io/vtk_writer_utils.h:28-65`) replaces a curve by straight lines between sampled points.
The distance to the curve is bounded by the derivatives that `EvaluateDerivative` (`/repo/src/spl/spline.h:67-84`) returns, and decreases with the square
of the number of cells if no interior knot has a multiplicity of the degree or more.
-/

namespace SplineLib
set_option linter.unusedSectionVars false
open Finset Topology

/-- A function with a derivative of Lipschitz constant `M` is at most `M (b - a)² / 8` away from the chord. -/
theorem chord_error {f f' : ℝ → ℝ} {a b M : ℝ} (hab : a ≤ b) (hf : ContinuousOn f (Set.Icc a b)) (hd : ∀ x ∈ Set.Ioo a b, HasDerivAt f (f' x) x)
    (hl : ∀ x ∈ Set.Ioo a b, ∀ y ∈ Set.Ioo a b, x ≤ y → |f' y - f' x| ≤ M * (y - x)) {u : ℝ} (h0 : 0 ≤ u) (h1 : u ≤ 1) :
    |f (a + u * (b - a)) - ((1 - u) * f a + u * f b)| ≤ M * (b - a) ^ 2 / 8 := by
  have key : ∀ e : ℝ, (e = 1 ∨ e = -1) → e * (f (a + u * (b - a)) - ((1 - u) * f a + u * f b)) ≤ M / 2 * (u * (1 - u) * (b - a) ^ 2) := by
    intro e he
    have hg : ∀ x ∈ Set.Ioo a b, HasDerivAt (fun x => e * f x + M / 2 * x ^ 2) (e * f' x + M * x) x := by
      intro x hx
      have := ((hd x hx).const_mul e).add (((hasDerivAt_id x).pow 2).const_mul (M / 2))
      refine this.congr_deriv ?_
      simp only [id]
      push_cast
      ring
    have hc : ConvexOn ℝ (Set.Icc a b) (fun x => e * f x + M / 2 * x ^ 2) := by
      refine MonotoneOn.convexOn_of_deriv (convex_Icc a b) (by fun_prop) ?_ ?_
      · rw [interior_Icc]
        exact fun x hx => (hg x hx).differentiableAt.differentiableWithinAt
      · rw [interior_Icc]
        intro x hx y hy hxy
        rw [(hg x hx).deriv, (hg y hy).deriv]
        have := abs_le.1 (hl x hx y hy hxy)
        rcases he with rfl | rfl <;> nlinarith [this.1, this.2]
    have := hc.2 (Set.left_mem_Icc.2 hab) (Set.right_mem_Icc.2 hab) (sub_nonneg.2 h1) h0 (by ring)
    simp only [smul_eq_mul] at this
    rw [show (1 - u) * a + u * b = a + u * (b - a) by ring] at this
    have e2 : M / 2 * (u * (1 - u) * (b - a) ^ 2) = (1 - u) * (M / 2 * a ^ 2) + u * (M / 2 * b ^ 2) - M / 2 * (a + u * (b - a)) ^ 2 := by ring
    rw [e2]
    linarith
  have hM : 0 ≤ M ∨ a = b := by
    rcases lt_or_eq_of_le hab with h | h
    · left
      have := hl (a + (b - a) / 3) ⟨by linarith, by linarith⟩ (a + (b - a) / 2) ⟨by linarith, by linarith⟩ (by linarith)
      have h2 := (abs_nonneg _).trans this
      rw [show a + (b - a) / 2 - (a + (b - a) / 3) = (b - a) / 6 by ring] at h2
      exact nonneg_of_mul_nonneg_left h2 (by linarith)
    · exact Or.inr h
  have hq : M / 2 * (u * (1 - u) * (b - a) ^ 2) ≤ M * (b - a) ^ 2 / 8 := by
    rcases hM with h | rfl
    · have h2 : u * (1 - u) ≤ 1 / 4 := by nlinarith [sq_nonneg (u - 1 / 2)]
      have h3 : u * (1 - u) * (b - a) ^ 2 ≤ 1 / 4 * (b - a) ^ 2 := mul_le_mul_of_nonneg_right h2 (sq_nonneg _)
      nlinarith
    · simp
  rw [abs_le]
  constructor
  · have := key (-1) (Or.inr rfl); linarith
  · have := key 1 (Or.inl rfl); linarith

/-- The values, first and second derivatives of a curve as functions. -/
theorem curve_functions {s : Spl ℝ} (h : WFSpl s) {U : List ℝ} {p : ℕ} (hU : s.ps.knots = [U]) (hp : s.ps.degree = [p]) {c : ℕ} (hc : c < s.ph.dim) :
    ∃ F : ℕ → ℝ → ℝ, (∀ (k : ℕ) t, knot U 0 ≤ t → t ≤ lastKnot U → s.evaluateDerivative [t] [(c : ℤ)] [(k : ℤ)] = .ok [F k t]) ∧
      (∀ t, knot U 0 ≤ t → t ≤ lastKnot U → s.evaluate [t] [(c : ℤ)] = .ok [F 0 t]) ∧
      (∀ k t, knot U 0 ≤ t → t < lastKnot U → HasDerivWithinAt (F k) (F (k + 1) t) (Set.Ici t) t) ∧
      (∀ k, SmoothAt U p k → ContinuousOn (F k) (Set.Icc (knot U 0) (lastKnot U))) ∧
      (∀ k, SmoothAt U p (k + 1) → ∀ t, knot U 0 < t → t < lastKnot U → HasDerivAt (F k) (F (k + 1) t) t) := by
  obtain ⟨G, g1, g2, g3⟩ := deriv_values h
  have hl : s.ps.knots.length = 1 := by rw [hU]; rfl
  have hd : ∀ t, knot U 0 ≤ t → t ≤ lastKnot U → InDomain s [t] := fun t h0 h1 => by rw [InDomain, hU]; exact .cons ⟨h0, h1⟩ .nil
  have e1 : ∀ (k : ℕ) t, knot U 0 ≤ t → t ≤ lastKnot U → s.evaluateDerivative [t] [(c : ℤ)] [(k : ℤ)] = .ok [G c [k] [t]] := fun k t h0 h1 =>
    g1 [t] [k] [c] (hd t h0 h1) (by rw [hl]; rfl) (by simpa using hc)
  refine ⟨fun k t => G c [k] [t], e1, fun t h0 h1 => ?_, fun k t h0 h1 => ?_, fun k hk => ?_, fun k hk t h0 h1 => ?_⟩
  · have := g2 [t] [c] (hd t h0 h1) (by simpa using hc)
    rw [hU] at this
    exact this
  · have := (g3 [t] [k] c 0 U (hd t h0 h1.le) (by rw [hl]; rfl) (by rw [hU]; rfl)).right (by simpa using h1)
    simpa using this
  · rw [continuousOn_iff_continuous_domRestrict]
    refine C82_continuous h (γ := [fun v : Set.Icc (knot U 0) (lastKnot U) => v.1]) (k := [k]) ?_ ?_ (by rw [hl]; rfl) ?_ hc ?_
    · intro g hg; obtain rfl := List.mem_singleton.mp hg; exact continuous_subtype_val
    · intro v; exact hd v.1 v.2.1 v.2.2
    · intro d V q hV hq
      rw [hU] at hV
      rw [hp] at hq
      rcases d with _ | d
      · simp only [List.getElem?_cons_zero, Option.some.injEq] at hV hq
        subst hV; subst hq
        exact hk
      · simp at hV
    · intro v
      exact e1 k v.1 v.2.1 v.2.2
  · have := C82_two_sided h (x := [t]) (hd t h0.le h1.le) (k := [k]) (by rw [hl]; rfl) (d := 0) (by rw [hU]; rfl) (by rw [hp]; rfl) h0 h1
      (by intro hm; have := hk t hm h0 h1; simpa using (by omega : k + U.count t < p)) hc (f := fun t => G c [k] [t]) (f' := G c [k + 1] [t])
      (fun t h0 h1 => e1 k t h0 h1) (e1 (k + 1) t h0.le h1.le)
    simpa using this

/-- **C111 (chords, second order).** If no interior knot has a multiplicity of the degree or more, and `EvaluateDerivative` of order 2 is at most `M`, the
curve differs from a chord by at most `M (b - a)² / 8`. -/
theorem C111_chord {s : Spl ℝ} (h : WFSpl s) {U : List ℝ} {p : ℕ} (hU : s.ps.knots = [U]) (hp : s.ps.degree = [p]) {c : ℕ} (hc : c < s.ph.dim)
    (hm : ∀ t ∈ U, knot U 0 < t → t < lastKnot U → U.count t + 1 ≤ p) {M : ℝ}
    (hM : ∀ t, knot U 0 ≤ t → t ≤ lastKnot U → ∃ v, s.evaluateDerivative [t] [(c : ℤ)] [2] = .ok [v] ∧ |v| ≤ M) {f : ℝ → ℝ}
    (hf : ∀ t, knot U 0 ≤ t → t ≤ lastKnot U → s.evaluate [t] [(c : ℤ)] = .ok [f t]) {a b : ℝ} (ha : knot U 0 ≤ a) (hab : a ≤ b) (hb : b ≤ lastKnot U)
    {u : ℝ} (h0 : 0 ≤ u) (h1 : u ≤ 1) : |f (a + u * (b - a)) - ((1 - u) * f a + u * f b)| ≤ M * (b - a) ^ 2 / 8 := by
  obtain ⟨F, f1, f2, f3, f4, f5⟩ := curve_functions h hU hp hc
  have hs1 : SmoothAt U p (0 + 1) := fun t ht g0 g1 => by have := hm t ht g0 g1; omega
  have ef : ∀ t, knot U 0 ≤ t → t ≤ lastKnot U → f t = F 0 t := fun t g0 g1 => by
    have := (hf t g0 g1).symm.trans (f2 t g0 g1); simpa using this
  have hbd : ∀ t, knot U 0 ≤ t → t ≤ lastKnot U → |F 2 t| ≤ M := fun t g0 g1 => by
    obtain ⟨v, e, hv⟩ := hM t g0 g1
    have := e.symm.trans (f1 2 t g0 g1)
    simp only [Except.ok.injEq, List.cons.injEq, and_true] at this
    rwa [← this]
  have hu : 0 ≤ u * (b - a) ∧ u * (b - a) ≤ b - a := ⟨mul_nonneg h0 (by linarith), by nlinarith⟩
  rw [ef a ha (hab.trans hb), ef b (ha.trans hab) hb, ef _ (by linarith) (by linarith)]
  refine chord_error hab ((f4 0 (hs1.mono (by omega))).mono (Set.Icc_subset_Icc ha hb)) (f' := F 1)
    (fun x hx => f5 0 hs1 x (ha.trans_lt hx.1) (hx.2.trans_le hb)) ?_ h0 h1
  intro x hx y hy hxy
  have := norm_image_sub_le_of_norm_deriv_right_le_segment (f := F 1) (f' := F 2) (C := M) (a := x) (b := y)
    ((f4 1 hs1).mono (Set.Icc_subset_Icc (ha.trans hx.1.le) (hy.2.le.trans hb)))
    (fun z hz => f3 1 z (ha.trans (hx.1.le.trans hz.1)) ((hz.2.trans hy.2).trans_le hb))
    (fun z hz => by rw [Real.norm_eq_abs]; exact hbd z (ha.trans (hx.1.le.trans hz.1)) ((hz.2.trans hy.2).le.trans hb)) y ⟨hxy, le_rfl⟩
  rwa [Real.norm_eq_abs] at this

/-- **C111 (chords, first order).** If no interior knot has a multiplicity greater than the degree, and `EvaluateDerivative` of order 1 is at most `L`, the
curve differs from a chord by at most `L (b - a) / 2`. -/
theorem C111_chord_first {s : Spl ℝ} (h : WFSpl s) {U : List ℝ} {p : ℕ} (hU : s.ps.knots = [U]) (hp : s.ps.degree = [p]) {c : ℕ} (hc : c < s.ph.dim)
    (hm : ∀ t ∈ U, knot U 0 < t → t < lastKnot U → U.count t ≤ p) {L : ℝ}
    (hL : ∀ t, knot U 0 ≤ t → t ≤ lastKnot U → ∃ v, s.evaluateDerivative [t] [(c : ℤ)] [1] = .ok [v] ∧ |v| ≤ L) {f : ℝ → ℝ}
    (hf : ∀ t, knot U 0 ≤ t → t ≤ lastKnot U → s.evaluate [t] [(c : ℤ)] = .ok [f t]) {a b : ℝ} (ha : knot U 0 ≤ a) (hab : a ≤ b) (hb : b ≤ lastKnot U)
    {u : ℝ} (h0 : 0 ≤ u) (h1 : u ≤ 1) : |f (a + u * (b - a)) - ((1 - u) * f a + u * f b)| ≤ L * (b - a) / 2 := by
  obtain ⟨F, f1, f2, f3, f4, f5⟩ := curve_functions h hU hp hc
  have hs0 : SmoothAt U p 0 := fun t ht g0 g1 => by have := hm t ht g0 g1; omega
  have ef : ∀ t, knot U 0 ≤ t → t ≤ lastKnot U → f t = F 0 t := fun t g0 g1 => by
    have := (hf t g0 g1).symm.trans (f2 t g0 g1); simpa using this
  have hbd : ∀ t, knot U 0 ≤ t → t ≤ lastKnot U → |F 1 t| ≤ L := fun t g0 g1 => by
    obtain ⟨v, e, hv⟩ := hL t g0 g1
    have := e.symm.trans (f1 1 t g0 g1)
    simp only [Except.ok.injEq, List.cons.injEq, and_true] at this
    rwa [← this]
  have hlip : ∀ x y, a ≤ x → x ≤ y → y ≤ b → |F 0 y - F 0 x| ≤ L * (y - x) := by
    intro x y hx hxy hy
    have := norm_image_sub_le_of_norm_deriv_right_le_segment (f := F 0) (f' := F 1) (C := L) (a := x) (b := y)
      ((f4 0 hs0).mono (Set.Icc_subset_Icc (ha.trans hx) (hy.trans hb)))
      (fun z hz => f3 0 z (ha.trans (hx.trans hz.1)) (hz.2.trans_le (hy.trans hb)))
      (fun z hz => by rw [Real.norm_eq_abs]; exact hbd z (ha.trans (hx.trans hz.1)) (hz.2.le.trans (hy.trans hb))) y ⟨hxy, le_rfl⟩
    rwa [Real.norm_eq_abs] at this
  have hu : 0 ≤ u * (b - a) ∧ u * (b - a) ≤ b - a := ⟨mul_nonneg h0 (by linarith), by nlinarith⟩
  rw [ef a ha (hab.trans hb), ef b (ha.trans hab) hb, ef _ (by linarith) (by linarith)]
  have hL0 : 0 ≤ L := (abs_nonneg _).trans (hbd a ha (hab.trans hb))
  set x := a + u * (b - a) with hx
  have e1 := abs_le.1 (hlip a x le_rfl (by linarith) (by linarith))
  have e2 := abs_le.1 (hlip x b (by linarith) (by linarith) le_rfl)
  have q : 2 * (u * (1 - u)) * (L * (b - a)) ≤ L * (b - a) / 2 := by
    have h2 : u * (1 - u) ≤ 1 / 4 := by nlinarith [sq_nonneg (u - 1 / 2)]
    have := mul_le_mul_of_nonneg_right h2 (mul_nonneg hL0 (sub_nonneg.2 hab))
    linarith
  have e : F 0 x - ((1 - u) * F 0 a + u * F 0 b) = (1 - u) * (F 0 x - F 0 a) - u * (F 0 b - F 0 x) := by ring
  have hxa : x - a = u * (b - a) := by rw [hx]; ring
  have hbx : b - x = (1 - u) * (b - a) := by rw [hx]; ring
  rw [hxa] at e1
  rw [hbx] at e2
  have m1 := mul_le_mul_of_nonneg_left e1.1 (sub_nonneg.2 h1)
  have m2 := mul_le_mul_of_nonneg_left e1.2 (sub_nonneg.2 h1)
  have m3 := mul_le_mul_of_nonneg_left e2.1 h0
  have m4 := mul_le_mul_of_nonneg_left e2.2 h0
  rw [e, abs_le]
  constructor <;> nlinarith

namespace Vtk

theorem curve_points {s : Spl ℝ} (h : WFSpl s) {U : List ℝ} (hU : s.ps.knots = [U]) {n : ℕ} (hn : 0 < n) :
    ∃ file, writeFile [s] [[(n : ℤ)]] = .ok file ∧ file.points.length = n + 1 ∧ ∀ j ≤ n, ∃ P, file.points[j]? = some P ∧
      ∀ c < s.ph.dim, c < 3 → s.evaluate [knot U 0 + (j : ℝ) * (lastKnot U - knot U 0) / n] [(c : ℤ)] = .ok [P.getD c 0] := by
  obtain ⟨file, e1, e2, -⟩ := C39_file (splines := [s]) (nss := [[n]]) (.cons ⟨h, by rw [hU]; rfl, by simpa using hn, Or.inl rfl⟩ .nil)
  have e3 : file.points = gridValues s [n] := by simpa using e2
  have hlen : file.points.length = n + 1 := by rw [e3]; simp [gridValues, gridPoints]
  refine ⟨file, e1, hlen, fun j hj => ⟨padded s [knot U 0 + (j : ℝ) * (lastKnot U - knot U 0) / n], ?_, fun c hc hc3 => ?_⟩⟩
  · rw [e3, gridValues, List.getElem?_map, List.getElem?_range (by simp [gridPoints]; omega)]
    simp [gridParam, hU, unlin, Nat.mod_eq_of_lt (Nat.lt_succ_of_le hj)]
  · have hw : knot U 0 < lastKnot U := by
      have := h.knots; rw [hU] at this
      cases hd : s.ps.degree with
      | nil => rw [hd] at this; cases this
      | cons q qs => rw [hd] at this; exact (List.forall₂_cons.1 this).1.range
    have hn' : (0 : ℝ) < n := by exact_mod_cast hn
    have hdom : InDomain s [knot U 0 + (j : ℝ) * (lastKnot U - knot U 0) / n] := by
      rw [InDomain, hU]
      have hj' : (j : ℝ) ≤ n := by exact_mod_cast hj
      have b0 : 0 ≤ (j : ℝ) * (lastKnot U - knot U 0) / n := div_nonneg (mul_nonneg (Nat.cast_nonneg _) (by linarith)) hn'.le
      have b1 : (j : ℝ) * (lastKnot U - knot U 0) / n ≤ lastKnot U - knot U 0 := by
        rw [div_le_iff₀ hn', mul_comm]
        exact mul_le_mul_of_nonneg_left hj' (by linarith)
      exact .cons ⟨by linarith, by linarith⟩ .nil
    have hP : (padded s [knot U 0 + (j : ℝ) * (lastKnot U - knot U 0) / n]).getD c 0 = splineValue s [knot U 0 + (j : ℝ) * (lastKnot U - knot U 0) / n] c := by
      rw [padded, List.getD_eq_getElem _ _ (by simpa using hc3)]
      simp [hc]
    rw [hP]
    cases hwt : s.ph.weights with
    | none =>
      have := evaluate_bspline h hwt hdom [c] (by simpa using hc)
      simpa [splineValue, hwt] using this
    | some w =>
      have := evaluate_nurbs h ⟨w, hwt⟩ hdom [c] (by simpa using hc.le)
      simpa [splineValue, hwt, hc.ne] using this

/-- **C111 (VTK files).** The lines between consecutive points of the VTK file of a curve with `n` cells differ from the curve by at most
`M ((last - first) / n)² / 8` in every coordinate, where `M` bounds the second derivative. -/
theorem C111_vtk {s : Spl ℝ} (h : WFSpl s) {U : List ℝ} {p : ℕ} (hU : s.ps.knots = [U]) (hp : s.ps.degree = [p]) {n : ℕ} (hn : 0 < n)
    (hm : ∀ t ∈ U, knot U 0 < t → t < lastKnot U → U.count t + 1 ≤ p) {M : ℝ}
    (hM : ∀ c < s.ph.dim, ∀ t, knot U 0 ≤ t → t ≤ lastKnot U → ∃ v, s.evaluateDerivative [t] [(c : ℤ)] [2] = .ok [v] ∧ |v| ≤ M) :
    ∃ file, writeFile [s] [[(n : ℤ)]] = .ok file ∧ file.points.length = n + 1 ∧ ∀ j < n, ∃ P Q, file.points[j]? = some P ∧ file.points[j + 1]? = some Q ∧
      ∀ c < s.ph.dim, c < 3 → ∀ u : ℝ, 0 ≤ u → u ≤ 1 → ∃ v, s.evaluate [knot U 0 + (j + u) * (lastKnot U - knot U 0) / n] [(c : ℤ)] = .ok [v] ∧
        |v - ((1 - u) * P.getD c 0 + u * Q.getD c 0)| ≤ M * ((lastKnot U - knot U 0) / n) ^ 2 / 8 := by
  obtain ⟨file, e1, e2, e3⟩ := curve_points h hU hn
  refine ⟨file, e1, e2, fun j hj => ?_⟩
  obtain ⟨P, hP, eP⟩ := e3 j hj.le
  obtain ⟨Q, hQ, eQ⟩ := e3 (j + 1) hj
  refine ⟨P, Q, hP, hQ, fun c hc hc3 u h0 h1 => ?_⟩
  obtain ⟨F, -, f2, -⟩ := curve_functions h hU hp hc
  have hw : knot U 0 < lastKnot U := by have := h.knots; rw [hU, hp] at this; exact (List.forall₂_cons.1 this).1.range
  have hn' : (0 : ℝ) < n := by exact_mod_cast hn
  have hj' : (j : ℝ) + 1 ≤ n := by exact_mod_cast hj
  set H := (lastKnot U - knot U 0) / n with hH
  have hH0 : 0 ≤ H := div_nonneg (by linarith) hn'.le
  have hHn : n * H = lastKnot U - knot U 0 := by rw [hH]; field_simp
  have ea : knot U 0 + (j : ℝ) * (lastKnot U - knot U 0) / n = knot U 0 + j * H := by rw [hH]; ring
  have eb : knot U 0 + ((j + 1 : ℕ) : ℝ) * (lastKnot U - knot U 0) / n = knot U 0 + (j + 1) * H := by rw [hH]; push_cast; ring
  have ex : knot U 0 + ((j : ℝ) + u) * (lastKnot U - knot U 0) / n = (knot U 0 + j * H) + u * ((knot U 0 + (j + 1) * H) - (knot U 0 + j * H)) := by rw [hH]; ring
  have hjH : 0 ≤ (j : ℝ) * H := mul_nonneg (Nat.cast_nonneg _) hH0
  have hj1 : ((j : ℝ) + 1) * H ≤ lastKnot U - knot U 0 := by rw [← hHn]; exact mul_le_mul_of_nonneg_right hj' hH0
  have hjl : (j : ℝ) * H ≤ ((j : ℝ) + 1) * H := by linarith
  have uH : 0 ≤ u * H ∧ u * H ≤ H := ⟨mul_nonneg h0 hH0, by nlinarith⟩
  have vP : F 0 (knot U 0 + j * H) = P.getD c 0 := by
    have := eP c hc hc3
    rw [ea, f2 _ (by linarith) (by linarith)] at this
    simpa using this
  have vQ : F 0 (knot U 0 + (j + 1) * H) = Q.getD c 0 := by
    have := eQ c hc hc3
    rw [eb, f2 _ (by linarith) (by linarith)] at this
    simpa using this
  refine ⟨F 0 (knot U 0 + ((j : ℝ) + u) * (lastKnot U - knot U 0) / n), f2 _ (by rw [ex]; nlinarith) (by rw [ex]; nlinarith), ?_⟩
  have := C111_chord h hU hp hc hm (hM c hc) f2 (a := knot U 0 + j * H) (b := knot U 0 + (j + 1) * H) (by linarith) (by linarith) (by linarith) h0 h1
  rw [ex, ← vP, ← vQ]
  rwa [show knot U 0 + ((j : ℝ) + 1) * H - (knot U 0 + j * H) = H by ring] at this ⊢

/-- Satisfiable: the quadratic curve with the control points 1, 2, 3, 4 has second derivatives between -1 and 1. -/
theorem exQuadratic_second : ∀ c < exQuadratic.ph.dim, ∀ t : ℝ, knot [0, 0, 0, 1, 2, 2, (2 : ℝ)] 0 ≤ t → t ≤ lastKnot [0, 0, 0, 1, 2, 2, (2 : ℝ)] →
    ∃ v, exQuadratic.evaluateDerivative [t] [(c : ℤ)] [2] = .ok [v] ∧ |v| ≤ 1 := by
  intro c hc t h0 h1
  obtain rfl : c = 0 := by simpa [exQuadratic] using hc
  have e := evaluateDerivative_bspline exQuadratic_wf rfl (x := [t]) (.cons ⟨h0, h1⟩ .nil) [0] (by simp [exQuadratic]) (k := [2]) rfl
  refine ⟨_, e, ?_⟩
  have hw := exSmooth_knots
  have d1 := cox_difference hw t 1 fun i => cpt exQuadratic [i] 0
  have d2 := cox_difference (inner_wf hw) t 0 fun i =>
    ((1 + 1 : ℕ) : ℝ) * (cpt exQuadratic [i + 1] 0 - cpt exQuadratic [i] 0) / (knot [0, 0, 0, 1, 2, 2, (2 : ℝ)] (i + (1 + 1) + 1) - knot [0, 0, 0, 1, 2, 2, (2 : ℝ)] (i + 1))
  have key : (tensorDerivSum exQuadratic [t] [2] fun I => cpt exQuadratic I 0) =
      coxDeBoor [0, 1, (2 : ℝ)] 0 0 t * (-1) + coxDeBoor [0, 1, (2 : ℝ)] 0 1 t * 1 := by
    have e1 : (tensorDerivSum exQuadratic [t] [2] fun I => cpt exQuadratic I 0) =
        ∑ i ∈ range ([0, 0, 0, 1, 2, 2, (2 : ℝ)].length - (1 + 1) - 1), coxDeBoorDeriv [0, 0, 0, 1, 2, 2, (2 : ℝ)] (1 + 1) (1 + 1) i t * cpt exQuadratic [i] 0 := by
      simp [tensorDerivSum, exQuadratic, exSmooth, npts, msum, dprod, basisDerivFns]
    rw [e1, d1]
    refine Eq.trans (b := _) ?_ (d2.trans ?_)
    · rfl
    · simp [cpt, exQuadratic, exSmooth, npts, lin, knot, sum_range_succ, coxDeBoorDeriv]
      norm_num
  show |tensorDerivSum exQuadratic [t] [2] fun I => cpt exQuadratic I 0| ≤ 1
  rw [key]
  have b : ∀ i, coxDeBoor [0, 1, (2 : ℝ)] 0 i t = 0 ∨ coxDeBoor [0, 1, (2 : ℝ)] 0 i t = 1 := by
    intro i
    simp only [coxDeBoor]
    split
    · exact Or.inr rfl
    · exact Or.inl rfl
  rcases b 0 with g | g <;> rcases b 1 with g' | g' <;> rw [g, g'] <;> norm_num

/-- The polyline with 10 cells is at most 1/200 away from this curve. -/
example : ∃ file, writeFile [exQuadratic] [[(10 : ℕ)]] = .ok file ∧ file.points.length = 10 + 1 ∧ ∀ j : ℕ, j < 10 → ∃ P Q, file.points[j]? = some P ∧
    file.points[j + 1]? = some Q ∧ ∀ u : ℝ, 0 ≤ u → u ≤ 1 → ∃ v, exQuadratic.evaluate [0 + (j + u) * (2 - 0) / (10 : ℕ)] [0] = .ok [v] ∧
      |v - ((1 - u) * P.getD 0 0 + u * Q.getD 0 0)| ≤ 1 / 200 := by
  obtain ⟨file, e1, e2, e3⟩ := C111_vtk exQuadratic_wf (U := [0, 0, 0, 1, 2, 2, 2]) (p := 2) rfl rfl (n := 10) (by norm_num) (M := 1) (by
    intro t ht h0 h1
    simp only [knot, lastKnot] at h0 h1
    simp only [List.mem_cons, List.not_mem_nil, or_false] at ht
    rcases ht with rfl | rfl | rfl | rfl | rfl | rfl | rfl <;> simp [List.count_cons] at h0 h1 <;> norm_num [List.count_cons]) exQuadratic_second
  refine ⟨file, e1, e2, fun j hj => ?_⟩
  obtain ⟨P, Q, hP, hQ, h⟩ := e3 j hj
  refine ⟨P, Q, hP, hQ, fun u h0 h1 => ?_⟩
  obtain ⟨v, hv, hb⟩ := h 0 (by simp [exQuadratic]) (by norm_num) u h0 h1
  refine ⟨v, by simpa [knot, lastKnot] using hv, hb.trans ?_⟩
  norm_num [knot, lastKnot]

end Vtk
end SplineLib
