import Verif.Props.Shape
import Verif.Props.HigherDifferences
import Mathlib.Analysis.InnerProductSpace.PiL2

/-!
# Curves are not longer than their control polygons

The points that `Evaluate` (`/repo/src/spl/spline.h:49-65`) returns at increasing parameters form a polyline that is not longer than the polyline of the
control points, for every way to measure lengths. This holds in particular for the lines in VTK files (`/repo/src/io/vtk_writer.cc:20-137`).
-/

namespace SplineLib
set_option linter.unusedSectionVars false
open Finset

section
variable {K : Type} [Field K] [LinearOrder K] [IsStrictOrderedRing K]

/-- A spline with positive weights as a quotient. -/
def ratio (U : List K) (p : ℕ) (w c : ℕ → K) (x : K) : K := coxSum U p (fun i => w i * c i) x / coxSum U p w x

theorem coxSum_pos {U : List K} {p : ℕ} (h : WFKnots U p) {w : ℕ → K} (hw : ∀ i < U.length - p - 1, 0 < w i) {x : K} (h0 : knot U 0 ≤ x)
    (h1 : x ≤ lastKnot U) : 0 < coxSum U p w x := by
  have hnn : ∀ j ∈ range (U.length - p - 1), 0 ≤ coxDeBoor U p j x := fun j hj => cox_nonneg h h0 h1 (by have := mem_range.1 hj; omega)
  have hs := cox_sum h h0 h1
  refine sum_pos' (fun i hi => mul_nonneg (hnn i hi) (hw i (mem_range.1 hi)).le) ?_
  by_contra hcon
  push Not at hcon
  have : ∑ i ∈ range (U.length - p - 1), coxDeBoor U p i x = 0 := sum_eq_zero fun i hi => by
    have g := hcon i hi
    exact le_antisymm (le_of_mul_le_mul_right (by simpa using g) (hw i (mem_range.1 hi))) (hnn i hi)
  rw [this] at hs
  exact zero_ne_one hs

/-- Increasing coefficients give an increasing function, also with weights. -/
theorem ratio_mono {U : List K} {p : ℕ} (h : WFKnots U p) {w c : ℕ → K} (hw : ∀ i < U.length - p - 1, 0 < w i)
    (hc : ∀ i, i + 1 < U.length - p - 1 → c i ≤ c (i + 1)) {t t' : K} (h0 : knot U 0 ≤ t) (htt : t ≤ t') (h1 : t' ≤ lastKnot U) :
    ratio U p w c t ≤ ratio U p w c t' := by
  by_contra hn
  rw [not_le] at hn
  have hlt : t < t' := by
    refine lt_of_le_of_ne htt ?_
    rintro rfl
    exact lt_irrefl _ hn
  obtain ⟨b, hb1, hb2⟩ := exists_between hn
  have p0 := coxSum_pos h hw h0 (htt.trans h1)
  have p1 := coxSum_pos h hw (h0.trans htt) h1
  have hsub : ∀ x, 0 < coxSum U p w x → coxSum U p (fun i => w i * (c i - b)) x = coxSum U p w x * (ratio U p w c x - b) := by
    intro x hx
    have := coxSum_add U p 1 (-b) (fun i => w i * c i) w x
    rw [show (fun i => w i * (c i - b)) = fun i => 1 * (w i * c i) + -b * w i from funext fun i => by ring, this, ratio, mul_sub,
      mul_div_cancel₀ _ hx.ne']
    ring
  have e0 := hsub t p0
  have e1 := hsub t' p1
  have s0 : 0 < coxSum U p w t * (ratio U p w c t - b) := mul_pos p0 (sub_pos.2 hb2)
  have s1 : coxSum U p w t' * (ratio U p w c t' - b) < 0 := mul_neg_of_pos_of_neg p1 (sub_neg.2 hb1)
  have q : ∀ j ≤ 1, j = 0 ∨ j = 1 := by omega
  obtain ⟨i, i1, i2⟩ := variation h (c := fun i => w i * (c i - b)) (m := 1) (t := fun j => if j = 0 then t else t')
    (by intro j hj; obtain rfl : j = 0 := by omega
        simpa using hlt)
    (by intro j hj; rcases q j hj with rfl | rfl
        · simpa using ⟨h0, htt.trans h1⟩
        · simpa using ⟨h0.trans htt, h1⟩)
    (by intro j hj; rcases q j hj with rfl | rfl
        · simp only [if_true, e0]; exact s0.ne'
        · simp only [one_ne_zero, if_false, e1]; exact s1.ne)
    (by intro j hj; obtain rfl : j = 0 := by omega
        simp only [if_true, zero_add, one_ne_zero, if_false, e0, e1]
        exact mul_neg_of_pos_of_neg s0 s1)
  have a0 := (i2 0 (by omega)).2
  have a1 := (i2 1 (by omega)).2
  have b0 := (i2 0 (by omega)).1
  have b1 := (i2 1 (by omega)).1
  have hi : i 0 < i 1 := i1 0 (by omega)
  simp only [if_true, one_ne_zero, if_false, e0, e1] at a0 a1
  have c0 := (mul_pos_iff_of_pos_left (hw _ b0)).1 ((mul_pos_iff_of_pos_left s0).1 a0)
  have c1 := ((mul_pos_iff.1 a1).resolve_left (fun hx => lt_asymm hx.1 s1)).2
  have c1' := (mul_neg_iff.1 c1).resolve_right fun hx => lt_asymm hx.1 (hw _ b1)
  have hmono : ∀ a d, a + d < U.length - p - 1 → c a ≤ c (a + d) := by
    intro a d
    induction d with
    | zero => intro _; exact le_rfl
    | succ d ih => intro hd; exact (ih (by omega)).trans (hc (a + d) (by omega))
  have := hmono (i 0) (i 1 - i 0) (by omega)
  rw [show i 0 + (i 1 - i 0) = i 1 by omega] at this
  linarith [c1'.2]

/-- The part of the spline that belongs to the control points from `i` on. -/
def tailPart (U : List K) (p : ℕ) (w : ℕ → K) (i : ℕ) (x : K) : K := ratio U p w (fun l => if i ≤ l then 1 else 0) x

theorem tailPart_mono {U : List K} {p : ℕ} (h : WFKnots U p) {w : ℕ → K} (hw : ∀ i < U.length - p - 1, 0 < w i) (i : ℕ) {t t' : K} (h0 : knot U 0 ≤ t)
    (htt : t ≤ t') (h1 : t' ≤ lastKnot U) : tailPart U p w i t ≤ tailPart U p w i t' := by
  refine ratio_mono h hw (fun l _ => ?_) h0 htt h1
  by_cases g : i ≤ l
  · rw [if_pos g, if_pos (by omega)]
  · rw [if_neg g]; split <;> norm_num

theorem tailPart_bounds {U : List K} {p : ℕ} (h : WFKnots U p) {w : ℕ → K} (hw : ∀ i < U.length - p - 1, 0 < w i) (i : ℕ) {t : K} (h0 : knot U 0 ≤ t)
    (h1 : t ≤ lastKnot U) : 0 ≤ tailPart U p w i t ∧ tailPart U p w i t ≤ 1 := by
  have hp := coxSum_pos h hw h0 h1
  have hnn : ∀ j ∈ range (U.length - p - 1), 0 ≤ coxDeBoor U p j t := fun j hj => cox_nonneg h h0 h1 (by have := mem_range.1 hj; omega)
  unfold tailPart ratio
  constructor
  · refine div_nonneg (sum_nonneg fun j hj => mul_nonneg (hnn j hj) (mul_nonneg (hw j (mem_range.1 hj)).le ?_)) hp.le
    dsimp only
    split <;> norm_num
  · rw [div_le_one hp]
    refine sum_le_sum fun j hj => mul_le_mul_of_nonneg_left ?_ (hnn j hj)
    have := (hw j (mem_range.1 hj)).le
    dsimp only
    split
    · rw [mul_one]
    · rw [mul_zero]; exact this

/-- Summation by parts: the spline from the differences of the coefficients. -/
theorem ratio_tailPart {U : List K} {p : ℕ} (h : WFKnots U p) {w : ℕ → K} (hw : ∀ i < U.length - p - 1, 0 < w i) (c : ℕ → K) {t : K} (h0 : knot U 0 ≤ t)
    (h1 : t ≤ lastKnot U) : ratio U p w c t = c 0 + ∑ i ∈ range (U.length - p - 1 - 1), (c (i + 1) - c i) * tailPart U p w (i + 1) t := by
  have hp := coxSum_pos h hw h0 h1
  have key : ∀ l < U.length - p - 1, c l = c 0 + ∑ i ∈ range (U.length - p - 1 - 1), (c (i + 1) - c i) * (if i + 1 ≤ l then 1 else 0) := by
    intro l hl
    have e : ∀ n, ∑ i ∈ range n, (c (i + 1) - c i) * (if i + 1 ≤ l then (1 : K) else 0) = c (min n l) - c 0 := by
      intro n
      induction n with
      | zero => simp
      | succ n ih =>
        rw [sum_range_succ, ih]
        by_cases g : n + 1 ≤ l
        · rw [if_pos g, min_eq_left (by omega), min_eq_left (by omega)]; ring
        · rw [if_neg g, min_eq_right (by omega), min_eq_right (by omega)]; ring
    rw [e, min_eq_right (by omega)]; ring
  unfold tailPart ratio
  rw [eq_comm, ← sub_eq_zero]
  have e2 : coxSum U p (fun i => w i * c i) t = c 0 * coxSum U p w t +
      ∑ i ∈ range (U.length - p - 1 - 1), (c (i + 1) - c i) * coxSum U p (fun l => w l * if i + 1 ≤ l then 1 else 0) t := by
    unfold coxSum
    simp only [mul_sum]
    rw [sum_comm, ← sum_add_distrib]
    refine sum_congr rfl fun l hl => ?_
    conv_lhs => rw [key l (mem_range.1 hl)]
    rw [mul_add, mul_add, mul_sum, mul_sum]
    congr 1
    · ring
    · exact sum_congr rfl fun i _ => by ring
  rw [e2, add_div, mul_div_assoc, div_self hp.ne', mul_one, sum_div]
  simp only [mul_div_assoc]
  exact sub_self _

/-- Ways to measure vectors: the Euclidean norm, the absolute value of a coordinate and all other norms. -/
structure Sublinear (ν : (ℕ → K) → K) : Prop where
  add : ∀ f g, ν (fun c => f c + g c) ≤ ν f + ν g
  smul : ∀ a f, 0 ≤ a → ν (fun c => a * f c) = a * ν f
  nonneg : ∀ f, 0 ≤ ν f

theorem Sublinear.sum {ν : (ℕ → K) → K} (h : Sublinear ν) (a : ℕ → K) (v : ℕ → ℕ → K) : ∀ n, (∀ i < n, 0 ≤ a i) →
    ν (fun c => ∑ i ∈ range n, a i * v i c) ≤ ∑ i ∈ range n, a i * ν (v i) := by
  intro n
  induction n with
  | zero =>
    intro _
    have := h.smul 0 (fun _ => 0) le_rfl
    simpa using this.le
  | succ n ih =>
    intro ha
    simp only [sum_range_succ]
    refine (h.add _ _).trans (add_le_add (ih fun i hi => ha i (by omega)) ?_)
    rw [h.smul _ _ (ha n (by omega))]

/-- The coordinates of the points of a curve. -/
theorem curve_ratio {s : Spl K} (h : WFSpl s) {U : List K} {p : ℕ} (hU : s.ps.knots = [U]) (hp : s.ps.degree = [p]) {t : K} (h0 : knot U 0 ≤ t)
    (h1 : t ≤ lastKnot U) {y : List K} (hy : s.evaluate [t] (zl (List.range s.ph.dim)) = .ok y) (c : ℕ) :
    y.getD c 0 = ratio U p (fun i => wgt s [i]) (fun i => (ctrlPoint s [i]).getD c 0) t := by
  have hx : InDomain s [t] := by unfold InDomain; rw [hU]; exact .cons ⟨h0, h1⟩ .nil
  rw [evaluate_quotient h hx _ (by simp)] at hy
  obtain rfl := Except.ok.inj hy
  have hsum : ∀ a : List ℕ → K, tensorSum s [t] a = ∑ i ∈ range (U.length - p - 1), coxDeBoor U p i t * a [i] := by
    intro a; simp [tensorSum, npts, hU, hp, msum, dprod, basisFns]
  by_cases hc : c < s.ph.dim
  · have e : ∀ f : ℕ → K, ((List.range s.ph.dim).map f).getD c 0 = f c := fun f => by
      rw [List.getD_eq_getElem _ _ (by simpa using hc)]; simp
    unfold ctrlPoint
    simp only [e, nurbsValue, weightValue, hsum]
    rfl
  · have e : ∀ f : ℕ → K, ((List.range s.ph.dim).map f).getD c 0 = 0 := fun f => by
      rw [List.getD_eq_default _ _ (by simpa using hc)]
    unfold ctrlPoint
    simp only [e, ratio, mul_zero, coxSum, sum_const_zero, zero_div]

/-- **C113** The polyline of the values of a curve at increasing parameters is not longer than the polyline of the control points. -/
theorem C113_length {s : Spl K} (h : WFSpl s) {U : List K} {p : ℕ} (hU : s.ps.knots = [U]) (hp : s.ps.degree = [p]) {m : ℕ} {t : ℕ → K}
    (ht : ∀ j < m, t j ≤ t (j + 1)) (hr : ∀ j ≤ m, knot U 0 ≤ t j ∧ t j ≤ lastKnot U) {y : ℕ → List K}
    (hy : ∀ j ≤ m, s.evaluate [t j] (zl (List.range s.ph.dim)) = .ok (y j)) {ν : (ℕ → K) → K} (hν : Sublinear ν) :
    ∑ j ∈ range m, ν (fun c => (y (j + 1)).getD c 0 - (y j).getD c 0) ≤
      ∑ i ∈ range (U.length - p - 1 - 1), ν fun c => (ctrlPoint s [i + 1]).getD c 0 - (ctrlPoint s [i]).getD c 0 := by
  have hw : WFKnots U p := by have := h.knots; rw [hU, hp] at this; exact (List.forall₂_cons.1 this).1
  have hg : ∀ i < U.length - p - 1, 0 < wgt s [i] := fun i hi => wgt_pos h (by simp [npts, hU, hp]; exact hi)
  let T : ℕ → ℕ → K := fun i j => tailPart U p (fun i => wgt s [i]) (i + 1) (t j)
  let V : ℕ → ℕ → K := fun i c => (ctrlPoint s [i + 1]).getD c 0 - (ctrlPoint s [i]).getD c 0
  have hstep : ∀ j ∈ range m, ν (fun c => (y (j + 1)).getD c 0 - (y j).getD c 0) ≤ ∑ i ∈ range (U.length - p - 1 - 1), (T i (j + 1) - T i j) * ν (V i) := by
    intro j hj
    have hj := mem_range.1 hj
    have e : (fun c => (y (j + 1)).getD c 0 - (y j).getD c 0) = fun c => ∑ i ∈ range (U.length - p - 1 - 1), (T i (j + 1) - T i j) * V i c := by
      funext c
      rw [curve_ratio h hU hp (hr (j + 1) hj).1 (hr (j + 1) hj).2 (hy (j + 1) hj) c, curve_ratio h hU hp (hr j hj.le).1 (hr j hj.le).2 (hy j hj.le) c,
        ratio_tailPart hw hg _ (hr (j + 1) hj).1 (hr (j + 1) hj).2, ratio_tailPart hw hg _ (hr j hj.le).1 (hr j hj.le).2, add_sub_add_left_eq_sub,
        ← sum_sub_distrib]
      exact sum_congr rfl fun i _ => by simp only [T, V]; ring
    rw [e]
    exact hν.sum _ V _ fun i _ => sub_nonneg.2 (tailPart_mono hw hg (i + 1) (hr j hj.le).1 (ht j hj) (hr (j + 1) hj).2)
  refine (sum_le_sum hstep).trans ?_
  rw [sum_comm]
  refine sum_le_sum fun i _ => ?_
  rw [← sum_mul, sum_range_sub (fun j => T i j)]
  have b1 := (tailPart_bounds hw hg (i + 1) (hr m le_rfl).1 (hr m le_rfl).2).2
  have b0 := (tailPart_bounds hw hg (i + 1) (hr 0 (by omega)).1 (hr 0 (by omega)).2).1
  have : T i m - T i 0 ≤ 1 := by simp only [T]; linarith
  exact mul_le_of_le_one_left (hν.nonneg _) this

theorem sublinear_coordinate (c : ℕ) : Sublinear fun f : ℕ → K => |f c| where
  add f g := abs_add_le _ _
  smul a f ha := by rw [abs_mul, abs_of_nonneg ha]
  nonneg f := abs_nonneg _

/-- **C113** The total variation of a coordinate along the curve is at most the one along the control points. -/
theorem C113_variation {s : Spl K} (h : WFSpl s) {U : List K} {p : ℕ} (hU : s.ps.knots = [U]) (hp : s.ps.degree = [p]) {m : ℕ} {t : ℕ → K}
    (ht : ∀ j < m, t j ≤ t (j + 1)) (hr : ∀ j ≤ m, knot U 0 ≤ t j ∧ t j ≤ lastKnot U) {c : ℕ} (hc : c < s.ph.dim) {f : ℕ → K}
    (hf : ∀ j ≤ m, s.evaluate [t j] [(c : ℤ)] = .ok [f j]) :
    ∑ j ∈ range m, |f (j + 1) - f j| ≤ ∑ i ∈ range (U.length - p - 1 - 1), |cpt s [i + 1] c - cpt s [i] c| := by
  have hx : ∀ j ≤ m, InDomain s [t j] := fun j hj => by unfold InDomain; rw [hU]; exact .cons (hr j hj) .nil
  have e : ∀ g : ℕ → K, ((List.range s.ph.dim).map g).getD c 0 = g c := fun g => by
    rw [List.getD_eq_getElem _ _ (by simpa using hc)]; simp
  have := C113_length h hU hp ht hr (y := fun j => (List.range s.ph.dim).map (nurbsValue s [t j])) (fun j hj => evaluate_quotient h (hx j hj) _ (by simp))
    (sublinear_coordinate c)
  unfold ctrlPoint at this
  simp only [e] at this
  refine le_trans (sum_le_sum fun j hj => ?_) this
  have hj := mem_range.1 hj
  have e1 := (hf (j + 1) hj).symm.trans (evaluate_quotient h (hx (j + 1) hj) [c] (by simpa using hc))
  have e0 := (hf j hj.le).symm.trans (evaluate_quotient h (hx j hj.le) [c] (by simpa using hc))
  simp only [Except.ok.injEq, List.map_cons, List.map_nil, List.cons.injEq, and_true] at e0 e1
  rw [e0, e1]

end

/-- The Euclidean length of the first `n` coordinates. -/
noncomputable def euclid (n : ℕ) (f : ℕ → ℝ) : ℝ := Real.sqrt (∑ c ∈ range n, f c ^ 2)

theorem sublinear_euclid (n : ℕ) : Sublinear (euclid n) where
  add f g := by
    have e : ∀ f : ℕ → ℝ, euclid n f = ‖(WithLp.toLp 2 (fun i : Fin n => f i) : EuclideanSpace ℝ (Fin n))‖ := fun f => by
      rw [EuclideanSpace.norm_eq, euclid, Finset.sum_range]
      simp
    rw [e, e, e]
    exact norm_add_le (WithLp.toLp 2 (fun i : Fin n => f i) : EuclideanSpace ℝ (Fin n)) (WithLp.toLp 2 (fun i : Fin n => g i))
  smul a f ha := by
    unfold euclid
    simp only [mul_pow]
    rw [← mul_sum, Real.sqrt_mul (sq_nonneg a), Real.sqrt_sq ha]
  nonneg f := Real.sqrt_nonneg _

/-- **C113** The Euclidean length of the polyline through points of a curve is at most the one of the control polygon. -/
theorem C113_euclid {s : Spl ℝ} (h : WFSpl s) {U : List ℝ} {p : ℕ} (hU : s.ps.knots = [U]) (hp : s.ps.degree = [p]) {m : ℕ} {t : ℕ → ℝ}
    (ht : ∀ j < m, t j ≤ t (j + 1)) (hr : ∀ j ≤ m, knot U 0 ≤ t j ∧ t j ≤ lastKnot U) {y : ℕ → List ℝ}
    (hy : ∀ j ≤ m, s.evaluate [t j] (zl (List.range s.ph.dim)) = .ok (y j)) :
    ∑ j ∈ range m, Real.sqrt (∑ c ∈ range s.ph.dim, ((y (j + 1)).getD c 0 - (y j).getD c 0) ^ 2) ≤
      ∑ i ∈ range (U.length - p - 1 - 1), Real.sqrt (∑ c ∈ range s.ph.dim, (cpt s [i + 1] c - cpt s [i] c) ^ 2) := by
  have := C113_length h hU hp ht hr hy (sublinear_euclid s.ph.dim)
  refine this.trans (le_of_eq (sum_congr rfl fun i _ => ?_))
  unfold euclid
  congr 1
  refine sum_congr rfl fun c hc => ?_
  have e : ∀ g : ℕ → ℝ, ((List.range s.ph.dim).map g).getD c 0 = g c := fun g => by
    rw [List.getD_eq_getElem _ _ (by simpa using mem_range.1 hc)]; simp
  unfold ctrlPoint
  dsimp only
  rw [e, e]

namespace Vtk

/-- **C113** The lines of the VTK file of a curve are not longer than the control polygon, in every coordinate. -/
theorem C113_vtk {s : Spl ℝ} (h : WFSpl s) {U : List ℝ} {p : ℕ} (hU : s.ps.knots = [U]) (hp : s.ps.degree = [p]) {n : ℕ} (hn : 0 < n) :
    ∃ file, writeFile [s] [[(n : ℤ)]] = .ok file ∧ file.points.length = n + 1 ∧ ∀ c < s.ph.dim, c < 3 →
      ∑ j ∈ range n, |(file.points.getD (j + 1) []).getD c 0 - (file.points.getD j []).getD c 0| ≤
        ∑ i ∈ range (U.length - p - 1 - 1), |cpt s [i + 1] c - cpt s [i] c| := by
  obtain ⟨file, e1, e2, e3⟩ := curve_points h hU hn
  refine ⟨file, e1, e2, fun c hc hc3 => ?_⟩
  have hw : knot U 0 < lastKnot U := by have := h.knots; rw [hU, hp] at this; exact (List.forall₂_cons.1 this).1.range
  have hn' : (0 : ℝ) < n := by exact_mod_cast hn
  refine C113_variation h hU hp (t := fun j => knot U 0 + (j : ℝ) * (lastKnot U - knot U 0) / n) (f := fun j => (file.points.getD j []).getD c 0) ?_ ?_ hc ?_
  · intro j _
    have : (j : ℝ) * (lastKnot U - knot U 0) / n ≤ ((j + 1 : ℕ) : ℝ) * (lastKnot U - knot U 0) / n := by
      apply div_le_div_of_nonneg_right _ hn'.le
      apply mul_le_mul_of_nonneg_right _ (by linarith)
      exact_mod_cast Nat.le_succ j
    linarith
  · intro j hj
    have hj' : (j : ℝ) ≤ n := by exact_mod_cast hj
    have b0 : 0 ≤ (j : ℝ) * (lastKnot U - knot U 0) / n := div_nonneg (mul_nonneg (Nat.cast_nonneg _) (by linarith)) hn'.le
    have b1 : (j : ℝ) * (lastKnot U - knot U 0) / n ≤ lastKnot U - knot U 0 := by
      rw [div_le_iff₀ hn', mul_comm]
      exact mul_le_mul_of_nonneg_left hj' (by linarith)
    exact ⟨by linarith, by linarith⟩
  · intro j hj
    obtain ⟨P, hP, eP⟩ := e3 j hj
    have e : file.points.getD j [] = P := by rw [List.getD_eq_getElem?_getD, hP]; rfl
    rw [eP c hc hc3, e]

end Vtk

/-- Satisfiable: the second coordinates of the NURBS curve with the control points (0, 0), (1, 2), (3, 2), (4, 0) at 0, 1/2 and 1 are 0, 2 and 0; the
total variation 4 is the one of the control points, so the bound is sharp. -/
example : ∑ j ∈ range 2, |([0, 2, 0] : List ℚ).getD (j + 1) 0 - ([0, 2, 0] : List ℚ).getD j 0| ≤
    ∑ i ∈ range ([0, 0, 0, 1/2, 1, 1, (1 : ℚ)].length - 2 - 1 - 1), |cpt exNurbs [i + 1] 1 - cpt exNurbs [i] 1| := by
  refine C113_variation exNurbs_wf (U := [0, 0, 0, 1/2, 1, 1, 1]) (p := 2) rfl rfl (t := fun j => (j : ℚ) / 2) (f := fun j => ([0, 2, 0] : List ℚ).getD j 0)
    ?_ ?_ (by decide) ?_
  · intro j _; push_cast; linarith
  · exact (by decide +kernel : ∀ j ≤ 2, knot [0, 0, 0, 1/2, 1, 1, (1 : ℚ)] 0 ≤ ((j : ℕ) : ℚ) / 2 ∧ ((j : ℕ) : ℚ) / 2 ≤ lastKnot [0, 0, 0, 1/2, 1, 1, (1 : ℚ)])
  · exact (by decide +kernel : ∀ j ≤ 2, exNurbs.evaluate [((j : ℕ) : ℚ) / 2] [1] = .ok [([0, 2, 0] : List ℚ).getD j 0])

example : ∑ j ∈ range 2, |([0, 2, 0] : List ℚ).getD (j + 1) 0 - ([0, 2, 0] : List ℚ).getD j 0| = 4 ∧
    ∑ i ∈ range 3, |cpt exNurbs [i + 1] 1 - cpt exNurbs [i] 1| = 4 := by decide +kernel

end SplineLib
