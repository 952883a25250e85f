import Verif.Props.Variation
import Verif.Props.Reproduce

/-!
# C85: shapes of control polygons

A B-spline curve moves no faster than its control polygon, and it is convex if its control polygon is convex. The control polygon is seen as a
function of the averages of `p` consecutive knots.
-/

namespace SplineLib
set_option linter.unusedSectionVars false
open Finset
variable {K : Type} [Field K] [LinearOrder K] [IsStrictOrderedRing K]

theorem coxSum_add (U : List K) (p : ℕ) (a b : K) (c e : ℕ → K) (x : K) :
    coxSum U p (fun i => a * c i + b * e i) x = a * coxSum U p c x + b * coxSum U p e x := by
  unfold coxSum
  rw [mul_sum, mul_sum, ← sum_add_distrib]
  exact sum_congr rfl fun i _ => by ring

theorem coxSum_const {U : List K} {p : ℕ} (h : WFKnots U p) {x : K} (h0 : knot U 0 ≤ x) (h1 : x ≤ lastKnot U) (a : K) :
    coxSum U p (fun _ => a) x = a := by
  unfold coxSum
  rw [← sum_mul, cox_sum h h0 h1, one_mul]

theorem coxSum_greville {U : List K} {p : ℕ} (h : WFKnots U p) (hp : 1 ≤ p) {x : K} (h0 : knot U 0 ≤ x) (h1 : x ≤ lastKnot U) :
    coxSum U p (greville U p) x = x := by
  have := cox_monomial h h0 h1 hp
  rw [pow_one] at this
  refine Eq.trans (sum_congr rfl fun i _ => ?_) this
  rw [monomialPoint, elemSym_one, Nat.choose_one_right]; rfl

/-- A monotone control polygon gives a monotone function. -/
theorem coxSum_mono {U : List K} {p : ℕ} (h : WFKnots U p) {c : ℕ → K} (hc : ∀ i, i + 1 < U.length - p - 1 → c i ≤ c (i + 1)) {t t' : K}
    (h0 : knot U 0 ≤ t) (htt : t ≤ t') (h1 : t' ≤ lastKnot U) : coxSum U p c t ≤ coxSum U p c t' := by
  by_contra hn
  rw [not_le] at hn
  have hlt : t < t' := by
    refine lt_of_le_of_ne htt ?_
    rintro rfl
    exact lt_irrefl _ hn
  obtain ⟨b, hb1, hb2⟩ := exists_between hn
  have hsub : ∀ x, knot U 0 ≤ x → x ≤ lastKnot U → coxSum U p (fun i => c i - b) x = coxSum U p c x - b := by
    intro x g0 g1
    have := coxSum_add U p 1 (-1) c (fun _ => b) x
    rw [coxSum_const h g0 g1] at this
    rw [show (fun i => c i - b) = fun i => 1 * c i + -1 * b from funext fun i => by ring, this]
    ring
  have e0 := hsub t h0 (htt.trans h1)
  have e1 := hsub t' (h0.trans htt) h1
  have q : ∀ j ≤ 1, j = 0 ∨ j = 1 := by omega
  obtain ⟨i, i1, i2⟩ := variation h (c := fun i => c i - b) (m := 1) (t := fun j => if j = 0 then t else t')
    (by intro j hj; obtain rfl : j = 0 := by omega
        simpa using hlt)
    (by intro j hj; rcases q j hj with rfl | rfl
        · simpa using ⟨h0, htt.trans h1⟩
        · simpa using ⟨h0.trans htt, h1⟩)
    (by intro j hj; rcases q j hj with rfl | rfl
        · simpa [e0] using (sub_pos.2 hb2).ne'
        · simpa [e1] using (sub_neg.2 hb1).ne)
    (by intro j hj; obtain rfl : j = 0 := by omega
        simpa [e0, e1] using mul_neg_of_pos_of_neg (sub_pos.2 hb2) (sub_neg.2 hb1))
  have a0 := (i2 0 (by omega)).2
  have a1 := (i2 1 (by omega)).2
  have b1 := (i2 1 (by omega)).1
  have hi : i 0 < i 1 := i1 0 (by omega)
  simp only [if_true, one_ne_zero, if_false, e0, e1] at a0 a1
  have c0 := (mul_pos_iff_of_pos_left (sub_pos.2 hb2)).1 a0
  have c1 := (mul_pos_iff.1 a1).resolve_left (fun hx => lt_asymm hx.1 (sub_neg.2 hb1))
  have hmono : ∀ a d, a + d < U.length - p - 1 → c a ≤ c (a + d) := by
    intro a d
    induction d with
    | zero => intro _; exact le_rfl
    | succ d ih => intro hd; exact (ih (by omega)).trans (hc (a + d) (by omega))
  have := hmono (i 0) (i 1 - i 0) (by omega)
  rw [show i 0 + (i 1 - i 0) = i 1 by omega] at this
  linarith [c1.2]

/-- A convex control polygon gives a convex function. -/
theorem coxSum_convex {U : List K} {p : ℕ} (h : WFKnots U p) (hp : 1 ≤ p) {c : ℕ → K} (hg : ∀ i, i + 1 < U.length - p - 1 → greville U p i < greville U p (i + 1))
    (hc : ∀ i, i + 2 < U.length - p - 1 → (c (i + 1) - c i) * (greville U p (i + 2) - greville U p (i + 1)) ≤
      (c (i + 2) - c (i + 1)) * (greville U p (i + 1) - greville U p i)) {s t u : K}
    (h0 : knot U 0 ≤ s) (hst : s ≤ t) (htu : t ≤ u) (h1 : u ≤ lastKnot U) :
    (coxSum U p c t - coxSum U p c s) * (u - t) ≤ (coxSum U p c u - coxSum U p c t) * (t - s) := by
  obtain ⟨g, hgd⟩ : ∃ g, g = greville U p := ⟨_, rfl⟩
  obtain ⟨n, hn⟩ : ∃ n, n = U.length - p - 1 := ⟨_, rfl⟩
  rw [← hgd, ← hn] at hg hc
  have gmono : ∀ a d, a + d < n → g a ≤ g (a + d) := by
    intro a d
    induction d with
    | zero => intro _; exact le_rfl
    | succ d ih => intro hd; exact (ih (by omega)).trans (hg (a + d) (by omega)).le
  have glt : ∀ a b, a < b → b < n → g a < g b := by
    intro a b hab hb
    have := gmono (a + 1) (b - a - 1) (by omega)
    rw [show a + 1 + (b - a - 1) = b by omega] at this
    exact lt_of_lt_of_le (hg a (by omega)) this
  -- slopes
  obtain ⟨D, hD⟩ : ∃ D : ℕ → K, D = fun i => (c (i + 1) - c i) / (g (i + 1) - g i) := ⟨_, rfl⟩
  have hDc : ∀ i, i + 1 < n → c (i + 1) - c i = D i * (g (i + 1) - g i) := by
    intro i hi
    rw [hD]; exact (div_mul_cancel₀ _ (sub_pos.2 (hg i hi)).ne').symm
  have hDm1 : ∀ i, i + 2 < n → D i ≤ D (i + 1) := by
    intro i hi
    rw [hD]
    simp only
    rw [div_le_div_iff₀ (sub_pos.2 (hg i (by omega))) (sub_pos.2 (hg (i + 1) (by omega)))]
    exact hc i hi
  have hDm : ∀ a d, a + d + 1 < n → D a ≤ D (a + d) := by
    intro a d
    induction d with
    | zero => intro _; exact le_rfl
    | succ d ih => intro hd; exact (ih (by omega)).trans (hDm1 (a + d) (by omega))
  have hup : ∀ d j, j + d < n → 1 ≤ d → c (j + d) - c j ≤ D (j + d - 1) * (g (j + d) - g j) := by
    intro d
    induction d with
    | zero => intro j _ h; omega
    | succ d ih =>
      intro j hj _
      by_cases hd : d = 0
      · subst hd; rw [show j + (0 + 1) = j + 1 by ring, show j + 1 - 1 = j by omega]; exact (hDc j (by omega)).le
      · have a := ih j (by omega) (by omega)
        have b := hDc (j + d) (by omega)
        have m := hDm1 (j + d - 1) (by omega)
        rw [show j + d - 1 + 1 = j + d by omega] at m
        have gg := gmono j d (by omega)
        rw [show j + (d + 1) = j + d + 1 by ring, show j + d + 1 - 1 = j + d by omega]
        have := mul_le_mul_of_nonneg_right m (sub_nonneg.2 gg)
        nlinarith
  have hlo : ∀ d j, j + d < n → D j * (g (j + d) - g j) ≤ c (j + d) - c j := by
    intro d
    induction d with
    | zero => intro j _; simp
    | succ d ih =>
      intro j hj
      have a := ih j (by omega)
      have b := hDc (j + d) (by omega)
      have m := hDm j d (by omega)
      have := mul_le_mul_of_nonneg_right m (sub_pos.2 (hg (j + d) (by omega))).le
      rw [show j + (d + 1) = j + d + 1 by ring]
      linarith
  have hall : ∀ i j k, i < j → j < k → k < n → (c j - c i) * (g k - g j) ≤ (c k - c j) * (g j - g i) := by
    intro i j k hij hjk hk
    have a := hup (j - i) i (by omega) (by omega)
    have b := hlo (k - j) j (by omega)
    rw [show i + (j - i) = j by omega] at a
    rw [show j + (k - j) = k by omega] at b
    have m := hDm (j - 1) 1 (by omega)
    rw [show j - 1 + 1 = j by omega] at m
    have p1 := sub_pos.2 (glt i j hij (by omega))
    have p2 := sub_pos.2 (glt j k hjk hk)
    calc (c j - c i) * (g k - g j) ≤ D (j - 1) * (g j - g i) * (g k - g j) := mul_le_mul_of_nonneg_right a p2.le
      _ ≤ D j * (g j - g i) * (g k - g j) := mul_le_mul_of_nonneg_right (mul_le_mul_of_nonneg_right m p1.le) p2.le
      _ = D j * (g k - g j) * (g j - g i) := by ring
      _ ≤ _ := mul_le_mul_of_nonneg_right b p1.le
  by_contra hneg
  rw [not_le] at hneg
  have hlt1 : s < t := by
    refine lt_of_le_of_ne hst ?_
    rintro rfl
    simp at hneg
  have hlt2 : t < u := by
    refine lt_of_le_of_ne htu ?_
    rintro rfl
    simp at hneg
  have hsu : 0 < u - s := by linarith
  obtain ⟨F, hF⟩ : ∃ F, F = coxSum U p c := ⟨_, rfl⟩
  rw [← hF] at hneg
  -- the chord, raised by half of the distance to the curve
  obtain ⟨b, hb⟩ : ∃ b, b = (F u - F s) / (u - s) := ⟨_, rfl⟩
  have hbu : b * (u - s) = F u - F s := by rw [hb]; exact div_mul_cancel₀ _ hsu.ne'
  obtain ⟨δ, hδ⟩ : ∃ δ, δ = F t - F s - b * (t - s) := ⟨_, rfl⟩
  have hδp : 0 < δ := by
    have e : δ * (u - s) = (F t - F s) * (u - t) - (F u - F t) * (t - s) := by rw [hδ]; linear_combination (-(t - s)) * hbu
    by_contra hc'
    have := mul_nonpos_of_nonpos_of_nonneg (not_lt.1 hc') hsu.le
    linarith
  have hline : ∀ x, knot U 0 ≤ x → x ≤ lastKnot U →
      coxSum U p (fun i => c i - (F s + δ / 2 + b * (g i - s))) x = F x - (F s + δ / 2 + b * (x - s)) := by
    intro x g0 g1
    have e1 := coxSum_add U p 1 1 c (fun i => (-b) * g i + 1 * (-(F s + δ / 2 - b * s))) x
    have e2 := coxSum_add U p (-b) 1 g (fun _ => -(F s + δ / 2 - b * s)) x
    rw [coxSum_const h g0 g1] at e2
    have e3 := coxSum_greville h hp g0 g1
    rw [← hgd] at e3
    rw [e3] at e2
    rw [e2] at e1
    rw [show (fun i => c i - (F s + δ / 2 + b * (g i - s))) = fun i => 1 * c i + 1 * ((-b) * g i + 1 * (-(F s + δ / 2 - b * s))) from
      funext fun i => by ring, e1, hF]
    ring
  have v0 := hline s h0 (by linarith)
  have v1 := hline t (by linarith) (by linarith)
  have v2 := hline u (by linarith) h1
  have w0 : F s - (F s + δ / 2 + b * (s - s)) < 0 := by linarith
  have w1 : 0 < F t - (F s + δ / 2 + b * (t - s)) := by linarith
  have w2 : F u - (F s + δ / 2 + b * (u - s)) < 0 := by linarith
  have q : ∀ j ≤ 2, j = 0 ∨ j = 1 ∨ j = 2 := by omega
  obtain ⟨i, i1, i2⟩ := variation h (c := fun i => c i - (F s + δ / 2 + b * (g i - s))) (m := 2)
    (t := fun j => if j = 0 then s else if j = 1 then t else u)
    (by intro j hj; rcases (by omega : j = 0 ∨ j = 1) with rfl | rfl
        · simpa using hlt1
        · simpa using hlt2)
    (by intro j hj; rcases q j hj with rfl | rfl | rfl
        · simpa using ⟨h0, by linarith⟩
        · simpa using ⟨by linarith, by linarith⟩
        · simpa using ⟨by linarith, h1⟩)
    (by intro j hj; rcases q j hj with rfl | rfl | rfl
        · simp only [if_true, v0]; exact w0.ne
        · simp only [if_true, one_ne_zero, if_false, v1]; exact w1.ne'
        · simp only [if_false, OfNat.ofNat_ne_zero, OfNat.ofNat_ne_one, v2]; exact w2.ne)
    (by intro j hj; rcases (by omega : j = 0 ∨ j = 1) with rfl | rfl
        · simp only [if_true, zero_add, one_ne_zero, if_false, v0, v1]; exact mul_neg_of_neg_of_pos w0 w1
        · simp only [if_true, one_ne_zero, if_false, OfNat.ofNat_ne_zero, OfNat.ofNat_ne_one, Nat.reduceAdd, v1, v2]
          exact mul_neg_of_pos_of_neg w1 w2)
  have a0 := (i2 0 (by omega)).2
  have a1 := (i2 1 (by omega)).2
  have a2 := i2 2 (by omega)
  have l1 : i 0 < i 1 := i1 0 (by omega)
  have l2 : i 1 < i 2 := i1 1 (by omega)
  simp only [if_true, one_ne_zero, if_false, OfNat.ofNat_ne_zero, OfNat.ofNat_ne_one, v0, v1, v2] at a0 a1 a2
  have c0 := (mul_pos_iff.1 a0).resolve_left (fun hx => lt_asymm hx.1 w0)
  have c1 := (mul_pos_iff_of_pos_left w1).1 a1
  have c2 := (mul_pos_iff.1 a2.2).resolve_left (fun hx => lt_asymm hx.1 w2)
  have hcv := hall (i 0) (i 1) (i 2) l1 l2 (by rw [hn]; exact a2.1)
  have g1 := sub_pos.2 (glt (i 0) (i 1) l1 (by omega))
  have g2 := sub_pos.2 (glt (i 1) (i 2) l2 (by rw [hn]; exact a2.1))
  have r1 : 0 < (c (i 1) - c (i 0) - b * (g (i 1) - g (i 0))) * (g (i 2) - g (i 1)) := mul_pos (by linarith [c0.2]) g2
  have r2 : (c (i 2) - c (i 1) - b * (g (i 2) - g (i 1))) * (g (i 1) - g (i 0)) < 0 := mul_neg_of_neg_of_pos (by linarith [c2.2]) g1
  nlinarith

theorem bspline_side {s : Spl K} (h : WFSpl s) (hb : IsBSpline s) {U : List K} {p : ℕ} (hU : s.ps.knots = [U]) (hp : s.ps.degree = [p]) {t : K}
    (h0 : knot U 0 ≤ t) (h1 : t ≤ lastKnot U) {y : List K} (hy : s.evaluate [t] (zl (List.range s.ph.dim)) = .ok y) (nrm : List K) :
    planeSide nrm 0 y = coxSum U p (fun i => planeSide nrm 0 (ctrlPoint s [i])) t := by
  have hg : ∀ I, wgt s I = 1 := fun I => by unfold IsBSpline at hb; simp [wgt, hb]
  have hx : InDomain s [t] := by unfold InDomain; rw [hU]; exact .cons ⟨h0, h1⟩ .nil
  have hW : weightValue s [t] = 1 := by
    unfold weightValue tensorSum
    simp only [hg, mul_one]
    exact tensor_unity h.knots hx
  have := (curve_side h hU hp h0 h1 hy nrm 0).2
  simpa only [hW, hg, one_mul] using this

/-- **C85** A curve moves no faster than its control polygon: if a linear function changes by at most `L` times the distance of the averages of knots
from one control point to the next, it changes by at most `L` times the distance of the parameters along the curve. -/
theorem C85_lipschitz {s : Spl K} (h : WFSpl s) (hb : IsBSpline s) {U : List K} {p : ℕ} (hU : s.ps.knots = [U]) (hp : s.ps.degree = [p])
    (hp1 : 1 ≤ p) (nrm : List K) {L : K}
    (hL : ∀ i, i + 1 < U.length - p - 1 →
      |planeSide nrm 0 (ctrlPoint s [i + 1]) - planeSide nrm 0 (ctrlPoint s [i])| ≤ L * (greville U p (i + 1) - greville U p i))
    {t t' : K} (h0 : knot U 0 ≤ t) (htt : t ≤ t') (h1 : t' ≤ lastKnot U) {y y' : List K} (hy : s.evaluate [t] (zl (List.range s.ph.dim)) = .ok y)
    (hy' : s.evaluate [t'] (zl (List.range s.ph.dim)) = .ok y') : |planeSide nrm 0 y' - planeSide nrm 0 y| ≤ L * (t' - t) := by
  have hw : WFKnots U p := by have := h.knots; rw [hU, hp] at this; cases this; assumption
  rw [bspline_side h hb hU hp h0 (htt.trans h1) hy nrm, bspline_side h hb hU hp (h0.trans htt) h1 hy' nrm]
  have e : ∀ (a : K) x, knot U 0 ≤ x → x ≤ lastKnot U →
      coxSum U p (fun i => L * greville U p i + a * planeSide nrm 0 (ctrlPoint s [i])) x =
        L * x + a * coxSum U p (fun i => planeSide nrm 0 (ctrlPoint s [i])) x := fun a x g0 g1 => by
    rw [coxSum_add, coxSum_greville hw hp1 g0 g1]
  rw [abs_le]
  constructor
  · have := coxSum_mono hw (c := fun i => L * greville U p i + 1 * planeSide nrm 0 (ctrlPoint s [i])) (fun i hi => by
      have := (abs_le.1 (hL i hi)).1; linarith) h0 htt h1
    rw [e 1 t h0 (htt.trans h1), e 1 t' (h0.trans htt) h1] at this
    linarith
  · have := coxSum_mono hw (c := fun i => L * greville U p i + (-1) * planeSide nrm 0 (ctrlPoint s [i])) (fun i hi => by
      have := (abs_le.1 (hL i hi)).2; linarith) h0 htt h1
    rw [e (-1) t h0 (htt.trans h1), e (-1) t' (h0.trans htt) h1] at this
    linarith

/-- **C85** A curve is convex if its control polygon is convex, both as functions of the parameter, the control points being located at the averages
of knots: slopes that do not decrease from control point to control point give slopes that do not decrease along the curve. -/
theorem C85_convex {s : Spl K} (h : WFSpl s) (hb : IsBSpline s) {U : List K} {p : ℕ} (hU : s.ps.knots = [U]) (hp : s.ps.degree = [p])
    (hp1 : 1 ≤ p) (hg : ∀ i, i + 1 < U.length - p - 1 → greville U p i < greville U p (i + 1)) (nrm : List K)
    (hc : ∀ i, i + 2 < U.length - p - 1 →
      (planeSide nrm 0 (ctrlPoint s [i + 1]) - planeSide nrm 0 (ctrlPoint s [i])) * (greville U p (i + 2) - greville U p (i + 1)) ≤
      (planeSide nrm 0 (ctrlPoint s [i + 2]) - planeSide nrm 0 (ctrlPoint s [i + 1])) * (greville U p (i + 1) - greville U p i))
    {t₁ t₂ t₃ : K} (h0 : knot U 0 ≤ t₁) (h12 : t₁ ≤ t₂) (h23 : t₂ ≤ t₃) (h1 : t₃ ≤ lastKnot U) {y₁ y₂ y₃ : List K}
    (hy₁ : s.evaluate [t₁] (zl (List.range s.ph.dim)) = .ok y₁) (hy₂ : s.evaluate [t₂] (zl (List.range s.ph.dim)) = .ok y₂)
    (hy₃ : s.evaluate [t₃] (zl (List.range s.ph.dim)) = .ok y₃) :
    (planeSide nrm 0 y₂ - planeSide nrm 0 y₁) * (t₃ - t₂) ≤ (planeSide nrm 0 y₃ - planeSide nrm 0 y₂) * (t₂ - t₁) := by
  have hw : WFKnots U p := by have := h.knots; rw [hU, hp] at this; cases this; assumption
  rw [bspline_side h hb hU hp h0 (h12.trans (h23.trans h1)) hy₁ nrm, bspline_side h hb hU hp (h0.trans h12) (h23.trans h1) hy₂ nrm,
    bspline_side h hb hU hp (h0.trans (h12.trans h23)) h1 hy₃ nrm]
  exact coxSum_convex hw hp1 hg hc h0 h12 h23 h1

/-! ## Examples -/

/-- The first coordinate of `exCurve` moves at most with speed 4; the control points are at 0, 1/4, 3/4, 1. -/
example {t t' : ℚ} (h0 : 0 ≤ t) (htt : t ≤ t') (h1 : t' ≤ 1) {y y' : List ℚ} (hy : exCurve.evaluate [t] [0, 1] = .ok y)
    (hy' : exCurve.evaluate [t'] [0, 1] = .ok y') : |planeSide [1, 0] 0 y' - planeSide [1, 0] 0 y| ≤ 4 * (t' - t) :=
  C85_lipschitz exCurve_wf rfl (U := [0, 0, 0, 1/2, 1, 1, 1]) (p := 2) rfl rfl (by decide) [1, 0] (by
    have : ∀ i < 3, |planeSide [1, 0] 0 (ctrlPoint exCurve [i + 1]) - planeSide [1, 0] 0 (ctrlPoint exCurve [i])| ≤
      4 * (greville [0, 0, 0, 1/2, 1, 1, 1] 2 (i + 1) - greville [0, 0, 0, 1/2, 1, 1, 1] 2 i) := by decide +kernel
    intro i hi
    exact this i (by simp at hi; omega)) (by simpa [knot] using h0) htt (by simpa [knot, lastKnot] using h1) hy hy'

/-- The negative of the second coordinate of `exCurve` is convex. -/
example {t₁ t₂ t₃ : ℚ} (h0 : 0 ≤ t₁) (h12 : t₁ ≤ t₂) (h23 : t₂ ≤ t₃) (h1 : t₃ ≤ 1) {y₁ y₂ y₃ : List ℚ}
    (hy₁ : exCurve.evaluate [t₁] [0, 1] = .ok y₁) (hy₂ : exCurve.evaluate [t₂] [0, 1] = .ok y₂) (hy₃ : exCurve.evaluate [t₃] [0, 1] = .ok y₃) :
    (planeSide [0, -1] 0 y₂ - planeSide [0, -1] 0 y₁) * (t₃ - t₂) ≤ (planeSide [0, -1] 0 y₃ - planeSide [0, -1] 0 y₂) * (t₂ - t₁) :=
  C85_convex exCurve_wf rfl (U := [0, 0, 0, 1/2, 1, 1, 1]) (p := 2) rfl rfl (by decide) (by
    have : ∀ i < 3, greville [0, 0, 0, 1/2, 1, 1, (1 : ℚ)] 2 i < greville [0, 0, 0, 1/2, 1, 1, 1] 2 (i + 1) := by decide +kernel
    intro i hi
    exact this i (by simp at hi; omega)) [0, -1] (by
    have : ∀ i < 2, (planeSide [0, -1] 0 (ctrlPoint exCurve [i + 1]) - planeSide [0, -1] 0 (ctrlPoint exCurve [i])) *
        (greville [0, 0, 0, 1/2, 1, 1, 1] 2 (i + 2) - greville [0, 0, 0, 1/2, 1, 1, 1] 2 (i + 1)) ≤
      (planeSide [0, -1] 0 (ctrlPoint exCurve [i + 2]) - planeSide [0, -1] 0 (ctrlPoint exCurve [i + 1])) *
        (greville [0, 0, 0, 1/2, 1, 1, 1] 2 (i + 1) - greville [0, 0, 0, 1/2, 1, 1, 1] 2 i) := by decide +kernel
    intro i hi
    exact this i (by simp at hi; omega)) (by simpa [knot] using h0) h12 h23 (by simpa [knot, lastKnot] using h1) hy₁ hy₂ hy₃

end SplineLib
