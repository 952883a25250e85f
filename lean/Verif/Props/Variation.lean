import Verif.Core.Variation
import Verif.Core.Subdivide
import Verif.Core.EvalProps
import Verif.Spec.Examples
import Mathlib.Algebra.Order.Field.Rat

/-!
# C84: variation diminishing

A plane (line, point) meets a curve at most as often as it meets the control polygon: points of the curve that lie alternately on its two sides come
with control points that lie alternately on its two sides.
-/

namespace SplineLib
set_option linter.unusedSectionVars false
open Finset
variable {K : Type} [Field K] [LinearOrder K] [IsStrictOrderedRing K]

/-- Which side of the hyperplane with normal `nrm` and offset `b` the point `y` is on: positive, negative or zero. -/
def planeSide (nrm : List K) (b : K) (y : List K) : K := (List.zipWith (· * ·) nrm y).sum - b

/-- The control point with multi-index `I`. -/
def ctrlPoint (s : Spl K) (I : List ℕ) : List K := (List.range s.ph.dim).map (cpt s I)

/-! ### Linear combinations -/

theorem zip_add (l : List ℕ) (f g : ℕ → K) : ∀ nrm : List K, (List.zipWith (· * ·) nrm (l.map fun c => f c + g c)).sum =
    (List.zipWith (· * ·) nrm (l.map f)).sum + (List.zipWith (· * ·) nrm (l.map g)).sum := by
  induction l with
  | nil => intro nrm; simp
  | cons a l ih =>
    intro nrm
    cases nrm with
    | nil => simp
    | cons n nrm => simp only [List.map_cons, List.zipWith_cons_cons, List.sum_cons, ih]; ring

theorem zip_smul (l : List ℕ) (r : K) (f : ℕ → K) : ∀ nrm : List K, (List.zipWith (· * ·) nrm (l.map fun c => r * f c)).sum =
    r * (List.zipWith (· * ·) nrm (l.map f)).sum := by
  induction l with
  | nil => intro nrm; simp
  | cons a l ih =>
    intro nrm
    cases nrm with
    | nil => simp
    | cons n nrm => simp only [List.map_cons, List.zipWith_cons_cons, List.sum_cons, ih]; ring

theorem zip_zero (l : List ℕ) : ∀ nrm : List K, (List.zipWith (· * ·) nrm (l.map fun _ => (0 : K))).sum = 0 := by
  intro nrm
  have := zip_smul l 0 (fun _ => (0 : K)) nrm
  simpa using this

theorem zip_sum (l : List ℕ) (nrm : List K) (g : ℕ → ℕ → K) : ∀ n : ℕ, (List.zipWith (· * ·) nrm (l.map fun c => ∑ i ∈ range n, g i c)).sum =
    ∑ i ∈ range n, (List.zipWith (· * ·) nrm (l.map (g i))).sum
  | 0 => by simpa using zip_zero l nrm
  | n + 1 => by
    simp only [sum_range_succ]
    rw [zip_add l (fun c => ∑ i ∈ range n, g i c) (g n), zip_sum l nrm g n]

/-! ### Values -/

/-- Both kinds of splines as quotients. -/
theorem evaluate_quotient {s : Spl K} (h : WFSpl s) {x : List K} (hx : InDomain s x) (dims : List ℕ) (hd : ∀ c ∈ dims, c < s.ph.dim) :
    s.evaluate x (zl dims) = .ok (dims.map (nurbsValue s x)) := by
  cases hw : s.ph.weights with
  | none =>
    rw [evaluate_bspline h hw hx dims hd]
    congr 1
    refine List.map_congr_left fun c _ => ?_
    have hg : ∀ I, wgt s I = 1 := fun I => by simp [wgt, hw]
    have h1 : weightValue s x = 1 := by
      unfold weightValue tensorSum
      simp only [hg, mul_one]
      exact tensor_unity h.knots hx
    simp only [nurbsValue, h1, div_one, hg, one_mul]
    rfl
  | some w =>
    rw [evaluate_nurbs h ⟨w, hw⟩ hx dims fun c hc => (hd c hc).le]
    congr 1
    exact List.map_congr_left fun c hc => if_neg (hd c hc).ne

/-- The side of a point of a curve is that of a spline with the sides of the control points as coefficients. -/
theorem curve_side {s : Spl K} (h : WFSpl s) {U : List K} {p : ℕ} (hU : s.ps.knots = [U]) (hp : s.ps.degree = [p]) {t : K} (h0 : knot U 0 ≤ t)
    (h1 : t ≤ lastKnot U) {y : List K} (hy : s.evaluate [t] (zl (List.range s.ph.dim)) = .ok y) (nrm : List K) (b : K) :
    0 < weightValue s [t] ∧
    weightValue s [t] * planeSide nrm b y = coxSum U p (fun i => wgt s [i] * planeSide nrm b (ctrlPoint s [i])) t := by
  have hx : InDomain s [t] := by unfold InDomain; rw [hU]; exact .cons ⟨h0, h1⟩ .nil
  have hW := weightValue_pos h hx
  refine ⟨hW, ?_⟩
  rw [evaluate_quotient h hx _ (by simp)] at hy
  obtain rfl := Except.ok.inj hy
  have hsum : ∀ a : List ℕ → K, tensorSum s [t] a = ∑ i ∈ range (U.length - p - 1), coxDeBoor U p i t * a [i] := by
    intro a; simp [tensorSum, npts, hU, hp, msum, dprod, basisFns]
  have e1 : weightValue s [t] * (List.zipWith (· * ·) nrm ((List.range s.ph.dim).map (nurbsValue s [t]))).sum =
      ∑ i ∈ range (U.length - p - 1), coxDeBoor U p i t * (wgt s [i] * (List.zipWith (· * ·) nrm (ctrlPoint s [i])).sum) := by
    rw [← zip_smul]
    have : ∀ c, weightValue s [t] * nurbsValue s [t] c = ∑ i ∈ range (U.length - p - 1), coxDeBoor U p i t * wgt s [i] * cpt s [i] c := by
      intro c
      unfold nurbsValue
      rw [mul_div_cancel₀ _ hW.ne', hsum]
      exact sum_congr rfl fun i _ => by ring
    simp only [this]
    rw [zip_sum _ nrm fun i c => coxDeBoor U p i t * wgt s [i] * cpt s [i] c]
    refine sum_congr rfl fun i _ => ?_
    rw [zip_smul, mul_assoc]; rfl
  unfold planeSide coxSum
  rw [mul_sub, e1, weightValue, hsum, sum_mul, ← sum_sub_distrib]
  exact sum_congr rfl fun i _ => by ring

/-- **C84** If the points of a curve at increasing parameters lie alternately on the two sides of a hyperplane, there are as many control points, in
increasing order, on the same sides. -/
theorem C84_curve {s : Spl K} (h : WFSpl s) {U : List K} {p : ℕ} (hU : s.ps.knots = [U]) (hp : s.ps.degree = [p]) {m : ℕ} {t : ℕ → K}
    (ht : ∀ j < m, t j < t (j + 1)) (hr : ∀ j ≤ m, knot U 0 ≤ t j ∧ t j ≤ lastKnot U) {y : ℕ → List K}
    (hy : ∀ j ≤ m, s.evaluate [t j] (zl (List.range s.ph.dim)) = .ok (y j)) (nrm : List K) (b : K) (h0 : ∀ j ≤ m, planeSide nrm b (y j) ≠ 0)
    (hv : ∀ j < m, planeSide nrm b (y j) * planeSide nrm b (y (j + 1)) < 0) :
    ∃ i : ℕ → ℕ, (∀ j < m, i j < i (j + 1)) ∧
      ∀ j ≤ m, i j < U.length - p - 1 ∧ 0 < planeSide nrm b (y j) * planeSide nrm b (ctrlPoint s [i j]) := by
  have hw : WFKnots U p := by have := h.knots; rw [hU, hp] at this; cases this; assumption
  have key := fun j (hj : j ≤ m) => curve_side h hU hp (hr j hj).1 (hr j hj).2 (hy j hj) nrm b
  obtain ⟨i, h1, h2⟩ := variation hw (c := fun i => wgt s [i] * planeSide nrm b (ctrlPoint s [i])) ht hr
    (fun j hj => by rw [← (key j hj).2]; exact mul_ne_zero (key j hj).1.ne' (h0 j hj))
    (fun j hj => by
      rw [← (key j hj.le).2, ← (key (j + 1) hj).2]
      have := mul_pos (key j hj.le).1 (key (j + 1) hj).1
      have e : weightValue s [t j] * planeSide nrm b (y j) * (weightValue s [t (j + 1)] * planeSide nrm b (y (j + 1))) =
        weightValue s [t j] * weightValue s [t (j + 1)] * (planeSide nrm b (y j) * planeSide nrm b (y (j + 1))) := by ring
      rw [e]
      exact mul_neg_of_pos_of_neg this (hv j hj))
  refine ⟨i, h1, fun j hj => ⟨(h2 j hj).1, ?_⟩⟩
  have hg : 0 < wgt s [i j] := wgt_pos h (by simp [npts, hU, hp]; exact (h2 j hj).1)
  have := (h2 j hj).2
  simp only [] at this
  rw [← (key j hj).2] at this
  have e : weightValue s [t j] * planeSide nrm b (y j) * (wgt s [i j] * planeSide nrm b (ctrlPoint s [i j])) =
    weightValue s [t j] * wgt s [i j] * (planeSide nrm b (y j) * planeSide nrm b (ctrlPoint s [i j])) := by ring
  rw [e] at this
  exact (mul_pos_iff_of_pos_left (mul_pos (key j hj).1 hg)).1 this

/-- **C84** Monotonicity: if a linear function does not decrease along the control points, it does not decrease along the curve. -/
theorem C84_monotone {s : Spl K} (h : WFSpl s) {U : List K} {p : ℕ} (hU : s.ps.knots = [U]) (hp : s.ps.degree = [p]) (nrm : List K)
    (hm : ∀ i, i + 1 < U.length - p - 1 → planeSide nrm 0 (ctrlPoint s [i]) ≤ planeSide nrm 0 (ctrlPoint s [i + 1])) {t t' : K}
    (h0 : knot U 0 ≤ t) (htt : t ≤ t') (h1 : t' ≤ lastKnot U) {y y' : List K} (hy : s.evaluate [t] (zl (List.range s.ph.dim)) = .ok y)
    (hy' : s.evaluate [t'] (zl (List.range s.ph.dim)) = .ok y') : planeSide nrm 0 y ≤ planeSide nrm 0 y' := by
  by_contra hc
  rw [not_le] at hc
  have hlt : t < t' := by
    refine lt_of_le_of_ne htt ?_
    rintro rfl
    rw [hy] at hy'
    obtain rfl := Except.ok.inj hy'
    exact lt_irrefl _ hc
  have hsub : ∀ (b : K) (z : List K), planeSide nrm b z = planeSide nrm 0 z - b := fun b z => by unfold planeSide; ring
  obtain ⟨b, hb1, hb2⟩ := exists_between hc
  have e0 : ∀ j ≤ 1, j = 0 ∨ j = 1 := by omega
  obtain ⟨i, i1, i2⟩ := C84_curve h hU hp (m := 1) (t := fun j => if j = 0 then t else t') (by
      intro j hj; obtain rfl : j = 0 := by omega
      simpa using hlt) (by
      intro j hj
      rcases e0 j hj with rfl | rfl
      · simpa using ⟨h0, htt.trans h1⟩
      · simpa using ⟨h0.trans htt, h1⟩) (y := fun j => if j = 0 then y else y') (by
      intro j hj
      rcases e0 j hj with rfl | rfl
      · simpa using hy
      · simpa using hy') nrm b (by
      intro j hj
      rw [hsub]
      rcases e0 j hj with rfl | rfl
      · simpa using (sub_pos.2 hb2).ne'
      · simpa using (sub_neg.2 hb1).ne) (by
      intro j hj; obtain rfl : j = 0 := by omega
      rw [hsub, hsub b]
      simpa using mul_neg_of_pos_of_neg (sub_pos.2 hb2) (sub_neg.2 hb1))
  have a0 := (i2 0 (by omega)).2
  have a1 := (i2 1 (by omega)).2
  have b1 := (i2 1 (by omega)).1
  have hi : i 0 < i 1 := i1 0 (by omega)
  simp only [if_true, one_ne_zero, if_false] at a0 a1
  rw [hsub b y, hsub b (ctrlPoint s [i 0])] at a0
  rw [hsub b y', hsub b (ctrlPoint s [i 1])] at a1
  have c0 := (mul_pos_iff_of_pos_left (sub_pos.2 hb2)).1 a0
  have c1 := (mul_pos_iff.1 a1).resolve_left (fun hx => lt_asymm hx.1 (sub_neg.2 hb1))
  have hmono : ∀ a d, a + d < U.length - p - 1 → planeSide nrm 0 (ctrlPoint s [a]) ≤ planeSide nrm 0 (ctrlPoint s [a + d]) := by
    intro a d
    induction d with
    | zero => intro _; exact le_rfl
    | succ d ih => intro hd; exact (ih (by omega)).trans (hm (a + d) (by omega))
  have := hmono (i 0) (i 1 - i 0) (by omega)
  rw [show i 0 + (i 1 - i 0) = i 1 by omega] at this
  linarith [c1.2]

/-! ### Knot insertion -/

theorem homogeneous_blend {s s' : Spl K} {d : ℕ} {U : List K} {p : ℕ} {t : K} (hb : InsBlend s s' d U p t) (hdim : s'.ph.dim = s.ph.dim)
    {I : List ℕ} (hI : InBox (npts s') I) (nrm : List K) (b : K) : wgt s' I * planeSide nrm b (ctrlPoint s' I) =
      blendDir d (spanIx U t + 1 - p) (spanIx U t - kvMult U t) (insα U p t) (fun I => wgt s I * planeSide nrm b (ctrlPoint s I)) I := by
  have hh : ∀ (s : Spl K) I, wgt s I * planeSide nrm b (ctrlPoint s I) =
      (List.zipWith (· * ·) nrm ((List.range s.ph.dim).map fun c => wgt s I * cpt s I c)).sum - b * wgt s I := by
    intro s I
    rw [zip_smul]
    unfold planeSide ctrlPoint
    ring
  obtain ⟨h1, h2⟩ := hb I hI
  simp only [hh, hdim]
  rw [List.map_congr_left fun c hc => h2 c (by simpa using hc), h1]
  unfold blendDir
  split_ifs
  · rfl
  · rw [zip_add _ (fun c => insα U p t (ixd I d) * (wgt s I * cpt s I c))
      (fun c => (1 - insα U p t (ixd I d)) * (wgt s (I.set d (ixd I d - 1)) * cpt s (I.set d (ixd I d - 1)) c)),
      zip_smul _ _ (fun c => wgt s I * cpt s I c), zip_smul _ _ (fun c => wgt s (I.set d (ixd I d - 1)) * cpt s (I.set d (ixd I d - 1)) c)]
    ring
  · rfl

/-- Positive factors do not matter for signs. -/
theorem SameSigns.mul_pos_iff {m n : ℕ} {v c w : ℕ → K} (hw : ∀ i < n, 0 < w i) : SameSigns m v n (fun i => w i * c i) ↔ SameSigns m v n c := by
  have e : ∀ a b c : K, a * (b * c) = b * (a * c) := fun a b c => by ring
  constructor
  · rintro ⟨i, h1, h2⟩
    refine ⟨i, h1, fun j hj => ⟨(h2 j hj).1, ?_⟩⟩
    have := (h2 j hj).2
    rw [e] at this
    exact (mul_pos_iff_of_pos_left (hw _ (h2 j hj).1)).1 this
  · rintro ⟨i, h1, h2⟩
    refine ⟨i, h1, fun j hj => ⟨(h2 j hj).1, ?_⟩⟩
    rw [e]
    exact mul_pos (hw _ (h2 j hj).1) (h2 j hj).2

/-- Sign changes along a row of control points. -/
theorem row_insert_one {s s' : Spl K} (h : WFSpl s) (h' : WFSpl s') {d : ℕ} {U : List K} {p : ℕ} (hU : s.ps.knots[d]? = some U)
    (hp : s.ps.degree[d]? = some p) {t : K} (ht : Admissible U t) (hb : InsBlend s s' d U p t) (hdim : s'.ph.dim = s.ph.dim)
    (hn : npts s' = (npts s).set d (U.length - p - 1 + 1)) {I : List ℕ} (hI : InBox ((npts s).set d 1) I) (nrm : List K) (b : K) {m : ℕ} {v : ℕ → K}
    (hv : ∀ j < m, v j * v (j + 1) < 0)
    (hs : SameSigns m v (U.length - p - 1 + 1) fun i => planeSide nrm b (ctrlPoint s' (I.set d i))) :
    SameSigns m v (U.length - p - 1) fun i => planeSide nrm b (ctrlPoint s (I.set d i)) := by
  have hw := forall₂_get h.knots hU hp
  obtain ⟨hi, hlt, hm, hl1, hl2⟩ := ht.pos hw
  have hh := hi.hi
  have hlo := hi.lo
  have hix : ixd (npts s) d = U.length - p - 1 := nptsOf_ixd hU hp
  have hdn : d < (npts s).length := lt_of_some (nptsOf_get hU hp)
  have hdI : d < I.length := by rw [hI.length, List.length_set]; exact hdn
  have box : ∀ i < U.length - p - 1, InBox (npts s) (I.set d i) := fun i hi => inBox_set_of hI (by rw [hix]; exact hi)
  have box' : ∀ i < U.length - p - 1 + 1, InBox (npts s') (I.set d i) := fun i hi => by
    rw [hn]
    have := inBox_set (d := d) (n := U.length - p - 1 + 1) (i := i) hI hi
    rwa [List.set_set] at this
  rw [← SameSigns.mul_pos_iff (w := fun i => wgt s (I.set d i)) fun i hi => wgt_pos h (box i hi)]
  rw [← SameSigns.mul_pos_iff (w := fun i => wgt s' (I.set d i)) fun i hi => wgt_pos h' (box' i hi)] at hs
  refine SameSigns.of_blend (k := spanIx U t) (first := spanIx U t + 1 - p) (last := spanIx U t - kvMult U t) (α := insα U p t) hv (by omega) (by omega)
    (Nat.sub_le _ _) (by omega) (fun j h1 h2 => (insα_bounds hi (Nat.sub_le _ _) hl1 h1 h2).2.2) (hs.congr fun i hi => ?_)
  rw [homogeneous_blend hb hdim (box' i hi)]
  unfold blendDir blend1
  rw [ixd_set_self hdI]
  simp only [List.set_set]

/-- **C84** Knot insertion does not create sign changes: if control points of a row of the refined spline lie alternately on the two sides of a
hyperplane, there are as many control points in the same row of the original spline, in increasing order, on the same sides. -/
theorem C84_insertKnot {s : Spl K} (h : WFSpl s) {d : ℕ} {U : List K} {p : ℕ} (hU : s.ps.knots[d]? = some U)
    (hp : s.ps.degree[d]? = some p) {t : K} (ht : Admissible U t) (r : ℕ) (hsz : U.length + (r + 1) < 2 ^ 63) :
    ∃ s', s.insertKnot t d (r + 1) = .ok s' ∧ ∀ I, InBox ((npts s).set d 1) I → ∀ (nrm : List K) (b : K) (m : ℕ) (i : ℕ → ℕ),
      (∀ j < m, i j < i (j + 1)) → (∀ j ≤ m, i j < U.length - p - 1 + (r + 1)) →
      (∀ j ≤ m, planeSide nrm b (ctrlPoint s' (I.set d (i j))) ≠ 0) →
      (∀ j < m, planeSide nrm b (ctrlPoint s' (I.set d (i j))) * planeSide nrm b (ctrlPoint s' (I.set d (i (j + 1)))) < 0) →
      ∃ i' : ℕ → ℕ, (∀ j < m, i' j < i' (j + 1)) ∧ ∀ j ≤ m, i' j < U.length - p - 1 ∧
        0 < planeSide nrm b (ctrlPoint s' (I.set d (i j))) * planeSide nrm b (ctrlPoint s (I.set d (i' j))) := by
  have hw := forall₂_get h.knots hU hp
  have hsize := hw.size
  suffices hmain : ∀ r, U.length + (r + 1) < 2 ^ 63 → ∃ s', s.insertKnot t d (r + 1) = .ok s' ∧ ∀ I, InBox ((npts s).set d 1) I →
      ∀ (nrm : List K) (b : K) (m : ℕ) (v : ℕ → K), (∀ j < m, v j * v (j + 1) < 0) →
      SameSigns m v (U.length - p - 1 + (r + 1)) (fun i => planeSide nrm b (ctrlPoint s' (I.set d i))) →
      SameSigns m v (U.length - p - 1) fun i => planeSide nrm b (ctrlPoint s (I.set d i)) by
    obtain ⟨s', e, hs⟩ := hmain r hsz
    exact ⟨s', e, fun I hI nrm b m i h1 h2 h3 h4 => hs I hI nrm b m _ h4 ⟨i, h1, fun j hj => ⟨h2 j hj, mul_self_pos.2 (h3 j hj)⟩⟩⟩
  intro r
  induction r with
  | zero =>
    intro hsz
    obtain ⟨s', e1, w1, d1, k1, g1, b1⟩ := insertKnot_one_blend h hU hp ht (by omega)
    refine ⟨s', e1, fun I hI nrm b m v hv hs => row_insert_one h w1 hU hp ht b1 g1.dim ?_ hI nrm b hv hs⟩
    rw [npts_eq, d1, k1, nptsOf_set _ hp, (ht.pos hw).1.length, npts_eq]; congr 1; omega
  | succ r ih =>
    intro hsz
    obtain ⟨s0, e0, ih⟩ := ih (by omega)
    obtain ⟨s1, s', e1, e2, w1, d1, k1, g1, b1⟩ := insertKnot_last h hU hp ht (r + 1) hsz
    rw [e0] at e1
    obtain rfl := Except.ok.inj e1
    have hf := insMany_facts hw ht (r + 1)
    have hk1 : s0.ps.knots[d]? = some (insMany U t (r + 1)) := by
      rw [k1, List.getElem?_set]; simp [lt_of_some hU]
    have hd1 : s0.ps.degree[d]? = some p := by rw [d1]; exact hp
    obtain ⟨s2, e3, w3, d3, k3, g3, b3⟩ := insertKnot_one_blend w1 hk1 hd1 hf.adm (by rw [hf.length]; omega)
    have e4 := insertKnot_succ hw hU hp ht (by omega) e0 hk1 hd1
    rw [e2, e3] at e4
    obtain rfl := Except.ok.inj e4
    have hn0 : npts s0 = (npts s).set d (U.length - p - 1 + (r + 1)) := by
      rw [npts_eq, d1, k1, nptsOf_set _ hp, hf.length, npts_eq]; congr 1; omega
    refine ⟨s', e2, fun I hI nrm b m v hv hs => ih I hI nrm b m v hv ?_⟩
    have hlen : (insMany U t (r + 1)).length - p - 1 = U.length - p - 1 + (r + 1) := by rw [hf.length]; omega
    have := row_insert_one w1 w3 hk1 hd1 hf.adm b3 g3.dim (by
      rw [npts_eq, d3, k3, nptsOf_set _ hd1, (hf.adm.pos hf.wf).1.length, npts_eq]; congr 1; omega)
      (I := I) (by rw [hn0, List.set_set]; exact hI) nrm b hv (by rw [hlen]; exact hs)
    rw [hlen] at this
    exact this

/-! ## Examples -/

/-- `exCurve` crosses the line `y = 1` twice, as its control polygon does. -/
example : planeSide [0, 1] 1 [(0 : ℚ), 0] < 0 ∧ exCurve.evaluate [0] [0, 1] = .ok [0, 0] ∧ exCurve.evaluate [1/2] [0, 1] = .ok [2, 2] ∧
    exCurve.evaluate [1] [0, 1] = .ok [4, 0] ∧ (List.range 4).map (fun i => planeSide [0, 1] 1 (ctrlPoint exCurve [i])) = [-1, 1, 1, -1] := by
  decide +kernel

/-- The hypotheses of `C84_curve` for this line. -/
example : ∃ i : ℕ → ℕ, (∀ j < 2, i j < i (j + 1)) ∧ ∀ j ≤ 2, i j < 4 := by
  have hy : ∀ j ≤ 2, exCurve.evaluate [((j : ℕ) : ℚ) / 2] (zl (List.range exCurve.ph.dim)) = .ok (if j = 1 then [2, 2] else if j = 0 then [0, 0] else [4, 0]) := by
    have : ∀ j < 3, exCurve.evaluate [((j : ℕ) : ℚ) / 2] [0, 1] = .ok (if j = 1 then [2, 2] else if j = 0 then [0, 0] else [4, 0]) := by decide +kernel
    exact fun j hj => this j (by omega)
  have hr : ∀ j < 3, knot [0, 0, 0, 1/2, 1, 1, 1] 0 ≤ ((j : ℕ) : ℚ) / 2 ∧ ((j : ℕ) : ℚ) / 2 ≤ lastKnot [0, 0, 0, 1/2, 1, 1, 1] := by decide +kernel
  have hn : ∀ j < 3, planeSide [0, 1] (1 : ℚ) (if j = 1 then [2, 2] else if j = 0 then [0, 0] else [4, 0]) ≠ 0 := by decide +kernel
  obtain ⟨i, h1, h2⟩ := C84_curve exCurve_wf (U := [0, 0, 0, 1/2, 1, 1, 1]) (p := 2) rfl rfl (m := 2) (t := fun j => (j : ℚ) / 2)
    (by decide +kernel) (fun j hj => hr j (Nat.lt_succ_of_le hj)) hy [0, 1] 1
    (fun j hj => hn j (Nat.lt_succ_of_le hj)) (by decide +kernel)
  exact ⟨i, h1, fun j hj => (h2 j hj).1⟩

/-- The first coordinate of `exNurbs` is monotone: its control points have the first coordinates 0, 1, 3, 4. -/
example {t t' : ℚ} (h0 : 0 ≤ t) (htt : t ≤ t') (h1 : t' ≤ 1) {y y' : List ℚ} (hy : exNurbs.evaluate [t] [0, 1] = .ok y)
    (hy' : exNurbs.evaluate [t'] [0, 1] = .ok y') : planeSide [1, 0] 0 y ≤ planeSide [1, 0] 0 y' :=
  C84_monotone exNurbs_wf (U := [0, 0, 0, 1/2, 1, 1, 1]) (p := 2) rfl rfl [1, 0] (by
    have : ∀ i < 3, planeSide [1, 0] 0 (ctrlPoint exNurbs [i]) ≤ planeSide [1, 0] 0 (ctrlPoint exNurbs [i + 1]) := by decide +kernel
    intro i hi
    exact this i (by simp at hi; omega)) (by simpa [knot] using h0) htt (by simpa [knot, lastKnot] using h1) hy hy'

example : Admissible ([0, 0, 0, 1/2, 1, 1, 1] : List ℚ) (1/4) := by decide +kernel

end SplineLib
