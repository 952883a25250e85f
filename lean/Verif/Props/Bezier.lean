import Verif.Core.Bernstein
import Verif.Spec.Bezier
import Verif.Spec.Examples
import Mathlib.Algebra.Order.Field.Rat
import Mathlib.Tactic.LinearCombination
import Mathlib.Algebra.BigOperators.Field

/-!
# C93: Bézier spans and circles
-/

namespace SplineLib
set_option linter.unusedSectionVars false
open Finset
variable {K : Type} [Field K] [LinearOrder K] [IsStrictOrderedRing K]

/-- **C93** In spans whose knots are repeated `p` times in each direction, `Evaluate` of a B-spline returns the tensor product Bézier patch of the control
points that belong to the spans. -/
theorem C93_bspline {s : Spl K} (h : WFSpl s) (hb : IsBSpline s) {ks : List ℕ} {x : List K} (hx : InBezierSpans s.ps.knots s.ps.degree ks x)
    (dims : List ℕ) (hd : ∀ c ∈ dims, c < s.ph.dim) :
    s.evaluate x (zl dims) = .ok (dims.map fun c =>
      bezierSum s.ps.degree (localParams s.ps.knots ks x) fun J => cpt s (spanIndex ks s.ps.degree J) c) := by
  rw [evaluate_bspline h hb (hx.dom h.knots) dims hd]
  congr 1
  exact List.map_congr_left fun c _ => tensorSum_bezier h hx _

/-- **C93** The same for NURBS: the rational Bézier patch. -/
theorem C93_nurbs {s : Spl K} (h : WFSpl s) (hn : IsNurbs s) {ks : List ℕ} {x : List K} (hx : InBezierSpans s.ps.knots s.ps.degree ks x)
    (dims : List ℕ) (hd : ∀ c ∈ dims, c < s.ph.dim) :
    s.evaluate x (zl dims) = .ok (dims.map fun c =>
      (bezierSum s.ps.degree (localParams s.ps.knots ks x) fun J => wgt s (spanIndex ks s.ps.degree J) * cpt s (spanIndex ks s.ps.degree J) c) /
        bezierSum s.ps.degree (localParams s.ps.knots ks x) fun J => wgt s (spanIndex ks s.ps.degree J)) := by
  rw [evaluate_nurbs h hn (hx.dom h.knots) dims fun c hc => (hd c hc).le]
  congr 1
  refine List.map_congr_left fun c hc => ?_
  rw [if_neg (hd c hc).ne]
  unfold nurbsValue weightValue
  rw [tensorSum_bezier h hx, tensorSum_bezier h hx]

theorem bezierSum_one (p : ℕ) (t : K) (F : List ℕ → K) : bezierSum [p] [t] F = bezier p (fun j => F [j]) t := by
  simp [bezierSum, bezier, msum, bernFns, dprod, bern]

theorem bezier_curve_span {s : Spl K} (h : WFSpl s) {p : ℕ} {a b : K} (hU : s.ps.knots = [List.replicate (p + 1) a ++ List.replicate (p + 1) b])
    (hp : s.ps.degree = [p]) {x : K} (hx : a ≤ x ∧ x ≤ b) :
    InBezierSpans s.ps.knots s.ps.degree [p] [x] ∧
      ∀ F : List ℕ → K, bezierSum s.ps.degree (localParams s.ps.knots [p] [x]) (fun J => F (spanIndex [p] s.ps.degree J)) =
        bezier p (fun j => F [j]) ((x - a) / (b - a)) := by
  set U := List.replicate (p + 1) a ++ List.replicate (p + 1) b with hUdef
  have hlen : U.length = 2 * p + 2 := by simp [hUdef]; omega
  have hw : WFKnots U p := by
    have := h.knots
    rw [hU, hp] at this
    cases this with
    | cons h1 _ => exact h1
  have hka : ∀ i ≤ p, knot U i = a := fun i hi => by
    simp [hUdef, knot, List.getD_eq_getElem?_getD, List.getElem?_append, show i < p + 1 by omega]
  have hkb : ∀ i, p < i → i < 2 * p + 2 → knot U i = b := fun i h1 h2 => by
    have e : i - (p + 1) < p + 1 := by omega
    simp [hUdef, knot, List.getD_eq_getElem?_getD, List.getElem?_append, show ¬ i < p + 1 by omega, e]
  have hl : lastKnot U = b := by
    show knot U (U.length - 1) = b
    exact hkb _ (by omega) (by omega)
  have hab : a < b := by
    have := hw.range
    rwa [hka 0 (by omega), hl] at this
  have hspan : InBezierSpan U p p x := by
    refine ⟨by omega, ?_, fun j hj => by rw [hka _ (by omega), hka _ le_rfl], fun j hj => by rw [hkb _ (by omega) (by omega), hkb _ (by omega) (by omega)]⟩
    rw [hka p le_rfl, hkb (p + 1) (by omega) (by omega), hl]
    rcases hx.2.lt_or_eq with h1 | h1
    · exact Or.inl ⟨hx.1, h1⟩
    · exact Or.inr ⟨h1 ▸ hab, h1, h1⟩
  have hx' : InBezierSpans s.ps.knots s.ps.degree [p] [x] := by
    rw [hU, hp]; exact ⟨hspan, trivial⟩
  refine ⟨hx', fun F => ?_⟩
  rw [hU, hp]
  simp only [localParams, hka p le_rfl, hkb (p + 1) (by omega) (by omega), bezierSum_one, spanIndex, List.zipWith_cons_cons, List.zipWith_nil_left, Nat.sub_self,
    Nat.zero_add]

/-- **C93** A curve without interior knots is the Bézier curve of its control points, on the whole range including its ends. -/
theorem C93_bezier_curve {s : Spl K} (h : WFSpl s) (hb : IsBSpline s) {p : ℕ} {a b : K} (hU : s.ps.knots = [List.replicate (p + 1) a ++ List.replicate (p + 1) b])
    (hp : s.ps.degree = [p]) {x : K} (hx : a ≤ x ∧ x ≤ b) (dims : List ℕ) (hd : ∀ c ∈ dims, c < s.ph.dim) :
    s.evaluate [x] (zl dims) = .ok (dims.map fun c => bezier p (fun j => cpt s [j] c) ((x - a) / (b - a))) := by
  obtain ⟨hx', hF⟩ := bezier_curve_span h hU hp hx
  rw [C93_bspline h hb hx' dims hd]
  congr 1
  exact List.map_congr_left fun c _ => hF fun J => cpt s J c

/-- **C93** A NURBS curve without interior knots is the rational Bézier curve of its control points and weights. -/
theorem C93_rational_bezier_curve {s : Spl K} (h : WFSpl s) (hn : IsNurbs s) {p : ℕ} {a b : K}
    (hU : s.ps.knots = [List.replicate (p + 1) a ++ List.replicate (p + 1) b]) (hp : s.ps.degree = [p]) {x : K} (hx : a ≤ x ∧ x ≤ b) (dims : List ℕ)
    (hd : ∀ c ∈ dims, c < s.ph.dim) :
    s.evaluate [x] (zl dims) = .ok (dims.map fun c =>
      bezier p (fun j => wgt s [j] * cpt s [j] c) ((x - a) / (b - a)) / bezier p (fun j => wgt s [j]) ((x - a) / (b - a))) := by
  obtain ⟨hx', hF⟩ := bezier_curve_span h hU hp hx
  rw [C93_nurbs h hn hx' dims hd]
  congr 1
  refine List.map_congr_left fun c _ => ?_
  rw [hF fun J => wgt s J * cpt s J c, hF fun J => wgt s J]

/-! ## Circles -/

/-- Scalar product of the vectors from `m` to the control points `i` and `j`. -/
def fromCentre (s : Spl K) (m : ℕ → K) (i j : ℕ) : K := ∑ c ∈ range s.ph.dim, (cpt s [i] c - m c) * (cpt s [j] c - m c)

/-- The control points `k-2`, `k-1`, `k` describe an arc of the circle with centre `m` and radius `r`: the outer points lie on the circle, the middle
point lies on the tangents there, and the weights are right. (With equal outer weights `w`, the last condition says that the middle weight is `w` times
the cosine of half of the angle of the arc.) -/
structure Arc (s : Spl K) (m : ℕ → K) (r : K) (k : ℕ) : Prop where
  start : fromCentre s m (k - 2) (k - 2) = r ^ 2
  stop : fromCentre s m k k = r ^ 2
  tangentStart : fromCentre s m (k - 2) (k - 1) = r ^ 2
  tangentStop : fromCentre s m (k - 1) k = r ^ 2
  weight : 2 * wgt s [k - 1] ^ 2 * (fromCentre s m (k - 1) (k - 1) - r ^ 2) = wgt s [k - 2] * wgt s [k] * (r ^ 2 - fromCentre s m (k - 2) k)

theorem arc_identity {n : ℕ} {P Q R m : ℕ → K} {u v w r t : K}
    (h1 : ∑ c ∈ range n, (P c - m c) * (P c - m c) = r ^ 2) (h2 : ∑ c ∈ range n, (R c - m c) * (R c - m c) = r ^ 2)
    (h3 : ∑ c ∈ range n, (P c - m c) * (Q c - m c) = r ^ 2) (h4 : ∑ c ∈ range n, (Q c - m c) * (R c - m c) = r ^ 2)
    (h5 : 2 * v ^ 2 * (∑ c ∈ range n, (Q c - m c) * (Q c - m c) - r ^ 2) = u * w * (r ^ 2 - ∑ c ∈ range n, (P c - m c) * (R c - m c)))
    (hD : (1 - t) ^ 2 * u + 2 * t * (1 - t) * v + t ^ 2 * w ≠ 0) :
    ∑ c ∈ range n, (((1 - t) ^ 2 * (u * P c) + 2 * t * (1 - t) * (v * Q c) + t ^ 2 * (w * R c)) / ((1 - t) ^ 2 * u + 2 * t * (1 - t) * v + t ^ 2 * w) - m c) ^ 2 =
      r ^ 2 := by
  set D := (1 - t) ^ 2 * u + 2 * t * (1 - t) * v + t ^ 2 * w with hDdef
  set A := (1 - t) ^ 2 * u with hA
  set B := 2 * t * (1 - t) * v with hB
  set C := t ^ 2 * w with hC
  have e : ∀ c, (((1 - t) ^ 2 * (u * P c) + 2 * t * (1 - t) * (v * Q c) + t ^ 2 * (w * R c)) / D - m c) ^ 2 =
      (A ^ 2 * ((P c - m c) * (P c - m c)) + B ^ 2 * ((Q c - m c) * (Q c - m c)) + C ^ 2 * ((R c - m c) * (R c - m c)) + 2 * A * B * ((P c - m c) * (Q c - m c)) +
        2 * B * C * ((Q c - m c) * (R c - m c)) + 2 * A * C * ((P c - m c) * (R c - m c))) / D ^ 2 := by
    intro c
    have : ((1 - t) ^ 2 * (u * P c) + 2 * t * (1 - t) * (v * Q c) + t ^ 2 * (w * R c)) / D - m c = (A * (P c - m c) + B * (Q c - m c) + C * (R c - m c)) / D := by
      rw [eq_div_iff hD, sub_mul, div_mul_cancel₀ _ hD, hDdef, hA, hB, hC]
      ring
    rw [this, div_pow]
    congr 1
    ring
  rw [sum_congr rfl fun c _ => e c, ← sum_div, div_eq_iff (pow_ne_zero 2 hD)]
  simp only [sum_add_distrib, ← mul_sum]
  rw [h1, h2, h3, h4, hDdef]
  linear_combination 2 * t ^ 2 * (1 - t) ^ 2 * h5

/-- **C93** A quadratic NURBS curve of any dimension whose interior knots are double and whose spans are arcs lies exactly on the circle (on the sphere
with the same centre): `Evaluate` returns a point at distance `r` from `m` for every parameter. -/
theorem C93_circle {s : Spl K} (h : WFSpl s) (hn : IsNurbs s) {U : List K} (hU : s.ps.knots = [U]) (hp : s.ps.degree = [2]) {m : ℕ → K} {r : K}
    (ha : ∀ k, k + 1 < U.length → knot U k < knot U (k + 1) → knot U (k - 1) = knot U k ∧ knot U (k + 2) = knot U (k + 1) ∧ Arc s m r k)
    {x : K} (hx : knot U 0 ≤ x ∧ x ≤ lastKnot U) :
    ∃ v, s.evaluate [x] (zl (List.range s.ph.dim)) = .ok v ∧ v.length = s.ph.dim ∧ ∑ c ∈ range s.ph.dim, (v.getD c 0 - m c) ^ 2 = r ^ 2 := by
  have hw : WFKnots U 2 := by
    have := h.knots
    rw [hU, hp] at this
    cases this with
    | cons h1 _ => exact h1
  obtain ⟨_, hi, hk2, hkl⟩ := hw.span hx.1 hx.2
  set k := spanIx U x
  obtain ⟨hl, hr, harc⟩ := ha k (by omega) (inSpan_lt hi)
  have hx' : InBezierSpans s.ps.knots s.ps.degree [k] [x] := by
    rw [hU, hp]
    refine ⟨⟨by omega, hi, fun j hj => ?_, fun j hj => ?_⟩, trivial⟩
    · rcases (show j = 0 ∨ j = 1 by omega) with rfl | rfl
      · rfl
      · exact hl
    · rcases (show j = 0 ∨ j = 1 by omega) with rfl | rfl
      · rfl
      · exact hr
  have hpos : 0 < weightValue s [x] := weightValue_pos h (hx'.dom h.knots)
  unfold weightValue at hpos
  rw [tensorSum_bezier h hx'] at hpos
  refine ⟨_, C93_nurbs h hn hx' (List.range s.ph.dim) (fun c hc => List.mem_range.1 hc), by simp, ?_⟩
  have hg : ∀ (g : ℕ → K), ∀ c ∈ range s.ph.dim, ((List.range s.ph.dim).map g).getD c 0 = g c := fun g c hc => by
    simp [List.getD_eq_getElem?_getD, List.getElem?_map, List.getElem?_range (mem_range.1 hc)]
  rw [sum_congr rfl fun c hc => by rw [hg _ c hc]]
  rw [hU, hp] at hpos ⊢
  have e1 : k - 2 + 1 = k - 1 := by omega
  have e2 : k - 2 + 2 = k := by omega
  have hb : ∀ (t : K) (F : ℕ → K), bezier 2 F t = (1 - t) ^ 2 * F 0 + 2 * t * (1 - t) * F 1 + t ^ 2 * F 2 := fun t F => by
    simp [bezier, sum_range_succ]
  simp only [localParams, bezierSum_one, spanIndex, List.zipWith_cons_cons, List.zipWith_nil_left, hb, e1, e2, Nat.add_zero] at hpos ⊢
  exact arc_identity harc.start harc.stop harc.tangentStart harc.tangentStop harc.weight hpos.ne'

/-- A unit circle with rational data: four arcs with half angles whose cosines are 4/5, 3/5, 4/5, 3/5. -/
def exCircle : Spl ℚ :=
  ⟨⟨[[0, 0, 0, 1/4, 1/4, 1/2, 1/2, 3/4, 3/4, 1, 1, 1]], [2], mkTable [[0, 0, 0, 1/4, 1/4, 1/2, 1/2, 3/4, 3/4, 1, 1, 1]] [2]⟩,
   ⟨2, [9], [4/5, -3/5, 5/4, 0, 4/5, 3/5, 0, 5/3, -4/5, 3/5, -5/4, 0, -4/5, -3/5, 0, -5/3, 4/5, -3/5], some [1, 4/5, 1, 3/5, 1, 4/5, 1, 3/5, 1]⟩⟩

theorem exCircle_wf : WFSpl exCircle where
  knots := by simp only [exCircle]; exact .cons (by decide +kernel) .nil
  basis := by decide +kernel
  num := by decide +kernel
  dim := by decide +kernel
  cps := by decide +kernel
  weights := by
    intro w h
    obtain rfl : [1, 4/5, 1, 3/5, 1, 4/5, 1, 3/5, 1] = w := by simpa [exCircle] using h
    exact ⟨by decide +kernel, by decide +kernel⟩

/-- Satisfiable: all points of `exCircle` have distance 1 from the origin. -/
example (x : ℚ) (hx : 0 ≤ x ∧ x ≤ 1) : ∃ v, exCircle.evaluate [x] [0, 1] = .ok v ∧ v.length = 2 ∧ ∑ c ∈ range 2, (v.getD c 0 - 0) ^ 2 = 1 ^ 2 := by
  refine C93_circle exCircle_wf ⟨_, rfl⟩ (U := [0, 0, 0, 1/4, 1/4, 1/2, 1/2, 3/4, 3/4, 1, 1, 1]) rfl rfl (m := fun _ => 0) (r := 1) ?_ hx
  have hF : ∀ k < 11, knot ([0, 0, 0, 1/4, 1/4, 1/2, 1/2, 3/4, 3/4, 1, 1, 1] : List ℚ) k < knot [0, 0, 0, 1/4, 1/4, 1/2, 1/2, 3/4, 3/4, 1, 1, 1] (k + 1) →
      knot ([0, 0, 0, 1/4, 1/4, 1/2, 1/2, 3/4, 3/4, 1, 1, 1] : List ℚ) (k - 1) = knot [0, 0, 0, 1/4, 1/4, 1/2, 1/2, 3/4, 3/4, 1, 1, 1] k ∧
      knot ([0, 0, 0, 1/4, 1/4, 1/2, 1/2, 3/4, 3/4, 1, 1, 1] : List ℚ) (k + 2) = knot [0, 0, 0, 1/4, 1/4, 1/2, 1/2, 3/4, 3/4, 1, 1, 1] (k + 1) ∧
      fromCentre exCircle (fun _ => 0) (k - 2) (k - 2) = 1 ^ 2 ∧ fromCentre exCircle (fun _ => 0) k k = 1 ^ 2 ∧
      fromCentre exCircle (fun _ => 0) (k - 2) (k - 1) = 1 ^ 2 ∧ fromCentre exCircle (fun _ => 0) (k - 1) k = 1 ^ 2 ∧
      2 * wgt exCircle [k - 1] ^ 2 * (fromCentre exCircle (fun _ => 0) (k - 1) (k - 1) - 1 ^ 2) =
        wgt exCircle [k - 2] * wgt exCircle [k] * (1 ^ 2 - fromCentre exCircle (fun _ => 0) (k - 2) k) := by decide +kernel
  intro k hk hlt
  obtain ⟨h1, h2, h3, h4, h5, h6, h7⟩ := hF k (by have : k + 1 < 12 := hk; omega) hlt
  exact ⟨h1, h2, h3, h4, h5, h6, h7⟩

/-- A point in the interior of the second arc, and the circle is not degenerate. -/
example : exCircle.evaluate [0] [0, 1] = .ok [4/5, -3/5] ∧ exCircle.evaluate [3/8] [0, 1] = .ok [0, 1] := by decide +kernel

/-- Satisfiable: a cubic Bézier curve. -/
def exBezierCubic : Spl ℚ := ⟨⟨[[1, 1, 1, 1, 3, 3, 3, 3]], [3], mkTable [[1, 1, 1, 1, 3, 3, 3, 3]] [3]⟩, ⟨1, [4], [0, 8, 16, 0], none⟩⟩

theorem exBezierCubic_wf : WFSpl exBezierCubic where
  knots := by simp only [exBezierCubic]; exact .cons (by decide +kernel) .nil
  basis := by decide +kernel
  num := by decide +kernel
  dim := by decide +kernel
  cps := by decide +kernel
  weights := by intro w h; exact absurd h (by simp [exBezierCubic])

example (x : ℚ) (hx : 1 ≤ x ∧ x ≤ 3) : exBezierCubic.evaluate [x] [0] = .ok [bezier 3 (fun j => cpt exBezierCubic [j] 0) ((x - 1) / (3 - 1))] :=
  C93_bezier_curve exBezierCubic_wf rfl (p := 3) (by decide +kernel) rfl hx [0] (by decide)

/-- Satisfiable: the second patch of a surface with a double knot. -/
def exPatch : Spl ℚ :=
  ⟨⟨[[0, 0, 0, 1/2, 1/2, 1, 1, 1], [0, 0, 1, 1]], [2, 1], mkTable [[0, 0, 0, 1/2, 1/2, 1, 1, 1], [0, 0, 1, 1]] [2, 1]⟩,
   ⟨1, [5, 2], [0, 1, 2, 3, 8, 1, 1, 0, 5, 4], none⟩⟩

theorem exPatch_wf : WFSpl exPatch where
  knots := by simp only [exPatch]; exact .cons (by decide +kernel) (.cons (by decide +kernel) .nil)
  basis := by decide +kernel
  num := by decide +kernel
  dim := by decide +kernel
  cps := by decide +kernel
  weights := by intro w h; exact absurd h (by simp [exPatch])

example : exPatch.evaluate [3/4, 1/2] [0] = .ok [bezierSum [2, 1] [1/2, 1/2] fun J => cpt exPatch (spanIndex [4, 1] [2, 1] J) 0] ∧
    exPatch.evaluate [3/4, 1/2] [0] = .ok [15/4] := by
  have hx : InBezierSpans exPatch.ps.knots exPatch.ps.degree [4, 1] [3/4, 1/2] :=
    ⟨⟨by decide, by decide +kernel, by decide +kernel, by decide +kernel⟩, ⟨by decide, by decide +kernel, by decide +kernel, by decide +kernel⟩, trivial⟩
  have := C93_bspline exPatch_wf rfl hx [0] (by decide)
  have e : localParams exPatch.ps.knots [4, 1] [3/4, 1/2] = [1/2, 1/2] := by decide +kernel
  rw [e] at this
  exact ⟨this, by decide +kernel⟩

end SplineLib
