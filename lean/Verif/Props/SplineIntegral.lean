import Verif.Props.Hodograph
import Verif.Props.Smooth
import Verif.Core.BezierForm
import Verif.Core.Integral
import Mathlib.MeasureTheory.Integral.IntervalIntegral.FundThmCalculus

/-!
# The integral of a B-spline

NURBS book, section 5.6 and de Boor, chapter X: every basis function of degree `p` has the integral (width of its support) / (p + 1), so the integral
of the values that `Evaluate` (`/repo/src/spl/spline.h:49-65`) returns over the whole parameter range is a weighted sum of the control points. For a
curve the integral up to a parameter is again a B-spline, of degree `p + 1`, whose control points are the partial sums.
-/

namespace SplineLib
set_option linter.unusedSectionVars false
open Finset

/-- The knots of the antiderivative: the first and the last knot once more. -/
noncomputable def outer (U : List ℝ) : List ℝ := knot U 0 :: (U ++ [lastKnot U])

theorem outer_length (U : List ℝ) : (outer U).length = U.length + 2 := by simp [outer]

theorem outer_inner (U : List ℝ) : (outer U).tail.dropLast = U := by simp [outer]

theorem knot_outer {U : List ℝ} {i : ℕ} (h : i < U.length) : knot (outer U) (i + 1) = knot U i := by
  simp [outer, knot, List.getElem?_append_left h]

theorem knot_outer_zero (U : List ℝ) : knot (outer U) 0 = knot U 0 := by simp [outer, knot]

theorem knot_outer_last (U : List ℝ) : knot (outer U) (U.length + 1) = lastKnot U := by
  simp [outer, knot]

theorem lastKnot_outer (U : List ℝ) : lastKnot (outer U) = lastKnot U := by
  rw [lastKnot, outer_length]
  exact knot_outer_last U

theorem mem_outer {U : List ℝ} {p : ℕ} (h : WFKnots U p) {t : ℝ} : t ∈ outer U ↔ t ∈ U := by
  have hs := h.size
  have a : knot U 0 ∈ U := by
    rw [knot, List.getD_eq_getElem _ _ (by omega)]; exact List.getElem_mem _
  have b : lastKnot U ∈ U := by
    rw [lastKnot, knot, List.getD_eq_getElem _ _ (by omega)]; exact List.getElem_mem _
  constructor
  · intro ht
    simp only [outer, List.mem_cons, List.mem_append, List.not_mem_nil, or_false] at ht
    rcases ht with rfl | ht | rfl
    · exact a
    · exact ht
    · exact b
  · intro ht
    simp [outer, ht]

theorem outer_wf {U : List ℝ} {p : ℕ} (h : WFKnots U p) : WFKnots (outer U) (p + 1) := by
  have hs := h.size
  have fl : ∀ t ∈ U, knot U 0 ≤ t ∧ t ≤ lastKnot U := by
    intro t ht
    obtain ⟨i, hi, rfl⟩ := List.getElem_of_mem ht
    have e : U[i] = knot U i := by rw [knot, List.getD_eq_getElem _ _ hi]
    rw [e]
    exact ⟨h.sorted.first_le hi, h.sorted.le_last hi⟩
  refine ⟨?_, by rw [outer_length]; omega, ?_, ?_, by rw [knot_outer_zero, lastKnot_outer]; exact h.range, ?_⟩
  · unfold SortedKnots outer
    rw [List.pairwise_cons, List.pairwise_append]
    refine ⟨?_, h.sorted, by simp, ?_⟩
    · intro t ht
      simp only [List.mem_append, List.mem_cons, List.not_mem_nil, or_false] at ht
      rcases ht with ht | rfl
      · exact (fl t ht).1
      · exact h.range.le
    · intro t ht b hb
      simp only [List.mem_cons, List.not_mem_nil, or_false] at hb
      subst hb
      exact (fl t ht).2
  · intro j hj
    rw [knot_outer_zero]
    rcases j with _ | j
    · exact knot_outer_zero U
    · rw [knot_outer (by omega)]; exact h.first j (by omega)
  · intro j hj
    rw [lastKnot_outer, outer_length]
    rcases j with _ | j
    · exact knot_outer_last U
    · rw [show U.length + 2 - 1 - (j + 1) = (U.length - 1 - j) + 1 by omega, knot_outer (by omega)]
      exact h.last j (by omega)
  · intro a ha b hb
    exact h.sep a ((mem_outer h).1 ha) b ((mem_outer h).1 hb)

/-- No knot occurs more than `p + 1` times. -/
def AtMost (U : List ℝ) (p : ℕ) : Prop := ∀ t ∈ U, U.count t ≤ p + 1

theorem AtMost.nonDegenerate {U : List ℝ} {p : ℕ} (hm : AtMost U p) (h : WFKnots U p) : NonDegenerate U p := by
  refine nonDegenerate_of_count h.sorted fun x => ?_
  by_cases hx : x ∈ U
  · exact hm x hx
  · rw [List.count_eq_zero_of_not_mem hx]; omega

theorem AtMost.smooth {U : List ℝ} {p : ℕ} (hm : AtMost U p) (h : WFKnots U p) : SmoothAt (outer U) (p + 1) 0 := by
  intro t ht h0 h1
  rw [knot_outer_zero] at h0
  rw [lastKnot_outer] at h1
  have := hm t ((mem_outer h).1 ht)
  have e : (outer U).count t = U.count t := by
    rw [outer, List.count_cons_of_ne h0.ne, List.count_append, List.count_cons_of_ne h1.ne', List.count_nil]
    rfl
  omega

/-- The width of the support of a basis function over the degree plus one. -/
noncomputable def share (U : List ℝ) (p i : ℕ) : ℝ := (knot U (i + p + 1) - knot U i) / ((p : ℝ) + 1)

/-- The antiderivative of a univariate B-spline with the coefficients `c`. -/
noncomputable def anti (U : List ℝ) (p : ℕ) (c : ℕ → ℝ) (x : ℝ) : ℝ :=
  ∑ j ∈ range (U.length - p), coxDeBoor (outer U) (p + 1) j x * ∑ i ∈ range j, c i * share U p i

theorem anti_continuous {U : List ℝ} {p : ℕ} (h : WFKnots U p) (hm : AtMost U p) (c : ℕ → ℝ) :
    ContinuousOn (anti U p c) (Set.Icc (knot U 0) (lastKnot U)) := by
  have hs := h.size
  unfold anti
  refine continuousOn_finsetSum _ fun j hj => ContinuousOn.mul ?_ continuousOn_const
  have := cox_continuousOn (outer_wf h) (i := j) (e := 0) (by rw [outer_length]; have := mem_range.1 hj; omega) (hm.smooth h)
  rw [knot_outer_zero, lastKnot_outer] at this
  simpa only [coxDeBoorDeriv] using this

theorem anti_deriv {U : List ℝ} {p : ℕ} (h : WFKnots U p) (hm : AtMost U p) (c : ℕ → ℝ) {x : ℝ} (h0 : knot U 0 ≤ x) (h1 : x < lastKnot U) :
    HasDerivWithinAt (anti U p c) (∑ i ∈ range (U.length - p - 1), coxDeBoor U p i x * c i) (Set.Ici x) x := by
  have hs := h.size
  have hd := cox_difference (outer_wf h) x 0 fun j => ∑ i ∈ range j, c i * share U p i
  rw [outer_inner, outer_length, show U.length + 2 - (p + 1) - 1 = U.length - p by omega] at hd
  have e : ∑ i ∈ range (U.length - p - 1), coxDeBoor U p i x * c i =
      ∑ j ∈ range (U.length - p), coxDeBoorDeriv (outer U) (p + 1) 1 j x * ∑ i ∈ range j, c i * share U p i := by
    rw [hd]
    refine sum_congr rfl fun i hi => ?_
    have hi' := mem_range.1 hi
    have z : coxDeBoorDeriv U p 0 i x = coxDeBoor U p i x := by cases p <;> rfl
    have nd := hm.nonDegenerate h i (by omega)
    rw [z, sum_range_succ, add_sub_cancel_left, show i + (p + 1) + 1 = (i + p + 1) + 1 by omega, knot_outer (by omega), knot_outer (by omega), share]
    have : (p : ℝ) + 1 ≠ 0 := by positivity
    have : knot U (i + p + 1) - knot U i ≠ 0 := (sub_pos.2 nd).ne'
    push_cast
    field_simp
  rw [e]
  unfold anti
  refine HasDerivWithinAt.fun_sum fun j hj => HasDerivWithinAt.mul_const ?_ _
  have := (cox_spanDeriv (outer_wf h) (x := x) (by rwa [knot_outer_zero]) (by rw [lastKnot_outer]; exact h1.le) (i := j) (k := 0)
    (by rw [outer_length]; have := mem_range.1 hj; omega)).right (by rwa [lastKnot_outer])
  simpa only [coxDeBoorDeriv] using this

theorem anti_first {U : List ℝ} {p : ℕ} (h : WFKnots U p) (hm : AtMost U p) (c : ℕ → ℝ) : anti U p c (knot U 0) = 0 := by
  have hs := h.size
  have nd := hm.nonDegenerate h 0 (by omega)
  refine sum_eq_zero fun j hj => ?_
  have := cox_first (outer_wf h) (by
    rw [knot_outer (by omega), knot_outer (by omega), h.first p le_rfl]; simpa using nd) (i := j) (by rw [outer_length]; have := mem_range.1 hj; omega)
  rw [knot_outer_zero] at this
  rw [this]
  rcases j with _ | j <;> simp

theorem anti_last {U : List ℝ} {p : ℕ} (h : WFKnots U p) (hm : AtMost U p) (c : ℕ → ℝ) :
    anti U p c (lastKnot U) = ∑ i ∈ range (U.length - p - 1), c i * share U p i := by
  have hs := h.size
  have nd := hm.nonDegenerate h (U.length - p - 2) (by omega)
  have hl : knot U (U.length - p - 2 + p + 1) = lastKnot U := by rw [lastKnot]; congr 1; omega
  have e : ∀ j ∈ range (U.length - p), coxDeBoor (outer U) (p + 1) j (lastKnot U) * (∑ i ∈ range j, c i * share U p i) =
      if j = U.length - p - 1 then ∑ i ∈ range (U.length - p - 1), c i * share U p i else 0 := by
    intro j hj
    have := cox_last (outer_wf h) (by
      rw [outer_length, lastKnot_outer, show U.length + 2 - (p + 1) - 2 = U.length - p - 2 + 1 by omega, knot_outer (by omega), ← hl]
      exact nd) (i := j) (by rw [outer_length]; have := mem_range.1 hj; omega)
    rw [lastKnot_outer, outer_length, show U.length + 2 - (p + 1) - 2 = U.length - p - 1 by omega] at this
    rw [this]
    by_cases hj' : j = U.length - p - 1
    · subst hj'; simp
    · simp [hj']
  unfold anti
  rw [sum_congr rfl e, sum_ite_eq', if_pos (mem_range.2 (by omega))]

theorem cox_integrable {U : List ℝ} {p : ℕ} (h : WFKnots U p) (hm : AtMost U p) {i : ℕ} (hi : i < U.length - p - 1) :
    MeasureTheory.IntegrableOn (fun x => coxDeBoor U p i x) (Set.Ioc (knot U 0) (lastKnot U)) := by
  refine intervalIntegral.integrableOn_deriv_right_of_nonneg (g := anti U p fun j => if j = i then 1 else 0) (anti_continuous h hm _) ?_ ?_
  · intro x hx
    have := (anti_deriv h hm (fun j => if j = i then 1 else 0) hx.1.le hx.2).mono Set.Ioi_subset_Ici_self
    simpa [hi] using this
  · intro x hx
    exact cox_nonneg h hx.1.le hx.2.le (by omega)

theorem sum_integrable {U : List ℝ} {p : ℕ} (h : WFKnots U p) (hm : AtMost U p) (c : ℕ → ℝ) :
    IntervalIntegrable (fun x => ∑ i ∈ range (U.length - p - 1), coxDeBoor U p i x * c i) MeasureTheory.volume (knot U 0) (lastKnot U) := by
  rw [intervalIntegrable_iff_integrableOn_Ioc_of_le h.range.le]
  exact MeasureTheory.integrable_finsetSum _ fun i hi => (cox_integrable h hm (mem_range.1 hi)).mul_const _

theorem integral_sum_to {U : List ℝ} {p : ℕ} (h : WFKnots U p) (hm : AtMost U p) (c : ℕ → ℝ) {x : ℝ} (h0 : knot U 0 ≤ x) (h1 : x ≤ lastKnot U) :
    ∫ t in knot U 0..x, ∑ i ∈ range (U.length - p - 1), coxDeBoor U p i t * c i = anti U p c x := by
  rw [intervalIntegral.integral_eq_sub_of_hasDeriv_right_of_le h0 ((anti_continuous h hm c).mono (Set.Icc_subset_Icc_right h1))
    (fun t ht => (anti_deriv h hm c ht.1.le (ht.2.trans_le h1)).mono Set.Ioi_subset_Ici_self)
    ((sum_integrable h hm c).mono_set (by
      rw [Set.uIcc_of_le h0, Set.uIcc_of_le h.range.le]; exact Set.Icc_subset_Icc_right h1)), anti_first h hm, sub_zero]

theorem integral_sum {U : List ℝ} {p : ℕ} (h : WFKnots U p) (hm : AtMost U p) (c : ℕ → ℝ) :
    ∫ t in knot U 0..lastKnot U, ∑ i ∈ range (U.length - p - 1), coxDeBoor U p i t * c i = ∑ i ∈ range (U.length - p - 1), c i * share U p i := by
  rw [integral_sum_to h hm c h.range.le le_rfl, anti_last h hm]

/-- The parameter range of all directions. -/
noncomputable def rangeBox (Us : List (List ℝ)) : List (ℝ × ℝ) := Us.map fun U => (knot U 0, lastKnot U)

theorem boxInt_tensor : ∀ {Us : List (List ℝ)} {ps : List ℕ}, List.Forall₂ WFKnots Us ps → List.Forall₂ AtMost Us ps → ∀ (a : List ℕ → ℝ),
    boxInt (rangeBox Us) (fun x => msum (List.zipWith (fun U p => U.length - p - 1) Us ps) fun I => dprod (basisFns Us ps x) I * a I) =
      msum (List.zipWith (fun U p => U.length - p - 1) Us ps) fun I => dprod (List.zipWith share Us ps) I * a I
  | [], [], _, _, a => rfl
  | U :: Us, p :: ps, .cons h hs, .cons m ms, a => by
    have ih := boxInt_tensor hs ms
    set ns := List.zipWith (fun U p => U.length - p - 1) Us ps with hns
    have e : ∀ (b : ℕ → ℝ) (D : List (ℕ → ℝ)), (∑ i ∈ range (U.length - p - 1), msum ns fun I => b i * dprod D I * a (i :: I)) =
        msum ns fun I => dprod D I * ∑ i ∈ range (U.length - p - 1), b i * a (i :: I) := by
      intro b D
      rw [← msum_sum_comm]
      refine msum_congr fun I _ => ?_
      rw [mul_sum]
      exact sum_congr rfl fun i _ => by ring
    simp only [rangeBox, List.map_cons, boxInt, List.zipWith_cons_cons, msum, basisFns, dprod, ← hns]
    have e1 : ∀ x : ℝ, boxInt (List.map (fun U => (knot U 0, lastKnot U)) Us) (fun xs => ∑ i ∈ range (U.length - p - 1), msum ns fun I =>
        coxDeBoor U p i x * dprod (basisFns Us ps xs) I * a (i :: I)) =
        ∑ i ∈ range (U.length - p - 1), coxDeBoor U p i x * msum ns fun I => dprod (List.zipWith share Us ps) I * a (i :: I) := by
      intro x
      have := ih fun I => ∑ i ∈ range (U.length - p - 1), coxDeBoor U p i x * a (i :: I)
      simp only [e]
      rw [rangeBox] at this
      rw [this, ← e]
      refine sum_congr rfl fun i _ => ?_
      rw [← msum_mul_left]
      exact msum_congr fun I _ => by ring
    simp only [e1]
    rw [integral_sum h m]
    refine sum_congr rfl fun i _ => ?_
    rw [← msum_mul_right]
    exact msum_congr fun I _ => by ring

/-- **C109 (the integral over the parameter range).** The integral of a coordinate of `Evaluate` over the whole parameter range is the sum of the
control points, weighted with the product of the (width of the support) / (degree + 1) of the directions. -/
theorem C109_integral {s : Spl ℝ} (h : WFSpl s) (hb : IsBSpline s) (hm : List.Forall₂ AtMost s.ps.knots s.ps.degree) {c : ℕ} (hc : c < s.ph.dim)
    {f : List ℝ → ℝ} (hf : ∀ x, InDomain s x → s.evaluate x [(c : ℤ)] = .ok [f x]) :
    boxInt (s.ps.knots.map fun U => (knot U 0, lastKnot U)) f =
      msum (npts s) fun I => dprod (List.zipWith (fun U p i => (knot U (i + p + 1) - knot U i) / ((p : ℝ) + 1)) s.ps.knots s.ps.degree) I * cpt s I c := by
  have := boxInt_tensor h.knots hm fun I => cpt s I c
  refine Eq.trans (boxInt_congr ?_ fun x hx => ?_) this
  · intro ab hab
    obtain ⟨U, hU, rfl⟩ := List.mem_map.1 hab
    obtain ⟨i, hi, rfl⟩ := List.getElem_of_mem hU
    exact ((List.forall₂_iff_get.1 h.knots).2 i hi (by rw [← (List.forall₂_iff_get.1 h.knots).1]; exact hi)).range
  · have hd : InDomain s x := by
      rw [InCell, List.forall₂_map_left_iff] at hx
      exact hx.imp fun _ _ h => ⟨h.1, h.2.le⟩
    have e := evaluate_bspline h hb hd [c] (by simpa using hc)
    have e2 := (hf x hd).symm.trans e
    simpa [bsplineValue, tensorSum, npts] using e2

/-- **C109 (the integral up to a parameter).** For a curve there is a B-spline of degree one more, over the knots with the first and the last one
repeated, whose `Evaluate` at every parameter of the range is the integral of the coordinate of `Evaluate` from the first knot to this parameter. -/
theorem C109_antiderivative {s : Spl ℝ} (h : WFSpl s) (hb : IsBSpline s) {U : List ℝ} {p : ℕ} (hU : s.ps.knots = [U]) (hp : s.ps.degree = [p])
    (hm : AtMost U p) {c : ℕ} (hc : c < s.ph.dim) {f : ℝ → ℝ} (hf : ∀ t, knot U 0 ≤ t → t ≤ lastKnot U → s.evaluate [t] [(c : ℤ)] = .ok [f t]) :
    ∃ r : Spl ℝ, WFSpl r ∧ IsBSpline r ∧ r.ps.knots = [knot U 0 :: (U ++ [lastKnot U])] ∧ r.ps.degree = [p + 1] ∧ r.ph.dim = 1 ∧
      r.ph.cps = (List.range (U.length - p)).map (fun j => ∑ i ∈ range j, cpt s [i] c * ((knot U (i + p + 1) - knot U i) / ((p : ℝ) + 1))) ∧
      ∀ t, knot U 0 ≤ t → t ≤ lastKnot U → r.evaluate [t] [0] = .ok [∫ y in knot U 0..t, f y] := by
  have hw : WFKnots U p := by have := h.knots; rw [hU, hp] at this; exact (List.forall₂_cons.1 this).1
  have hs := hw.size
  obtain ⟨B, hB⟩ : ∃ B, PS.basisTable [outer U] [p + 1] = .ok B := ⟨_, basisTable_eq (forall₂_size (.cons (outer_wf hw) .nil))⟩
  set A : List ℝ := (List.range (U.length - p)).map (fun j => ∑ i ∈ range j, cpt s [i] c * share U p i) with hA
  let r : Spl ℝ := ⟨⟨[outer U], [p + 1], B⟩, ⟨1, [((U.length - p : ℕ) : ℤ)], A, none⟩⟩
  have hn : npts r = [U.length - p] := by
    simp only [r, npts, List.zipWith_cons_cons, List.zipWith_nil_left, outer_length]
    congr 1; omega
  have hr : WFSpl r := by
    refine ⟨.cons (outer_wf hw) .nil, hB, ?_, by simp [r], ?_, ?_⟩
    · rw [hn]; rfl
    · rw [hn]; simp [r, hA]
    · intro w hw; simp [r] at hw
  refine ⟨r, hr, rfl, rfl, rfl, rfl, rfl, fun t h0 h1 => ?_⟩
  have hd : InDomain r [t] := .cons ⟨by rw [knot_outer_zero]; exact h0, by rw [lastKnot_outer]; exact h1⟩ .nil
  have e := evaluate_bspline hr rfl hd [0] (by simp [r])
  rw [show zl [0] = [(0 : ℤ)] from rfl] at e
  rw [e]
  congr 1
  simp only [List.map_cons, List.map_nil, List.cons.injEq, and_true]
  have e1 : bsplineValue r [t] 0 = anti U p (fun i => cpt s [i] c) t := by
    rw [bsplineValue, tensorSum, hn]
    simp only [msum, anti, r, basisFns, dprod, mul_one]
    refine sum_congr rfl fun j hj => ?_
    congr 1
    rw [cpt, hn]
    simp [lin, hA, mem_range.1 hj]
  rw [e1, ← integral_sum_to hw hm _ h0 h1]
  refine intervalIntegral.integral_congr fun y hy => ?_
  rw [Set.uIcc_of_le h0] at hy
  have hd' : InDomain s [y] := by rw [InDomain, hU]; exact .cons ⟨hy.1, hy.2.trans h1⟩ .nil
  have e2 := (hf y hy.1 (hy.2.trans h1)).symm.trans (evaluate_bspline h hb hd' [c] (by simpa using hc))
  have e3 : f y = bsplineValue s [y] c := by simpa using e2
  rw [e3, bsplineValue, tensorSum, npts, hU, hp]
  simp [msum, basisFns, dprod]

/-- A curve of degree 2 with an interior knot. -/
noncomputable def exQuadratic : Spl ℝ := ⟨exSmooth.ps, ⟨1, [4], [1, 2, 3, 4], none⟩⟩

theorem exQuadratic_wf : WFSpl exQuadratic where
  knots := .cons exSmooth_knots .nil
  basis := exSmooth_wf.basis
  num := exSmooth_wf.num
  dim := by simp [exQuadratic]
  cps := by simp [exQuadratic, exSmooth, npts]
  weights := by intro w hw; simp [exQuadratic] at hw

theorem exQuadratic_atMost : AtMost [0, 0, 0, 1, 2, 2, (2 : ℝ)] 2 := by
  intro t ht
  simp only [List.mem_cons, List.not_mem_nil, or_false] at ht
  rcases ht with rfl | rfl | rfl | rfl | rfl | rfl | rfl <;> norm_num [List.count_cons]

/-- Satisfiable: the integral of the curve with the control points 1, 2, 3, 4 over [0, 2] is (1·1 + 2·2 + 3·2 + 4·1)/3 = 5. -/
example : ∃ f : List ℝ → ℝ, (∀ x, InDomain exQuadratic x → exQuadratic.evaluate x [(0 : ℕ)] = .ok [f x]) ∧
    boxInt [((0 : ℝ), (2 : ℝ))] f = 5 := by
  have hf : ∀ x, InDomain exQuadratic x → exQuadratic.evaluate x [((0 : ℕ) : ℤ)] = .ok [bsplineValue exQuadratic x 0] :=
    fun x hx => evaluate_bspline exQuadratic_wf rfl hx [0] (by simp [exQuadratic])
  refine ⟨_, hf, ?_⟩
  have := C109_integral exQuadratic_wf rfl (.cons exQuadratic_atMost .nil) (c := 0) (by simp [exQuadratic]) hf
  simp [exQuadratic, exSmooth, npts, msum, dprod, sum_range_succ, cpt, lin, knot, lastKnot] at this
  simp only [exQuadratic, exSmooth]
  rw [this]
  norm_num

end SplineLib
