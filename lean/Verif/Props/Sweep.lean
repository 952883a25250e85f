import Verif.Core.Sweep
import Verif.Props.KnotRemoval
import Verif.Props.Generators

/-!
# Properties C49 (frames of a sweep) and C50 (swept surfaces)
-/

namespace SplineLib
set_option linter.unusedSectionVars false
open Finset

section
variable {K : Type} [Field K] [LinearOrder K] [IsStrictOrderedRing K] [HasSqrt K] [LawfulSqrt K]

/-- A frame of the trajectory `T` at the parameter `v`: the origin is the point of the trajectory, the first axis is the unit tangent,
the second axis the vector product of the third and the first; if the first two derivatives are linearly independent the third axis is
the normalised vector product of them, and the axes are orthonormal and right-handed. -/
structure FrameOf (T : Spl K) (v : K) (F : Frame K) : Prop where
  domain : InDomain T [v]
  origin : T.evaluate [v] [0, 1, 2] = .ok [F.t.x, F.t.y, F.t.z]
  axes : ∃ d dd : V3 K, T.evaluateDerivative [v] [0, 1, 2] [1] = .ok [d.x, d.y, d.z] ∧
    T.evaluateDerivative [v] [0, 1, 2] [2] = .ok [dd.x, dd.y, dd.z] ∧ IsUnit3 F.x d ∧ F.y = Gen.cross F.z F.x ∧
    (Gen.cross d dd ≠ ⟨0, 0, 0⟩ → Orthonormal3 F ∧ IsUnit3 F.z (Gen.cross d dd))

theorem frameOf {T : Spl K} (hT : WFSpl T) (nT : IsNurbs T) (hT1 : T.ps.knots.length = 1) (hd : T.ph.dim = 3) {v w : K}
    {prev : V3 K} {i : ℕ} {F : Frame K} (h : Gen.sectionFrame T v prev i = .ok (F, w)) : FrameOf T v F := by
  obtain ⟨a, b, d, dd, e1, e2, e3⟩ := sectionFrame_ok hT nT hT1 hd h
  obtain ⟨g1, g2, g3, g4, g5⟩ := getTransformation_ok e3
  refine ⟨a, ?_, d, dd, e1, e2, g2, g3, fun hc => ⟨(frame_regular e3 hc).1, (g4 hc).1⟩⟩
  have e := evaluate_nurbs hT nT a [0, 1, 2] (by simp [hd])
  rw [show zl [0, 1, 2] = [0, 1, 2] from rfl] at e
  rw [e, g1]
  simp [hd, curvePoint]

/-- The point with the coordinates `p`, each scaled by its factor, in the frame `F`: origin plus multiples of the three axes. -/
def inFrame (F : Frame K) (sc p : V3 K) : V3 K :=
  let c1 := sc.x * p.x
  let c2 := sc.y * p.y
  let c3 := sc.z * p.z
  ⟨F.t.x + (c1 * F.x.x + c2 * F.y.x + c3 * F.z.x), F.t.y + (c1 * F.x.y + c2 * F.y.y + c3 * F.z.y),
    F.t.z + (c1 * F.x.z + c2 * F.y.z + c3 * F.z.z)⟩

theorem transform_inFrame : (Gen.transform : Frame K → V3 K → V3 K → V3 K) = inFrame := by
  funext F sc p
  unfold Gen.transform inFrame
  simp only [V3.mk.injEq]
  refine ⟨?_, ?_, ?_⟩ <;> ring

/-- **C49.** If a sweep of the section `C` along the trajectory `T` succeeds, control point `(i, j)` of the surface is the `j`-th
control point of `C`, scaled by the `i`-th scaling factors and put into a frame of the trajectory at the `i`-th of `nb` equidistant
parameters; its weight is the weight of the control point of `C` times the weight of the trajectory at this parameter. -/
theorem C49_sections {T C : Spl K} (hT : WFSpl T) (hC : WFSpl C) (nT : IsNurbs T) (hT1 : T.ps.knots.length = 1)
    (hC1 : C.ps.knots.length = 1) (hTd : T.ph.dim = 3) (hCd : C.ph.dim = 3)
    {nb : ℕ} (hp : ∀ p ∈ T.ps.degree, 1 ≤ p ∧ p + 1 ≤ nb) (hsz : nb * (npts C).prod < 2 ^ 64) (hstep : kEps K ≤ sweepStep T nb)
    {scaling : List (V3 K)} {s : Spl K} (h : Gen.sweep T C nb scaling = .ok s) :
    WFSpl s ∧ IsNurbs s ∧ s.ph.dim = 3 ∧ npts s = [nb, (npts C).prod] ∧
    ∃ F : ℕ → Frame K, ∀ i < nb, FrameOf T ((i : K) * sweepStep T nb) (F i) ∧
      ∃ sc, scaling[i]? = some sc ∧ ∀ j < (npts C).prod,
        (⟨cpt s [i, j] 0, cpt s [i, j] 1, cpt s [i, j] 2⟩ : V3 K) = inFrame (F i) sc ⟨cpt C [j] 0, cpt C [j] 1, cpt C [j] 2⟩ ∧
        wgt s [i, j] = wgt C [j] * weightValue T [(i : K) * sweepStep T nb] := by
  obtain ⟨hl, F, ω, hF, hs⟩ := sweep_surface hT hC nT hT1 hC1 hTd hCd hp hsz hstep h
  refine ⟨hs.wf, hs.nurbs, hs.dim, hs.npts, F, ?_⟩
  intro i hi
  refine ⟨frameOf hT nT hT1 hTd (hF i hi), scaling[i], List.getElem?_eq_getElem _, ?_⟩
  intro j hj
  refine ⟨?_, hs.weight i hi j hj⟩
  have := hs.point i hi j hj
  unfold sweptPoint at this
  rw [List.getD_eq_getElem?_getD, List.getElem?_eq_getElem (by omega), transform_inFrame] at this
  exact this

/-- **C49**, congruent sections: with unit scaling and an orthonormal frame distances between the points of a section are those of `C`. -/
theorem C49_congruent_sections {F : Frame K} (h : Orthonormal3 F) (p q : V3 K) :
    let a := inFrame F ⟨1, 1, 1⟩ p
    let b := inFrame F ⟨1, 1, 1⟩ q
    (a.x - b.x) * (a.x - b.x) + (a.y - b.y) * (a.y - b.y) + (a.z - b.z) * (a.z - b.z) =
      (p.x - q.x) * (p.x - q.x) + (p.y - q.y) * (p.y - q.y) + (p.z - q.z) * (p.z - q.z) := by
  rw [← transform_inFrame]
  exact transform_congruent h p q

/-- **C49**, when a frame is refused: with linearly independent derivatives the only failure is a `runtime_error`, and it occurs only
after the first section when the new third axis would be perpendicular to the previous one. -/
theorem C49_refused_frame (t prev : V3 K) {d dd : V3 K} {i : ℕ} (hc : Gen.cross d dd ≠ ⟨0, 0, 0⟩) :
    (∃ F, Gen.getTransformation t d dd prev i = .ok F) ∨
      (Gen.getTransformation t d dd prev i = .error (.thrown .runtimeError) ∧ i ≠ 0 ∧ Gen.dot (Gen.cross d dd) prev = 0) :=
  frame_exists t prev hc

/-- **C49**, straight parts of a trajectory, partial: where the first two derivatives are linearly dependent the axes are orthonormal if
the previous third axis is a unit vector perpendicular to the tangent and to the position vector of the trajectory. The code
orthogonalises the previous axis against the position vector instead of the tangent; see `C49_straight_counterexample`. -/
theorem C49_straight_partial {t d dd prev : V3 K} {i : ℕ} (hc : Gen.cross d dd = ⟨0, 0, 0⟩) (hd : d ≠ ⟨0, 0, 0⟩)
    (h1 : Gen.dot prev prev = 1) (h2 : Gen.dot prev t = 0) (h3 : Gen.dot prev d = 0) :
    ∃ F, Gen.getTransformation t d dd prev i = .ok F ∧ Orthonormal3 F ∧ F.z = prev ∧ F.t = t := by
  have hpn : Gen.norm prev = 1 := by
    have a := norm_sq prev
    have b := norm_nonneg' prev
    rw [h1] at a
    rcases mul_self_eq_one_iff.1 a with e | e
    · exact e
    · rw [e] at b; linarith
  have hdn : Gen.norm d ≠ 0 := fun e => hd (norm_eq_zero.1 e)
  have e1 : Gen.computeNormal t d dd prev i = .ok prev := by
    unfold Gen.computeNormal
    dsimp only
    rw [if_neg (by rw [norm_eq_zero.2 hc]; exact lt_irrefl _), h2]
    simp only [zero_mul, sub_zero]
    rw [hpn, divBy_eq one_ne_zero]
    simp only [div_one]
  have e2 : Gen.getTransformation t d dd prev i = .ok ⟨⟨d.x / Gen.norm d, d.y / Gen.norm d, d.z / Gen.norm d⟩,
      Gen.cross prev ⟨d.x / Gen.norm d, d.y / Gen.norm d, d.z / Gen.norm d⟩, prev, t⟩ := by
    unfold Gen.getTransformation
    rw [e1, ok_bind, divBy_eq hdn]; rfl
  obtain ⟨_, hx, hy, _, _⟩ := getTransformation_ok e2
  refine ⟨_, e2, orthonormal_of hx.1 h1 hy ?_, rfl, rfl⟩
  rw [dot_of_unit hx, dot_comm']; exact h3

/-- **C50.** Every point of a swept surface is the weighted mean of the positions that the point `C(v)` takes in the sections, with
the basis functions of the averaged knots times the weights of the trajectory. The surface starts with the first and ends with
the last section: `S(0, v)` and `S(last, v)` are the images of `C(v)` in the first and last frame. -/
theorem C50_swept_surface {T C : Spl K} (hT : WFSpl T) (hC : WFSpl C) (nT : IsNurbs T) (nC : IsNurbs C) (hT1 : T.ps.knots.length = 1)
    (hC1 : C.ps.knots.length = 1) (hTd : T.ph.dim = 3) (hCd : C.ph.dim = 3)
    {nb : ℕ} (hp : ∀ p ∈ T.ps.degree, 1 ≤ p ∧ p + 1 ≤ nb) (hsz : nb * (npts C).prod < 2 ^ 64) (hstep : kEps K ≤ sweepStep T nb)
    {scaling : List (V3 K)} {s : Spl K} (h : Gen.sweep T C nb scaling = .ok s) :
    ∃ (V : List K) (p : ℕ), s.ps.knots = V :: C.ps.knots ∧ s.ps.degree = T.ps.degree ++ C.ps.degree ∧ T.ps.degree = [p] ∧
      knot V 0 = 0 ∧ lastKnot V = ((nb : K) - 1) * sweepStep T nb ∧ V.length = nb + p + 1 ∧
    ∃ (F : ℕ → Frame K) (ω : ℕ → K), (∀ i < nb, FrameOf T ((i : K) * sweepStep T nb) (F i) ∧
        T.evaluate [(i : K) * sweepStep T nb] [3] = .ok [ω i]) ∧
      ∀ u v, knot V 0 ≤ u → u ≤ lastKnot V → InDomain C [v] → ∃ P : V3 K, C.evaluate [v] [0, 1, 2] = .ok [P.x, P.y, P.z] ∧
        let B := fun i => coxDeBoor V p i u * ω i
        let Q := fun i => inFrame (F i) (scaling.getD i ⟨1, 1, 1⟩) P
        s.evaluate [u, v] [0, 1, 2] = .ok [(∑ i ∈ range nb, B i * (Q i).x) / ∑ i ∈ range nb, B i,
          (∑ i ∈ range nb, B i * (Q i).y) / ∑ i ∈ range nb, B i, (∑ i ∈ range nb, B i * (Q i).z) / ∑ i ∈ range nb, B i] ∧
        (u = knot V 0 → s.evaluate [u, v] [0, 1, 2] = .ok [(Q 0).x, (Q 0).y, (Q 0).z]) ∧
        (u = lastKnot V → s.evaluate [u, v] [0, 1, 2] = .ok [(Q (nb - 1)).x, (Q (nb - 1)).y, (Q (nb - 1)).z]) := by
  rw [← transform_inFrame]
  obtain ⟨hl, F, ω, hF, hs⟩ := sweep_surface hT hC nT hT1 hC1 hTd hCd hp hsz hstep h
  obtain ⟨UT, pT, hTU, hTp, hTk, hTn⟩ := curve_data hT hT1
  obtain ⟨hp1, hpn⟩ := hp pT (by rw [hTp]; simp)
  have hdeg : T.ps.degree.getD 0 0 = pT := by rw [hTp]; rfl
  have hst0 : 0 < sweepStep T nb := lt_of_lt_of_le kEps_pos' hstep
  have hwf := sweepKnots_wf hp1 hpn hstep
  have hends := sweepKnots_exactEnds hp1 hpn hst0
  have hkn := hs.knots
  have hω : ∀ i < nb, InDomain T [(i : K) * sweepStep T nb] := fun i hi => (sectionFrame_ok hT nT hT1 hTd (hF i hi)).1
  rw [hdeg] at hkn
  refine ⟨sweepKnots (sweepStep T nb) pT nb, pT, hkn, hs.degree, hTp, sweepKnots_first, by rw [sweepKnots_last hpn, mul_comm],
    sweepKnots_length _ _ _, F, fun i => weightValue T [(i : K) * sweepStep T nb], ?_, ?_⟩
  · intro i hi
    refine ⟨frameOf hT nT hT1 hTd (hF i hi), ?_⟩
    have e := evaluate_nurbs hT nT (hω i hi) [3] (by simp [hTd])
    rw [show zl [3] = [3] from rfl] at e
    rw [e]; simp [hTd]
  · intro u v hu0 hu1 hv
    have hx : InDomain s [u, v] := by
      unfold InDomain at hv ⊢
      rw [hkn]
      exact .cons ⟨hu0, hu1⟩ hv
    obtain ⟨_, hw, hval⟩ := swept_surface_values hT hC hT1 hC1 hs hx
    rw [hdeg] at hw hval
    have eC := evaluate_nurbs hC nC hv [0, 1, 2] (by simp [hCd])
    have eS := evaluate_nurbs hs.wf hs.nurbs hx [0, 1, 2] (by simp [hs.dim])
    rw [show zl [0, 1, 2] = [0, 1, 2] from rfl] at eC eS
    have eS' : s.evaluate [u, v] [0, 1, 2] = .ok [nurbsValue s [u, v] 0, nurbsValue s [u, v] 1, nurbsValue s [u, v] 2] := by
      rw [eS]; simp [hs.dim]
    refine ⟨curvePoint C v, by rw [eC]; simp [hCd, curvePoint], ?_⟩
    dsimp only
    have single : ∀ k < nb, (∀ i < nb, coxDeBoor (sweepKnots (sweepStep T nb) pT nb) pT i u = if i = k then 1 else 0) →
        ∀ g : ℕ → K, (∑ i ∈ range nb, coxDeBoor (sweepKnots (sweepStep T nb) pT nb) pT i u * weightValue T [(i : K) * sweepStep T nb]
          * g i) / (∑ i ∈ range nb, coxDeBoor (sweepKnots (sweepStep T nb) pT nb) pT i u * weightValue T [(i : K) * sweepStep T nb])
          = g k := by
      intro k hk hc g
      have a1 : ∀ f : ℕ → K, ∑ i ∈ range nb, coxDeBoor (sweepKnots (sweepStep T nb) pT nb) pT i u * f i = f k := by
        intro f
        rw [Finset.sum_eq_single k]
        · rw [hc k hk, if_pos rfl, one_mul]
        · intro i hi hik
          rw [hc i (Finset.mem_range.1 hi), if_neg hik, zero_mul]
        · intro hk'; exact absurd (Finset.mem_range.2 hk) hk'
      simp only [mul_assoc]
      rw [a1, a1]
      exact mul_div_cancel_left₀ _ (weightValue_pos hT (hω k hk)).ne'
    refine ⟨by rw [eS', hval 0 (by omega), hval 1 (by omega), hval 2 (by omega)]; rfl, ?_, ?_⟩
    · intro hu
      rw [eS', hval 0 (by omega), hval 1 (by omega), hval 2 (by omega)]
      have hc : ∀ i < nb, coxDeBoor (sweepKnots (sweepStep T nb) pT nb) pT i u = if i = 0 then 1 else 0 := by
        intro i hi
        rw [hu]
        exact cox_first hwf hends.1 (by rw [sweepKnots_length]; omega)
      rw [single 0 (by omega) hc, single 0 (by omega) hc, single 0 (by omega) hc]
      rfl
    · intro hu
      rw [eS', hval 0 (by omega), hval 1 (by omega), hval 2 (by omega)]
      have hc : ∀ i < nb, coxDeBoor (sweepKnots (sweepStep T nb) pT nb) pT i u = if i = nb - 1 then 1 else 0 := by
        intro i hi
        rw [hu, cox_last hwf hends.2 (by rw [sweepKnots_length]; omega), sweepKnots_length]
        congr 1
        apply propext
        omega
      rw [single (nb - 1) (by omega) hc, single (nb - 1) (by omega) hc, single (nb - 1) (by omega) hc]
      rfl

/-- **C50**, parameter range of the trajectory: the parameters at which the trajectory is evaluated start at 0 instead of the first
knot, so a sweep succeeds only if the first knot of the trajectory is 0. -/
theorem C50_trajectory_starts_at_zero {T C : Spl K} (hT : WFSpl T) (hC : WFSpl C) (nT : IsNurbs T) (hT1 : T.ps.knots.length = 1)
    (hC1 : C.ps.knots.length = 1) (hTd : T.ph.dim = 3) (hCd : C.ph.dim = 3) {nb : ℕ} (hn : 2 ≤ nb)
    {scaling : List (V3 K)} {s : Spl K} (h : Gen.sweep T C nb scaling = .ok s) : ∀ U ∈ T.ps.knots, knot U 0 = 0 := by
  obtain ⟨UT, pT, hTU, hTp, hTk, hTn⟩ := curve_data hT hT1
  obtain ⟨_, F, ω, hF, _⟩ := sweep_frames hT hC hT1 hC1 hCd.ge hn h
  have d0 := (sectionFrame_ok hT nT hT1 hTd (hF 0 (by omega))).1
  have d1 := (sectionFrame_ok hT nT hT1 hTd (hF (nb - 1) (by omega))).1
  have hst : sweepStep T nb = (lastKnot UT - knot UT 0) / ((nb : K) - 1) := by unfold sweepStep; rw [hTU]; rfl
  have hn1 : 0 < (nb : K) - 1 := by
    have : (2 : K) ≤ nb := by exact_mod_cast hn
    linarith
  unfold InDomain at d0 d1
  rw [hTU] at d0 d1
  cases d0 with | cons a0 _ => cases d1 with | cons a1 _ =>
    intro U hU
    rw [hTU, List.mem_singleton] at hU
    subst hU
    have h1 := a0.1
    have h2 := a1.2
    rw [Nat.cast_sub (by omega), hst, Nat.cast_one, mul_div_cancel₀ _ hn1.ne'] at h2
    rw [Nat.cast_zero, zero_mul] at h1
    linarith

end
/-- A quarter of a circle. -/
def exArc : Spl ℚ := ⟨⟨[[0, 0, 0, 1, 1, 1]], [2], mkTable [[0, 0, 0, 1, 1, 1]] [2]⟩, ⟨3, [3], [1, 0, 0, 1, 1, 0, 0, 1, 0], some [1, 1, 2]⟩⟩

theorem exArc_wf : WFSpl exArc where
  knots := by simp only [exArc]; exact .cons (by decide +kernel) .nil
  basis := by decide +kernel
  num := by decide +kernel
  dim := by decide +kernel
  cps := by decide +kernel
  weights := by
    intro w h
    obtain rfl : [1, 1, 2] = w := by simpa [exArc] using h
    exact ⟨by decide +kernel, by decide +kernel⟩

/-- A line segment in space with the given end points. -/
def exSegment (a b : List ℚ) : Spl ℚ := ⟨⟨[[0, 0, 1, 1]], [1], mkTable [[0, 0, 1, 1]] [1]⟩, ⟨3, [2], a ++ b, some [1, 2]⟩⟩

theorem exSegment_wf {a b : List ℚ} (ha : a.length = 3) (hb : b.length = 3) : WFSpl (exSegment a b) where
  knots := by simp only [exSegment]; exact .cons (by decide +kernel) .nil
  basis := by simp only [exSegment]; decide +kernel
  num := by simp [exSegment, npts]
  dim := by simp [exSegment]
  cps := by simp [exSegment, npts, ha, hb]
  weights := by
    intro w h
    obtain rfl : [1, 2] = w := by simpa [exSegment] using h
    exact ⟨by simp [exSegment, npts], by decide +kernel⟩

/-- A case that meets the hypotheses of C49 and C50 (apart from the choice of the number type): a segment swept along a quarter of a
circle with three sections. -/
example : WFSpl exArc ∧ WFSpl (exSegment [0, 0, 0] [0, 1, 1]) ∧ kEps ℚ ≤ sweepStep exArc 3 ∧
    (@Gen.sweep ℚ _ _ ratSqrt exArc (exSegment [0, 0, 0] [0, 1, 1]) 3 [⟨1, 1, 1⟩, ⟨1, 1, 1⟩, ⟨1, 2, 1⟩]).map
      (fun s => (s.ps.knots, s.ph.cps, s.ph.weights)) = .ok ([[0, 0, 0, 1, 1, 1], [0, 0, 1, 1]],
        [1, 0, 0, 3/5, 4/5, 0, 0, 1, 0, 0, 0, 1, 0, 0, 1, 0, -1, 1], some [1, 5/4, 2, 2, 5/2, 4]) :=
  ⟨exArc_wf, exSegment_wf rfl rfl, by decide +kernel, by decide +kernel⟩

/-- **C49**, counterexample for straight trajectories: the sweep along a straight line succeeds, but the first section is not congruent
to the section curve although all scaling factors are 1: the control points of `C` have the squared distance 2, those of the section
2/5. (All square roots are exact here.) -/
theorem C49_straight_counterexample :
    ∃ T C s : Spl ℚ, WFSpl T ∧ WFSpl C ∧ IsNurbs T ∧ IsNurbs C ∧ T.ph.dim = 3 ∧ C.ph.dim = 3 ∧
      @Gen.sweep ℚ _ _ ratSqrt T C 2 [⟨1, 1, 1⟩, ⟨1, 1, 1⟩] = .ok s ∧
      ((List.range 3).map fun c => (cpt C [0] c - cpt C [1] c) ^ 2).sum = 2 ∧
      ((List.range 3).map fun c => (cpt s [0, 0] c - cpt s [0, 1] c) ^ 2).sum = 2 / 5 := by
  refine ⟨exSegment [2, 0, 1/2] [3/8, 0, 1/2], exSegment [1, 0, 0] [0, 0, 1],
    ⟨⟨[[0, 0, 1, 1], [0, 0, 1, 1]], [1, 1], mkTable [[0, 0, 1, 1], [0, 0, 1, 1]] [1, 1]⟩,
      ⟨3, [2, 2], [1, 0, 1/2, -5/8, 0, 1/2, 6/5, 0, 11/10, -17/40, 0, 11/10], some [1, 2, 2, 4]⟩⟩,
    exSegment_wf rfl rfl, exSegment_wf rfl rfl, ⟨_, rfl⟩, ⟨_, rfl⟩, rfl, rfl, ?_, ?_, ?_⟩
  all_goals decide +kernel

/-- **C49**, counterexample: the sweep along a horizontal line at height 1 divides by zero. -/
theorem C49_horizontal_line_counterexample :
    @Gen.sweep ℚ _ _ ratSqrt (exSegment [0, 0, 1] [1, 0, 1]) (exSegment [1, 0, 0] [0, 0, 1]) 2 [⟨1, 1, 1⟩, ⟨1, 1, 1⟩] =
      .error .nonfinite := by decide +kernel

/-- **C50**, counterexample: with as many sections as the degree the generator succeeds and the spline is accepted, but its evaluation
inside the domain is undefined behaviour. -/
theorem C50_too_few_sections_counterexample :
    ∃ s : Spl ℚ, @Gen.sweep ℚ _ _ ratSqrt exArc (exSegment [0, 0, 0] [0, 1, 1]) 2 [⟨1, 1, 1⟩, ⟨1, 1, 1⟩] = .ok s ∧
      s.evaluate [1/2, 1/2] [0] = .error .ub := by
  have h : (@Gen.sweep ℚ _ _ ratSqrt exArc (exSegment [0, 0, 0] [0, 1, 1]) 2 [⟨1, 1, 1⟩, ⟨1, 1, 1⟩]).bind
      (fun s => s.evaluate [1/2, 1/2] [0]) = .error .ub ∧
      (@Gen.sweep ℚ _ _ ratSqrt exArc (exSegment [0, 0, 0] [0, 1, 1]) 2 [⟨1, 1, 1⟩, ⟨1, 1, 1⟩]).isOk = true := by decide +kernel
  cases e : @Gen.sweep ℚ _ _ ratSqrt exArc (exSegment [0, 0, 0] [0, 1, 1]) 2 [⟨1, 1, 1⟩, ⟨1, 1, 1⟩] with
  | error e' => rw [e] at h; cases h.2
  | ok s => rw [e] at h; exact ⟨s, rfl, h.1⟩

end SplineLib
