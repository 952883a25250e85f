import Verif.Core.RemoveErrorNurbs
import Verif.Spec.Examples

/-!
# Properties C16, C17, C18 (knot removal)
-/

namespace SplineLib
set_option linter.unusedSectionVars false
open Finset
variable {K : Type} [Field K] [LinearOrder K] [IsStrictOrderedRing K]

/-- A square root for the rational examples: exact on squares. -/
@[instance_reducible] def ratSqrt : HasSqrt ℚ := ⟨fun q => mkRat (Nat.sqrt q.num.toNat) (Nat.sqrt q.den)⟩

/-- **C16**: for a well-formed B-spline or NURBS, any direction, any admissible knot, any multiplicity `m` such that the knot
afterwards has multiplicity at most the degree, and any tolerance `tol ≥ 0`: inserting the knot `m` times and removing it `m` times
reports `m` removals and gives back the original object exactly (knots, numbers of points, control points and weights).
The only property of the square root that is used is `sqrt 0 = 0`. -/
theorem C16_remove_after_insert [HasSqrt K] (h0 : HasSqrt.sqrt (0 : K) = 0) {s : Spl K} (h : WFSpl s) {d : ℕ} {U : List K} {p : ℕ}
    (hU : s.ps.knots[d]? = some U) (hp : s.ps.degree[d]? = some p) {t : K} (ht : Admissible U t) {tol : K} (htol : 0 ≤ tol) (m : ℕ)
    (hsz : U.length + m < 2 ^ 63) (hm : kvMult U t + m ≤ p) :
    ∃ s', s.insertKnot t d m = .ok s' ∧ s'.removeKnot t d tol m = .ok (s, m) := by
  obtain ⟨s', e1, _, _, _, e5⟩ := insert_remove h0 h hU hp ht htol m hsz hm
  refine ⟨s', e1, ?_⟩
  unfold Spl.removeKnot
  rw [e5 0, Nat.zero_add]

example : WFSpl exNurbsSurface ∧ exNurbsSurface.ps.knots[0]? = some [0, 0, 0, 1/2, 1, 1, 1] ∧ exNurbsSurface.ps.degree[0]? = some 2 ∧
    Admissible ([0, 0, 0, 1/2, 1, 1, 1] : List ℚ) (1/4) ∧ kvMult ([0, 0, 0, 1/2, 1, 1, 1] : List ℚ) (1/4) + 2 ≤ 2 ∧
    ratSqrt.sqrt 0 = 0 :=
  ⟨exNurbsSurface_wf, rfl, rfl, by decide +kernel, by decide +kernel, by decide +kernel⟩

/-- The bound on the multiplicity in C16 is necessary: whatever the control points and the tolerance, removing an interior knot of
multiplicity greater than the degree fails. -/
theorem C16_remove_above_degree_fails [HasSqrt K] {s : Spl K} (h : WFSpl s) {d : ℕ} {U : List K} {p : ℕ} {t : K}
    (hU : s.ps.knots[d]? = some U) (hp : s.ps.degree[d]? = some p) (h0 : knot U 0 < t) (h1 : t < lastKnot U) (hm : p < kvMult U t)
    (hsz : U.length < 2 ^ 63) (tol : K) (n : ℕ) : ∃ er, s.removeKnot t d tol (n + 1) = .error er :=
  removeRounds_full h.shape hU hp h0 h1 hm hsz tol n 0

/-- Such a knot arises from `InsertKnot` on a well-formed spline (C12 allows every multiplicity). -/
example : (exCurve.insertKnot (1/2) 0 2).bind (fun s => @Spl.removeKnot ℚ _ _ ratSqrt s (1/2) 0 1 1) = .error .ub ∧
    (exCurve.insertKnot (1/2) 0 2).map (fun s => s.ps.knots.map fun U => kvMult U (1/2)) = .ok [3] := by decide +kernel

/-! ### C17: the geometric error -/

theorem zipWith_map_range (n : ℕ) (f g : ℕ → K) :
    (List.zipWith (fun x y => (x - y) ^ 2) ((List.range n).map f) ((List.range n).map g)).sum =
      ∑ c ∈ range n, (f c - g c) * (f c - g c) := by
  rw [List.zipWith_map, List.zipWith_self, list_sum_map_range]
  exact sum_congr rfl fun c _ => by ring

/-- Common part of the bounds: what one reported removal means. -/
theorem remove_one_reported [HasSqrt K] {s s1 : Spl K} (h : ShapeSpl s) {d : ℕ} {U : List K} {p : ℕ} {t : K}
    (hU : s.ps.knots[d]? = some U) (hp : s.ps.degree[d]? = some p) (h0 : knot U 0 < t) (h1 : t < lastKnot U) (hin : t ∈ U)
    (hm : kvMult U t ≤ p) (hsz : U.length < 2 ^ 63) {tol : K} (hrem : s.removeKnot t d tol = .ok (s1, 1)) :
    ∃ T V, effTol s.ph tol = .ok T ∧ Removed U V p t ∧
      (∀ e < ((npts s).set d 1).prod, LineOK s.ph (npts s) d (spanIx V t + 1 - p) (spanIx V t - kvMult V t)
          ((p - kvMult V t) / 2) (insα V p t) T e) ∧
      Shrunk s s1 d U V t 1 ∧ npts s1 = (npts s).set d (ixd (npts s) d - 1) ∧
      RemResult s.ph s1.ph (npts s) d (spanIx V t + 1 - p) (spanIx V t - kvMult V t) ((p - kvMult V t) / 2) (insα V p t) := by
  have hw := forall₂_get h.ps.knots hU hp
  obtain ⟨_, hr⟩ := removed_of_mem hw h0 h1 hin
  obtain ⟨T, hT, ho⟩ := removeRounds_outcome h hU hp hr hm hsz tol
  unfold Spl.removeKnot at hrem
  rcases ho 0 0 with ⟨er, e, _⟩ | ⟨_, e⟩ | ⟨hall, s2, e, hS, hn, hR⟩
  · rw [e] at hrem; exact absurd hrem (by simp)
  · rw [e] at hrem
    have := congrArg Prod.snd (Except.ok.inj hrem)
    simp at this
  · rw [e, Spl.removeRounds] at hrem
    have e2 : s2 = s1 := congrArg Prod.fst (Except.ok.inj hrem)
    subst e2
    exact ⟨T, _, hT, hr, hall, hS, hn, hR⟩

/-- **C17** (B-splines, part): if the degree minus the multiplicity of the knot is odd and `RemoveKnot` reports the removal of one
copy, then at every point of the domain the curve or surface moved by at most the tolerance. Missing: an even difference, where the
claim is false (`C17_removal_unchecked`), and several removals at once, where the parity alternates (false too,
`C17_two_removals_counterexample`). -/
theorem C17_removal_within_tolerance_bspline_partial [HasSqrt K] [LawfulSqrt K] {s s1 : Spl K} (h : WFSpl s) (hb : IsBSpline s) {d : ℕ}
    {U : List K} {p : ℕ} {t : K} (hU : s.ps.knots[d]? = some U) (hp : s.ps.degree[d]? = some p) (h0 : knot U 0 < t) (h1 : t < lastKnot U)
    (hin : t ∈ U) (hm : kvMult U t ≤ p) (hpar : (p - kvMult U t) % 2 = 1) (hsz : U.length < 2 ^ 63) {tol : K}
    (hrem : s.removeKnot t d tol = .ok (s1, 1)) {x : List K} (hx : InDomain s x) :
    ∃ a b, s.evaluate x (zl (List.range s.ph.dim)) = .ok a ∧ s1.evaluate x (zl (List.range s.ph.dim)) = .ok b ∧ Within tol a b := by
  obtain ⟨T, V, hT, hr, hall, hS, hn, hR⟩ := remove_one_reported h.shape hU hp h0 h1 hin hm hsz hrem
  obtain ⟨hx1, hT0, hE⟩ := remove_hom_error h.shape hU hp hr hm hpar hall hS hn hR hx
  have hb1 : IsBSpline s1 := hS.kind.1 hb
  have hTt : T = tol := by
    obtain ⟨T', h1, h2, _⟩ := effTol_ok h.phys.shape (nptsOf_pos h.knots) tol
    rw [h1] at hT
    rw [← Except.ok.inj hT]
    exact h2 hb
  subst hTt
  have hs1 : WFSpl s1 := hS.shape.wf_bspline hb1
  refine ⟨_, _, evaluate_bspline h hb hx _ (by simp), evaluate_bspline hs1 hb1 hx1 _ (by simp [hS.dim]), by simp, hT0, ?_⟩
  rw [zipWith_map_range, pow_two]
  have w1 : wgt s = fun _ => 1 := by funext I; unfold wgt; rw [hb]
  have w2 : wgt s1 = fun _ => 1 := by funext I; unfold wgt; rw [hb1]
  rw [w1, w2] at hE
  simp only [one_mul] at hE
  refine le_trans ?_ hE
  exact le_add_of_nonneg_right (mul_self_nonneg _)

/-- A cubic B-spline curve with the interior knot 1/2 of multiplicity 2 (degree minus multiplicity is odd); the removal with
tolerance 1 is reported although the curve changes. -/
def exCubic : Spl ℚ :=
  ⟨⟨[[0, 0, 0, 0, 1/2, 1/2, 1, 1, 1, 1]], [3], mkTable [[0, 0, 0, 0, 1/2, 1/2, 1, 1, 1, 1]] [3]⟩,
   ⟨1, [6], [0, 1, 2, 3, 2, 0], none⟩⟩

theorem exCubic_wf : WFSpl exCubic where
  knots := by simp only [exCubic]; exact .cons (by decide +kernel) .nil
  basis := by decide +kernel
  num := by decide +kernel
  dim := by decide +kernel
  cps := by decide +kernel
  weights := by intro w h; exact absurd h (by simp [exCubic])

example : WFSpl exCubic ∧ IsBSpline exCubic ∧ exCubic.ps.knots[0]? = some [0, 0, 0, 0, 1/2, 1/2, 1, 1, 1, 1] ∧
    exCubic.ps.degree[0]? = some 3 ∧ (3 - kvMult ([0, 0, 0, 0, 1/2, 1/2, 1, 1, 1, 1] : List ℚ) (1/2)) % 2 = 1 ∧
    (@Spl.removeKnot ℚ _ _ ratSqrt exCubic (1/2) 0 1 1).map (fun r => (r.1.ps.knots, r.1.ph.cps, r.2)) =
      .ok ([[0, 0, 0, 0, 1/2, 1, 1, 1, 1]], [0, 1, 3, 2, 0], 1) :=
  ⟨exCubic_wf, rfl, rfl, rfl, by decide +kernel, by decide +kernel⟩

/-- **C17** (NURBS, part): under the same parity condition, and for tolerances that are small compared with the size of the control
net (`tol (1 + R) ≤ R` for the distance `R` of some control point from the origin), a reported removal moves the NURBS by at most
the tolerance. Missing: an even difference and large tolerances, where the claim is false (`C17_removal_unchecked`,
`C17_large_tolerance_counterexample`), and several removals at once (`C17_two_removals_counterexample`). -/
theorem C17_removal_within_tolerance_nurbs_partial [HasSqrt K] [LawfulSqrt K] {s s1 : Spl K} (h : WFSpl s) (hn : IsNurbs s) {d : ℕ}
    {U : List K} {p : ℕ} {t : K} (hU : s.ps.knots[d]? = some U) (hp : s.ps.degree[d]? = some p) (h0 : knot U 0 < t) (h1 : t < lastKnot U)
    (hin : t ∈ U) (hm : kvMult U t ≤ p) (hpar : (p - kvMult U t) % 2 = 1) (hsz : U.length < 2 ^ 63) {tol R : K} (htol : 0 ≤ tol)
    (hR0 : 0 ≤ R) (hRtol : tol * (1 + R) ≤ R) (hR : ∃ I, InBox (npts s) I ∧ R ^ 2 ≤ ∑ c ∈ range s.ph.dim, cpt s I c ^ 2)
    (hrem : s.removeKnot t d tol = .ok (s1, 1)) {x : List K} (hx : InDomain s x) :
    ∃ a b, s.evaluate x (zl (List.range s.ph.dim)) = .ok a ∧ s1.evaluate x (zl (List.range s.ph.dim)) = .ok b ∧ Within tol a b := by
  obtain ⟨T, V, hT, hr, hall, hS, hns, hRes⟩ := remove_one_reported h.shape hU hp h0 h1 hin hm hsz hrem
  obtain ⟨hx1, hT0, hE⟩ := remove_hom_error h.shape hU hp hr hm hpar hall hS hns hRes hx
  obtain ⟨M, m1, m2, m3⟩ := maxDistance_spec h.phys.shape
  have hRM : R ≤ M := by
    obtain ⟨I, hI, hle⟩ := hR
    have h2 : R ^ 2 ≤ M ^ 2 := by
      refine hle.trans ?_
      rw [pow_two]
      refine le_trans (le_of_eq ?_) (m3 _ (lin_lt hI))
      exact sum_congr rfl fun c _ => by rw [pow_two]; rfl
    exact (abs_le_of_sq_le_sq' h2 m2).2
  have hsmall : tol * (1 + M) ≤ M := by
    have : tol ≤ 1 := by
      by_contra hc
      have : R < tol * R ∨ R = 0 := by
        rcases hR0.lt_or_eq with h | h
        · left; nlinarith
        · right; exact h.symm
      rcases this with h | h <;> nlinarith
    nlinarith
  obtain ⟨e1, e2⟩ := nurbs_error h hn hS.dim htol hT m1 hsmall hx hT0 hE
  have hn1 : IsNurbs s1 := isNurbs_iff.2 fun hc => isNurbs_iff.1 hn (hS.kind.2 hc)
  have ed1 : ((List.range s.ph.dim).map fun c => if c = s.ph.dim then weightValue s x else nurbsValue s x c) =
      (List.range s.ph.dim).map (nurbsValue s x) := by
    apply List.map_congr_left
    intro c hc
    rw [List.mem_range] at hc
    rw [if_neg (by omega)]
  have ed2 : ((List.range s.ph.dim).map fun c => if c = s1.ph.dim then weightValue s1 x else nurbsValue s1 x c) =
      (List.range s.ph.dim).map (nurbsValue s1 x) := by
    apply List.map_congr_left
    intro c hc
    rw [List.mem_range] at hc
    rw [hS.dim, if_neg (by omega)]
  refine ⟨_, _, evaluate_nurbs h hn hx _ (fun c hc => (List.mem_range.1 hc).le),
    evaluate_nurbs_shape hS.shape hn1 hx1 e1.ne' _ (fun c hc => by rw [hS.dim]; exact (List.mem_range.1 hc).le), ?_, htol, ?_⟩
  · simp
  · rw [ed1, ed2, zipWith_map_range, pow_two]
    exact e2

/-- A quadratic NURBS curve that meets the hypotheses with `R = 4`, `tol = 3/4`. -/
def exRem : Spl ℚ :=
  ⟨⟨[[0, 0, 0, 1/2, 1, 1, 1]], [2], mkTable [[0, 0, 0, 1/2, 1, 1, 1]] [2]⟩,
   ⟨1, [4], [0, 1, 49/16, 4], some [1, 1, 1, 1]⟩⟩

theorem exRem_wf : WFSpl exRem where
  knots := by simp only [exRem]; exact .cons (by decide +kernel) .nil
  basis := by decide +kernel
  num := by decide +kernel
  dim := by decide +kernel
  cps := by decide +kernel
  weights := by intro w hw; simp [exRem] at hw; subst hw; decide +kernel

example : WFSpl exRem ∧ IsNurbs exRem ∧ (2 - kvMult ([0, 0, 0, 1/2, 1, 1, 1] : List ℚ) (1/2)) % 2 = 1 ∧
    (4 : ℚ) ^ 2 ≤ cpt exRem [3] 0 ^ 2 ∧ (3/4 : ℚ) * (1 + 4) ≤ 4 ∧
    (@Spl.removeKnot ℚ _ _ ratSqrt exRem (1/2) 0 (3/4) 1).map (fun r => (r.1.ps.knots, r.2)) = .ok ([[0, 0, 0, 1, 1, 1]], 1) :=
  ⟨exRem_wf, ⟨_, rfl⟩, by decide +kernel, by decide +kernel, by decide +kernel, by decide +kernel⟩

/-- A linear B-spline curve whose middle control point is far off. -/
def exHat : Spl ℚ :=
  ⟨⟨[[0, 0, 1/2, 1, 1]], [1], mkTable [[0, 0, 1/2, 1, 1]] [1]⟩, ⟨1, [3], [0, 5, 0], none⟩⟩

theorem exHat_wf : WFSpl exHat where
  knots := by simp only [exHat]; exact .cons (by decide +kernel) .nil
  basis := by decide +kernel
  num := by decide +kernel
  dim := by decide +kernel
  cps := by decide +kernel
  weights := by intro w h; exact absurd h (by simp [exHat])

/-- **C17** is false when degree minus multiplicity is even: the control points 0, 5, 0 of a linear curve become 0, 0 with
tolerance 0 and the removal is reported; the value in the middle drops from 5 to 0. (When an odd number of points is affected, the
code compares the neighbours of the middle point with each other but never looks at the middle point.) -/
theorem C17_removal_unchecked : WFSpl exHat ∧ IsBSpline exHat ∧ InDomain exHat [1/2] ∧
    ∃ s1, @Spl.removeKnot ℚ _ _ ratSqrt exHat (1/2) 0 0 1 = .ok (s1, 1) ∧
      exHat.evaluate [1/2] [0] = .ok [5] ∧ s1.evaluate [1/2] [0] = .ok [0] := by
  refine ⟨exHat_wf, rfl, ?_, ⟨⟨[[0, 0, 1, 1]], [1], mkTable [[0, 0, 1, 1]] [1]⟩, ⟨1, [2], [0, 0], none⟩⟩, by decide +kernel,
    by decide +kernel, by decide +kernel⟩
  exact .cons (by decide +kernel) .nil

/-- A quadratic NURBS curve with weights 4, 1, 1, 1. -/
def exPole : Spl ℚ :=
  ⟨⟨[[0, 0, 0, 1/2, 1, 1, 1]], [2], mkTable [[0, 0, 0, 1/2, 1, 1, 1]] [2]⟩, ⟨1, [4], [0, 0, 0, 5/4], some [4, 1, 1, 1]⟩⟩

theorem exPole_wf : WFSpl exPole where
  knots := by simp only [exPole]; exact .cons (by decide +kernel) .nil
  basis := by decide +kernel
  num := by decide +kernel
  dim := by decide +kernel
  cps := by decide +kernel
  weights := by
    intro w h
    obtain rfl : w = [4, 1, 1, 1] := (Option.some.inj h).symm
    exact ⟨by decide +kernel, by decide +kernel⟩

/-- **C17** is false for NURBS with large tolerances even when the difference of degree and multiplicity is odd: with tolerance 8 the
removal is reported, but a weight becomes negative. The value at 13/20 moves by more than 211, and at 2/3, where the original curve is
finite, the new curve divides by zero. (The code scales the tolerance with the smallest weight before the removal, not after it. All
square roots taken here are of squares.) -/
theorem C17_large_tolerance_counterexample : WFSpl exPole ∧ IsNurbs exPole ∧
    (2 - kvMult ([0, 0, 0, 1/2, 1, 1, 1] : List ℚ) (1/2)) % 2 = 1 ∧ InDomain exPole [13/20] ∧ InDomain exPole [2/3] ∧
    ∃ s1, @Spl.removeKnot ℚ _ _ ratSqrt exPole (1/2) 0 8 1 = .ok (s1, 1) ∧ s1.ph.weights = some [4, -2, 1] ∧
      exPole.evaluate [13/20] [0] = .ok [9/80] ∧ s1.evaluate [13/20] [0] = .ok [845/4] ∧
      exPole.evaluate [2/3] [0] = .ok [5/36] ∧ s1.evaluate [2/3] [0] = .error .nonfinite := by
  refine ⟨exPole_wf, ⟨_, rfl⟩, by decide +kernel, .cons (by decide +kernel) .nil, .cons (by decide +kernel) .nil,
    ⟨⟨[[0, 0, 0, 1, 1, 1]], [2], mkTable [[0, 0, 0, 1, 1, 1]] [2]⟩, ⟨1, [3], [0, 0, 5/4], some [4, -2, 1]⟩⟩, by decide +kernel, rfl,
    by decide +kernel, by decide +kernel, by decide +kernel, by decide +kernel⟩

/-- A cubic B-spline curve with a double inner knot, one copy of which is superfluous. -/
def exTwo : Spl ℚ :=
  ⟨⟨[[0, 0, 0, 0, 1/2, 1/2, 1, 1, 1, 1]], [3], mkTable [[0, 0, 0, 0, 1/2, 1/2, 1, 1, 1, 1]] [3]⟩, ⟨1, [6], [0, 0, 4, 4, 0, 0], none⟩⟩

theorem exTwo_wf : WFSpl exTwo where
  knots := by simp only [exTwo]; exact .cons (by decide +kernel) .nil
  basis := by decide +kernel
  num := by decide +kernel
  dim := by decide +kernel
  cps := by decide +kernel
  weights := by intro w h; exact absurd h (by simp [exTwo])

/-- **C17** is false for two removals at once also when the difference is odd at first: the second removal has an even difference. With
tolerance 0 both removals are reported; the first one alone keeps the value 4 in the middle, after the second it is 0. -/
theorem C17_two_removals_counterexample : WFSpl exTwo ∧ IsBSpline exTwo ∧ InDomain exTwo [1/2] ∧
    (3 - kvMult ([0, 0, 0, 0, 1/2, 1/2, 1, 1, 1, 1] : List ℚ) (1/2)) % 2 = 1 ∧
    ∃ s1 s2, @Spl.removeKnot ℚ _ _ ratSqrt exTwo (1/2) 0 0 1 = .ok (s1, 1) ∧ @Spl.removeKnot ℚ _ _ ratSqrt exTwo (1/2) 0 0 2 = .ok (s2, 2) ∧
      exTwo.evaluate [1/2] [0] = .ok [4] ∧ s1.evaluate [1/2] [0] = .ok [4] ∧ s2.evaluate [1/2] [0] = .ok [0] := by
  refine ⟨exTwo_wf, rfl, .cons (by decide +kernel) .nil, by decide +kernel,
    ⟨⟨[[0, 0, 0, 0, 1/2, 1, 1, 1, 1]], [3], mkTable [[0, 0, 0, 0, 1/2, 1, 1, 1, 1]] [3]⟩, ⟨1, [5], [0, 0, 8, 0, 0], none⟩⟩,
    ⟨⟨[[0, 0, 0, 0, 1, 1, 1, 1]], [3], mkTable [[0, 0, 0, 0, 1, 1, 1, 1]] [3]⟩, ⟨1, [4], [0, 0, 0, 0], none⟩⟩, by decide +kernel,
    by decide +kernel, by decide +kernel, by decide +kernel, by decide +kernel⟩

/-! ### C18: counts -/

/-- **C18**: for a well-formed spline, an interior knot that occurs at least as often as its removal is requested and at most `p`
times, and every tolerance: unless a NURBS computation divides by zero (excluded for B-splines), `RemoveKnot` reports a number `k` of at
most the requested multiplicity, exactly `k` copies of the knot are gone and nothing else changed in the knot vectors, the direction
lost `k` layers of control points, the object is still consistent (the control points and weights fit the knots), and the object is
unchanged if `k = 0`. -/
theorem C18_removal_counts [HasSqrt K] {s : Spl K} (h : WFSpl s) {d : ℕ} {U : List K} {p : ℕ} {t : K} (hU : s.ps.knots[d]? = some U)
    (hp : s.ps.degree[d]? = some p) (h0 : knot U 0 < t) (h1 : t < lastKnot U) (n : ℕ) (hn : n ≤ kvMult U t) (hm : kvMult U t ≤ p)
    (hsz : U.length < 2 ^ 63) (tol : K) :
    (∃ er, s.removeKnot t d tol n = .error er ∧ IsNurbs s) ∨
    ∃ s' k V, s.removeKnot t d tol n = .ok (s', k) ∧ k ≤ n ∧ s'.ps.knots = s.ps.knots.set d V ∧ KnotsRemoved U t k V ∧
      s'.ps.degree = s.ps.degree ∧ s'.ph.num = s.ph.num.modify d (· - (k : ℤ)) ∧ s'.ph.num = zl (npts s') ∧
      s'.ph.cps.length = s'.ph.dim * (npts s').prod ∧ (∀ w, s'.ph.weights = some w → w.length = (npts s').prod) ∧
      s'.ph.dim = s.ph.dim ∧ (IsBSpline s' ↔ IsBSpline s) ∧ (IsBSpline s → WFSpl s') ∧ (k = 0 → s' = s) := by
  rcases removeRounds_counts tol n h.shape hU hp h0 h1 hn hm hsz 0 with he | ⟨s', k, V, e1, e2, e3, e4⟩
  · exact Or.inl he
  · refine Or.inr ⟨s', k, V, ?_, e2, e3.knots, ⟨e4.sorted, e3.length, e3.count⟩, e3.degree, e3.num, e3.shape.ph.num,
      e3.shape.ph.cps, e3.shape.ph.weights, e3.dim, e3.kind.symm, fun hb => e3.shape.wf_bspline (e3.kind.1 hb), e3.same⟩
    unfold Spl.removeKnot
    rw [e1, Nat.zero_add]

/-- A refused and a successful removal. -/
example : exCubic.ps.knots[0]? = some [0, 0, 0, 0, 1/2, 1/2, 1, 1, 1, 1] ∧ kvMult ([0, 0, 0, 0, 1/2, 1/2, 1, 1, 1, 1] : List ℚ) (1/2) = 2 ∧
    @Spl.removeKnot ℚ _ _ ratSqrt exSurface (1/2) 0 1 1 = .ok (exSurface, 0) ∧
    (@Spl.removeKnot ℚ _ _ ratSqrt exCurve (1/2) 0 100 1).map (fun r => (r.1.ps.knots, r.1.ph.num, r.2)) =
      .ok ([[0, 0, 0, 1, 1, 1]], [3], 1) := by
  decide +kernel

/-- A constant quadratic curve with knots 1/4, 1/2 and 3/4. -/
def exConst : Spl ℚ :=
  ⟨⟨[[0, 0, 0, 1/4, 1/2, 3/4, 1, 1, 1]], [2], mkTable [[0, 0, 0, 1/4, 1/2, 3/4, 1, 1, 1]] [2]⟩,
   ⟨1, [6], [1, 1, 1, 1, 1, 1], none⟩⟩

theorem exConst_wf : WFSpl exConst where
  knots := by simp only [exConst]; exact .cons (by decide +kernel) .nil
  basis := by decide +kernel
  num := by decide +kernel
  dim := by decide +kernel
  cps := by decide +kernel
  weights := by intro w h; exact absurd h (by simp [exConst])

/-- C18 needs the requested multiplicity to be at most the multiplicity of the knot: asking for two copies of the simple knot 1/2
also removes the knot 1/4, and two removals are reported. -/
theorem C18_over_request_removes_other_knot : WFSpl exConst ∧ kvMult ([0, 0, 0, 1/4, 1/2, 3/4, 1, 1, 1] : List ℚ) (1/2) = 1 ∧
    (@Spl.removeKnot ℚ _ _ ratSqrt exConst (1/2) 0 0 2).map (fun r => (r.1.ps.knots, r.2)) = .ok ([[0, 0, 0, 3/4, 1, 1, 1]], 2) :=
  ⟨exConst_wf, by decide +kernel, by decide +kernel⟩

/-- A constant quadratic curve with the single interior knot 1/4. -/
def exConst2 : Spl ℚ :=
  ⟨⟨[[0, 0, 0, 1/4, 1, 1, 1]], [2], mkTable [[0, 0, 0, 1/4, 1, 1, 1]] [2]⟩, ⟨1, [4], [1, 1, 1, 1], none⟩⟩

theorem exConst2_wf : WFSpl exConst2 where
  knots := by simp only [exConst2]; exact .cons (by decide +kernel) .nil
  basis := by decide +kernel
  num := by decide +kernel
  dim := by decide +kernel
  cps := by decide +kernel
  weights := by intro w h; exact absurd h (by simp [exConst2])

/-- Removing a value that is no knot at all is accepted, removes another knot and moves the end of the curve from 1 to 3/2. -/
theorem C18_absent_knot_removes_other_knot : WFSpl exConst2 ∧ kvMult ([0, 0, 0, 1/4, 1, 1, 1] : List ℚ) (1/2) = 0 ∧
    (@Spl.removeKnot ℚ _ _ ratSqrt exConst2 (1/2) 0 1 1).map (fun r => (r.1.ps.knots, r.1.ph.cps, r.2)) =
      .ok ([[0, 0, 0, 1, 1, 1]], [1, 1, 3/2], 1) :=
  ⟨exConst2_wf, by decide +kernel, by decide +kernel⟩

end SplineLib
