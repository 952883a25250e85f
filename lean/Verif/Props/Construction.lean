import Verif.Core.Construct
import Verif.Spec.Examples

/-!
# Property C24 (constructors)
-/

namespace SplineLib
set_option linter.unusedSectionVars false
variable {K : Type} [Field K] [LinearOrder K] [IsStrictOrderedRing K]

/-- At least `2p+2` knots, the first `p+1` of them equal and the last `p+1` of them equal. -/
structure ClampedKnots (U : List K) (p : ℕ) : Prop where
  size : 2 * p + 2 ≤ U.length
  first : ∀ j ≤ p, knot U j = knot U 0
  last : ∀ j ≤ p, knot U (U.length - 1 - j) = lastKnot U

/-- Valid arguments of the B-spline constructor. -/
structure ValidBSplineData (knots : List (List K)) (degree : List ℕ) (points : List (List K)) : Prop where
  clamped : List.Forall₂ ClampedKnots knots degree
  count : points.length = (List.zipWith (fun U p => U.length - p - 1) knots degree).prod
  dims : ∃ m, ∀ q ∈ points, q.length = m

/-- The object holds exactly the given data (and no weights), together with one basis function per control point and direction. -/
structure HoldsData (s : Spl K) (knots : List (List K)) (degree : List ℕ) (points : List (List K)) (weights : Option (List K)) : Prop where
  knots_eq : s.ps.knots = knots
  degree_eq : s.ps.degree = degree
  basis_eq : PS.basisTable knots degree = .ok s.ps.basis
  dim_eq : ∀ q ∈ points, s.ph.dim = q.length
  num_eq : s.ph.num = zl (List.zipWith (fun U p => U.length - p - 1) knots degree)
  cps_eq : s.ph.cps = points.flatten
  weights_eq : s.ph.weights = weights

theorem clampedKnots_iff {U : List K} {p : ℕ} : PS.clamped U p = true ↔ ClampedKnots U p :=
  clamped_iff.trans ⟨fun ⟨a, b, c⟩ => ⟨a, b, c⟩, fun ⟨a, b, c⟩ => ⟨a, b, c⟩⟩

theorem forall₂_clamped {knots : List (List K)} {degree : List ℕ} :
    List.Forall₂ (fun U p => PS.clamped U p = true) knots degree ↔ List.Forall₂ ClampedKnots knots degree :=
  ⟨fun h => h.imp fun _ _ h => clampedKnots_iff.1 h, fun h => h.imp fun _ _ h => clampedKnots_iff.2 h⟩

theorem Built.holds {s : Spl K} {knots : List (List K)} {degree : List ℕ} {points : List (List K)} {weights : Option (List K)}
    (h : Built s knots degree points weights) (hs : List.Forall₂ (fun U p => p + 1 ≤ U.length) knots degree) :
    HoldsData s knots degree points weights :=
  ⟨h.knots, h.degree, by rw [h.basis]; exact basisTable_eq hs, h.dim, h.num, h.cps, h.weights⟩

/-- **C24** for B-splines: with at least one control point and as many degrees as knot vectors, the constructor succeeds exactly for
valid data, and then holds exactly these data; otherwise it throws `std::runtime_error`. (The product of the point numbers must be
representable in 64 bits.) -/
theorem C24_bspline_constructor {knots : List (List K)} {degree : List ℕ} {points : List (List K)} (hne : points ≠ [])
    (hdl : degree.length = knots.length) (hsz : (List.zipWith (fun U p => U.length - p - 1) knots degree).prod < 2 ^ 64) :
    (ValidBSplineData knots degree points → ∃ s, Spl.newBSpline knots degree points = .ok s ∧ HoldsData s knots degree points none) ∧
    (¬ ValidBSplineData knots degree points → Spl.newBSpline knots degree points = .error (.thrown .runtimeError)) := by
  constructor
  · rintro ⟨h1, h2, h3⟩
    have hc := forall₂_clamped.2 h1
    obtain ⟨s, e1, e2⟩ := newBSpline_ok hne hc hsz h2 h3
    exact ⟨s, e1, e2.holds (clamped_sizes hc)⟩
  · intro h
    refine newBSpline_err hne hdl hsz ?_
    rintro ⟨h1, h2, h3⟩
    exact h ⟨forall₂_clamped.1 h1, h2, h3⟩

/-- **C24** for NURBS: additionally there must be one weight per control point. -/
theorem C24_nurbs_constructor {knots : List (List K)} {degree : List ℕ} {points : List (List K)} {weights : List K} (hne : points ≠ [])
    (hdl : degree.length = knots.length) (hsz : (List.zipWith (fun U p => U.length - p - 1) knots degree).prod < 2 ^ 64) :
    (ValidBSplineData knots degree points ∧ weights.length = points.length →
      ∃ s, Spl.newNurbs knots degree points weights = .ok s ∧ HoldsData s knots degree points (some weights)) ∧
    (¬ (ValidBSplineData knots degree points ∧ weights.length = points.length) →
      Spl.newNurbs knots degree points weights = .error (.thrown .runtimeError)) := by
  constructor
  · rintro ⟨⟨h1, h2, h3⟩, h4⟩
    have hc := forall₂_clamped.2 h1
    obtain ⟨s, e1, e2⟩ := newNurbs_ok hne hc hsz h2 h3 h4
    exact ⟨s, e1, e2.holds (clamped_sizes hc)⟩
  · intro h
    refine newNurbs_err hne hdl hsz ?_
    rintro ⟨h1, ⟨h2, h3⟩, h4⟩
    exact h ⟨⟨forall₂_clamped.1 h1, h2, h3⟩, h4⟩

/-- Objects constructed from sorted, separated knots with a non-empty range, points of positive dimension and positive weights are
well-formed, so the other theorems apply to them. -/
theorem C24_constructed_wellformed {s : Spl K} {knots : List (List K)} {degree : List ℕ} {points : List (List K)} {weights : Option (List K)}
    (h : HoldsData s knots degree points weights) (hv : ValidBSplineData knots degree points) (hne : points ≠ [])
    (hk : ∀ U ∈ knots, SortedKnots U ∧ Separated U ∧ knot U 0 < lastKnot U) (hd : ∀ q ∈ points, q ≠ [])
    (hw : ∀ w, weights = some w → w.length = points.length ∧ ∀ a ∈ w, 0 < a) : WFSpl s := by
  have hwf : List.Forall₂ WFKnots knots degree := by
    have := hv.clamped
    clear hv h
    induction this with
    | nil => exact .nil
    | cons h1 _ ih =>
      obtain ⟨a, b, c⟩ := hk _ List.mem_cons_self
      exact .cons ⟨a, h1.size, h1.first, h1.last, c, b⟩ (ih fun U hU => hk U (by simp [hU]))
  have hsz := forall₂_size hwf
  have hb : Built s knots degree points weights :=
    ⟨h.knots_eq, h.degree_eq, by have := h.basis_eq; rw [basisTable_eq hsz] at this; exact (Except.ok.inj this).symm,
      h.dim_eq, h.num_eq, h.cps_eq, h.weights_eq⟩
  obtain ⟨m, hm⟩ := hv.dims
  refine hb.wf hwf hne hv.count (m := m) ?_ hm hw
  have h1 := hm _ (List.head_mem hne)
  have h2 := List.length_pos_iff.2 (hd _ (List.head_mem hne))
  omega

/-- Satisfiable. -/
example : ValidBSplineData [[0, 0, 0, 1/2, 1, 1, 1], [-1, -1, 3, 3]] [2, 1] [[0], [1], [3], [4], [2], [-1], [7], [(5 : ℚ)]] where
  clamped := .cons ⟨by decide +kernel, by decide +kernel, by decide +kernel⟩ (.cons ⟨by decide +kernel, by decide +kernel, by decide +kernel⟩ .nil)
  count := by decide +kernel
  dims := ⟨1, by decide +kernel⟩

example : Spl.newBSpline [[0, 0, 1/2, 1, 1]] [2] [[0], [(1 : ℚ)]] = .error (.thrown .runtimeError) := by decide +kernel
example : Spl.newBSpline [[0, 0, 1/2, 1, 1]] [1] [[0], [1], [(1 : ℚ), 2]] = .error (.thrown .runtimeError) := by decide +kernel

/-- Without any control point the constructor reads the first element of an empty vector. -/
theorem C24_empty_points_undefined {knots : List (List K)} {degree : List ℕ} (h : List.Forall₂ ClampedKnots knots degree) :
    Spl.newBSpline knots degree [] = .error .ub := by
  obtain ⟨e1, e2⟩ := psNew_copy (forall₂_clamped.2 h)
  simp only [Spl.newBSpline, e1, e2, ok_bind, Phys.new, error_bind]

/-- Sortedness is not checked: an object is constructed from unsorted knots. -/
theorem C24_unsorted_accepted :
    ∃ s : Spl ℚ, Spl.newBSpline [[0, 0, 2, 1/2, 1, 1]] [1] [[0], [1], [2], [3]] = .ok s ∧ ¬ SortedKnots ([0, 0, 2, 1/2, 1, 1] : List ℚ) :=
  ⟨⟨⟨[[0, 0, 2, 1/2, 1, 1]], [1], mkTable [[0, 0, 2, 1/2, 1, 1]] [1]⟩, ⟨1, [4], [0, 1, 2, 3], none⟩⟩, by decide +kernel, by decide +kernel⟩

end SplineLib
