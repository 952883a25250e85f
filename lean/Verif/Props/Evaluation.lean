import Verif.Core.Unity
import Verif.Core.EvalProps
import Verif.Spec.Examples

/-!
# Evaluation: C01, C02 (`Evaluate`), C03 - C07, C11
-/

namespace SplineLib
set_option linter.unusedSectionVars false

section
variable {K : Type} [Field K] [LinearOrder K] [IsStrictOrderedRing K]

/-- **C01.** `Evaluate` of a well-formed B-spline at a parameter of the domain returns, for every requested coordinate, the tensor
product value: the sum over *all* control points of the product of Cox-de Boor basis functions times the coordinate. -/
theorem C01_evaluate_bspline {s : Spl K} (h : WFSpl s) (hb : IsBSpline s) {x : List K} (hx : InDomain s x)
    (dims : List ℕ) (hd : ∀ c ∈ dims, c < s.ph.dim) :
    s.evaluate x (zl dims) = .ok (dims.map (bsplineValue s x)) := evaluate_bspline h hb hx dims hd

/-- Satisfiable: a surface, at an interior knot of the first direction and at the last knot of the second. -/
example : WFSpl exSurface ∧ IsBSpline exSurface ∧ InDomain exSurface [1/2, 3] ∧ bsplineValue exSurface [1/2, 3] 0 = 3 ∧
    exSurface.evaluate [1/2, 3] [0] = .ok [3] := by
  refine ⟨exSurface_wf, rfl, ?_, by decide +kernel, by decide +kernel⟩
  exact .cons (by decide +kernel) (.cons (by decide +kernel) .nil)

/-- **C11.** `Evaluate` of a well-formed NURBS returns `Σ N_I w_I P_I / Σ N_I w_I` for the coordinates below `PointDim` and the
denominator for "coordinate" `PointDim`; the denominator is positive. -/
theorem C11_evaluate_nurbs {s : Spl K} (h : WFSpl s) (hn : IsNurbs s) {x : List K} (hx : InDomain s x)
    (dims : List ℕ) (hd : ∀ c ∈ dims, c ≤ s.ph.dim) :
    0 < weightValue s x ∧
    s.evaluate x (zl dims) = .ok (dims.map fun c => if c = s.ph.dim then weightValue s x else nurbsValue s x c) :=
  ⟨weightValue_pos h hx, evaluate_nurbs h hn hx dims hd⟩

/-- **C11**, equal weights: a NURBS whose weights all have the same value evaluates like the B-spline with the same knots, degrees
and control points. -/
theorem C11_equal_weights {s : Spl K} (h : WFSpl s) {w : List K} (hw : s.ph.weights = some w) {a : K} (ha : ∀ b ∈ w, b = a)
    {x : List K} (hx : InDomain s x) (dims : List ℕ) (hd : ∀ c ∈ dims, c < s.ph.dim) :
    s.evaluate x (zl dims) = Spl.evaluate ⟨s.ps, { s.ph with weights := none }⟩ x (zl dims) :=
  evaluate_equal_weights h hw ha hx dims hd

example : WFSpl exNurbs ∧ IsNurbs exNurbs ∧ InDomain exNurbs [3/4] ∧
    exNurbs.evaluate [3/4] (zl [0, 1, 2]) = .ok [67/21, 6/7, 21/16] ∧ weightValue exNurbs [3/4] = 21/16 := by
  refine ⟨exNurbs_wf, ⟨_, rfl⟩, ?_, by decide +kernel, by decide +kernel⟩
  exact .cons (by decide +kernel) .nil

/-- **C02** for `Evaluate`: it throws `range_error` exactly for the parameters outside the domain, whatever coordinates are requested;
inside the domain it returns one value per requested coordinate. -/
theorem C02_evaluate {s : Spl K} (h : WFSpl s) {x : List K} (hl : x.length = s.ps.knots.length) :
    (∀ dims, ¬ InDomain s x → s.evaluate x dims = .error (.thrown .rangeError)) ∧
    (∀ dims : List ℕ, (∀ c ∈ dims, c < s.ph.dim) → InDomain s x → ∃ v, s.evaluate x (zl dims) = .ok v ∧ v.length = dims.length) := by
  constructor
  · intro dims hx
    simp only [Spl.evaluate, Spl.evalWith, throwIfOutside_err h.knots hl hx, error_bind]
  · intro dims hd hx
    cases hw : s.ph.weights with
    | none => exact ⟨_, evaluate_bspline h hw hx dims hd, by simp⟩
    | some w => exact ⟨_, evaluate_nurbs h ⟨w, hw⟩ hx dims (fun c hc => (hd c hc).le), by simp⟩

example : ¬ InDomain exSurface [1/2, -2] ∧ exSurface.evaluate [1/2, -2] [0] = .error (.thrown .rangeError) := by
  refine ⟨?_, by decide +kernel⟩
  rintro (_ | ⟨_, _ | ⟨h, _⟩⟩)
  exact absurd h (by decide +kernel)

/-- **C03.** `EvaluateAllNonZeroBasisFunctions` returns `p+1` values that sum to one, in every direction and for every parameter in
the range of that direction. -/
theorem C03_partition_of_unity {ps : PS K} (h : WFPS ps) {d : ℕ} {U : List K} {p : ℕ} (hU : ps.knots[d]? = some U)
    (hp : ps.degree[d]? = some p) {x : K} (h0 : knot U 0 ≤ x) (h1 : x ≤ lastKnot U) :
    ∃ v, ps.evalAllNonZero d x = .ok v ∧ v.length = p + 1 ∧ v.sum = 1 := by
  refine ⟨_, evalAllNonZero_eq h hU hp h0 h1, by simp, ?_⟩
  rw [list_sum_map_range]
  exact cox_window_sum (forall₂_getElem? h.knots hU hp) h0 h1

/-- **C04.** Every basis function object of a well-formed parameter space is non-negative on the parameter range and vanishes left of
its first and right of its last knot. -/
theorem C04_nonneg_support {ps : PS K} (h : WFPS ps) {d : ℕ} {U : List K} {p : ℕ} (hU : ps.knots[d]? = some U)
    (hp : ps.degree[d]? = some p) {i : ℕ} {row : List (Basis K)} {b : Basis K} (hrow : ps.basis[d]? = some row)
    (hb : row[i]? = some b) {x : K} (h0 : knot U 0 ≤ x) (h1 : x ≤ lastKnot U) :
    i + p + 1 < U.length ∧ 0 ≤ b.eval x ∧ (x < knot U i ∨ knot U (i + p + 1) < x → b.eval x = 0) :=
  basis_nonneg_support h hU hp hrow hb h0 h1

/-- **C04**, locality: there is an index `f` such that `EvaluateAllNonZeroBasisFunctions` returns the values of the basis functions
`f, ..., f+p`, and every other basis function is zero. For degree 0 the last knot must not be repeated (see
`C04_degree_zero_counterexample`). -/
theorem C04_locality {ps : PS K} (h : WFPS ps) {d : ℕ} {U : List K} {p : ℕ} (hU : ps.knots[d]? = some U)
    (hp : ps.degree[d]? = some p) (hend : p = 0 → ExactEnds U 0) {row : List (Basis K)} (hrow : ps.basis[d]? = some row) {x : K}
    (h0 : knot U 0 ≤ x) (h1 : x ≤ lastKnot U) :
    ∃ f, ps.evalAllNonZero d x = .ok (((row.drop f).take (p + 1)).map (fun b => b.eval x)) ∧ f + (p + 1) ≤ row.length ∧
      ∀ i b, row[i]? = some b → (i < f ∨ f + p < i) → b.eval x = 0 :=
  basis_locality h hU hp hend hrow h0 h1

/-- Satisfiable: second-degree basis functions at a double interior knot. -/
example : ∃ ps : PS ℚ, PS.new [[0, 0, 0, 1/4, 1/2, 1/2, 3, 3, 3]] [2] = .ok ps ∧ WFPS ps ∧ ps.evalAllNonZero 0 (1/2) = .ok [1, 0, 0] := by
  refine ⟨⟨[[0, 0, 0, 1/4, 1/2, 1/2, 3, 3, 3]], [2], mkTable [[0, 0, 0, 1/4, 1/2, 1/2, 3, 3, 3]] [2]⟩,
    by decide +kernel, ⟨?_, by decide +kernel⟩, by decide +kernel⟩
  exact .cons (by decide +kernel) .nil

/-- The locality claim is false for degree 0 and a repeated last knot: with knots 0, 1, 1 the only function returned at the last
knot is function 0, but function 1 has the value 1 there as well. -/
theorem C04_degree_zero_counterexample : ∃ (ps : PS ℚ) (row : List (Basis ℚ)), PS.new [[0, 1, 1]] [0] = .ok ps ∧ WFPS ps ∧
    ps.basis[0]? = some row ∧ ps.evalAllNonZero 0 1 = .ok [1] ∧ row.map (fun b => b.eval 1) = [1, 1] := by
  refine ⟨⟨[[0, 1, 1]], [0], mkTable [[0, 1, 1]] [0]⟩, _, by decide +kernel, ⟨.cons (by decide +kernel) .nil, by decide +kernel⟩,
    rfl, by decide +kernel, by decide +kernel⟩

/-- **C05.** Convex hull: the evaluated point of a B-spline or NURBS is a convex combination of the control points: there are
coefficients `λ_I ≥ 0` with sum one that give all coordinates simultaneously. -/
theorem C05_convex_combination {s : Spl K} (h : WFSpl s) {x : List K} (hx : InDomain s x) :
    ∃ l : List ℕ → K, (∀ I, InBox (npts s) I → 0 ≤ l I) ∧ msum (npts s) l = 1 ∧
      ∀ dims : List ℕ, (∀ c ∈ dims, c < s.ph.dim) →
        s.evaluate x (zl dims) = .ok (dims.map fun c => msum (npts s) fun I => l I * cpt s I c) :=
  evaluate_convex h hx

/-- **C05.** Each coordinate of the evaluated point lies between the minimum and the maximum of that coordinate over the control
points: every lower and every upper bound for the control points bounds the value. -/
theorem C05_between {s : Spl K} (h : WFSpl s) {x : List K} (hx : InDomain s x) {c : ℕ} (hc : c < s.ph.dim) {lo hi : K}
    (hlo : ∀ I, InBox (npts s) I → lo ≤ cpt s I c) (hhi : ∀ I, InBox (npts s) I → cpt s I c ≤ hi) :
    ∃ v, s.evaluate x [(c : ℤ)] = .ok [v] ∧ lo ≤ v ∧ v ≤ hi := by
  obtain ⟨l, h1, h2, h3⟩ := evaluate_convex h hx
  refine ⟨_, h3 [c] (by simpa using hc), ?_, ?_⟩
  · calc lo = msum (npts s) (fun I => l I * lo) := by rw [msum_mul_right, h2, one_mul]
      _ ≤ _ := msum_le fun I hI => mul_le_mul_of_nonneg_left (hlo I hI) (h1 I hI)
  · calc _ ≤ msum (npts s) (fun I => l I * hi) := msum_le fun I hI => mul_le_mul_of_nonneg_left (hhi I hI) (h1 I hI)
      _ = hi := by rw [msum_mul_right, h2, one_mul]

/-- **C06.** At a corner of the parameter domain a B-spline or NURBS evaluates to the corresponding corner control point, provided the
end knots have multiplicity exactly `p+1`. -/
theorem C06_corner {s : Spl K} (h : WFSpl s) (he : List.Forall₂ ExactEnds s.ps.knots s.ps.degree) (b : List Bool)
    (hb : b.length = s.ps.knots.length) (dims : List ℕ) (hd : ∀ c ∈ dims, c < s.ph.dim) :
    InBox (npts s) (cornerIndex s b) ∧
    s.evaluate (cornerParam s b) (zl dims) = .ok (dims.map (cpt s (cornerIndex s b))) := evaluate_corner h he b hb dims hd

example : WFSpl exNurbsSurface ∧ List.Forall₂ ExactEnds exNurbsSurface.ps.knots exNurbsSurface.ps.degree ∧
    cornerParam exNurbsSurface [true, false] = [1, -1] ∧ cornerIndex exNurbsSurface [true, false] = [3, 0] ∧
    exNurbsSurface.evaluate [1, -1] [0] = .ok [4] := by
  refine ⟨exNurbsSurface_wf, ?_, by decide +kernel, by decide +kernel, by decide +kernel⟩
  exact .cons (by decide +kernel) (.cons (by decide +kernel) .nil)

/-- The constructor also accepts end knots with a higher multiplicity; then the corner control point is not interpolated. Degree 1,
knots 0, 0, 0, 1, 1 and control points 5, 7, 9 evaluate to 7 at the first knot. -/
theorem C06_excess_multiplicity_counterexample : ∃ s : Spl ℚ,
    Spl.newBSpline [[0, 0, 0, 1, 1]] [1] [[5], [7], [9]] = .ok s ∧ WFSpl s ∧ cpt s (cornerIndex s [false]) 0 = 5 ∧
    s.evaluate (cornerParam s [false]) [0] = .ok [7] := by
  refine ⟨⟨⟨[[0, 0, 0, 1, 1]], [1], mkTable [[0, 0, 0, 1, 1]] [1]⟩, ⟨1, [3], [5, 7, 9], none⟩⟩, by decide +kernel, ?_,
    by decide +kernel, by decide +kernel⟩
  exact ⟨.cons (by decide +kernel) .nil, by decide +kernel, by decide +kernel, by decide +kernel, by decide +kernel,
    by intro w h; exact absurd h (by simp)⟩

/-- **C07.** Affine invariance: if the control points of `t` are the images of the control points of `s` under the affine map
`P ↦ A P + b` (and knots, degrees and weights agree), every evaluated point of `t` is the image of the evaluated point of `s`. The
map may change the dimension of the space. -/
theorem C07_affine {s t : Spl K} (hs : WFSpl s) (ht : WFSpl t) (hps : t.ps = s.ps) (hw : t.ph.weights = s.ph.weights)
    (A : ℕ → ℕ → K) (b : ℕ → K)
    (hcp : ∀ I, InBox (npts s) I → ∀ c < t.ph.dim, cpt t I c = (∑ j ∈ Finset.range s.ph.dim, A c j * cpt s I j) + b c)
    {x : List K} (hx : InDomain s x) :
    ∃ v, s.evaluate x (zl (List.range s.ph.dim)) = .ok v ∧
      t.evaluate x (zl (List.range t.ph.dim)) =
        .ok ((List.range t.ph.dim).map fun c => (∑ j ∈ Finset.range s.ph.dim, A c j * v.getD j 0) + b c) :=
  evaluate_affine hs ht hps hw A b hcp hx

/-- Satisfiable: the map `(a, b) ↦ (b, -a, a + 1)` on the planar curve. -/
example : ∃ t : Spl ℚ, WFSpl t ∧ t.ps = exCurve.ps ∧ t.ph.weights = exCurve.ph.weights ∧
    ∀ I, InBox (npts exCurve) I → ∀ c < t.ph.dim, cpt t I c = (∑ j ∈ Finset.range exCurve.ph.dim,
      ([[0, 1], [-1, 0], [1, 0]].getD c []).getD j 0 * cpt exCurve I j) + ([0, 0, 1].getD c 0) := by
  refine ⟨⟨exCurve.ps, ⟨3, [4], [0, 0, 1, 2, -1, 2, 2, -3, 4, 0, -4, 5], none⟩⟩, ?_, rfl, rfl, ?_⟩
  · exact ⟨exCurve_wf.knots, exCurve_wf.basis, by decide +kernel, by decide +kernel, by decide +kernel,
      by intro w h; exact absurd h (by simp)⟩
  · intro I hI c hc
    have h4 : ∃ i, i < 4 ∧ I = [i] := by
      rcases I with _ | ⟨i, _ | ⟨j, I⟩⟩
      · exact absurd hI (by simp [npts, exCurve])
      · exact ⟨i, by simpa [npts, exCurve] using hI, rfl⟩
      · exact absurd hI (by simp [npts, exCurve])
    obtain ⟨i, hi, rfl⟩ := h4
    have hc' : c < 3 := hc
    have : ∀ i < 4, ∀ c < 3, cpt (⟨exCurve.ps, ⟨3, [4], [0, 0, 1, 2, -1, 2, 2, -3, 4, 0, -4, 5], none⟩⟩ : Spl ℚ) [i] c =
        (∑ j ∈ Finset.range exCurve.ph.dim,
          (([[0, 1], [-1, 0], [1, 0]] : List (List ℚ)).getD c []).getD j 0 * cpt exCurve [i] j) + (([0, 0, 1] : List ℚ).getD c 0) := by
      decide +kernel
    exact this i hi c hc'

end
end SplineLib
