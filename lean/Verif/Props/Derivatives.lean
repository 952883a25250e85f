import Verif.Core.RatDeriv
import Verif.Spec.Examples

/-!
# Derivatives: C08, C09, C10, C02 (`EvaluateDerivative`)
-/

namespace SplineLib
set_option linter.unusedSectionVars false

/-- **C08.** For every basis function object of a well-formed parameter space, `EvaluateDerivative(., k+1)` is the derivative of
`EvaluateDerivative(., k)` at every parameter in the range (two-sided inside a knot span, right-sided before the last knot, left-sided at
the last knot), and `EvaluateDerivative(., 0)` is `Evaluate`. For degree 0 the support must not be empty. -/
theorem C08_basis_derivative {ps : PS ℝ} (h : WFPS ps) {d : ℕ} {U : List ℝ} {p : ℕ} (hU : ps.knots[d]? = some U)
    (hp : ps.degree[d]? = some p) {i : ℕ} {row : List (Basis ℝ)} {b : Basis ℝ} (hrow : ps.basis[d]? = some row)
    (hb : row[i]? = some b) (hnd : p = 0 → knot U i < knot U (i + 1)) {x : ℝ} (h0 : knot U 0 ≤ x) (h1 : x ≤ lastKnot U) (k : ℕ) :
    b.evalDeriv x 0 = b.eval x ∧
    SpanDeriv U (fun y => b.evalDeriv y (k : ℤ)) (b.evalDeriv x ((k + 1 : ℕ) : ℤ)) x := by
  have hw := forall₂_getElem? h.knots hU hp
  obtain ⟨hi, rfl⟩ := row_getElem? h hU hp hrow hb
  have e : ∀ (y : ℝ) (k : ℕ), (mkBasis U p i).evalDeriv y (k : ℤ) = coxDeBoorDeriv U p k i y := fun y k =>
    mkBasis_evalDeriv hw.sorted hw.sep y p k i hi (fun hz => Or.inl (hnd hz))
  constructor
  · have := e x 0
    rw [show ((0 : ℕ) : ℤ) = 0 from rfl] at this
    rw [this, mkBasis_eval hw.sorted hw.sep x p i hi (fun hz => Or.inl (hnd hz))]
    cases p <;> rfl
  · simp only [e]
    exact cox_spanDeriv hw h0 h1 hi

/-- **C09.** The values `G c k x` that B-spline `EvaluateDerivative` returns for coordinate `c`, orders `k` and parameter `x` are the
mixed partial derivatives of `Evaluate`: order zero is `Evaluate`, raising the order in direction `d` by one differentiates in direction
`d` (two-sided inside a knot span, right-sided before the last knot, left-sided at the last knot), and an order above the degree gives
zero. -/
theorem C09_bspline_derivative {s : Spl ℝ} (h : WFSpl s) (hb : IsBSpline s) :
    ∃ G : ℕ → List ℕ → List ℝ → ℝ,
      (∀ x k (dims : List ℕ), InDomain s x → k.length = s.ps.knots.length → (∀ c ∈ dims, c < s.ph.dim) →
        s.evaluateDerivative x (zl dims) (zl k) = .ok (dims.map fun c => G c k x)) ∧
      (∀ x (dims : List ℕ), InDomain s x → (∀ c ∈ dims, c < s.ph.dim) →
        s.evaluate x (zl dims) = .ok (dims.map fun c => G c (s.ps.knots.map fun _ => 0) x)) ∧
      (∀ x k c d U, InDomain s x → k.length = s.ps.knots.length → s.ps.knots[d]? = some U →
        SpanDeriv U (fun t => G c k (x.set d t)) (G c (k.modify d (· + 1)) x) (x.getD d 0)) ∧
      (∀ x k c d, InDomain s x → k.length = s.ps.knots.length → d < s.ps.knots.length → s.ps.degree.getD d 0 < k.getD d 0 →
        G c k x = 0) := by
  refine ⟨fun c k x => tensorDerivSum s x k fun I => cpt s I c, ?_, ?_, ?_, ?_⟩
  · intro x k dims hx hk hd
    exact evaluateDerivative_bspline h hb hx dims hd hk
  · intro x dims hx hd
    rw [evaluate_bspline h hb hx dims hd]
    simp only [tensorDerivSum, basisDerivFns_zero]
    rfl
  · intro x k c d U hx hk hU
    have hdl : d < s.ps.knots.length := by
      by_contra hc; rw [List.getElem?_eq_none (by omega)] at hU; simp at hU
    rw [spanDeriv_iff]
    intro S hS
    exact tensorDerivSum_hasDeriv h hx hk hdl (by rw [List.getD_eq_getElem?_getD, hU]; exact hS) _
  · intro x k c d hx hk hd hlt
    have : ∀ I, InBox (npts s) I → dprod (basisDerivFns s.ps.knots s.ps.degree x k) I * cpt s I c = 0 := by
      intro I hI
      rw [dprod_deriv_high s.ps.knots s.ps.degree x k I d h.knots.length_eq.symm (List.Forall₂.length_eq hx).symm hk ?_ hd hlt, zero_mul]
      rw [hI.length]; simp [npts, h.knots.length_eq]
    simp only [tensorDerivSum]
    rw [msum_congr this, msum_zero]

/-- **C10.** The values `G c k x` that NURBS `EvaluateDerivative` returns are the mixed partial derivatives of the rational spline:
order zero is `Evaluate` (which is `Σ N w P / Σ N w` by C11), and raising the order in direction `d` by one differentiates in direction
`d`. -/
theorem C10_nurbs_derivative {s : Spl ℝ} (h : WFSpl s) (hn : IsNurbs s) :
    ∃ G : ℕ → List ℕ → List ℝ → ℝ,
      (∀ x k (dims : List ℕ), InDomain s x → k.length = s.ps.knots.length → (∀ c ∈ dims, c < s.ph.dim) →
        s.evaluateDerivative x (zl dims) (zl k) = .ok (dims.map fun c => G c k x)) ∧
      (∀ x (dims : List ℕ), InDomain s x → (∀ c ∈ dims, c < s.ph.dim) →
        s.evaluate x (zl dims) = .ok (dims.map fun c => G c (s.ps.knots.map fun _ => 0) x)) ∧
      (∀ x k c d U, InDomain s x → k.length = s.ps.knots.length → s.ps.knots[d]? = some U →
        SpanDeriv U (fun t => G c k (x.set d t)) (G c (k.modify d (· + 1)) x) (x.getD d 0)) := by
  refine ⟨fun c k x => msum (npts s) fun I => ratBasis s x k I * cpt s I c, ?_, ?_, ?_⟩
  · intro x k dims hx hk hd
    exact evaluateDerivative_nurbs h hn hx dims hd hk
  · intro x dims hx hd
    rw [evaluate_nurbs h hn hx dims (fun c hc => (hd c hc).le)]
    congr 1
    apply List.map_congr_left
    intro c hc
    rw [if_neg (by have := hd c hc; omega)]
    exact (msum_ratBasis_zero c).symm
  · intro x k c d U hx hk hU
    have hdl : d < s.ps.knots.length := by
      by_contra hc; rw [List.getElem?_eq_none (by omega)] at hU; simp at hU
    rw [spanDeriv_iff]
    intro S hS
    have hS' : DSet (s.ps.knots.getD d []) (x.getD d 0) S := by rw [List.getD_eq_getElem?_getD, hU]; exact hS
    have hself : x.set d (x.getD d 0) = x := by
      have : d < x.length := by rw [← List.Forall₂.length_eq hx]; exact hdl
      rw [List.getD_eq_getElem?_getD, List.getElem?_eq_getElem this]; simp
    refine msum_hasDeriv fun I hI => HasDerivWithinAt.mul_const ?_ _
    have := ratR_hasDeriv (A := fun k t => dprod (basisDerivFns s.ps.knots s.ps.degree (x.set d t) k) I * wgt s I)
      (W := fun k t => tensorDerivSum s (x.set d t) k fun I => wgt s I) (D := s.ps.knots.length) hdl (S := S) (x := x.getD d 0)
      (fun k hk _ => by
        simp only [hself]
        exact (dprod_hasDeriv h.knots hx hk hI hdl hS').mul_const _)
      (fun k hk _ => by
        simp only [hself]
        exact tensorDerivSum_hasDeriv h hx hk hdl hS' _)
      (by
        simp only [hself]
        have := weightDeriv_zero (s := s) (x := x) (k := List.replicate s.ps.knots.length 0) (by simp)
        simp only [List.map_replicate] at this
        rw [this]
        exact (weightValue_pos h hx).ne') k.sum k hk (le_refl _) (le_refl _)
    simp only [hself] at this
    exact this

section
variable {K : Type} [Field K] [LinearOrder K] [IsStrictOrderedRing K]

/-- **C02** for `EvaluateDerivative`: it throws `range_error` exactly for the parameters outside the domain, whatever coordinates and
orders are requested; inside the domain it returns one value per requested coordinate. -/
theorem C02_evaluateDerivative {s : Spl K} (h : WFSpl s) {x : List K} (hl : x.length = s.ps.knots.length) :
    (∀ dims k, ¬ InDomain s x → s.evaluateDerivative x dims k = .error (.thrown .rangeError)) ∧
    (∀ dims k : List ℕ, (∀ c ∈ dims, c < s.ph.dim) → k.length = s.ps.knots.length → InDomain s x →
      ∃ v, s.evaluateDerivative x (zl dims) (zl k) = .ok v ∧ v.length = dims.length) := by
  constructor
  · intro dims k hx
    simp only [Spl.evaluateDerivative, Spl.evalWith, throwIfOutside_err h.knots hl hx, error_bind]
  · intro dims k hd hk hx
    cases hw : s.ph.weights with
    | none => exact ⟨_, evaluateDerivative_bspline h hw hx dims hd hk, by simp⟩
    | some w => exact ⟨_, evaluateDerivative_nurbs h ⟨w, hw⟩ hx dims hd hk, by simp⟩

end

example : ¬ InDomain exSurface [1/2, -2] ∧ exSurface.evaluateDerivative [1/2, -2] [0] [1, 0] = .error (.thrown .rangeError) ∧
    InDomain exSurface [1/2, 3] ∧ (exSurface.evaluateDerivative [1/2, 3] [0] [1, 1]).isOk = true := by
  refine ⟨?_, by decide +kernel, .cons (by decide +kernel) (.cons (by decide +kernel) .nil), by decide +kernel⟩
  rintro (_ | ⟨_, _ | ⟨h, _⟩⟩)
  exact absurd h (by decide +kernel)

/-! ### Satisfiability of the hypotheses over the reals -/

/-- Knots 0, 0, 1, 1. -/
theorem exKnotsR_wf : WFKnots [0, 0, 1, (1 : ℝ)] 1 where
  sorted := by simp [SortedKnots]
  size := by simp
  first := by
    intro j hj
    rcases (by omega : j = 0 ∨ j = 1) with rfl | rfl <;> simp [knot]
  last := by
    intro j hj
    rcases (by omega : j = 0 ∨ j = 1) with rfl | rfl <;> simp [knot, lastKnot]
  range := by simp [knot, lastKnot]
  sep := by
    have hk : kEps ℝ ≤ 1 := by unfold kEps; norm_num
    intro a ha b hb hab
    simp only [List.mem_cons, List.not_mem_nil, or_false] at ha hb
    rcases ha with rfl | rfl | rfl | rfl <;> rcases hb with rfl | rfl | rfl | rfl <;> first | (exfalso; linarith) | linarith

/-- A bilinear NURBS surface over the reals. -/
noncomputable def exReal : Spl ℝ :=
  ⟨⟨[[0, 0, 1, 1], [0, 0, 1, 1]], [1, 1], mkTable [[0, 0, 1, 1], [0, 0, 1, 1]] [1, 1]⟩, ⟨1, [2, 2], [0, 1, 2, 5], some [1, 2, 3, 4]⟩⟩

theorem exReal_knots : List.Forall₂ WFKnots exReal.ps.knots exReal.ps.degree := .cons exKnotsR_wf (.cons exKnotsR_wf .nil)

theorem exReal_wf : WFSpl exReal where
  knots := exReal_knots
  basis := basisTable_eq (forall₂_size exReal_knots)
  num := by simp [exReal, npts]
  dim := by simp [exReal]
  cps := by simp [exReal, npts]
  weights := by
    intro w hw
    obtain rfl : [1, 2, 3, 4] = w := by simpa [exReal] using hw
    simp [exReal, npts]

example : WFSpl exReal ∧ IsNurbs exReal ∧ InDomain exReal [1/2, 1] := by
  refine ⟨exReal_wf, ⟨_, rfl⟩, .cons ⟨?_, ?_⟩ (.cons ⟨?_, ?_⟩ .nil)⟩ <;> simp [knot, lastKnot]
  norm_num

/-- The same surface with the weights dropped. -/
noncomputable def exRealB : Spl ℝ := ⟨exReal.ps, { exReal.ph with weights := none }⟩

example : WFSpl exRealB ∧ IsBSpline exRealB ∧ InDomain exRealB [0, 1] := by
  have h := exReal_wf
  refine ⟨⟨h.knots, h.basis, h.num, h.dim, h.cps, by simp [exRealB]⟩, rfl, .cons ⟨?_, ?_⟩ (.cons ⟨?_, ?_⟩ .nil)⟩ <;>
    simp [knot, lastKnot]

/-- Test values: derivatives of the NURBS example at 3/4. -/
example : exNurbs.evaluateDerivative [3/4] [0, 1] [0] = exNurbs.evaluate [3/4] [0, 1] := by decide +kernel

end SplineLib
