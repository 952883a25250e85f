import Verif.Core.IgaPoisson
import Verif.Props.Derivatives

/-!
# C52–C60: the isogeometric example

`fnAt s x a` is the value at `x` of the rational basis function of the control point number `a`, `quadSum s rule g` is the quadrature
approximation of the integral of `g` over the geometry, `field s u x` is the discrete field with the coefficients `u`.
-/

namespace SplineLib
set_option linter.unusedSectionVars false
open Finset

namespace Iga
open Elem
variable {K : Type} [Field K] [LinearOrder K] [IsStrictOrderedRing K]

theorem ratFn_nonneg {s : Spl K} (h : WFSpl s) {x : List K} (hx : Dom s.ps.knots x) {I : List ℕ} (hI : InBox (npts s) I) : 0 ≤ ratFn s x I := by
  unfold ratFn
  exact div_nonneg (mul_nonneg (tensor_nonneg h.knots hx hI) (wgt_pos' h hI).le) (weightValue_pos h hx).le

theorem list_sum_range (n : ℕ) (f : ℕ → K) : ((List.range n).map f).sum = ∑ i ∈ range n, f i := by
  rw [list_sum_map_range]

section
variable [HasSqrt K] [LawfulSqrt K]

/-! ### C52: values at the integration points of an element -/

/-- **C52.** `EvaluateAllElementNonZeroNURBSBasisFunctions(e, rule)` returns one entry for every combination of points of the rule. Entry
`q` belongs to the image `x` of that combination `ts` in the element `e`, its weight is the product of the weights of `ts`, its values are
the values at `x` of the functions `N_I w_I / Σ N w` whose numbers `GetGlobalIndex(e, ·)` returns; they are not negative and add up to
one. -/
theorem C52_element_values {s : Spl K} {rule : List (K × K)} (P : Problem s rule) {e : List ℤ}
    (he : ValidIx (numElements (elemsOf s.ps.knots)) e) :
    ∃ pts, elementPoints (rationalBasis s) s (position (numElements (elemsOf s.ps.knots)) e) rule = .ok pts ∧
      pts.length = rule.length ^ D s ∧
      ∀ q p, pts[q]? = some p → ∃ (ts : List (K × K)) (x : List K),
        ts = (unlin (List.replicate (D s) rule.length) q).map (fun i => rule.getD i (0, 0)) ∧ (∀ t ∈ ts, t ∈ rule) ∧
        x = refMap (elemsOf s.ps.knots) e (ts.map Prod.fst) ∧ InElement (elemsOf s.ps.knots) e x ∧
        p.weight = (ts.map Prod.snd).prod ∧ jacobian s x = .ok p.jac ∧
        p.value.length = (s.ps.degree.map (· + 1)).prod ∧ p.value.sum = 1 ∧ (∀ v ∈ p.value, 0 ≤ v) ∧
        ∀ (k : ℕ) v, p.value[k]? = some v → ∃ I, InBox (npts s) I ∧
          globalIndex s (position (numElements (elemsOf s.ps.knots)) e) k = .ok ((lin (npts s) I : ℤ) + 1) ∧
          v = dprod (basisFns s.ps.knots s.ps.degree x) I * wgt s I / weightValue s x := by
  have hin : ∀ q, InElement (elemsOf s.ps.knots) e (quadPoint s rule e q) := fun q => (toParam_eq P.wf P.len P.rule he q).2
  refine ⟨_, elementPoints_eq P.wf P.nurbs P.len P.rule he (fun q _ => rationalBasis_eq P.wf P.nurbs P.len P.dirs (hin q)), ?_, ?_⟩
  · simp [quadNum, ruleBox]
  · intro q p hq
    have hx := inElement_dom P.wf.knots (hin q)
    rw [List.getElem?_map] at hq
    obtain ⟨q', h1, rfl⟩ := Option.map_eq_some_iff.1 hq
    obtain ⟨hlt, h1⟩ := List.getElem?_eq_some_iff.1 h1
    rw [List.getElem_range] at h1
    subst h1
    refine ⟨rulePts rule (unlin (ruleBox s rule) q), quadPoint s rule e q, rfl, rulePts_mem P.rule q, rfl, hin q, rfl, ?_, ?_, ?_, ?_, ?_⟩
    · exact jacobian_eq P.wf P.nurbs P.len (hin q)
    · simp [actNum, actBox]
    · dsimp only
      rw [list_sum_range]
      have := sum_ratFn P.wf hx fun _ => 1
      simp only [mul_one] at this
      rw [this]
      exact sum_ratFn_one P.wf hx
    · intro v hv
      obtain ⟨k, -, rfl⟩ := List.mem_map.1 hv
      exact ratFn_nonneg P.wf hx (actIx_inBox P.wf hx k)
    · intro k v hk
      dsimp only at hk
      rw [List.getElem?_map] at hk
      obtain ⟨k', h2, rfl⟩ := Option.map_eq_some_iff.1 hk
      obtain ⟨hlt', h2⟩ := List.getElem?_eq_some_iff.1 h2
      rw [List.getElem_range] at h2
      subst h2
      exact ⟨actIx s (quadPoint s rule e q) k, actIx_inBox P.wf hx k, globalIndex_eq P.wf P.len (hin q) (by simpa using hlt'), rfl⟩

/-- **C52.** Every function that is not zero at an integration point is among those of the element. -/
theorem C52_element_complete {s : Spl K} {rule : List (K × K)} (P : Problem s rule) {e : List ℤ} {x : List K}
    (hx : InElement (elemsOf s.ps.knots) e x) {I : List ℕ} (hI : InBox (npts s) I) (h0 : ratFn s x I ≠ 0) :
    ∃ k : ℕ, k < (s.ps.degree.map (· + 1)).prod ∧
      globalIndex s (position (numElements (elemsOf s.ps.knots)) e) k = .ok ((lin (npts s) I : ℤ) + 1) := by
  by_contra hc
  have hd := inElement_dom P.wf.knots hx
  have hne : ∀ k < actNum s, lin (npts s) (actIx s x k) ≠ lin (npts s) I := by
    intro k hk heq
    exact hc ⟨k, hk, by rw [globalIndex_eq P.wf P.len hx hk, heq]⟩
  have := scatter_fn P.wf hd (lin_lt hI)
  rw [Finset.sum_eq_zero (fun k hk => if_neg (Ne.symm (hne k (Finset.mem_range.1 hk)))), fnAt, unlin_lin hI] at this
  exact h0 this.symm

end

/-! ### C53: derivatives of the basis functions -/

/-- **C53** over the reals: `ratBasis s x (unitIx d) I` is the partial derivative of `N_I w_I / Σ N w` in direction `d`. -/
theorem C53_spec_derivative {s : Spl ℝ} (h : WFSpl s) {x : List ℝ} (hx : InDomain s x) {d : ℕ} {U : List ℝ} (hU : s.ps.knots[d]? = some U)
    {I : List ℕ} (hI : InBox (npts s) I) :
    SpanDeriv U (fun t => ratFn s (x.set d t) I) (ratBasis s x (unitIx (D s) d) I) (x.getD d 0) := by
  have hdl : d < s.ps.knots.length := lt_of_some hU
  have hz : ∀ y, ratFn s y I = ratBasis s y (List.replicate (D s) 0) I := by
    intro y
    have hzz : (List.replicate (D s) 0).all (fun a : ℕ => decide (a = 0)) = true := by simp
    have hw : (tensorDerivSum s y (List.replicate (D s) 0) fun I => wgt s I) = weightValue s y := by
      have := weightDeriv_zero (s := s) (x := y) (k := List.replicate (D s) 0) (by simp)
      rwa [List.map_const', List.length_replicate] at this
    unfold ratBasis ratFn ratR
    rw [ratD_zero hzz, hw, basisDerivFns_rep]
  rw [spanDeriv_iff]
  intro S hS
  have hS' : DSet (s.ps.knots.getD d []) (x.getD d 0) S := by rw [List.getD_eq_getElem?_getD, hU]; exact hS
  have hself : x.set d (x.getD d 0) = x := by
    have : d < x.length := by rw [← List.Forall₂.length_eq hx]; exact hdl
    rw [List.getD_eq_getElem?_getD, List.getElem?_eq_getElem this]; simp
  have := ratR_hasDeriv (A := fun k t => dprod (basisDerivFns s.ps.knots s.ps.degree (x.set d t) k) I * wgt s I)
    (W := fun k t => tensorDerivSum s (x.set d t) k fun I => wgt s I) (D := s.ps.knots.length) hdl (S := S) (x := x.getD d 0)
    (fun k hk _ => by
      simp only [hself]
      exact (dprod_hasDeriv h.knots hx hk hI hdl hS').mul_const _)
    (fun k hk _ => by
      simp only [hself]
      exact tensorDerivSum_hasDeriv h hx hk hdl hS' _)
    (by
      simp only [hself]
      have := weightDeriv_zero (s := s) (x := x) (k := List.replicate s.ps.knots.length 0) (by simp)
      simp only [List.map_replicate] at this
      rw [this]
      exact (weightValue_pos h hx).ne') 0 (List.replicate (D s) 0) (by simp) (le_refl _) (by simp)
  simp only [hself] at this
  simp only [hz]
  have e : (List.replicate (D s) 0).modify d (· + 1) = unitIx (D s) d := by
    unfold unitIx
    apply List.ext_getElem?
    intro k
    rw [List.getElem?_modify, List.getElem?_set]
    by_cases hk : d = k
    · subst hk; simp [hdl]
    · simp [hk]
  rw [e] at this
  exact this


/-- **C53** (partial: only for unit weights, see `C53_weights_counterexample`). In an element,
`EvaluateAllNonZeroNURBSBasisFunctionDerivatives` returns for every direction `j` the partial derivatives of the functions with the numbers
`GetGlobalIndex(e, ·)`, and they add up to zero. -/
theorem C53_derivatives_partial {s : Spl K} (h : WFSpl s) (hn : IsNurbs s) (hl : ∀ U ∈ s.ps.knots, U.length < 2 ^ 64) (hD : 0 < D s)
    (hA : D s ≤ (s.ps.degree.map (· + 1)).prod) (hu : UnitWeights s) {e : List ℤ} {x : List K}
    (hx : InElement (elemsOf s.ps.knots) e x) :
    ∃ L, rationalDerivs s x = .ok L ∧ L.length = D s ∧ ∀ j row, L[j]? = some row →
      row.length = (s.ps.degree.map (· + 1)).prod ∧ row.sum = 0 ∧
      ∀ (k : ℕ) v, row[k]? = some v → ∃ I, InBox (npts s) I ∧
        globalIndex s (position (numElements (elemsOf s.ps.knots)) e) k = .ok ((lin (npts s) I : ℤ) + 1) ∧
        v = ratBasis s x (unitIx (D s) j) I := by
  have hd := inElement_dom h.knots hx
  refine ⟨_, rationalDerivs_unit h hn hl hD hA hu hx, by simp, ?_⟩
  intro j row hj
  rw [List.getElem?_map] at hj
  obtain ⟨j', h1, rfl⟩ := Option.map_eq_some_iff.1 hj
  obtain ⟨hlt, h1⟩ := List.getElem?_eq_some_iff.1 h1
  rw [List.getElem_range] at h1
  subst h1
  rw [List.length_range] at hlt
  refine ⟨by simp [actNum, actBox], ?_, ?_⟩
  · rw [list_sum_range]
    have := sum_ratBasis h hd (unitIx_length (D s) j) fun _ => 1
    simp only [mul_one] at this
    rw [this]
    exact sum_ratBasis_zero h hd hlt
  · intro k v hk
    rw [List.getElem?_map] at hk
    obtain ⟨k', h2, rfl⟩ := Option.map_eq_some_iff.1 hk
    obtain ⟨hlt', h2⟩ := List.getElem?_eq_some_iff.1 h2
    rw [List.getElem_range] at h2
    subst h2
    exact ⟨actIx s x k, actIx_inBox h hd k, globalIndex_eq h hl hx (by simpa using hlt'), rfl⟩

/-- A line with the weights 1 and 2. -/
def exWeighted : Spl ℚ := ⟨⟨[[0, 0, 1, 1]], [1], mkTable [[0, 0, 1, 1]] [1]⟩, ⟨1, [2], [0, 1], some [1, 2]⟩⟩

/-- **C53** is false for other weights: for the line with the weights 1 and 2 the derivatives at 1/2 are -8/9 and 8/9, the code returns
-22/27 and 2. The quotient rule is applied to the normalised function, and only to the first `DIM` functions. -/
theorem C53_weights_counterexample : rationalDerivs exWeighted [1/2] = .ok [[-22/27, 2]] ∧
    (List.range 2).map (fun i => ratBasis exWeighted [1/2] [1] [i]) = [-8/9, 8/9] := by
  constructor <;> decide +kernel

/-! ### C54: the mapping -/

/-- `geoMat` are the first derivatives that `EvaluateDerivative` returns (which are the partial derivatives by C10). -/
theorem C54_geometry_derivatives {s : Spl K} (h : WFSpl s) (hn : IsNurbs s) {x : List K} (hx : InDomain s x) (c : Fin s.ph.dim) (j : Fin (D s)) :
    s.evaluateDerivative x [((c : ℕ) : ℤ)] (zl (unitIx (D s) j)) = .ok [geoMat s.ph.dim s x c j] := by
  have := evaluateDerivative_nurbs h hn hx [(c : ℕ)] (by simp) (k := unitIx (D s) j) (unitIx_length _ _)
  exact this

section
variable [HasSqrt K] [LawfulSqrt K]

/-- **C54.** In an element, `GetJacobianDeterminant` is the product of the volume factor of the geometry - the root of the Gram determinant of
its derivatives - and the half lengths of the element. If there are as many coordinates as directions it is the absolute value of the
determinant times the half lengths; it is positive where the geometry is regular. -/
theorem C54_jacobian {s : Spl K} (h : WFSpl s) (hn : IsNurbs s) (hl : ∀ U ∈ s.ps.knots, U.length < 2 ^ 64) {e : List ℤ} {x : List K}
    (hx : InElement (elemsOf s.ps.knots) e x) :
    ∃ J, jacobian s x = .ok J ∧ 0 ≤ J ∧
      J * J = |((geoMat s.ph.dim s x).transpose * geoMat s.ph.dim s x).det| * (∏ i : Fin (D s), (halfLens (elemsOf s.ps.knots) e).getD i 0) ^ 2 ∧
      (s.ph.dim = D s → J = |(geoMat (D s) s x).det| * ∏ i : Fin (D s), (halfLens (elemsOf s.ps.knots) e).getD i 0) ∧
      (s.ph.dim = D s → (geoMat (D s) s x).det ≠ 0 → 0 < J) := by
  have hp : 0 < ∏ i : Fin (D s), (halfLens (elemsOf s.ps.knots) e).getD i 0 := Finset.prod_pos fun i _ => halfLens_pos hx i.2
  have h1 := LawfulSqrt.nonneg _ (abs_nonneg ((geoMat s.ph.dim s x).transpose * geoMat s.ph.dim s x).det)
  have h2 := LawfulSqrt.sq _ (abs_nonneg ((geoMat s.ph.dim s x).transpose * geoMat s.ph.dim s x).det)
  refine ⟨_, jacobian_eq h hn hl hx, mul_nonneg h1 hp.le, ?_, ?_, ?_⟩
  · rw [← h2]
    unfold volFactor
    ring
  · intro hd
    rw [volFactor_square s x hd]
  · intro hd h0
    rw [volFactor_square s x hd]
    exact mul_pos (abs_pos.2 h0) hp

omit [HasSqrt K] [LawfulSqrt K] in
/-- **C54.** `GetDxiDx` is the inverse of the derivatives of the first `DIM` coordinates. -/
theorem C54_inverse {s : Spl K} (h : WFSpl s) (hn : IsNurbs s) {x : List K} (hx : InDomain s x) (hd : D s ≤ s.ph.dim)
    (hJ : (geoMat (D s) s x).det ≠ 0) :
    ∃ B, dxiDx s x = .ok B ∧ geoMat (D s) s x * B = 1 ∧ B * geoMat (D s) s x = 1 :=
  ⟨_, dxiDx_eq h hn hx hd hJ, Matrix.mul_nonsing_inv _ (isUnit_iff_ne_zero.2 hJ), Matrix.nonsing_inv_mul _ (isUnit_iff_ne_zero.2 hJ)⟩

omit [HasSqrt K] [LawfulSqrt K] in
/-- **C54** (partial: only for unit weights). `EvaluateAllNonZeroNURBSBafDerivativesPhysical` returns the derivatives with respect to the
physical coordinates by the chain rule. They add up to zero and differentiate the coordinates themselves to one and zero. -/
theorem C54_physical_derivatives_partial {s : Spl K} (h : WFSpl s) (hn : IsNurbs s) (hl : ∀ U ∈ s.ps.knots, U.length < 2 ^ 64) (hD : 0 < D s)
    (hA : D s ≤ (s.ps.degree.map (· + 1)).prod) (hu : UnitWeights s) {e : List ℤ} {x : List K}
    (hx : InElement (elemsOf s.ps.knots) e x) (hd : D s ≤ s.ph.dim) (hJ : (geoMat (D s) s x).det ≠ 0) :
    ∃ L, physicalDerivs s x = .ok L ∧ L.length = D s ∧ ∀ (i : Fin (D s)) row, L[(i : ℕ)]? = some row →
      row.length = (s.ps.degree.map (· + 1)).prod ∧
      (∀ (k : ℕ) v, row[k]? = some v → ∃ I, InBox (npts s) I ∧
        globalIndex s (position (numElements (elemsOf s.ps.knots)) e) k = .ok ((lin (npts s) I : ℤ) + 1) ∧
        v = ∑ j : Fin (D s), ratBasis s x (unitIx (D s) j) I * (geoMat (D s) s x)⁻¹ j i) ∧
      msum (npts s) (physDeriv s x i) = 0 ∧
      ∀ c : Fin (D s), (msum (npts s) fun I => physDeriv s x i I * cpt s I c) = if c = i then 1 else 0 := by
  have hdom := inElement_dom h.knots hx
  refine ⟨_, physicalDerivs_eq h hn hl hD hA hx hd hJ, by simp, ?_⟩
  intro i row hi
  rw [List.getElem?_map] at hi
  obtain ⟨i', h1, rfl⟩ := Option.map_eq_some_iff.1 hi
  obtain ⟨hlt, h1⟩ := List.getElem?_eq_some_iff.1 h1
  rw [List.getElem_range] at h1
  subst h1
  refine ⟨by simp [actNum, actBox], ?_, sum_physDeriv h hdom i, fun c => sum_physDeriv_coord hJ i c⟩
  intro k v hk
  rw [List.getElem?_map] at hk
  obtain ⟨k', h2, rfl⟩ := Option.map_eq_some_iff.1 hk
  obtain ⟨hlt', h2⟩ := List.getElem?_eq_some_iff.1 h2
  rw [List.getElem_range] at h2
  subst h2
  refine ⟨actIx s x k, actIx_inBox h hdom k, globalIndex_eq h hl hx (by simpa using hlt'), ?_⟩
  apply Finset.sum_congr rfl
  intro j _
  rw [codeEntry_unit h hu hdom j.2, dif_pos i.2]

/-! ### C55: the matrices -/

/-- The hypotheses on the geometry: regular at the integration points. -/
structure Regular (s : Spl K) (rule : List (K × K)) : Prop where
  dim : D s ≤ s.ph.dim
  funs : D s ≤ (s.ps.degree.map (· + 1)).prod
  det : ∀ m q, (geoMat (D s) s (quadPoint s rule (elemIx s m) q)).det ≠ 0

theorem quadSum_congr {s : Spl K} {rule : List (K × K)} (P : Problem s rule) {f g : List K → K}
    (h : ∀ x, InDomain s x → f x = g x) : quadSum s rule f = quadSum s rule g := by
  unfold quadSum
  exact Finset.sum_congr rfl fun m _ => Finset.sum_congr rfl fun q _ => by rw [h _ (quadPoint_dom P m q)]

theorem quadSum_sum {s : Spl K} {rule : List (K × K)} {ι : Type} (t : Finset ι) (f : ι → List K → K) :
    ∑ a ∈ t, quadSum s rule (f a) = quadSum s rule fun x => ∑ a ∈ t, f a x := by
  unfold quadSum
  rw [Finset.sum_comm]
  apply Finset.sum_congr rfl
  intro m _
  rw [Finset.sum_comm]
  apply Finset.sum_congr rfl
  intro q _
  rw [Finset.mul_sum]

theorem quadSum_mul {s : Spl K} {rule : List (K × K)} (c : K) (f : List K → K) :
    c * quadSum s rule f = quadSum s rule fun x => c * f x := by
  unfold quadSum
  simp only [Finset.mul_sum]
  exact Finset.sum_congr rfl fun m _ => Finset.sum_congr rfl fun q _ => by ring

theorem quadWeight_nonneg {s : Spl K} {rule : List (K × K)} (P : Problem s rule) (hw : ∀ p ∈ rule, 0 ≤ p.2) (q : ℕ) : 0 ≤ quadWeight s rule q := by
  unfold quadWeight
  apply List.prod_nonneg
  intro a ha
  obtain ⟨p, hp, rfl⟩ := List.mem_map.1 ha
  exact hw p (rulePts_mem P.rule q p hp)

theorem quadFactor_nonneg {s : Spl K} {rule : List (K × K)} (P : Problem s rule) (hw : ∀ p ∈ rule, 0 ≤ p.2) (m q : ℕ) :
    0 ≤ quadFactor s rule (elemIx s m) q := by
  unfold quadFactor volFactor
  exact mul_nonneg (quadWeight_nonneg P hw q) (mul_nonneg (LawfulSqrt.nonneg _ (abs_nonneg _))
    (Finset.prod_pos fun i _ => halfLens_pos (quadPoint_in P m q) i.2).le)

theorem quadSum_nonneg {s : Spl K} {rule : List (K × K)} (P : Problem s rule) (hw : ∀ p ∈ rule, 0 ≤ p.2) {f : List K → K}
    (hf : ∀ x, InDomain s x → 0 ≤ f x) : 0 ≤ quadSum s rule f :=
  Finset.sum_nonneg fun m _ => Finset.sum_nonneg fun q _ => mul_nonneg (quadFactor_nonneg P hw m q) (hf _ (quadPoint_dom P m q))

/-- What the quadrature sum is: over all elements `m` and integration points `q`, the weight of the point, the volume factor of the geometry,
the half lengths of the element and the integrand at the point, which lies in the element. -/
theorem C55_quadSum {s : Spl K} {rule : List (K × K)} (P : Problem s rule) (g : List K → K) :
    quadSum s rule g = ∑ m ∈ range ((elemsOf s.ps.knots).map List.length).prod, ∑ q ∈ range (rule.length ^ D s),
      quadWeight s rule q * (volFactor s (quadPoint s rule (elemIx s m) q) * ∏ i : Fin (D s), (halfLens (elemsOf s.ps.knots) (elemIx s m)).getD i 0) *
        g (quadPoint s rule (elemIx s m) q) ∧
    ∀ m q, InElement (elemsOf s.ps.knots) (elemIx s m) (quadPoint s rule (elemIx s m) q) := by
  refine ⟨?_, quadPoint_in P⟩
  have e : quadNum s rule = rule.length ^ D s := by simp [quadNum, ruleBox]
  rw [← e]
  rfl

/-- **C55.** The time discretisation matrix is the mass matrix: entry `a b` is the quadrature of `R_a R_b`. It is symmetric, all entries
together are the quadrature of one (the volume), and with weights that are not negative it is positive semidefinite. -/
theorem C55_mass_matrix {s : Spl K} {rule : List (K × K)} (P : Problem s rule) :
    ∃ A : ℕ → ℕ → K, massMatrix s rule = .ok (matOf (npts s).prod A) ∧
      (∀ a b, A a b = quadSum s rule fun x => fnAt s x a * fnAt s x b) ∧ (∀ a b, A a b = A b a) ∧
      (∑ a ∈ range (npts s).prod, ∑ b ∈ range (npts s).prod, A a b) = quadSum s rule (fun _ => 1) ∧
      ((∀ p ∈ rule, 0 ≤ p.2) → ∀ u : ℕ → K, 0 ≤ ∑ a ∈ range (npts s).prod, ∑ b ∈ range (npts s).prod, u a * A a b * u b) := by
  refine ⟨_, massMatrix_eq P, fun _ _ => rfl, fun a b => ?_, ?_, ?_⟩
  · exact quadSum_congr P fun x _ => mul_comm _ _
  · simp only [quadSum_sum]
    apply quadSum_congr P
    intro x hx
    simp only [← Finset.mul_sum, sum_fnAt P.wf hx, mul_one]
  · intro hw u
    have e : ∑ a ∈ range (npts s).prod, ∑ b ∈ range (npts s).prod, u a * (quadSum s rule fun x => fnAt s x a * fnAt s x b) * u b =
        quadSum s rule fun x => (∑ a ∈ range (npts s).prod, fnAt s x a * u a) * (∑ a ∈ range (npts s).prod, fnAt s x a * u a) := by
      simp only [Finset.sum_mul_sum, ← quadSum_sum]
      apply Finset.sum_congr rfl
      intro a _
      apply Finset.sum_congr rfl
      intro b _
      rw [quadSum_mul, mul_comm, quadSum_mul]
      exact quadSum_congr P fun x _ => by ring
    rw [e]
    exact quadSum_nonneg P hw fun x _ => mul_self_nonneg _

/-- **C55.** `GetRightSide` adds to row `a` the quadrature of `R_a` times the source field. -/
theorem C55_right_side {s : Spl K} {rule : List (K × K)} (P : Problem s rule) (src f : ℕ → K) :
    rightSide s rule (vecOf (npts s).prod src) (vecOf (npts s).prod f) =
      .ok (vecOf (npts s).prod fun a => f a + quadSum s rule fun x => fnAt s x a * field s src x) :=
  rightSide_eq P src f

/-- **C55** (partial: only for unit weights, see C53). `GetLeftSide` adds the matrix of the Laplace operator: entry `a b` is the quadrature of
the conductivity times the product of the gradients of `R_a` and `R_b`. The matrix is symmetric, its rows add up to zero, and with weights
that are not negative it is positive semidefinite. -/
theorem C55_left_side_partial {s : Spl K} {rule : List (K × K)} (P : Problem s rule) (R : Regular s rule) (hu : UnitWeights s) (κ : K) :
    ∃ A : ℕ → ℕ → K, (∀ f, leftSide s rule κ (matOf (npts s).prod f) = .ok (matOf (npts s).prod fun a b => f a b + κ * A a b)) ∧
      (∀ a < (npts s).prod, ∀ b < (npts s).prod, A a b = quadSum s rule fun x =>
        ∑ i : Fin (D s), physDeriv s x i (unlin (npts s) a) * physDeriv s x i (unlin (npts s) b)) ∧
      (∀ a b, A a b = A b a) ∧
      (∀ a < (npts s).prod, ∑ b ∈ range (npts s).prod, A a b = 0) ∧
      ((∀ p ∈ rule, 0 ≤ p.2) → ∀ u : ℕ → K, 0 ≤ ∑ a ∈ range (npts s).prod, ∑ b ∈ range (npts s).prod, u a * A a b * u b) := by
  refine ⟨stiff s rule, fun f => ?_, fun a ha b hb => ?_, fun a b => ?_, fun a ha => ?_, fun hw u => ?_⟩
  · rw [leftSide_eq P R.dim R.funs R.det]
    congr 1
    congr 1
    funext a b
    rw [stiff, quadSum_mul]
  · unfold stiff
    apply quadSum_congr P
    intro x hx
    rw [Finset.sum_range]
    exact Finset.sum_congr rfl fun i _ => by rw [codePhys_unit P.wf hu hx i ha, codePhys_unit P.wf hu hx i hb]
  · exact quadSum_congr P fun x _ => Finset.sum_congr rfl fun i _ => mul_comm _ _
  · unfold stiff
    rw [quadSum_sum]
    have e : (quadSum s rule fun x => ∑ b ∈ range (npts s).prod, ∑ i ∈ range (D s), codePhys s x i a * codePhys s x i b) = quadSum s rule fun _ => 0 := by
      apply quadSum_congr P
      intro x hx
      rw [Finset.sum_comm, Finset.sum_range]
      apply Finset.sum_eq_zero
      intro i _
      rw [← Finset.mul_sum, Finset.sum_congr rfl (fun b hb => codePhys_unit P.wf hu hx i (Finset.mem_range.1 hb))]
      have := sum_physDeriv P.wf hx i
      rw [msum_eq_sum_unlin] at this
      rw [this, mul_zero]
    rw [e]
    unfold quadSum
    simp
  · have e : ∑ a ∈ range (npts s).prod, ∑ b ∈ range (npts s).prod, u a * stiff s rule a b * u b =
        quadSum s rule fun x => ∑ i ∈ range (D s), (∑ a ∈ range (npts s).prod, codePhys s x i a * u a) *
          (∑ a ∈ range (npts s).prod, codePhys s x i a * u a) := by
      simp only [Finset.sum_mul_sum, ← quadSum_sum]
      rw [Finset.sum_comm]
      conv_rhs => rw [Finset.sum_comm]
      rw [Finset.sum_comm]
      apply Finset.sum_congr rfl
      intro a _
      rw [Finset.sum_comm]
      apply Finset.sum_congr rfl
      intro b _
      unfold stiff
      rw [quadSum_mul, mul_comm, quadSum_mul, quadSum_sum]
      apply quadSum_congr P
      intro x _
      rw [Finset.mul_sum, Finset.mul_sum]
      exact Finset.sum_congr rfl fun i _ => by ring
    rw [e]
    exact quadSum_nonneg P hw fun x _ => Finset.sum_nonneg fun i _ => mul_self_nonneg _

omit [HasSqrt K] [LawfulSqrt K] in
/-- **C55.** The matrices of the implicit Euler method: `A + M / dt` and `b + M / dt u`. -/
theorem C55_bdf1 {n : ℕ} (m f : ℕ → ℕ → K) (g v : ℕ → K) {dt : K} (hdt : dt ≠ 0) :
    bdfLeft (matOf n m) (matOf n f) dt = .ok (matOf n fun a b => f a b + m a b / dt) ∧
    bdfRight (matOf n m) (vecOf n g) (vecOf n v) dt = .ok (vecOf n fun a => g a + ∑ b ∈ range n, m a b / dt * v b) :=
  ⟨bdfLeft_eq m f hdt, bdfRight_eq m g v hdt⟩

end

/-! ### C56: boundary conditions -/

/-- **C56.** `SetZeroBC` replaces the rows of the boundary control points by unit rows and their right sides by zero and leaves all other
rows. -/
theorem C56_zero_bc {s : Spl K} (h : WFSpl s) (hsz : (npts s).prod < 2 ^ 64) (f : ℕ → ℕ → K) (g : ℕ → K) :
    setZeroBC s (matOf (npts s).prod f) (vecOf (npts s).prod g) =
      .ok (matOf (npts s).prod fun a b => if BoundaryIx (npts s) (unlin (npts s) a) then (if a = b then 1 else 0) else f a b,
        vecOf (npts s).prod fun a => if BoundaryIx (npts s) (unlin (npts s) a) then 0 else g a) :=
  setZeroBC_eq h hsz f g

/-- **C56.** `SetDirichletBC` does the same with the given values: the boundary control points take the values in the order of their
numbers. -/
theorem C56_dirichlet_bc {s : Spl K} (h : WFSpl s) (hsz : (npts s).prod < 2 ^ 64) (f : ℕ → ℕ → K) (g : ℕ → K) (v : List K)
    (hl : ((range (npts s).prod).filter fun a => BoundaryIx (npts s) (unlin (npts s) a)).card ≤ v.length) :
    setDirichletBC s (matOf (npts s).prod f) (vecOf (npts s).prod g) (some v) =
      .ok (matOf (npts s).prod fun a b => if BoundaryIx (npts s) (unlin (npts s) a) then (if a = b then 1 else 0) else f a b,
        vecOf (npts s).prod fun a => if BoundaryIx (npts s) (unlin (npts s) a) then
          v.getD ((range a).filter fun a => BoundaryIx (npts s) (unlin (npts s) a)).card 0 else g a) :=
  setDirichletBC_eq h hsz f g (some v) v rfl hl

/-- **C56.** On the boundary of the domain the field depends on the coefficients of the boundary control points only; if they are zero it
vanishes there. -/
theorem C56_field_on_boundary {s : Spl K} (h : WFSpl s) (he : List.Forall₂ ExactEnds s.ps.knots s.ps.degree) {x : List K} (hx : InDomain s x)
    (hE : OnEdge s.ps.knots x) (u v : ℕ → K)
    (huv : ∀ a < (npts s).prod, BoundaryIx (npts s) (unlin (npts s) a) → u a = v a) :
    field s u x = field s v x ∧ ((∀ a < (npts s).prod, BoundaryIx (npts s) (unlin (npts s) a) → u a = 0) → field s u x = 0) := by
  have hz : ∀ a < (npts s).prod, ¬ BoundaryIx (npts s) (unlin (npts s) a) → fnAt s x a = 0 := by
    intro a _ hB
    unfold fnAt ratFn
    rw [inner_vanish h.knots he hx (unlin_inBox (npts_pos h) a) hE hB, zero_mul, zero_div]
  have key : ∀ u v : ℕ → K, (∀ a < (npts s).prod, BoundaryIx (npts s) (unlin (npts s) a) → u a = v a) → field s u x = field s v x := by
    intro u v huv
    unfold field
    apply Finset.sum_congr rfl
    intro a ha
    have ha := Finset.mem_range.1 ha
    by_cases hB : BoundaryIx (npts s) (unlin (npts s) a)
    · rw [huv a ha hB]
    · rw [hz a ha hB, zero_mul, zero_mul]
  refine ⟨key u v huv, fun h0 => ?_⟩
  rw [key u (fun _ => 0) h0]
  unfold field
  simp

/-! ### C57: boundary splines -/

/-- **C57.** The connectivity of direction `d`: the numbers of the control points whose index in direction `d` is the first or the last one. -/
theorem C57_connectivity {s : Spl K} (h : WFSpl s) {d n : ℕ} (hd : (npts s)[d]? = some n) :
    ∃ A B : List ℕ, boundaryConnectivity s d = .ok (zl A, zl B) ∧
      A = (List.range (npts s).prod).filter (fun k => (unlin (npts s) k)[d]? == some 0) ∧
      B = (List.range (npts s).prod).filter (fun k => (unlin (npts s) k)[d]? == some (n - 1)) := by
  have hn : 0 < n := npts_pos h n (List.mem_of_getElem? hd)
  exact ⟨_, _, boundaryConnectivity_eq h hd, (filter_face (npts_pos h) hd hn).symm, (filter_face (npts_pos h) hd (by omega)).symm⟩

/-- **C57** is false in general: `GetBoundarySplines` gives every boundary spline the first `DIM - 1` knot vectors and degrees. For a surface
with different numbers of control points in the two directions it throws, and with it `GetRightSideNeumann`. -/
theorem C57_boundary_counterexample {s : Spl K} (h : WFSpl s) (hsz : (npts s).prod < 2 ^ 64) {n m : ℕ} (h2 : npts s = [n, m]) (hne : n ≠ m) :
    boundarySplines s = .error (.thrown .runtimeError) := by
  have hD : D s = 2 := by
    have : (npts s).length = s.ps.knots.length := by simp [npts, h.knots.length_eq]
    rw [D, ← this, h2]; rfl
  have hpos := npts_pos h
  have hm : 0 < m := hpos m (by simp [h2])
  have hn : 0 < n := hpos n (by simp [h2])
  have e0 : (npts s)[0]? = some n := by rw [h2]; rfl
  have hlen : (faceNumbers s 0 0).length = m := by simp [faceNumbers, h2]
  have hnp : nptsOf (s.ps.knots.take (D s - 1)) (s.ps.degree.take (D s - 1)) = [n] := by
    rw [hD]
    have := h2
    unfold npts at this
    unfold nptsOf
    rw [← List.take_zipWith, this]
    rfl
  have hf : boundarySide s (zl (faceNumbers s 0 0)) = .error (.thrown .runtimeError) → boundarySplines s = .error (.thrown .runtimeError) := by
    intro hf
    unfold boundarySplines
    rw [hD]
    simp only [buildList, boundaryConnectivity_eq h e0, ok_bind, pure_ok, hf, error_bind]
  apply hf
  rw [boundarySide_data h]
  apply newNurbs_err
  · intro e
    have := congrArg List.length e
    simp [facePoints, hlen] at this
    omega
  · rw [List.length_take, List.length_take, h.knots.length_eq]
  · rw [hnp]
    have : (npts s).prod = n * m := by simp [h2]
    have := Nat.le_mul_of_pos_right n hm
    simp
    omega
  · rw [hnp]
    intro hc
    have := hc.2.1.1
    simp [facePoints, hlen] at this
    omega

/-- **C57** (partial: only for the directions in which the first `DIM - 1` knot vectors and degrees are the ones of the side, in particular the
last direction). The boundary splines are the restrictions of the spline to the sides. -/
theorem C57_boundary_partial {s : Spl K} (h : WFSpl s) (hsz : (npts s).prod < 2 ^ 64) {d n : ℕ} {U : List K} {p : ℕ}
    (hd : (npts s)[d]? = some n) (hU : s.ps.knots[d]? = some U) (hp : s.ps.degree[d]? = some p) (he : ExactEnds U p)
    (hk : s.ps.knots.take (D s - 1) = s.ps.knots.eraseIdx d) (hq : s.ps.degree.take (D s - 1) = s.ps.degree.eraseIdx d) :
    ∃ A B t₀ t₁, boundaryConnectivity s d = .ok (A, B) ∧ boundarySide s A = .ok t₀ ∧ boundarySide s B = .ok t₁ ∧
      WFSpl t₀ ∧ WFSpl t₁ ∧ t₀.ps.knots = s.ps.knots.eraseIdx d ∧ t₁.ps.knots = s.ps.knots.eraseIdx d ∧
      ∀ y : List K, y.length + 1 = s.ps.knots.length → ∀ i < s.ph.dim,
        nurbsValue t₀ y i = nurbsValue s (y.insertIdx d (knot U 0)) i ∧
        nurbsValue t₁ y i = nurbsValue s (y.insertIdx d (lastKnot U)) i := by
  have hW := forall₂_get h.knots hU hp
  have hs := hW.size
  have hn : n = U.length - p - 1 := by
    have : (npts s)[d]? = some (U.length - p - 1) := by
      unfold npts
      rw [List.getElem?_zipWith, hU, hp]
    rw [this] at hd
    exact (Option.some.inj hd).symm
  obtain ⟨t₀, h0, F0⟩ := boundarySide_face h hsz hd (c := 0) (by omega) hk hq
  obtain ⟨t₁, h1, F1⟩ := boundarySide_face h hsz hd (c := n - 1) (by omega) hk hq
  refine ⟨_, _, t₀, t₁, boundaryConnectivity_eq h hd, h0, h1, F0.wf, F1.wf, F0.knots, F1.knots, fun y hy i hi => ⟨?_, ?_⟩⟩
  · exact F0.value h hU hp (by omega) (fun i hi => cox_first hW he.1 (by omega)) hy hi
  · refine F1.value h hU hp (by omega) (fun i hi => ?_) hy hi
    rw [cox_last hW he.2 (by omega), show U.length - p - 2 = n - 1 by omega]

section
variable [HasSqrt K] [LawfulSqrt K]

/-- **C57.** The contribution of one side to `GetRightSideNeumann`: to the row of every control point of the side is added the quadrature over
the boundary spline of its function times the given field. -/
theorem C57_neumann_side {t : Spl K} {rule : List (K × K)} (P : Problem t rule) {N : ℕ} (hN : N < 2 ^ 64) {side : ℕ → ℕ}
    (hside : ∀ a < (npts t).prod, side a < N) (src f : ℕ → K) :
    neumannSide rule t (zl ((List.range (npts t).prod).map side)) (vecOf (npts t).prod src) (vecOf N f) =
      .ok (vecOf N fun r => f r + ∑ a ∈ range (npts t).prod, if r = side a then quadSum t rule (fun y => fnAt t y a * field t src y) else 0) :=
  neumannSide_eq P hN hside src f

/-- What one side adds to row `r`: the boundary spline `t` is the side of direction `d` with the index `c`. -/
def sideTerm (s t : Spl K) (rule : List (K × K)) (d c : ℕ) (v : ℕ → K) (r : ℕ) : K :=
  ∑ a ∈ range (npts t).prod, if r = lin (npts s) ((unlin (npts t) a).insertIdx d c) then quadSum t rule (fun y => fnAt t y a * field t v y) else 0

theorem Face.npts {s t : Spl K} {d c : ℕ} (F : Face s t d c) : SplineLib.npts t = (SplineLib.npts s).eraseIdx d := by
  rw [npts_eq, F.knots, F.degree, npts_eq, nptsOf_erase]

theorem neumannSide_face {s t : Spl K} {rule : List (K × K)} (P : Problem s rule) {d n c : ℕ} (hd : (npts s)[d]? = some n) (hc : c < n)
    (hD : 2 ≤ D s) (F : Face s t d c) (v f : ℕ → K) :
    neumannSide rule t (zl (faceNumbers s d c)) (vecOf ((npts s).eraseIdx d).prod v) (vecOf (npts s).prod f) =
      .ok (vecOf (npts s).prod fun r => f r + sideTerm s t rule d c v r) := by
  have hnp := F.npts
  have hdl : d < s.ps.knots.length := by
    have := lt_of_some hd
    simpa [SplineLib.npts, P.wf.knots.length_eq] using this
  have Pt : Problem t rule := by
    refine ⟨F.wf, F.nurbs, ?_, ?_, ?_, P.rule⟩
    · unfold D at hD ⊢
      rw [F.knots, List.length_eraseIdx, if_pos hdl]
      omega
    · intro U hU
      rw [F.knots] at hU
      exact P.len U (List.mem_of_mem_eraseIdx hU)
    · rw [hnp]
      exact lt_of_le_of_lt (prod_eraseIdx_le d (npts_pos P.wf)) P.size
  have hb : ∀ a, InBox (npts s) ((unlin (npts t) a).insertIdx d c) := by
    intro a
    apply insertIdx_inBox hd hc
    rw [hnp]
    exact unlin_inBox (fun m hm => npts_pos P.wf m (List.mem_of_mem_eraseIdx hm)) a
  have := neumannSide_eq Pt P.size (side := fun a => lin (npts s) ((unlin (npts t) a).insertIdx d c)) (fun a _ => lin_lt (hb a)) v f
  unfold faceNumbers
  rw [← hnp]
  exact this

/-- **C57** (partial: only if the first `DIM - 1` knot vectors and degrees are those of every side, that is, for equal knot vectors and
degrees in all directions). `GetRightSideNeumann` adds the contributions of the two sides of every direction. -/
theorem C57_neumann_partial {s : Spl K} {rule : List (K × K)} (P : Problem s rule) (hD : 2 ≤ D s)
    (hk : ∀ d < D s, s.ps.knots.take (D s - 1) = s.ps.knots.eraseIdx d) (hp : ∀ d < D s, s.ps.degree.take (D s - 1) = s.ps.degree.eraseIdx d)
    (v₀ v₁ : ℕ → ℕ → K) (f : ℕ → K) :
    ∃ T : ℕ → Spl K × Spl K, (∀ d < D s, Face s (T d).1 d 0 ∧ Face s (T d).2 d ((npts s).getD d 0 - 1)) ∧
      rightSideNeumann s rule ((List.range (D s)).map fun d => (vecOf ((npts s).eraseIdx d).prod (v₀ d), vecOf ((npts s).eraseIdx d).prod (v₁ d)))
        (vecOf (npts s).prod f) = .ok (vecOf (npts s).prod fun r => f r + ∑ d ∈ range (D s),
          (sideTerm s (T d).1 rule d 0 (v₀ d) r + sideTerm s (T d).2 rule d ((npts s).getD d 0 - 1) (v₁ d) r)) := by
  have hlen : (npts s).length = D s := by simp [npts, D, P.wf.knots.length_eq]
  have hget : ∀ d < D s, (npts s)[d]? = some ((npts s).getD d 0) := by
    intro d hd
    rw [List.getD_eq_getElem?_getD, List.getElem?_eq_getElem (by omega)]
    rfl
  have hpos : ∀ d < D s, 0 < (npts s).getD d 0 := fun d hd => npts_pos P.wf _ (List.mem_of_getElem? (hget d hd))
  have hT : ∀ d : ℕ, ∃ t : Spl K × Spl K, d < D s → (boundarySide s (zl (faceNumbers s d 0)) = .ok t.1 ∧ Face s t.1 d 0) ∧
      (boundarySide s (zl (faceNumbers s d ((npts s).getD d 0 - 1))) = .ok t.2 ∧ Face s t.2 d ((npts s).getD d 0 - 1)) := by
    intro d
    by_cases hd : d < D s
    · have h0 := hpos d hd
      obtain ⟨a, ha⟩ := boundarySide_face P.wf P.size (hget d hd) h0 (hk d hd) (hp d hd)
      obtain ⟨b, hb⟩ := boundarySide_face P.wf P.size (hget d hd) (c := (npts s).getD d 0 - 1) (by omega) (hk d hd) (hp d hd)
      exact ⟨(a, b), fun _ => ⟨ha, hb⟩⟩
    · exact ⟨(s, s), fun h => absurd h hd⟩
  choose T hT using hT
  refine ⟨T, fun d hd => ⟨(hT d hd).1.2, (hT d hd).2.2⟩, ?_⟩
  unfold rightSideNeumann
  rw [if_neg (by omega)]
  have e1 : boundarySplines s = .ok ((List.range (D s)).map T) := by
    unfold boundarySplines
    apply buildList_eq
    intro d hd
    rw [boundaryConnectivity_eq P.wf (hget d hd), ok_bind]
    dsimp only
    rw [(hT d hd).1.1, ok_bind, (hT d hd).2.1, ok_bind, pure_ok]
  rw [e1, ok_bind]
  have := forLoop_fun (fun k => vecOf (npts s).prod fun r => f r + ∑ d ∈ range k,
          (sideTerm s (T d).1 rule d 0 (v₀ d) r + sideTerm s (T d).2 rule d ((npts s).getD d 0 - 1) (v₁ d) r)) (n := D s)
      (body := fun i b => do
      let t ← getN ((List.range (D s)).map T) i
      let c ← boundaryConnectivity s i
      let v ← getN ((List.range (D s)).map fun d => (vecOf ((npts s).eraseIdx d).prod (v₀ d), vecOf ((npts s).eraseIdx d).prod (v₁ d))) i
      let b ← neumannSide rule t.1 c.1 v.1 b
      neumannSide rule t.2 c.2 v.2 b) (by
    intro d hd
    rw [getN_some (a := T d) (by simp [hd]), ok_bind, boundaryConnectivity_eq P.wf (hget d hd), ok_bind,
      getN_some (a := (vecOf ((npts s).eraseIdx d).prod (v₀ d), vecOf ((npts s).eraseIdx d).prod (v₁ d))) (by simp [hd]), ok_bind]
    dsimp only
    have h0 := hpos d hd
    rw [neumannSide_face P (hget d hd) h0 hD (hT d hd).1.2, ok_bind, neumannSide_face P (hget d hd) (by omega) hD (hT d hd).2.2]
    congr 1
    congr 1
    funext r
    rw [Finset.sum_range_succ]
    ring)
  simp only [Finset.range_zero, Finset.sum_empty, add_zero] at this
  exact this

/-- **C57.** For a curve `GetRightSideNeumann` throws. -/
theorem C57_neumann_curve {s : Spl K} (hD : D s = 1) (rule : List (K × K)) (cps : List (List K × List K)) (b : List K) :
    rightSideNeumann s rule cps b = .error (.thrown .runtimeError) := by
  unfold rightSideNeumann
  rw [if_pos hD]

end

/-! ### C58: the solution as a spline -/

/-- **C58.** The spline of the solution has one coordinate more than the geometry: the coordinates of the geometry are the same, the
last one is the discrete field. -/
theorem C58_solution_spline {s : Spl K} (h : WFSpl s) (hn : IsNurbs s) (hsz : (npts s).prod < 2 ^ 64) (u : ℕ → K) :
    ∃ t, solutionSpline s (vecOf (npts s).prod u) = .ok t ∧ WFSpl t ∧ t.ph.dim = s.ph.dim + 1 ∧ t.ps.knots = s.ps.knots ∧
      ∀ x, InDomain s x → t.evaluate x (zl (List.range (s.ph.dim + 1))) =
        .ok (((List.range s.ph.dim).map fun c => nurbsValue s x c) ++ [field s u x]) := by
  obtain ⟨t, h1, L⟩ := solutionSpline_eq h hn hsz u
  refine ⟨t, h1, L.wf, L.dim, L.knots, fun x hx => ?_⟩
  rw [evaluate_nurbs L.wf L.nurbs (by unfold InDomain at hx ⊢; rw [L.knots]; exact hx) _ (by intro c hc; rw [L.dim]; exact (List.mem_range.1 hc).le)]
  congr 1
  rw [List.range_succ, List.map_append]
  congr 1
  · apply List.map_congr_left
    intro c hc
    have := List.mem_range.1 hc
    rw [if_neg (by rw [L.dim]; omega), lifted_coord L x this]
  · simp only [List.map_cons, List.map_nil, L.dim]
    rw [if_neg (by omega), lifted_value L]

/-- **C58.** The point data of the VTK file are the values of the field at the points of the grid, in the order of the points (the first
direction fastest, C32). -/
theorem C58_vtk_data {s : Spl K} (h : WFSpl s) (hn : IsNurbs s) (hsz : (npts s).prod < 2 ^ 64) (hl : ∀ U ∈ s.ps.knots, U.length < 2 ^ 64)
    (u : ℕ → K) {ns : List ℕ} (hns : ns.length = s.ps.knots.length) (hpos : ∀ n ∈ ns, 0 < n) :
    solutionData s (vecOf (npts s).prod u) (zl ns) = .ok ((List.range (ns.map (· + 1)).prod).map fun k =>
      field s u (Vtk.gridParam s.ps.knots ns (unlin (ns.map (· + 1)) k))) :=
  solutionData_eq h hn hsz hl u hns hpos

/-! ### C59, C60: the Poisson problem -/

section
variable [HasSqrt K] [LawfulSqrt K] {s : Spl K} {rule : List (K × K)}

/-- `u` are the coefficients of a discrete solution of `-Δu = 1` with zero boundary values. -/
structure SteadySolution (s : Spl K) (rule : List (K × K)) (u : ℕ → K) : Prop where
  boundary : ∀ a < (npts s).prod, BoundaryIx (npts s) (unlin (npts s) a) → u a = 0
  inner : ∀ a < (npts s).prod, ¬ BoundaryIx (npts s) (unlin (npts s) a) →
    ∑ b ∈ range (npts s).prod, stiff s rule a b * u b = quadSum s rule fun x => fnAt s x a

/-- For unit weights the matrix is the one of the Laplace operator. -/
theorem C59_matrix_partial (P : Problem s rule) (hu : UnitWeights s) {a b : ℕ} (ha : a < (npts s).prod) (hb : b < (npts s).prod) :
    stiff s rule a b = quadSum s rule fun x => ∑ i : Fin (D s), physDeriv s x i (unlin (npts s) a) * physDeriv s x i (unlin (npts s) b) := by
  unfold stiff
  apply quadSum_congr P
  intro x hx
  rw [Finset.sum_range]
  exact Finset.sum_congr rfl fun i _ => by rw [codePhys_unit P.wf hu hx i ha, codePhys_unit P.wf hu hx i hb]

/-- **C59** (partial: the matrix is the one of the Laplace operator for unit weights only, `C59_matrix_partial`). On a new `PoissonProblem`,
`GetSteadyStateSolution` returns the coefficients of a discrete solution of `-Δu = 1` with zero boundary values, if the solver returns. -/
theorem C59_steady_partial (P : Problem s rule) (R : Regular s rule) {solve : List (List K) → List K → M (List K)} (hs : LawfulSolve solve)
    {Q : Poisson K} (hQ : poissonNew s = .ok Q) {r : Poisson K × List K} (hr : steady solve s rule Q = .ok r) :
    ∃ u, r.2 = vecOf (npts s).prod u ∧ SteadySolution s rule u := by
  rw [poissonNew_eq P R.dim R.funs R.det] at hQ
  obtain rfl := Except.ok.inj hQ
  obtain ⟨v, h1, h2⟩ := (steady_eq P R.dim R.funs R.det hs hr).1
  refine ⟨v, h1, fun a ha hB => (h2 a ha).1 hB, fun a ha hB => ?_⟩
  have := (h2 a ha).2 hB
  simp only [zero_add] at this
  exact this

/-- The solver is called exactly once and its failure is the only one possible. -/
theorem C59_steady_total (P : Problem s rule) (R : Regular s rule) (solve : List (List K) → List K → M (List K)) :
    ∃ Q A b, poissonNew s = .ok Q ∧ steady solve s rule Q = (do let u ← solve A b; return (⟨A, b⟩, u)) := by
  refine ⟨_, matOf (npts s).prod fun a b => if BoundaryIx (npts s) (unlin (npts s) a) then (if a = b then 1 else 0) else 0 + stiff s rule a b,
    vecOf (npts s).prod fun a => if BoundaryIx (npts s) (unlin (npts s) a) then 0 else 0 + load s rule a,
    poissonNew_eq P R.dim R.funs R.det, ?_⟩
  unfold steady
  rw [assemble_eq P R.dim R.funs R.det, ok_bind]
  dsimp only
  rw [setZeroBC_eq P.wf P.size, ok_bind]

/-- **C60.** The members accumulate, but a second call of `GetSteadyStateSolution` still returns a solution of the same equations. -/
theorem C60_steady_repeatable (P : Problem s rule) (R : Regular s rule) {solve : List (List K) → List K → M (List K)} (hs : LawfulSolve solve)
    {Q : Poisson K} (hQ : poissonNew s = .ok Q) {r r' : Poisson K × List K} (hr : steady solve s rule Q = .ok r)
    (hr' : steady solve s rule r.1 = .ok r') : ∃ u, r'.2 = vecOf (npts s).prod u ∧ SteadySolution s rule u := by
  rw [poissonNew_eq P R.dim R.funs R.det] at hQ
  obtain rfl := Except.ok.inj hQ
  rw [(steady_eq P R.dim R.funs R.det hs hr).2] at hr'
  obtain ⟨v, h1, h2⟩ := (steady_eq P R.dim R.funs R.det hs hr').1
  refine ⟨v, h1, fun a ha hB => (h2 a ha).1 hB, fun a ha hB => ?_⟩
  have := (h2 a ha).2 hB
  simp only [zero_add, if_neg hB] at this
  have e : ∑ b ∈ range (npts s).prod, (stiff s rule a b + stiff s rule a b) * v b = 2 * ∑ b ∈ range (npts s).prod, stiff s rule a b * v b := by
    rw [Finset.mul_sum]
    exact Finset.sum_congr rfl fun b _ => by ring
  rw [e] at this
  have h3 : ∑ b ∈ range (npts s).prod, stiff s rule a b * v b = load s rule a := by linarith
  exact h3

variable [FloorRing K]

/-- `S 0, …, S k` are the steps of the implicit Euler method for `∂u/∂t - c Δu = c` from zero with the boundary values `dv`. -/
structure EulerSteps (s : Spl K) (rule : List (K × K)) (c dt : K) (dv : ℕ → K) (k : ℕ) (S : ℕ → ℕ → K) : Prop where
  start : ∀ a < (npts s).prod, S 0 a = 0
  boundary : ∀ j < k, ∀ a < (npts s).prod, BoundaryIx (npts s) (unlin (npts s) a) → S (j + 1) a = dv a
  inner : ∀ j < k, ∀ a < (npts s).prod, ¬ BoundaryIx (npts s) (unlin (npts s) a) →
    ∑ b ∈ range (npts s).prod, (quadSum s rule fun x => fnAt s x a * fnAt s x b) * ((S (j + 1) b - S j b) / dt) +
      c * ∑ b ∈ range (npts s).prod, stiff s rule a b * S (j + 1) b = c * quadSum s rule fun x => fnAt s x a

/-- The boundary values in the order of the numbers of the boundary control points; zero without values. -/
def boundaryValues (s : Spl K) (d : Option (List K)) (a : ℕ) : K :=
  (d.getD []).getD ((range a).filter fun a => BoundaryIx (npts s) (unlin (npts s) a)).card 0

theorem steps_euler {L : ℕ → ℕ → K} {g : ℕ → K} {c dt : K} {d : Option (List K)} {dv : List K} {k : ℕ} {S : ℕ → ℕ → K}
    (hdv : dv = d.getD (List.replicate (npts s).prod 0))
    (hL : ∀ a < (npts s).prod, ¬ BoundaryIx (npts s) (unlin (npts s) a) → ∀ b, L a b = c * stiff s rule a b + mass s rule a b / dt)
    (hg : ∀ a < (npts s).prod, ¬ BoundaryIx (npts s) (unlin (npts s) a) → g a = c * load s rule a)
    (h : Steps s L (mass s rule) g dt dv k S) : EulerSteps s rule c dt (boundaryValues s d) k S := by
  refine ⟨h.start, fun j hj a ha hB => ?_, fun j hj a ha hB => ?_⟩
  · rw [h.boundary j hj a ha hB, hdv]
    cases d with
    | some v => rfl
    | none =>
      unfold boundaryValues
      simp only [Option.getD_none, List.getD_eq_getElem?_getD, List.getElem?_nil, Option.getD_none, List.getElem?_replicate]
      split <;> rfl
  · have := h.inner j hj a ha hB
    rw [hg a ha hB] at this
    simp only [hL a ha hB] at this
    have e : ∑ b ∈ range (npts s).prod, (c * stiff s rule a b + mass s rule a b / dt) * S (j + 1) b =
        c * (∑ b ∈ range (npts s).prod, stiff s rule a b * S (j + 1) b) + ∑ b ∈ range (npts s).prod, mass s rule a b / dt * S (j + 1) b := by
      rw [Finset.mul_sum, ← Finset.sum_add_distrib]
      exact Finset.sum_congr rfl fun b _ => by ring
    have e2 : (∑ b ∈ range (npts s).prod, (quadSum s rule fun x => fnAt s x a * fnAt s x b) * ((S (j + 1) b - S j b) / dt)) =
        (∑ b ∈ range (npts s).prod, mass s rule a b / dt * S (j + 1) b) - ∑ b ∈ range (npts s).prod, mass s rule a b / dt * S j b := by
      rw [← Finset.sum_sub_distrib]
      exact Finset.sum_congr rfl fun b _ => by unfold mass; ring
    rw [e] at this
    rw [e2]
    have h3 : load s rule a = quadSum s rule fun x => fnAt s x a := rfl
    rw [← h3]
    linarith

/-- **C60** (partial: see `C59_matrix_partial`). On a new `PoissonProblem`, `GetUnsteadyStateSolution` returns the steps of the implicit Euler
method, one for every whole `dt` in `tEnd`, and the start. -/
theorem C60_unsteady_partial (P : Problem s rule) (R : Regular s rule) {solve : List (List K) → List K → M (List K)} (hs : LawfulSolve solve)
    {Q : Poisson K} (hQ : poissonNew s = .ok Q) {dt tEnd : K} (hdt : 0 < dt) (ht : 0 ≤ tEnd) {d : Option (List K)}
    (hl : ∀ v, d = some v → ((range (npts s).prod).filter fun a => BoundaryIx (npts s) (unlin (npts s) a)).card ≤ v.length)
    {r : Poisson K × List (List K)} (hr : unsteady solve s rule dt tEnd d Q = .ok r) :
    ∃ S, r.2 = (List.range (⌊tEnd / dt⌋.toNat + 1)).map (fun j => vecOf (npts s).prod (S j)) ∧
      EulerSteps s rule 1 dt (boundaryValues s d) ⌊tEnd / dt⌋.toNat S := by
  rw [poissonNew_eq P R.dim R.funs R.det] at hQ
  obtain rfl := Except.ok.inj hQ
  have hl' : boundaryRank (npts s) (npts s).prod ≤ (d.getD (List.replicate (npts s).prod 0)).length := by
    cases d with
    | none =>
      unfold boundaryRank
      simpa using Finset.card_filter_le (range (npts s).prod) fun a => BoundaryIx (npts s) (unlin (npts s) a)
    | some v => exact hl v rfl
  obtain ⟨-, n, S, h1, h2, h3⟩ := unsteady_eq P R.dim R.funs R.det hs rfl hl' hr
  have hn : n = ⌊tEnd / dt⌋ := by
    unfold truncInt at h1
    rw [if_pos (div_nonneg ht hdt.le)] at h1
    dsimp only at h1
    split at h1
    · exact (Except.ok.inj h1).symm
    · exact absurd h1 (by simp)
  subst hn
  refine ⟨S, h2, steps_euler rfl (fun a _ _ b => ?_) (fun a _ _ => ?_) h3⟩
  · rw [zero_add, one_mul]
  · rw [zero_add, one_mul]

/-- **C60.** `GetSteadyStateSolution` after `GetUnsteadyStateSolution` solves the same equations as on a new problem. -/
theorem C60_steady_after_unsteady (P : Problem s rule) (R : Regular s rule) {solve : List (List K) → List K → M (List K)} (hs : LawfulSolve solve)
    {Q : Poisson K} (hQ : poissonNew s = .ok Q) {dt tEnd : K} {d : Option (List K)} {r : Poisson K × List (List K)}
    (hr : unsteady solve s rule dt tEnd d Q = .ok r) {r' : Poisson K × List K} (hr' : steady solve s rule r.1 = .ok r') :
    ∃ u, r'.2 = vecOf (npts s).prod u ∧ SteadySolution s rule u := by
  rw [poissonNew_eq P R.dim R.funs R.det] at hQ
  obtain rfl := Except.ok.inj hQ
  have h0 : r.1 = ⟨matOf (npts s).prod fun a b => 0 + stiff s rule a b, vecOf (npts s).prod fun a => 0 + load s rule a⟩ := by
    unfold unsteady at hr
    rw [massMatrix_eq P, ok_bind] at hr
    obtain ⟨q, -, hr⟩ := bind_eq_ok.1 hr
    obtain ⟨n, -, hr⟩ := bind_eq_ok.1 hr
    rw [numCPs_eq P.wf, ok_bind, assemble_eq P R.dim R.funs R.det, ok_bind] at hr
    obtain ⟨l, -, hr⟩ := bind_eq_ok.1 hr
    obtain ⟨t, -, hr⟩ := bind_eq_ok.1 hr
    have := Except.ok.inj hr
    rw [← this]
  rw [h0] at hr'
  obtain ⟨v, h1, h2⟩ := (steady_eq P R.dim R.funs R.det hs hr').1
  refine ⟨v, h1, fun a ha hB => (h2 a ha).1 hB, fun a ha hB => ?_⟩
  have := (h2 a ha).2 hB
  simp only [zero_add] at this
  have e : ∑ b ∈ range (npts s).prod, (stiff s rule a b + stiff s rule a b) * v b = 2 * ∑ b ∈ range (npts s).prod, stiff s rule a b * v b := by
    rw [Finset.mul_sum]
    exact Finset.sum_congr rfl fun b _ => by ring
  rw [e] at this
  have h3 : ∑ b ∈ range (npts s).prod, stiff s rule a b * v b = load s rule a := by linarith
  exact h3

/-- **C60** is false after another call: the members accumulate, and `GetUnsteadyStateSolution` after `GetSteadyStateSolution` solves the
equation with the double conductivity and the double source. -/
theorem C60_unsteady_after_steady (P : Problem s rule) (R : Regular s rule) {solve : List (List K) → List K → M (List K)} (hs : LawfulSolve solve)
    {Q : Poisson K} (hQ : poissonNew s = .ok Q) {r₀ : Poisson K × List K} (hr₀ : steady solve s rule Q = .ok r₀) {dt tEnd : K} (hdt : 0 < dt)
    (ht : 0 ≤ tEnd) {r : Poisson K × List (List K)} (hr : unsteady solve s rule dt tEnd none r₀.1 = .ok r) :
    ∃ S, r.2 = (List.range (⌊tEnd / dt⌋.toNat + 1)).map (fun j => vecOf (npts s).prod (S j)) ∧
      EulerSteps s rule 2 dt (boundaryValues s none) ⌊tEnd / dt⌋.toNat S := by
  rw [poissonNew_eq P R.dim R.funs R.det] at hQ
  obtain rfl := Except.ok.inj hQ
  rw [(steady_eq P R.dim R.funs R.det hs hr₀).2] at hr
  have hl' : boundaryRank (npts s) (npts s).prod ≤ ((none : Option (List K)).getD (List.replicate (npts s).prod 0)).length := by
    unfold boundaryRank
    simpa using Finset.card_filter_le (range (npts s).prod) fun a => BoundaryIx (npts s) (unlin (npts s) a)
  obtain ⟨-, n, S, h1, h2, h3⟩ := unsteady_eq P R.dim R.funs R.det hs rfl hl' hr
  have hn : n = ⌊tEnd / dt⌋ := by
    unfold truncInt at h1
    rw [if_pos (div_nonneg ht hdt.le)] at h1
    dsimp only at h1
    split at h1
    · exact (Except.ok.inj h1).symm
    · exact absurd h1 (by simp)
  subst hn
  refine ⟨S, h2, steps_euler rfl (fun a _ hB b => ?_) (fun a _ hB => ?_) h3⟩
  · rw [if_neg hB, zero_add]; ring
  · rw [if_neg hB, zero_add]; ring

end

/-! ### Satisfiability of the hypotheses -/

/-- A quadratic line over the reals with three control points and unit weights. -/
noncomputable def exLine : Spl ℝ :=
  ⟨⟨[[0, 0, 0, 1, 1, 1]], [2], mkTable [[0, 0, 0, 1, 1, 1]] [2]⟩, ⟨1, [3], [0, 1/2, 1], some [1, 1, 1]⟩⟩

theorem exLine_knots : WFKnots [0, 0, 0, 1, 1, (1 : ℝ)] 2 where
  sorted := by simp [SortedKnots]
  size := by simp
  first := by
    intro j hj
    rcases (by omega : j = 0 ∨ j = 1 ∨ j = 2) with rfl | rfl | rfl <;> simp [knot]
  last := by
    intro j hj
    rcases (by omega : j = 0 ∨ j = 1 ∨ j = 2) with rfl | rfl | rfl <;> simp [knot, lastKnot]
  range := by simp [knot, lastKnot]
  sep := by
    have hk : kEps ℝ ≤ 1 := by unfold kEps; norm_num
    intro a ha b hb hab
    simp only [List.mem_cons, List.not_mem_nil, or_false] at ha hb
    rcases ha with rfl | rfl | rfl | rfl | rfl | rfl <;> rcases hb with rfl | rfl | rfl | rfl | rfl | rfl <;>
      first | (exfalso; linarith) | linarith

theorem exLine_wf : WFSpl exLine where
  knots := .cons exLine_knots .nil
  basis := basisTable_eq (forall₂_size (.cons exLine_knots .nil))
  num := by simp [exLine, npts]
  dim := by simp [exLine]
  cps := by simp [exLine, npts]
  weights := by
    intro w hw
    obtain rfl : [1, 1, 1] = w := by simpa [exLine] using hw
    simp [exLine, npts]

/-- A rule with two points. -/
noncomputable def exRule : List (ℝ × ℝ) := [(-1/2, 1), (1/2, 1)]

theorem exLine_problem : Problem exLine exRule where
  wf := exLine_wf
  nurbs := ⟨_, rfl⟩
  dirs := by simp [exLine, D]
  len := by simp [exLine]
  size := by simp [exLine, npts]
  rule := ⟨by simp [exRule], by simp [exRule]; norm_num⟩

theorem exLine_unit : UnitWeights exLine := by
  intro w hw
  obtain rfl : [1, 1, 1] = w := by simpa [exLine] using hw
  simp

/-- The derivative of the geometry is one. -/
theorem exLine_geo {x : ℝ} (h0 : 0 ≤ x) (h1 : x < 1) : geoDeriv exLine [x] 0 0 = 1 := by
  have hD : 0 < D exLine := by simp [exLine, D]
  have h2 : ¬ x < 0 := not_lt.2 h0
  have h3 : ¬ 1 ≤ x := not_le.2 h1
  unfold geoDeriv
  simp only [ratBasis_unit exLine [x] hD]
  norm_num [exLine, npts, msum, unitIx, D, dprod, coxDeBoor, knot, wgt, cpt, ratFn, basisFns, weightValue,
      tensorSum, tensorDerivSum, lin, InSpan, lastKnot, Finset.sum_range_succ, h0, h1, h2, h3]
  norm_num [dprod, basisDerivFns, coxDeBoorDeriv, coxDeBoor, InSpan, knot, lastKnot, h0, h1, h2, h3]
  have e : (1 - x) * (1 - x) + (x * (1 - x) + (1 - x) * x) + x * x = 1 := by ring
  rw [e]
  ring

theorem exLine_ratBasis {x : ℝ} (h0 : 0 ≤ x) (h1 : x < 1) : ratBasis exLine [x] (unitIx (D exLine) 0) [1] = 2 * (1 - 2 * x) := by
  have hD : 0 < D exLine := by simp [exLine, D]
  have h2 : ¬ x < 0 := not_lt.2 h0
  have h3 : ¬ 1 ≤ x := not_le.2 h1
  simp only [ratBasis_unit exLine [x] hD]
  norm_num [exLine, npts, msum, unitIx, D, dprod, coxDeBoor, knot, wgt, cpt, ratFn, basisFns, weightValue,
      tensorSum, tensorDerivSum, lin, InSpan, lastKnot, Finset.sum_range_succ, h0, h1, h2, h3]
  norm_num [dprod, basisDerivFns, coxDeBoorDeriv, coxDeBoor, InSpan, knot, lastKnot, h0, h1, h2, h3]
  have e : (1 - x) * (1 - x) + (x * (1 - x) + (1 - x) * x) + x * x = 1 := by ring
  rw [e]
  ring

theorem exLine_det {x : ℝ} (h0 : 0 ≤ x) (h1 : x < 1) : (geoMat (D exLine) exLine [x]).det = 1 := by
  rw [← exLine_geo h0 h1]
  exact Matrix.det_fin_one (geoMat (D exLine) exLine [x])

theorem exLine_points (m q : ℕ) : quadPoint exLine exRule (elemIx exLine m) q = [if q % 2 = 0 then 1/4 else 3/4] := by
  rcases Nat.mod_two_eq_zero_or_one q with h | h
  · norm_num [quadPoint, elemIx, elemBox, elemsOf, exLine, uniq, unlin, zl, refMap, rulePts, ruleBox, exRule, D, Nat.mod_one, h]
  · norm_num [quadPoint, elemIx, elemBox, elemsOf, exLine, uniq, unlin, zl, refMap, rulePts, ruleBox, exRule, D, Nat.mod_one, h]

theorem exLine_regular : Regular exLine exRule where
  dim := by simp [exLine, D]
  funs := by simp [exLine, D]
  det := by
    intro m q
    rw [exLine_points]
    split <;> rw [exLine_det (by norm_num) (by norm_num)] <;> norm_num

theorem exLine_phys {x : ℝ} (h0 : 0 ≤ x) (h1 : x < 1) : codePhys exLine [x] 0 1 = 2 * (1 - 2 * x) := by
  have hD : 0 < D exLine := by simp [exLine, D]
  have hx : Dom exLine.ps.knots [x] := .cons (by simp [knot, lastKnot, h0, h1.le]) .nil
  have e := codePhys_unit exLine_wf exLine_unit hx ⟨0, hD⟩ (a := 1) (by simp [exLine, npts])
  have hs : ∀ f : Fin (D exLine) → ℝ, ∑ k, f k = f ⟨0, hD⟩ := fun f => Fin.sum_univ_one f
  have hi := Matrix.mul_nonsing_inv (geoMat (D exLine) exLine [x]) (isUnit_iff_ne_zero.2 (by rw [exLine_det h0 h1]; norm_num))
  have hi := congrFun (congrFun hi ⟨0, hD⟩) ⟨0, hD⟩
  rw [Matrix.mul_apply, hs, Matrix.one_apply_eq, show geoMat (D exLine) exLine [x] ⟨0, hD⟩ ⟨0, hD⟩ = geoDeriv exLine [x] 0 0 from rfl,
    exLine_geo h0 h1, one_mul] at hi
  have hu : unlin (npts exLine) 1 = [1] := by simp [exLine, npts, unlin]
  rw [physDeriv, hs, hi, hu, mul_one] at e
  rw [e]
  exact exLine_ratBasis h0 h1

theorem exLine_stiff : stiff exLine exRule 1 1 ≠ 0 := by
  have hf : ∀ m q, 0 < quadFactor exLine exRule (elemIx exLine m) q := by
    intro m q
    unfold quadFactor
    refine mul_pos ?_ (mul_pos ?_ (Finset.prod_pos fun i _ => halfLens_pos (quadPoint_in exLine_problem m q) i.2))
    · unfold quadWeight
      apply List.prod_pos
      intro a ha
      obtain ⟨p, hp, rfl⟩ := List.mem_map.1 ha
      have := rulePts_mem exLine_problem.rule q p hp
      simp only [exRule, List.mem_cons, List.not_mem_nil, or_false] at this
      rcases this with rfl | rfl <;> norm_num
    · rw [volFactor_square _ _ (by simp [exLine, D]), exLine_points]
      split <;> rw [exLine_det (by norm_num) (by norm_num)] <;> norm_num
  have hn : (elemBox exLine).prod = 1 := by simp [elemBox, elemsOf, exLine, uniq]
  have hq : quadNum exLine exRule = 2 := by simp [quadNum, ruleBox, exLine, D, exRule]
  have hd : D exLine = 1 := by simp [exLine, D]
  unfold stiff quadSum
  rw [hn, hq, hd]
  simp only [Finset.sum_range_succ, Finset.sum_range_zero, zero_add, exLine_points]
  norm_num [exLine_phys]
  have := hf 0 0
  have := hf 0 1
  linarith

/-- A solver: some solution, if there is one. -/
noncomputable def exSolve (A : List (List ℝ)) (b : List ℝ) : M (List ℝ) :=
  open Classical in
  if h : ∃ v : ℕ → ℝ, ∀ a < b.length, ∑ c ∈ range b.length, (A.getD a []).getD c 0 * v c = b.getD a 0 then .ok (vecOf b.length h.choose)
  else .error (.thrown .runtimeError)

theorem matOf_get {n : ℕ} (f : ℕ → ℕ → ℝ) {a c : ℕ} (ha : a < n) (hc : c < n) : ((matOf n f).getD a []).getD c 0 = f a c := by
  simp [matOf, List.getD_eq_getElem?_getD, ha, hc]

theorem exSolve_iff (n : ℕ) (f : ℕ → ℕ → ℝ) (g v : ℕ → ℝ) :
    (∀ a < (vecOf n g).length, ∑ c ∈ range (vecOf n g).length, ((matOf n f).getD a []).getD c 0 * v c = (vecOf n g).getD a 0) ↔
      ∀ a < n, ∑ b ∈ range n, f a b * v b = g a := by
  have hl : (vecOf n g).length = n := by simp [vecOf]
  rw [hl]
  refine forall₂_congr fun a ha => ?_
  rw [Finset.sum_congr rfl fun c hc => by rw [matOf_get f ha (Finset.mem_range.1 hc)],
    show (vecOf n g).getD a 0 = g a by simp [vecOf, List.getD_eq_getElem?_getD, ha]]

theorem exSolve_lawful : LawfulSolve exSolve := by
  intro n f g u hu
  unfold exSolve at hu
  split at hu
  · next h =>
    refine ⟨_, ?_, (exSolve_iff n f g _).1 h.choose_spec⟩
    have := Except.ok.inj hu
    rw [← this]
    have hl : ∀ k, k = n → vecOf k h.choose = vecOf n h.choose := fun k hk => by rw [hk]
    exact hl _ (by simp [vecOf])
  · exact absurd hu (by simp)

/-- The hypotheses of C52–C60 hold for the line; the solver returns a solution. -/
example : Problem exLine exRule ∧ Regular exLine exRule ∧ UnitWeights exLine ∧ (∀ p ∈ exRule, 0 ≤ p.2) ∧
    List.Forall₂ ExactEnds exLine.ps.knots exLine.ps.degree ∧ ∃ Q r, poissonNew exLine = .ok Q ∧ steady exSolve exLine exRule Q = .ok r := by
  refine ⟨exLine_problem, exLine_regular, exLine_unit, by simp [exRule], .cons (by simp [ExactEnds, knot, lastKnot]) .nil, ?_⟩
  have hp : (npts exLine).prod = 3 := by simp [exLine, npts]
  refine ⟨_, (⟨matOf (npts exLine).prod fun a b => if BoundaryIx (npts exLine) (unlin (npts exLine) a) then (if a = b then 1 else 0) else
    0 + stiff exLine exRule a b, vecOf (npts exLine).prod fun a => if BoundaryIx (npts exLine) (unlin (npts exLine) a) then 0 else
      0 + load exLine exRule a⟩, ?_), poissonNew_eq exLine_problem exLine_regular.dim exLine_regular.funs exLine_regular.det, ?_⟩
  rotate_left
  · unfold steady
    rw [assemble_eq exLine_problem exLine_regular.dim exLine_regular.funs exLine_regular.det, ok_bind]
    dsimp only
    rw [setZeroBC_eq exLine_wf exLine_problem.size, ok_bind]
    dsimp only
    unfold exSolve
    rw [dif_pos]
    · rfl
    · refine ⟨fun a => if a = 1 then load exLine exRule 1 / stiff exLine exRule 1 1 else 0, (exSolve_iff _ _ _ _).2 ?_⟩
      rw [hp]
      have h0 : BoundaryIx (npts exLine) (unlin (npts exLine) 0) := ⟨0, 3, 0, by simp [exLine, npts], by simp [exLine, npts, unlin], Or.inl rfl⟩
      have h1 : ¬ BoundaryIx (npts exLine) (unlin (npts exLine) 1) := by
        rw [show npts exLine = [3] by simp [exLine, npts]]
        decide
      have h2 : BoundaryIx (npts exLine) (unlin (npts exLine) 2) := ⟨0, 3, 2, by simp [exLine, npts], by simp [exLine, npts, unlin], Or.inr rfl⟩
      intro a ha
      have hs := exLine_stiff
      rcases (by omega : a = 0 ∨ a = 1 ∨ a = 2) with rfl | rfl | rfl
      · simp [h0]
      · simp [h1]
        field_simp
      · simp [h2]

/-- A surface with 2 and 3 control points, for which the boundary splines cannot be made, and a bilinear one, for which they can. -/
def exUneven : Spl ℚ := ⟨⟨[[0, 0, 1, 1], [0, 0, 0, 1, 1, 1]], [1, 2], mkTable [[0, 0, 1, 1], [0, 0, 0, 1, 1, 1]] [1, 2]⟩,
  ⟨1, [2, 3], [0, 1, 2, 3, 4, 5], some [1, 1, 1, 1, 1, 1]⟩⟩

example : boundarySplines exUneven = .error (.thrown .runtimeError) := by decide +kernel

example : boundaryConnectivity exUneven 1 = .ok ([0, 1], [4, 5]) ∧ (boundarySide exUneven [0, 1]).isOk = true := by decide +kernel

/-- The hypotheses of the statement about `GetRightSideNeumann` hold for the bilinear surface. -/
example : Problem exReal exRule ∧ 2 ≤ D exReal ∧ (∀ d < D exReal, exReal.ps.knots.take (D exReal - 1) = exReal.ps.knots.eraseIdx d) ∧
    ∀ d < D exReal, exReal.ps.degree.take (D exReal - 1) = exReal.ps.degree.eraseIdx d := by
  have hd : D exReal = 2 := by simp [D, exReal]
  refine ⟨⟨exReal_wf, ⟨_, rfl⟩, by simp [D, exReal], by simp [exReal], by simp [exReal, npts], exLine_problem.rule⟩, hd.ge, ?_, ?_⟩ <;>
  · intro d hd'
    rw [hd] at hd' ⊢
    rcases (by omega : d = 0 ∨ d = 1) with rfl | rfl <;> simp [exReal]

end Iga
end SplineLib
