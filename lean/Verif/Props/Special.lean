import Verif.Core.Special
import Verif.Core.Elevate
import Verif.Props.KnotRemoval
import Verif.Props.Derivatives
import Mathlib.Algebra.BigOperators.Field

/-!
# C102: evaluation and comparison with NaN and infinite values
-/

namespace SplineLib
set_option linter.unusedSectionVars false
open Finset X
variable {K : Type} [Field K] [LinearOrder K] [IsStrictOrderedRing K]

namespace Sp

/-- The control point with multi-index `I` belongs to the window of `x`: in every direction its index is one of the `p + 1` indices
up to the knot span that contains the coordinate. -/
def InWindow : List (List K) → List ℕ → List K → List ℕ → Prop
  | U :: Us, p :: ps, x :: xs, i :: I =>
    (∃ k, k + 1 < U.length ∧ InSpan U k x ∧ i ≤ k ∧ k ≤ i + p) ∧ InWindow Us ps xs I
  | [], [], [], [] => True
  | _, _, _, _ => False

theorem inWindow_iff {Us : List (List K)} {ps : List ℕ} (h : List.Forall₂ WFKnots Us ps) :
    ∀ {xs : List K} {I : List ℕ}, Dom Us xs →
      (InWindow Us ps xs I ↔ ∃ J, InBox (actBox ps) J ∧ I = List.zipWith (· + ·) J (offs Us ps xs)) := by
  induction h with
  | nil =>
    intro xs I hx
    cases hx
    cases I with
    | nil => simp only [InWindow, true_iff]; exact ⟨[], by simp [actBox], rfl⟩
    | cons i I => simp [InWindow, offs]
  | @cons U p Us ps h _ ih =>
    intro xs I hx
    cases hx with
    | @cons _ a _ as hx hxs =>
      obtain ⟨h1, h2, h3, h4⟩ := h.span hx.1 hx.2
      cases I with
      | nil =>
        simp only [InWindow, false_iff]
        rintro ⟨J, hJ, e⟩
        cases J with
        | nil => simp at hJ
        | cons j J => simp [offs] at e
      | cons i I =>
        simp only [InWindow, ih hxs]
        constructor
        · rintro ⟨⟨k, k1, k2, k3, k4⟩, J, hJ, e⟩
          have hk := InSpan.unique h.sorted k1 (by omega) k2 h2
          refine ⟨(i - (spanIx U a - p)) :: J, ?_, ?_⟩
          · simp only [actBox, List.map_cons, inBox_cons]; exact ⟨by omega, hJ⟩
          · simp only [offs, List.zipWith_cons_cons, e]
            congr 1; omega
        · rintro ⟨J, hJ, e⟩
          cases J with
          | nil => simp at hJ
          | cons j J =>
            simp only [actBox, List.map_cons, inBox_cons] at hJ
            simp only [offs, List.zipWith_cons_cons, List.cons.injEq] at e
            exact ⟨⟨spanIx U a, by omega, h2, by omega, by omega⟩, J, hJ.2, e.2⟩

variable {s : S K}

/-- The window is what `act` enumerates. -/
theorem window_act (h : WF s) {x : List K} (hx : Dom s.ps.knots x) {I : List ℕ} :
    InWindow s.ps.knots s.ps.degree x I ↔ ∃ j < (actBox s.ps.degree).prod, act s x j = I := by
  have hk : List.Forall₂ WFKnots s.ps.knots s.ps.degree := WFSpl.knots h
  rw [inWindow_iff hk hx]
  constructor
  · rintro ⟨J, hJ, e⟩
    exact ⟨_, lin_lt hJ, by rw [act, unlin_lin hJ, e]⟩
  · rintro ⟨j, _, e⟩
    exact ⟨_, unlin_inBox (by simp [actBox]) j, e.symm⟩

/-- The product of the basis functions with multi-index `I` at `x`. -/
def base (s : S K) (x : List K) (I : List ℕ) : K := dprod (basisFns s.ps.knots s.ps.degree x) I

/-- What `Evaluate` computes from finite data. -/
def value (s : Spl K) (x : List K) (c : ℕ) : K :=
  match s.ph.weights with
  | none => bsplineValue s x c
  | some _ => nurbsValue s x c

theorem value_eq {s : Spl K} (h : WFSpl s) {x : List K} (hx : InDomain s x) {dims : List ℕ} (hd : ∀ c ∈ dims, c < s.ph.dim) :
    s.evaluate x (zl dims) = .ok (dims.map (value s x)) := by
  unfold value
  cases hw : s.ph.weights with
  | none => exact evaluate_bspline h hw hx dims hd
  | some w =>
    rw [evaluate_nurbs h ⟨w, hw⟩ hx dims fun c hc => (hd c hc).le]
    congr 1
    exact List.map_congr_left fun c hc => if_neg (hd c hc).ne

/-- The weight sum. -/
def wsum (s : S K) (x : List K) : X K := xsum (actBox s.ps.degree).prod fun j => fin (base s x (act s x j)) * wt s (act s x j)

theorem wsum_fin (h : WF s) {x : List K} (hx : InDomain (shadow s) x)
    (hw : ∀ I, InWindow s.ps.knots s.ps.degree x I → IsFin (wt s I)) : wsum s x = fin (weightValue (shadow s) x) := by
  have hk : List.Forall₂ WFKnots s.ps.knots s.ps.degree := WFSpl.knots h
  unfold wsum
  rw [xsum_fin (f := fun j => base s x (act s x j) * wgt (shadow s) (act s x j))]
  · congr 1
    unfold weightValue tensorSum
    rw [show npts (shadow s) = List.zipWith (fun U p => U.length - p - 1) s.ps.knots s.ps.degree from rfl]
    rw [show (shadow s).ps = s.ps from rfl, ← msum_active' hk _ hx, msum_eq_sum_unlin]
    rfl
  · intro j hj
    rw [wgt_shadow h (act_box h hx j), ← fin_mul, ← toK_fin (hw _ ((window_act h hx).2 ⟨j, hj, rfl⟩))]

theorem wsum_isFin (h : WF s) {x : List K} (hx : InDomain (shadow s) x) :
    IsFin (wsum s x) ↔ ∀ I, InWindow s.ps.knots s.ps.degree x I → IsFin (wt s I) := by
  unfold wsum
  rw [xsum_isFin]
  constructor
  · intro hf I hI
    obtain ⟨j, hj, rfl⟩ := (window_act h hx).1 hI
    exact (mul_isFin.1 (hf j hj)).2
  · intro hf j hj
    exact mul_isFin.2 ⟨trivial, hf _ ((window_act h hx).2 ⟨j, hj, rfl⟩)⟩

theorem wsum_ne (h : WF s) {x : List K} (hx : InDomain (shadow s) x) : wsum s x ≠ fin 0 := by
  intro e
  have hf : IsFin (wsum s x) := by rw [e]; trivial
  rw [wsum_fin h hx ((wsum_isFin h hx).1 hf)] at e
  have := weightValue_pos (s := shadow s) h hx
  rw [X.fin.inj e] at this
  exact lt_irrefl _ this

/-- One summand of `Evaluate`. -/
def term (s : S K) (x : List K) (I : List ℕ) (c : ℕ) : X K :=
  match s.ph.weights with
  | none => fin (base s x I) * pt s I c
  | some _ => divT (fin (base s x I) * (pt s I c * wt s I)) (wsum s x)

theorem evaluatedCP_eq (h : WF s) {x : List K} (hx : InDomain (shadow s) x) (j : ℕ) {c : ℕ} (hc : c < s.ph.dim) :
    evaluatedCP s x (zl (act s x j)) (c : ℤ) = .ok (term s x (act s x j) c) := by
  have hb : s.ps.getBasisFunctions (zl (act s x j)) x = .ok (base s x (act s x j)) :=
    getBasisFunctions_eq (s := shadow s) h hx (unlin_inBox (ns := actBox s.ps.degree) (by simp [actBox]) j)
  have hI := act_box h hx j
  unfold evaluatedCP term
  cases hw : s.ph.weights with
  | none => simp only [hb, controlPoint_eq h hI hc, ok_bind, pure_ok]
  | some w =>
    have hne : ¬ (s.ph.dim : ℤ) = c := by omega
    have hg : getI ((List.range s.ph.dim).map (fun c => pt s (act s x j) c * wt s (act s x j)) ++ [wt s (act s x j)]) (c : ℤ) =
        .ok (pt s (act s x j) c * wt s (act s x j)) := by
      rw [getI_nat, getN_of_lt (by simp; omega)]
      rw [List.getElem_append_left (by simpa using hc)]
      simp
    have hws : evaluatedWeightSum s x = .ok (wsum s x) := weightSum_eq h hx
    simp only [hne, if_false, hb, homCP_eq h hI hw, hg, hws, ok_bind]
    exact div_ok (wsum_ne h hx)

/-- The value of coordinate `c`. -/
def total (s : S K) (x : List K) (c : ℕ) : X K := xsum (actBox s.ps.degree).prod fun j => term s x (act s x j) c

theorem evaluate_eq (h : WF s) {x : List K} (hx : InDomain (shadow s) x) {dims : List ℕ} (hd : ∀ c ∈ dims, c < s.ph.dim) :
    evaluate s (x.map fin) (zl dims) = .ok (dims.map (total s x)) := by
  unfold evaluate
  rw [evalWith_eq h hx (g := fun I c => term s x I c.toNat)]
  · simp only [zl, List.map_map]; rfl
  · intro j c hc
    simp only [zl, List.mem_map] at hc
    obtain ⟨c, hc, rfl⟩ := hc
    exact evaluatedCP_eq h hx j (hd c hc)

theorem term_isFin {x : List K} {I : List ℕ} {c : ℕ} : ¬ IsFin (pt s I c) ∨ ¬ IsFin (wt s I) → ¬ IsFin (term s x I c) := by
  intro hn
  unfold term
  cases hw : s.ph.weights with
  | none =>
    rcases hn with hn | hn
    · exact fun hf => hn (mul_isFin.1 hf).2
    · simp [wt, hw] at hn
  | some w =>
    refine divT_not_fin fun hf => ?_
    have := mul_isFin.1 (mul_isFin.1 hf).2
    exact hn.elim (· this.1) (· this.2)

/-- **C102**, parameters: whatever the control points and weights are, `Evaluate` throws `range_error` if a parametric coordinate is
NaN, infinite or outside of its knot vector; for all other parameters it returns one value per requested coordinate. -/
theorem C102_parameters (h : WF s) {x : List (X K)} (hl : x.length = s.ps.knots.length) :
    ((¬ ∃ y, x = y.map fin ∧ InDomain (shadow s) y) →
      (∀ dims, evaluate s x dims = .error (.thrown .rangeError)) ∧
      ∀ dims k, evaluateDerivative s x dims k = .error (.thrown .rangeError)) ∧
    ((∃ y, x = y.map fin ∧ InDomain (shadow s) y) → ∀ dims : List ℕ, (∀ c ∈ dims, c < s.ph.dim) →
      ∃ v, evaluate s x (zl dims) = .ok v ∧ v.length = dims.length) := by
  constructor
  · intro hx
    have := throwIfOutside_err (WFSpl.knots h) hl hx
    have e : ∀ dims f, evalWith s x dims f = .error (.thrown .rangeError) := by
      intro dims f
      simp only [evalWith, show throwIfOutside s.ps.knots x = _ from this, error_bind]
    exact ⟨fun dims => e _ _, fun dims k => e _ _⟩
  · rintro ⟨y, rfl, hy⟩ dims hd
    exact ⟨_, evaluate_eq h hy hd, by simp⟩

/-- **C102**, finite values: if coordinate `c` and the weight of every control point in the window of `x` are finite, then coordinate
`c` of the result is the one of the spline in which all other NaN and infinite values are replaced by a number. In particular NaN
and infinite values outside of the window have no effect, and for finite data the result is that of `Spl.evaluate`. -/
theorem C102_finite (h : WF s) {x : List K} (hx : InDomain (shadow s) x) {dims : List ℕ} (hd : ∀ c ∈ dims, c < s.ph.dim) :
    ∃ (u : List K) (v : List (X K)), (shadow s).evaluate x (zl dims) = .ok u ∧ evaluate s (x.map fin) (zl dims) = .ok v ∧
      ∀ (j c : ℕ), dims[j]? = some c →
        (∀ I, InWindow s.ps.knots s.ps.degree x I → IsFin (pt s I c) ∧ IsFin (wt s I)) →
        ∃ a, u[j]? = some a ∧ v[j]? = some (fin a) := by
  refine ⟨_, _, value_eq h hx hd, evaluate_eq h hx hd, ?_⟩
  intro j c hj hfin
  have hk : List.Forall₂ WFKnots s.ps.knots s.ps.degree := WFSpl.knots h
  have hc : c < s.ph.dim := hd c (List.mem_of_getElem? hj)
  refine ⟨value (shadow s) x c, by simp [hj], ?_⟩
  simp only [List.getElem?_map, hj, Option.map_some, Option.some.injEq, total]
  have hpt : ∀ j < (actBox s.ps.degree).prod, pt s (act s x j) c = fin (cpt (shadow s) (act s x j) c) := by
    intro j hj
    rw [cpt_shadow h (act_box h hx j) hc]
    exact toK_fin (hfin _ ((window_act h hx).2 ⟨j, hj, rfl⟩)).1
  have hwt : ∀ j < (actBox s.ps.degree).prod, wt s (act s x j) = fin (wgt (shadow s) (act s x j)) := by
    intro j hj
    rw [wgt_shadow h (act_box h hx j)]
    exact toK_fin (hfin _ ((window_act h hx).2 ⟨j, hj, rfl⟩)).2
  have hsum : ∀ F : List ℕ → K, ∑ j ∈ range (actBox s.ps.degree).prod, base s x (act s x j) * F (act s x j) =
      tensorSum (shadow s) x F := by
    intro F
    unfold tensorSum
    rw [show npts (shadow s) = List.zipWith (fun U p => U.length - p - 1) s.ps.knots s.ps.degree from rfl]
    rw [show (shadow s).ps = s.ps from rfl, ← msum_active' hk _ hx, msum_eq_sum_unlin]
    rfl
  unfold value
  cases hw : s.ph.weights with
  | none =>
    have hw' : (shadow s).ph.weights = none := by simp [shadow, hw]
    rw [hw', xsum_fin (f := fun j => base s x (act s x j) * cpt (shadow s) (act s x j) c)]
    · rw [hsum fun I => cpt (shadow s) I c]; rfl
    · intro j hj
      simp only [term, hw, hpt j hj, fin_mul]
  | some w =>
    have hw' : (shadow s).ph.weights = some (w.map toK) := by simp [shadow, hw]
    have hpos := weightValue_pos (s := shadow s) h hx
    rw [hw', xsum_fin (f := fun j => base s x (act s x j) * (wgt (shadow s) (act s x j) * cpt (shadow s) (act s x j) c) /
      weightValue (shadow s) x)]
    · rw [← Finset.sum_div, hsum fun I => wgt (shadow s) I * cpt (shadow s) I c]; rfl
    · intro j hj
      simp only [term, hw, hpt j hj, hwt j hj, fin_mul, wsum_fin h hx fun I hI => (hfin I hI).2]
      rw [divT_fin hpos.ne', mul_comm (cpt _ _ _)]

/-- **C102**, contamination: a coordinate of the result is finite only if that coordinate and the weights of all control points in the
window of `x` are finite. A NaN among them gives NaN, also if the basis function of that control point vanishes at `x`. An infinite
weight gives NaN. An infinite coordinate whose basis function vanishes gives NaN. If the weights are finite, one coordinate
is `+∞` where the basis function does not vanish, and the others are finite or the same, the result is `+∞`. -/
theorem C102_contamination (h : WF s) {x : List K} (hx : InDomain (shadow s) x) {dims : List ℕ} (hd : ∀ c ∈ dims, c < s.ph.dim) :
    ∃ v, evaluate s (x.map fin) (zl dims) = .ok v ∧ ∀ (j c : ℕ), dims[j]? = some c → ∃ a, v[j]? = some a ∧
      (IsFin a → ∀ I, InWindow s.ps.knots s.ps.degree x I → IsFin (pt s I c) ∧ IsFin (wt s I)) ∧
      ((∃ I, InWindow s.ps.knots s.ps.degree x I ∧ (pt s I c = nan ∨ ¬ IsFin (wt s I))) → a = nan) ∧
      ((∃ I, InWindow s.ps.knots s.ps.degree x I ∧ ¬ IsFin (pt s I c) ∧ dprod (basisFns s.ps.knots s.ps.degree x) I = 0) → a = nan) ∧
      ((∃ I, InWindow s.ps.knots s.ps.degree x I ∧ pt s I c = pinf) →
        (∀ I, InWindow s.ps.knots s.ps.degree x I → IsFin (wt s I) ∧
          (IsFin (pt s I c) ∨ pt s I c = pinf ∧ dprod (basisFns s.ps.knots s.ps.degree x) I ≠ 0)) → a = pinf) := by
  have hk : List.Forall₂ WFKnots s.ps.knots s.ps.degree := WFSpl.knots h
  refine ⟨_, evaluate_eq h hx hd, ?_⟩
  intro j c hj
  refine ⟨total s x c, by simp [hj], ?_, ?_, ?_, ?_⟩
  · intro hf I hI
    obtain ⟨i, hi, rfl⟩ := (window_act h hx).1 hI
    by_contra hn
    exact term_isFin (not_and_or.1 hn) (xsum_isFin.1 hf i hi)
  · rintro ⟨I, hI, hn⟩
    obtain ⟨i, hi, rfl⟩ := (window_act h hx).1 hI
    refine xsum_nan ⟨i, hi, ?_⟩
    unfold term
    cases hw : s.ph.weights with
    | none =>
      rcases hn with hn | hn
      · simp only [hn, mul_nan]
      · simp [wt, hw] at hn
    | some w =>
      rcases hn with hn | hn
      · simp only [hn, nan_mul, mul_nan, divT_nan_left]
      · exact divT_inf_inf (fun hf => hn (mul_isFin.1 (mul_isFin.1 hf).2).2) fun hf => hn ((wsum_isFin h hx).1 hf _ hI)
  · rintro ⟨I, hI, hn, h0⟩
    obtain ⟨i, hi, rfl⟩ := (window_act h hx).1 hI
    refine xsum_nan ⟨i, hi, ?_⟩
    unfold term
    rw [show base s x (act s x i) = 0 from h0]
    cases hw : s.ph.weights with
    | none => exact mul_inf_zero hn
    | some w =>
      simp only
      rw [mul_inf_zero fun hf => hn (mul_isFin.1 hf).1, divT_nan_left]
  · rintro ⟨I, hI, hn⟩ hall
    have hpinf : ∀ i < (actBox s.ps.degree).prod, pt s (act s x i) c = pinf → term s x (act s x i) c = pinf := by
      intro i hi hp
      have hW := (window_act h hx).2 ⟨i, hi, rfl⟩
      have hb : 0 < base s x (act s x i) := by
        rcases (hall _ hW).2 with hf | ⟨_, hf⟩
        · rw [hp] at hf; exact absurd hf id
        · exact lt_of_le_of_ne (tensor_nonneg hk hx (act_box h hx i)) (Ne.symm hf)
      unfold term
      rw [hp]
      cases hw : s.ph.weights with
      | none => exact mul_pinf hb
      | some w =>
        simp only
        have hwf := (hall _ hW).1
        have hwp : 0 < wgt (shadow s) (act s x i) := wgt_pos (s := shadow s) h (act_box h hx i)
        rw [toK_fin hwf, ← wgt_shadow h (act_box h hx i)]
        have e1 : pinf * fin (wgt (shadow s) (act s x i)) = (pinf : X K) := by
          simp [X.mul_def, mul, scale, hwp, hwp.ne']
        rw [e1, mul_pinf hb, wsum_fin h hx fun I hI => (hall I hI).1]
        exact divT_pinf (weightValue_pos (s := shadow s) h hx)
    apply xsum_pinf
    · intro i hi
      have hW := (window_act h hx).2 ⟨i, hi, rfl⟩
      rcases (hall _ hW).2 with hf | ⟨hp, _⟩
      · left
        unfold term
        cases hw : s.ph.weights with
        | none => exact mul_isFin.2 ⟨trivial, hf⟩
        | some w =>
          simp only
          rw [wsum_fin h hx fun I hI => (hall I hI).1, toK_fin hf, toK_fin (hall _ hW).1, fin_mul, fin_mul,
            divT_fin (weightValue_pos (s := shadow s) h hx).ne']
          trivial
      · exact Or.inr (hpinf i hi hp)
    · obtain ⟨i, hi, rfl⟩ := (window_act h hx).1 hI
      exact ⟨i, hi, hpinf i hi hn⟩

/-- **C102**, derivatives of B-splines: the derivatives depend on the same control points as the values. If their coordinates are finite,
the derivative is the one of the spline in which all other NaN and infinite values are replaced by a number; a NaN or an infinite
coordinate gives a derivative that is not finite, and NaN if the coordinate is NaN or the derivative of the basis function vanishes. -/
theorem C102_derivative (h : WF s) (hb : s.ph.weights = none) {x : List K} (hx : InDomain (shadow s) x) {dims : List ℕ}
    (hd : ∀ c ∈ dims, c < s.ph.dim) {k : List ℕ} (hkl : k.length = s.ps.knots.length) :
    ∃ (u : List K) (v : List (X K)), (shadow s).evaluateDerivative x (zl dims) (zl k) = .ok u ∧
      evaluateDerivative s (x.map fin) (zl dims) (zl k) = .ok v ∧
      ∀ (j c : ℕ), dims[j]? = some c → ∃ a b, u[j]? = some a ∧ v[j]? = some b ∧
        ((∀ I, InWindow s.ps.knots s.ps.degree x I → IsFin (pt s I c)) → b = fin a) ∧
        (IsFin b → ∀ I, InWindow s.ps.knots s.ps.degree x I → IsFin (pt s I c)) ∧
        ((∃ I, InWindow s.ps.knots s.ps.degree x I ∧ (pt s I c = nan ∨
          ¬ IsFin (pt s I c) ∧ dprod (basisDerivFns s.ps.knots s.ps.degree x k) I = 0)) → b = nan) := by
  have hk : List.Forall₂ WFKnots s.ps.knots s.ps.degree := WFSpl.knots h
  have e : evaluateDerivative s (x.map fin) (zl dims) (zl k) = .ok (dims.map fun c => xsum (actBox s.ps.degree).prod fun j =>
      fin (dprod (basisDerivFns s.ps.knots s.ps.degree x k) (act s x j)) * pt s (act s x j) c) := by
    unfold evaluateDerivative
    rw [evalWith_eq h hx (g := fun I c => fin (dprod (basisDerivFns s.ps.knots s.ps.degree x k) I) * pt s I c.toNat)]
    · simp only [zl, List.map_map]; rfl
    · intro j c hc
      simp only [zl, List.mem_map] at hc
      obtain ⟨c, hc, rfl⟩ := hc
      have hbf : s.ps.getBasisFunctionDerivatives (zl (act s x j)) x (zl k) =
          .ok (dprod (basisDerivFns s.ps.knots s.ps.degree x k) (act s x j)) :=
        getBasisFunctionDerivatives_eq (s := shadow s) h hx (unlin_inBox (ns := actBox s.ps.degree) (by simp [actBox]) j) hkl
      have := controlPoint_eq h (act_box h hx j) (hd c hc)
      simp only [zl] at hbf this ⊢
      simp only [evaluatedDerivCP, hbf, this, ok_bind, pure_ok]
      rfl
  refine ⟨_, _, evaluateDerivative_bspline (s := shadow s) h (by simp [IsBSpline, shadow, hb]) hx dims hd hkl, e, ?_⟩
  intro j c hj
  have hc : c < s.ph.dim := hd c (List.mem_of_getElem? hj)
  refine ⟨_, _, by simp [hj]; rfl, by simp [hj]; rfl, ?_, ?_, ?_⟩
  · intro hfin
    rw [xsum_fin (f := fun j => dprod (basisDerivFns s.ps.knots s.ps.degree x k) (act s x j) * cpt (shadow s) (act s x j) c)]
    · congr 1
      unfold tensorDerivSum
      rw [show npts (shadow s) = List.zipWith (fun U p => U.length - p - 1) s.ps.knots s.ps.degree from rfl]
      rw [show (shadow s).ps = s.ps from rfl, ← msum_active hk _ hx hkl, msum_eq_sum_unlin]
      rfl
    · intro j hj
      rw [cpt_shadow h (act_box h hx j) hc, ← fin_mul, ← toK_fin (hfin _ ((window_act h hx).2 ⟨j, hj, rfl⟩))]
  · intro hf I hI
    obtain ⟨i, hi, rfl⟩ := (window_act h hx).1 hI
    exact (mul_isFin.1 (xsum_isFin.1 hf i hi)).2
  · rintro ⟨I, hI, hn⟩
    obtain ⟨i, hi, rfl⟩ := (window_act h hx).1 hI
    refine xsum_nan ⟨i, hi, ?_⟩
    rcases hn with hn | ⟨hn, h0⟩
    · rw [hn, mul_nan]
    · rw [h0, mul_inf_zero hn]

/-! ### Comparison -/

/-- All coordinates and weights are finite. -/
def AllFin (s : S K) : Prop := (∀ a ∈ s.ph.cps, IsFin a) ∧ ∀ w, s.ph.weights = some w → ∀ a ∈ w, IsFin a

theorem areEqual_iff {a b : X K} {tol : K} :
    areEqual a b tol = true ↔ IsFin a ∧ IsFin b ∧ SplineLib.areEqual (toK a) (toK b) tol = true := by
  cases a <;> cases b <;>
    simp [areEqual, SplineLib.areEqual, X.sub_def, X.add, X.neg, X.abs, X.lt, toK, sub_eq_add_neg]

theorem listClose_iff {tol : K} : ∀ {l r : List (X K)}, listClose tol l r = true ↔
    (∀ a ∈ l, IsFin a) ∧ (∀ a ∈ r, IsFin a) ∧ SplineLib.listClose tol (l.map toK) (r.map toK) = true
  | [], [] => by simp [listClose, SplineLib.listClose]
  | [], b :: r => by simp [listClose, SplineLib.listClose]
  | a :: l, [] => by simp [listClose, SplineLib.listClose]
  | a :: l, b :: r => by
    simp only [listClose, Bool.and_eq_true, areEqual_iff, listClose_iff, List.map_cons, SplineLib.listClose, List.forall_mem_cons]
    tauto

/-- **C102**, `AreEqual`: two splines are reported equal exactly if all their coordinates and weights are finite and they are equal in
the sense of `Spl.areEqualSpl`. So a spline with a NaN or infinite value is not equal to anything, not even to itself. -/
theorem C102_areEqual (a b : S K) (tol : K) :
    areEqualSpl a b tol = true ↔ AllFin a ∧ AllFin b ∧ (shadow a).areEqualSpl (shadow b) tol = true := by
  unfold areEqualSpl areEqualPhys Spl.areEqualSpl Phys.areEqualPhys AllFin
  cases ha : a.ph.weights <;> cases hb : b.ph.weights <;>
    simp only [shadow, ha, hb, Option.map_none, Option.map_some, Bool.and_eq_true, listClose_iff, Bool.true_and, Bool.false_and,
      Bool.false_eq_true, and_false, false_and, reduceCtorEq, Option.some.injEq, forall_eq', IsEmpty.forall_iff, implies_true,
      and_true, true_and]
  all_goals tauto

theorem length_addEach {f : ℤ → M (X K)} : ∀ {dims : List ℤ} {v w : List (X K)}, addEach f dims v = .ok w → w.length = v.length
  | [], v, w, h => by simp only [addEach, Except.ok.injEq] at h; rw [h]
  | _ :: _, [], w, h => by simp only [addEach, Except.ok.injEq] at h; rw [h]
  | c :: cs, a :: as, w, h => by
    simp only [addEach] at h
    obtain ⟨v, _, h⟩ := bind_eq_ok.1 h
    obtain ⟨r, hr, h⟩ := bind_eq_ok.1 h
    cases h
    simp [length_addEach hr]

theorem length_upLoop {f : MIH → ℤ → M (X K)} {dims : List ℤ} : ∀ {n : ℕ} {m : MIH} {v w : List (X K)},
    upLoop (fun m acc => addEach (f m) dims acc) n m v = .ok w → w.length = v.length
  | 0, m, v, w, h => by simp only [upLoop, Except.ok.injEq] at h; rw [h]
  | n + 1, m, v, w, h => by
    simp only [upLoop] at h
    obtain ⟨r, hr, h⟩ := bind_eq_ok.1 h
    rw [length_upLoop h, length_addEach hr]

theorem length_evaluate {s : S K} {x : List (X K)} {dims : List ℤ} {v : List (X K)} (h : evaluate s x dims = .ok v) :
    v.length = dims.length := by
  unfold evaluate evalWith at h
  obtain ⟨_, _, h⟩ := bind_eq_ok.1 h
  obtain ⟨_, _, h⟩ := bind_eq_ok.1 h
  obtain ⟨_, _, h⟩ := bind_eq_ok.1 h
  rw [length_upLoop h]; simp

theorem foldl_nan {l : List (X K)} : ∀ {a : X K}, a = nan ∨ nan ∈ l → l.foldl (fun s v => s + v * v) a = nan := by
  induction l with
  | nil => intro a h; simpa using h
  | cons b l ih =>
    intro a h
    apply ih
    rcases h with h | h
    · left; simp [h]
    · rcases List.mem_cons.1 h with h | h
      · left; simp [← h]
      · exact Or.inr h

theorem distance_nan [HasSqrt K] {a b : List (X K)} (hl : a.length = b.length) (h : nan ∈ a) : distance a b = nan := by
  unfold distance
  rw [foldl_nan]
  · rfl
  · right
    obtain ⟨j, hj, e⟩ := List.getElem_of_mem h
    have hj' : j < b.length := hl ▸ hj
    refine List.mem_of_getElem? (i := j) ?_
    simp only [List.getElem?_zipWith, List.getElem?_eq_getElem hj, List.getElem?_eq_getElem hj', e]
    cases b[j] <;> rfl

/-- **C102**, `AreGeometricallyEqual`: if one coordinate is NaN in all control points of a spline, then whenever `AreGeometricallyEqual`
returns, it reports this spline equal to the argument, whatever the argument and the tolerance are. -/
theorem C102_geometrically_equal [HasSqrt K] {a b : S K} (h : WF a) {c : ℕ} (hc : c < a.ph.dim)
    (hn : ∀ I, InBox (npts (shadow a)) I → pt a I c = nan) {tol : K} {r : Bool} (hr : areGeometricallyEqual a b tol = .ok r) :
    r = true := by
  have hdom : ∀ {x : List K} {v : List (X K)}, x.length = a.ps.knots.length →
      evaluate a (x.map fin) ((List.range a.ph.dim).map Int.ofNat) = .ok v → nan ∈ v := by
    intro x v hl hv
    by_cases hx : InDomain (shadow a) x
    · have hd : ∀ c ∈ List.range a.ph.dim, c < a.ph.dim := fun c hc => List.mem_range.1 hc
      obtain ⟨v', e1, e2⟩ := C102_contamination h hx hd
      have e3 : evaluate a (x.map fin) ((List.range a.ph.dim).map Int.ofNat) = .ok v' := e1
      rw [hv] at e3
      cases e3
      obtain ⟨z, hz, _, hz2, _⟩ := e2 c c (by simp [hc])
      have hw : ∃ I, InWindow a.ps.knots a.ps.degree x I := by
        have hpos : 0 < (actBox a.ps.degree).prod := List.prod_pos (by simp [actBox])
        exact ⟨_, (window_act h hx).2 ⟨0, hpos, rfl⟩⟩
      obtain ⟨I, hI⟩ := hw
      have hbox : InBox (npts (shadow a)) I := by
        obtain ⟨j, _, rfl⟩ := (window_act h hx).1 hI
        exact act_box h hx j
      rw [← hz2 ⟨I, hI, Or.inl (hn I hbox)⟩]
      exact List.mem_of_getElem? hz
    · have := ((C102_parameters h (x := x.map fin) (by simpa using hl)).1 (by
        rintro ⟨y, e, hy⟩
        have : x = y := List.map_injective_iff.2 (fun _ _ h => X.fin.inj h) e
        exact hx (this ▸ hy))).1 ((List.range a.ph.dim).map Int.ofNat)
      rw [hv] at this; cases this
  have hsl : ∀ (number : ℕ) (Us : List (List K)) (is : List ℤ) (x : List K), Us.length = is.length →
      Spl.samplePoint number Us is = .ok x → x.length = Us.length := by
    intro number Us
    induction Us with
    | nil => intro is x hl h; simp only [Spl.samplePoint, Except.ok.injEq] at h; simp [← h]
    | cons U Us ih =>
      intro is x hl h
      cases is with
      | nil => simp at hl
      | cons i is =>
        simp only [Spl.samplePoint] at h
        obtain ⟨_, _, h⟩ := bind_eq_ok.1 h
        obtain ⟨_, _, h⟩ := bind_eq_ok.1 h
        obtain ⟨z, hz, h⟩ := bind_eq_ok.1 h
        cases h
        simp [ih is z (by simpa using hl) hz]
  have hinc : ∀ (ls cs : List ℤ), (MIH.incrL ls cs).length = cs.length := by
    intro ls
    induction ls with
    | nil => intro cs; cases cs <;> rfl
    | cons l ls ih =>
      intro cs
      cases cs with
      | nil => rfl
      | cons c cs => simp only [MIH.incrL]; split <;> simp [ih]
  have key : ∀ (number n : ℕ) (m : MIH), m.cur.length = a.ps.knots.length →
      geomLoop a b tol number ((List.range a.ph.dim).map Int.ofNat) n m = .ok r → r = true := by
    intro number n
    induction n with
    | zero => intro m _ hr; cases hr; rfl
    | succ n ih =>
      intro m hm hr
      simp only [geomLoop] at hr
      obtain ⟨x, hx, hr⟩ := bind_eq_ok.1 hr
      obtain ⟨va, hva, hr⟩ := bind_eq_ok.1 hr
      obtain ⟨vb, hvb, hr⟩ := bind_eq_ok.1 hr
      have hnan := hdom (hsl _ _ _ _ hm.symm hx) hva
      rw [distance_nan (by rw [length_evaluate hva, length_evaluate hvb]) hnan] at hr
      exact ih m.incr (by rw [MIH.incr, hinc, hm]) (by simpa [X.lt] using hr)
  exact key _ _ _ (by simp [MIH.mk']) hr

/-! ### Examples -/

/-- A polyline in the plane with two segments, one coordinate of the second control point NaN, one of the last
control point infinite. -/
def exSpecial : S ℚ :=
  { ps := { knots := [[0, 0, 1/2, 1, 1]], degree := [1], basis := mkTable [[0, 0, 1/2, 1, 1]] [1] }
    ph := { dim := 2, num := [3], cps := [fin 0, fin 1, nan, fin 2, fin 4, pinf], weights := none } }

theorem exSpecial_wf : WF exSpecial where
  knots := .cons ⟨by decide +kernel, by decide, by decide +kernel, by decide +kernel, by decide +kernel, by decide +kernel⟩ .nil
  basis := by decide +kernel
  num := by decide +kernel
  dim := by decide
  cps := by decide +kernel
  weights := by intro w h; cases h

-- At the first corner the curve does not return the first control point: the second coordinate is right, the first one is NaN.
example : evaluate exSpecial [fin 0] [0, 1] = .ok [nan, fin 1] := by decide +kernel
-- The last control point is not in the window here.
example : evaluate exSpecial [fin (1/4)] [0, 1] = .ok [nan, fin (3/2)] := by decide +kernel
-- Here it is, with a basis function that vanishes: `0 * ∞`.
example : evaluate exSpecial [fin (1/2)] [0, 1] = .ok [nan, nan] := by decide +kernel
example : evaluate exSpecial [fin (3/4)] [0, 1] = .ok [nan, pinf] := by decide +kernel
example : evaluate exSpecial [nan] [0, 1] = .error (.thrown .rangeError) := by decide +kernel
example : evaluate exSpecial [pinf] [0, 1] = .error (.thrown .rangeError) := by decide +kernel
example : evaluateDerivative exSpecial [fin (1/4)] [0, 1] [1] = .ok [nan, fin 2] := by decide +kernel
example : areEqualSpl exSpecial exSpecial 1 = false := by decide +kernel
example : InDomain (shadow exSpecial) [1/4] ∧ InWindow exSpecial.ps.knots exSpecial.ps.degree [1/4] [1] ∧
    pt exSpecial [1] 0 = nan ∧ ¬ InWindow exSpecial.ps.knots exSpecial.ps.degree [1/4] [2] := by
  refine ⟨.cons (by decide +kernel) .nil, ⟨⟨1, by decide, by decide +kernel, by decide, by decide⟩, trivial⟩, by decide +kernel, ?_⟩
  rintro ⟨⟨k, h1, h2, h3, h4⟩, -⟩
  have : k = 2 ∨ k = 3 := by simp at h4; omega
  rcases this with rfl | rfl
  · exact absurd h2 (by decide +kernel)
  · exact absurd h2 (by decide +kernel)

/-- A line all of whose control points have NaN as their first coordinate. -/
def exNan : S ℚ :=
  { ps := { knots := [[0, 0, 1, 1]], degree := [1], basis := mkTable [[0, 0, 1, 1]] [1] }
    ph := { dim := 1, num := [2], cps := [nan, nan], weights := none } }

/-- A line far away from everything. -/
def exFar : S ℚ := { exNan with ph := { dim := 1, num := [2], cps := [fin 1000, fin 2000], weights := none } }

theorem exNan_wf : WF exNan where
  knots := .cons ⟨by decide +kernel, by decide, by decide +kernel, by decide +kernel, by decide +kernel, by decide +kernel⟩ .nil
  basis := by decide +kernel
  num := by decide +kernel
  dim := by decide
  cps := by decide +kernel
  weights := by intro w h; cases h

section
attribute [local instance] ratSqrt
example : areGeometricallyEqual exNan exFar 0 = .ok true := by decide +kernel
example : areGeometricallyEqual exFar exFar 0 = .ok true := by decide +kernel
end

end Sp
end SplineLib
