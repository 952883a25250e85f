import Verif.Props.ShapePreserving

/-!
# Isoparametric curves

If all parameters but one are fixed, the values that `Evaluate` (`/repo/src/spl/spline.h:49-65`) and `EvaluateDerivative` (`/repo/src/spl/spline.h:67-84`)
return are the ones of a curve with the knots and the degree of the remaining direction. Hence the statements about curves hold along all lines of
surfaces and volumes.
-/

namespace SplineLib
set_option linter.unusedSectionVars false
open Finset

section
variable {K : Type} [Field K] [LinearOrder K] [IsStrictOrderedRing K]

/-! ### Curves from numbers -/

/-- The curve with the knots `U`, the degree `p`, control points `P` and weights `w`. -/
def lineCurve (dim : ℕ) (U : List K) (p : ℕ) (P : ℕ → ℕ → K) (w : Option (ℕ → K)) : Spl K :=
  ⟨⟨[U], [p], mkTable [U] [p]⟩, ⟨dim, [((U.length - p - 1 : ℕ) : ℤ)], (List.range (dim * (U.length - p - 1))).map fun j => P (j / dim) (j % dim),
    w.map fun f => (List.range (U.length - p - 1)).map f⟩⟩

theorem lineCurve_wf {dim : ℕ} (hdim : 0 < dim) {U : List K} {p : ℕ} (h : WFKnots U p) (P : ℕ → ℕ → K) {w : Option (ℕ → K)}
    (hw : ∀ f, w = some f → ∀ i < U.length - p - 1, 0 < f i) : WFSpl (lineCurve dim U p P w) where
  knots := .cons h .nil
  basis := basisTable_eq (forall₂_size (.cons h .nil))
  num := by simp [lineCurve, npts, zl]
  dim := hdim
  cps := by simp [lineCurve, npts]
  weights := by
    intro v hv
    cases w with
    | none => simp [lineCurve] at hv
    | some f =>
      simp only [lineCurve, Option.map_some, Option.some.injEq] at hv
      subst hv
      refine ⟨by simp [lineCurve, npts], fun a ha => ?_⟩
      obtain ⟨i, hi, rfl⟩ := List.mem_map.1 ha
      exact hw f rfl i (List.mem_range.1 hi)

theorem lineCurve_cpt {dim : ℕ} {U : List K} {p : ℕ} (P : ℕ → ℕ → K) (w : Option (ℕ → K)) {i c : ℕ} (hi : i < U.length - p - 1) (hc : c < dim) :
    cpt (lineCurve dim U p P w) [i] c = P i c := by
  have hlt : dim * i + c < dim * (U.length - p - 1) := by
    calc dim * i + c < dim * i + dim := by omega
      _ = dim * (i + 1) := by ring
      _ ≤ _ := Nat.mul_le_mul_left _ hi
  simp only [cpt, lineCurve, npts, List.zipWith_cons_cons, List.zipWith_nil_right, lin, Nat.mul_zero, Nat.add_zero]
  rw [List.getD_eq_getElem _ _ (by simpa using hlt)]
  simp only [List.getElem_map, List.getElem_range]
  rw [Nat.mul_add_div (by omega), Nat.div_eq_of_lt hc, Nat.add_zero, Nat.mul_add_mod, Nat.mod_eq_of_lt hc]

theorem lineCurve_wgt {dim : ℕ} {U : List K} {p : ℕ} (P : ℕ → ℕ → K) (w : Option (ℕ → K)) {i : ℕ} (hi : i < U.length - p - 1) :
    wgt (lineCurve dim U p P w) [i] = (w.map fun f => f i).getD 1 := by
  cases w with
  | none => rfl
  | some f =>
    simp only [wgt, lineCurve, npts, Option.map_some, List.zipWith_cons_cons, List.zipWith_nil_right, lin, Nat.mul_zero, Nat.add_zero, Option.getD_some]
    rw [List.getD_eq_getElem _ _ (by simpa using hi)]
    simp

/-! ### One direction of a tensor product -/

/-- The product of the basis functions of the other directions. -/
def lineBasis (s : Spl K) (x : List K) (k : List ℕ) (d : ℕ) (J : List ℕ) : K :=
  dprod ((basisDerivFns s.ps.knots s.ps.degree x k).set d fun _ => 1) J

/-- The coefficients of the curve in direction `d`. -/
def lineCoeff (s : Spl K) (x : List K) (k : List ℕ) (d : ℕ) (a : List ℕ → K) (i : ℕ) : K :=
  msum ((npts s).set d 1) fun J => lineBasis s x k d J * a (J.set d i)

theorem basisDerivFns_param : ∀ {Us : List (List K)} {ps : List ℕ} {xs : List K} {ks : List ℕ} {d : ℕ} {U : List K} {p : ℕ} (t : K) (m : ℕ),
    Us[d]? = some U → ps[d]? = some p → d < xs.length → d < ks.length →
    basisDerivFns Us ps (xs.set d t) (ks.set d m) = (basisDerivFns Us ps xs ks).set d fun i => coxDeBoorDeriv U p m i t
  | [], _, _, _, _, _, _, _, _, h, _, _, _ => by simp at h
  | _ :: _, [], _, _, _, _, _, _, _, _, h, _, _ => by simp at h
  | _ :: _, _ :: _, [], _, _, _, _, _, _, _, _, h, _ => by simp at h
  | _ :: _, _ :: _, _ :: _, [], _, _, _, _, _, _, _, _, h => by simp at h
  | _ :: _, _ :: _, _ :: _, _ :: _, 0, _, _, _, _, h1, h2, _, _ => by
    simp only [List.getElem?_cons_zero, Option.some.injEq] at h1 h2
    subst h1 h2
    rfl
  | _ :: Us, _ :: ps, _ :: xs, _ :: ks, d + 1, _, _, t, m, h1, h2, h3, h4 => by
    simp only [List.getElem?_cons_succ] at h1 h2
    simp only [List.set_cons_succ, basisDerivFns]
    rw [basisDerivFns_param t m h1 h2 (by simpa using h3) (by simpa using h4)]

/-- A tensor product sum is a univariate sum. -/
theorem line_sum {s : Spl K} (h : WFSpl s) {d : ℕ} {U : List K} {p : ℕ} (hU : s.ps.knots[d]? = some U) (hp : s.ps.degree[d]? = some p) {x : List K}
    (hx : x.length = s.ps.knots.length) {k : List ℕ} (hk : k.length = s.ps.knots.length) (t : K) (m : ℕ) (a : List ℕ → K) :
    tensorDerivSum s (x.set d t) (k.set d m) a = ∑ i ∈ range (U.length - p - 1), coxDeBoorDeriv U p m i t * lineCoeff s x k d a i := by
  have hd : d < s.ps.knots.length := lt_of_some hU
  have hn : (npts s)[d]? = some (U.length - p - 1) := nptsOf_get hU hp
  have hdn : d < (npts s).length := lt_of_some hn
  have hlen : (basisDerivFns s.ps.knots s.ps.degree x k)[d]? ≠ none := by
    rw [basisDerivFns_get hU hp (List.getElem?_eq_getElem (by omega)) (List.getElem?_eq_getElem (by omega))]; simp
  have hlt : d < (basisDerivFns s.ps.knots s.ps.degree x k).length := by
    by_contra hc; exact hlen (List.getElem?_eq_none (by omega))
  have hb : ∀ J, InBox ((npts s).set d 1) J → ∀ i,
      dprod (basisDerivFns s.ps.knots s.ps.degree (x.set d t) (k.set d m)) (J.set d i) = coxDeBoorDeriv U p m i t * lineBasis s x k d J := by
    intro J hJ i
    have hJl : d < J.length := by rw [hJ.length]; simpa using hdn
    rw [basisDerivFns_param t m hU hp (by omega) (by omega), dprod_set (b := fun i => coxDeBoorDeriv U p m i t) i (by simp [hlt]) hJl, List.set_set]
    rfl
  unfold tensorDerivSum
  rw [msum_change_dir (npts s) d hdn 1 _ (fun J => ∑ i ∈ range (U.length - p - 1), coxDeBoorDeriv U p m i t * (lineBasis s x k d J * a (J.set d i)))]
  · rw [msum_sum_comm]
    refine sum_congr rfl fun i _ => ?_
    rw [msum_mul_left]
    rfl
  · intro J hJ
    have hJl : d < J.length := by rw [hJ.length]; simpa using hdn
    have h0 : J.set d 0 = J := by
      have := hJ.getD_lt (d := d) (by simpa using hdn)
      rw [List.getD_eq_getElem?_getD, List.getD_eq_getElem?_getD] at this
      simp only [List.getElem?_eq_getElem hJl, Option.getD_some, List.getElem?_set_self hdn] at this
      refine List.ext_getElem (by simp) fun n h1 h2 => ?_
      rw [List.getElem_set]
      split_ifs with g
      · subst g; omega
      · rfl
    rw [List.getD_eq_getElem?_getD, hn, Option.getD_some, range_one, sum_singleton, h0]
    exact sum_congr rfl fun i _ => by rw [hb J hJ i, mul_assoc]

theorem set_inDomain {s : Spl K} {d : ℕ} {U : List K} (hU : s.ps.knots[d]? = some U) {x : List K} (hx : InDomain s x) {t : K} (h0 : knot U 0 ≤ t)
    (h1 : t ≤ lastKnot U) : InDomain s (x.set d t) := by
  unfold InDomain at *
  generalize s.ps.knots = Us at *
  induction hx generalizing d with
  | nil => simp
  | @cons V a Vs as ha _ ih =>
    cases d with
    | zero =>
      simp only [List.getElem?_cons_zero, Option.some.injEq] at hU
      subst hU
      exact .cons ⟨h0, h1⟩ (by assumption)
    | succ d => exact .cons ha (ih (by simpa using hU))

/-- The values of a curve given by numbers. -/
theorem lineCurve_sum {dim : ℕ} {U : List K} {p : ℕ} (P : ℕ → ℕ → K) (w : Option (ℕ → K)) (t : K) (m : ℕ) (a : List ℕ → K) :
    tensorDerivSum (lineCurve dim U p P w) [t] [m] a = ∑ i ∈ range (U.length - p - 1), coxDeBoorDeriv U p m i t * a [i] := by
  simp [tensorDerivSum, lineCurve, npts, msum, dprod, basisDerivFns]

/-- **C115 (B-splines).** If all parameters but one are fixed, every derivative of a B-spline is the derivative of a B-spline curve with the knots and the
degree of this direction. -/
theorem C115_derivative {s : Spl K} (h : WFSpl s) (hb : IsBSpline s) {d : ℕ} {U : List K} {p : ℕ} (hU : s.ps.knots[d]? = some U)
    (hp : s.ps.degree[d]? = some p) {x : List K} (hx : InDomain s x) {k : List ℕ} (hk : k.length = s.ps.knots.length) :
    ∃ r : Spl K, WFSpl r ∧ IsBSpline r ∧ r.ps.knots = [U] ∧ r.ps.degree = [p] ∧ r.ph.dim = s.ph.dim ∧
      ∀ t, knot U 0 ≤ t → t ≤ lastKnot U → ∀ dims : List ℕ, (∀ c ∈ dims, c < s.ph.dim) → ∀ m : ℕ,
        s.evaluateDerivative (x.set d t) (zl dims) (zl (k.set d m)) = r.evaluateDerivative [t] (zl dims) (zl [m]) := by
  have hw : WFKnots U p := forall₂_get h.knots hU hp
  have hr := lineCurve_wf h.dim hw (fun i c => lineCoeff s x k d (fun I => cpt s I c) i) (w := none) (by simp)
  refine ⟨_, hr, rfl, rfl, rfl, rfl, fun t h0 h1 dims hd m => ?_⟩
  rw [evaluateDerivative_bspline h hb (set_inDomain hU hx h0 h1) dims hd (by simpa using hk),
    evaluateDerivative_bspline hr rfl (.cons ⟨h0, h1⟩ .nil) dims hd rfl]
  refine congrArg _ (List.map_congr_left fun c hc => ?_)
  rw [line_sum h hU hp (List.Forall₂.length_eq hx).symm hk, lineCurve_sum]
  exact sum_congr rfl fun i hi => by rw [lineCurve_cpt _ _ (mem_range.1 hi) (hd c hc)]

/-- The basis functions of the other directions are not negative and their sum is one. -/
theorem lineBasis_convex {s : Spl K} (h : WFSpl s) {d : ℕ} {U : List K} {p : ℕ} (hU : s.ps.knots[d]? = some U) (hp : s.ps.degree[d]? = some p)
    {x : List K} (hx : InDomain s x) :
    (∀ J, InBox ((npts s).set d 1) J → 0 ≤ lineBasis s x (s.ps.knots.map fun _ => 0) d J) ∧
      msum ((npts s).set d 1) (lineBasis s x (s.ps.knots.map fun _ => 0) d) = 1 := by
  have hw : WFKnots U p := forall₂_get h.knots hU hp
  have hxl : x.length = s.ps.knots.length := (List.Forall₂.length_eq hx).symm
  have hd : d < s.ps.knots.length := lt_of_some hU
  have hn : (npts s)[d]? = some (U.length - p - 1) := nptsOf_get hU hp
  have hdn : d < (npts s).length := lt_of_some hn
  have hr0 : knot U 0 ≤ knot U 0 ∧ knot U 0 ≤ lastKnot U := ⟨le_rfl, hw.range.le⟩
  have hdom := set_inDomain hU hx hr0.1 hr0.2
  have hsum := cox_sum hw hr0.1 hr0.2
  constructor
  · intro J hJ
    obtain ⟨i, hi, hpos⟩ : ∃ i ∈ range (U.length - p - 1), 0 < coxDeBoor U p i (knot U 0) := by
      by_contra hcon
      push Not at hcon
      have := sum_nonpos hcon
      rw [hsum] at this
      exact absurd this (by simp)
    have hJl : d < J.length := by rw [hJ.length]; simpa using hdn
    have hI : InBox (npts s) (J.set d i) := inBox_set_of hJ (by rw [ixd, List.getD_eq_getElem?_getD, hn]; exact mem_range.1 hi)
    have hnn := tensor_nonneg h.knots hdom hI
    rw [← basisDerivFns_zero] at hnn
    have ez : (s.ps.knots.map fun _ => 0) = (s.ps.knots.map fun _ => 0).set d 0 := by
      refine List.ext_getElem (by simp) fun n g1 g2 => ?_
      rw [List.getElem_set]; split_ifs <;> simp
    rw [ez, basisDerivFns_param (knot U 0) 0 hU hp (by omega) (by simpa using hd),
      dprod_set (b := fun i => coxDeBoorDeriv U p 0 i (knot U 0)) i ?_ hJl, List.set_set] at hnn
    · simp only [coxDeBoorDeriv] at hnn
      exact nonneg_of_mul_nonneg_right hnn hpos
    · have : (basisDerivFns s.ps.knots s.ps.degree x (s.ps.knots.map fun _ => 0))[d]? ≠ none := by
        rw [basisDerivFns_get hU hp (List.getElem?_eq_getElem (by omega)) (List.getElem?_eq_getElem (by simpa using hd))]; simp
      have hlt : d < (basisDerivFns s.ps.knots s.ps.degree x (s.ps.knots.map fun _ => 0)).length := by
        by_contra hc; exact this (List.getElem?_eq_none (by omega))
      exact List.getElem?_set_self hlt
  · have e := line_sum h hU hp hxl (k := s.ps.knots.map fun _ => 0) (by simp) (knot U 0) 0 (fun _ => 1)
    have ez : (s.ps.knots.map fun _ => 0).set d 0 = (s.ps.knots.map fun _ => 0) := by
      refine List.ext_getElem (by simp) fun n g1 g2 => ?_
      rw [List.getElem_set]; split_ifs <;> simp
    rw [ez] at e
    unfold tensorDerivSum lineCoeff at e
    simp only [mul_one, basisDerivFns_zero] at e
    have hu : msum (npts s) (dprod (basisFns s.ps.knots s.ps.degree (x.set d (knot U 0)))) = 1 := tensor_unity h.knots hdom
    rw [← sum_mul] at e
    simp only [coxDeBoorDeriv, hsum, one_mul] at e
    rw [← hu]
    exact e.symm

/-- A tensor product sum of values is a univariate sum. -/
theorem line_value {s : Spl K} (h : WFSpl s) {d : ℕ} {U : List K} {p : ℕ} (hU : s.ps.knots[d]? = some U) (hp : s.ps.degree[d]? = some p) {x : List K}
    (hx : InDomain s x) (t : K) (a : List ℕ → K) :
    tensorSum s (x.set d t) a = ∑ i ∈ range (U.length - p - 1), coxDeBoor U p i t * lineCoeff s x (s.ps.knots.map fun _ => 0) d a i := by
  have e := line_sum h hU hp (List.Forall₂.length_eq hx).symm (k := s.ps.knots.map fun _ => 0) (by simp) t 0 a
  have ez : (s.ps.knots.map fun _ => 0).set d 0 = (s.ps.knots.map fun _ => 0) := by
    refine List.ext_getElem (by simp) fun n g1 g2 => ?_
    rw [List.getElem_set]; split_ifs <;> simp
  rw [ez] at e
  unfold tensorDerivSum at e
  rw [basisDerivFns_zero] at e
  simp only [coxDeBoorDeriv] at e
  exact e

/-- **C115** If all parameters but one are fixed, the values of a spline are the ones of a curve of the same kind with the knots and the degree of this
direction. Its control points lie between the bounds of the control points with the same index in this direction, and so do its weights. For B-splines
the control points are the same convex combination of the control points in every position. -/
theorem C115_curve {s : Spl K} (h : WFSpl s) {d : ℕ} {U : List K} {p : ℕ} (hU : s.ps.knots[d]? = some U) (hp : s.ps.degree[d]? = some p) {x : List K}
    (hx : InDomain s x) :
    ∃ r : Spl K, WFSpl r ∧ (IsBSpline r ↔ IsBSpline s) ∧ r.ps.knots = [U] ∧ r.ps.degree = [p] ∧ r.ph.dim = s.ph.dim ∧
      (∀ t, knot U 0 ≤ t → t ≤ lastKnot U → ∀ dims : List ℕ, (∀ c ∈ dims, c < s.ph.dim) →
        s.evaluate (x.set d t) (zl dims) = r.evaluate [t] (zl dims)) ∧
      (∀ i < U.length - p - 1, ∀ c < s.ph.dim, ∀ lo hi, (∀ I, InBox (npts s) I → I[d]? = some i → lo ≤ cpt s I c ∧ cpt s I c ≤ hi) →
        lo ≤ cpt r [i] c ∧ cpt r [i] c ≤ hi) ∧
      (∀ i < U.length - p - 1, ∀ lo hi, (∀ I, InBox (npts s) I → I[d]? = some i → lo ≤ wgt s I ∧ wgt s I ≤ hi) → lo ≤ wgt r [i] ∧ wgt r [i] ≤ hi) ∧
      (IsBSpline s → ∃ l : List ℕ → K, (∀ J, InBox ((npts s).set d 1) J → 0 ≤ l J) ∧ msum ((npts s).set d 1) l = 1 ∧
        ∀ i < U.length - p - 1, ∀ c < s.ph.dim, cpt r [i] c = msum ((npts s).set d 1) fun J => l J * cpt s (J.set d i) c) := by
  have hw : WFKnots U p := forall₂_get h.knots hU hp
  have hn : (npts s)[d]? = some (U.length - p - 1) := nptsOf_get hU hp
  have hdn : d < (npts s).length := lt_of_some hn
  obtain ⟨b0, b1⟩ := lineBasis_convex h hU hp hx
  have hbox : ∀ i < U.length - p - 1, ∀ J, InBox ((npts s).set d 1) J → InBox (npts s) (J.set d i) ∧ (J.set d i)[d]? = some i := fun i hi J hJ => by
    have hJl : d < J.length := by rw [hJ.length]; simpa using hdn
    exact ⟨inBox_set_of hJ (by rw [ixd, List.getD_eq_getElem?_getD, hn]; exact hi), by simp [hJl]⟩
  let L : (List ℕ → K) → ℕ → K := lineCoeff s x (s.ps.knots.map fun _ => 0) d
  have hle : ∀ a b : List ℕ → K, ∀ i < U.length - p - 1, (∀ I, InBox (npts s) I → I[d]? = some i → a I ≤ b I) → L a i ≤ L b i := fun a b i hi hab =>
    msum_le fun J hJ => mul_le_mul_of_nonneg_left (hab _ (hbox i hi J hJ).1 (hbox i hi J hJ).2) (b0 J hJ)
  have hconst : ∀ v i, L (fun _ => v) i = v := fun v i => by
    show msum ((npts s).set d 1) (fun J => lineBasis s x (s.ps.knots.map fun _ => 0) d J * v) = v
    rw [msum_mul_right, b1, one_mul]
  have hmul : ∀ (a : List ℕ → K) v i, L (fun I => a I * v) i = L a i * v := fun a v i => by
    show msum _ _ = msum _ _ * v
    rw [← msum_mul_right]
    exact msum_congr fun J _ => by ring
  have hpos : ∀ i < U.length - p - 1, 0 < L (wgt s) i := by
    intro i hi
    have hnn : ∀ J, InBox ((npts s).set d 1) J → 0 ≤ lineBasis s x (s.ps.knots.map fun _ => 0) d J * wgt s (J.set d i) := fun J hJ =>
      mul_nonneg (b0 J hJ) (wgt_pos h (hbox i hi J hJ).1).le
    rcases lt_or_eq_of_le (show 0 ≤ L (wgt s) i from msum_nonneg hnn) with g | g
    · exact g
    · exfalso
      have hz := msum_eq_zero_imp hnn g.symm
      have : msum ((npts s).set d 1) (lineBasis s x (s.ps.knots.map fun _ => 0) d) = msum ((npts s).set d 1) fun _ => (0 : K) :=
        msum_congr fun J hJ => (mul_eq_zero.1 (hz J hJ)).resolve_right (wgt_pos h (hbox i hi J hJ).1).ne'
      rw [msum_zero, b1] at this
      exact one_ne_zero this
  let P : ℕ → ℕ → K := fun i c => L (fun I => wgt s I * cpt s I c) i / L (wgt s) i
  let w : Option (ℕ → K) := s.ph.weights.map fun _ => L (wgt s)
  have hr := lineCurve_wf h.dim hw P (w := w) (fun f hf i hi => by
    cases hs : s.ph.weights with
    | none => simp [w, hs] at hf
    | some v => simp only [w, hs, Option.map_some, Option.some.injEq] at hf; subst hf; exact hpos i hi)
  have hwr : ∀ i < U.length - p - 1, wgt (lineCurve s.ph.dim U p P w) [i] = L (wgt s) i := by
    intro i hi
    rw [lineCurve_wgt P w hi]
    cases hs : s.ph.weights with
    | none =>
      have : wgt s = fun _ => 1 := by funext I; simp [wgt, hs]
      simp only [w, hs, Option.map_none, Option.getD_none, this]
      exact (hconst 1 i).symm
    | some v => simp [w, hs]
  refine ⟨lineCurve s.ph.dim U p P w, hr, ?_, rfl, rfl, rfl, ?_, ?_, ?_, ?_⟩
  · simp only [IsBSpline, lineCurve, w, Option.map_eq_none_iff]
  · intro t h0 h1 dims hd
    rw [evaluate_quotient h (set_inDomain hU hx h0 h1) dims hd, evaluate_quotient hr (.cons ⟨h0, h1⟩ .nil) dims hd]
    refine congrArg _ (List.map_congr_left fun c hc => ?_)
    have hsum : ∀ a : List ℕ → K, tensorSum (lineCurve s.ph.dim U p P w) [t] a = ∑ i ∈ range (U.length - p - 1), coxDeBoor U p i t * a [i] := by
      intro a; simp [tensorSum, lineCurve, npts, msum, dprod, basisFns]
    simp only [nurbsValue, weightValue, line_value h hU hp hx, hsum]
    congr 1
    · refine sum_congr rfl fun i hi => ?_
      have hi := mem_range.1 hi
      rw [hwr i hi, lineCurve_cpt P w hi (hd c hc)]
      simp only [P, L]
      rw [mul_div_cancel₀ _ (hpos i hi).ne']
    · exact sum_congr rfl fun i hi => by rw [hwr i (mem_range.1 hi)]
  · intro i hi c hc lo hi' hb
    rw [lineCurve_cpt P w hi hc]
    simp only [P]
    rw [le_div_iff₀ (hpos i hi), div_le_iff₀ (hpos i hi), mul_comm lo, mul_comm hi', ← hmul, ← hmul]
    exact ⟨hle _ _ i hi fun I g1 g2 => mul_le_mul_of_nonneg_left (hb I g1 g2).1 (wgt_pos h g1).le,
      hle _ _ i hi fun I g1 g2 => mul_le_mul_of_nonneg_left (hb I g1 g2).2 (wgt_pos h g1).le⟩
  · intro i hi lo hi' hb
    rw [hwr i hi]
    have e1 := hle (fun _ => lo) (wgt s) i hi fun I g1 g2 => (hb I g1 g2).1
    have e2 := hle (wgt s) (fun _ => hi') i hi fun I g1 g2 => (hb I g1 g2).2
    rw [hconst] at e1 e2
    exact ⟨e1, e2⟩
  · intro hb
    refine ⟨_, b0, b1, fun i hi c hc => ?_⟩
    have hone : wgt s = fun _ => 1 := by funext I; simp only [wgt, show s.ph.weights = none from hb]
    rw [lineCurve_cpt P w hi hc]
    simp only [P, hone, one_mul]
    rw [hconst, div_one]
    rfl

/-- The neighbours of a control point in direction `d`. -/
theorem line_inBox {s : Spl K} {d : ℕ} {U : List K} {p : ℕ} (hU : s.ps.knots[d]? = some U) (hp : s.ps.degree[d]? = some p) {J : List ℕ}
    (hJ : InBox ((npts s).set d 1) J) {i : ℕ} (hi : i < U.length - p - 1) : InBox (npts s) (J.set d i) :=
  inBox_set_of hJ (by rw [ixd, List.getD_eq_getElem?_getD, show (npts s)[d]? = _ from nptsOf_get hU hp]; exact hi)

/-- **C115** If a coordinate of the control points of a B-spline does not decrease in a direction, then the values of `Evaluate` do not decrease in the
parameter of this direction. -/
theorem C115_increasing {s : Spl K} (h : WFSpl s) (hb : IsBSpline s) {d : ℕ} {U : List K} {p : ℕ} (hU : s.ps.knots[d]? = some U)
    (hp : s.ps.degree[d]? = some p) {c : ℕ} (hc : c < s.ph.dim)
    (hi : ∀ I, InBox (npts s) I → ∀ i, i + 1 < U.length - p - 1 → cpt s (I.set d i) c ≤ cpt s (I.set d (i + 1)) c)
    {x : List K} (hx : InDomain s x) {t t' : K} (h0 : knot U 0 ≤ t) (htt : t ≤ t') (h1 : t' ≤ lastKnot U) :
    ∃ v v', s.evaluate (x.set d t) [(c : ℤ)] = .ok [v] ∧ s.evaluate (x.set d t') [(c : ℤ)] = .ok [v'] ∧ v ≤ v' := by
  obtain ⟨r, r1, r2, r3, r4, r5, r6, -, -, r9⟩ := C115_curve h hU hp hx
  obtain ⟨l, l1, l2, l3⟩ := r9 hb
  have hcr : c < r.ph.dim := by rw [r5]; exact hc
  obtain ⟨v, v', a, b, g⟩ := C114_increasing r1 r3 r4 hcr (fun i hn => by
    rw [l3 i (by omega) c hc, l3 (i + 1) hn c hc]
    refine msum_le fun J hJ => mul_le_mul_of_nonneg_left ?_ (l1 J hJ)
    have := hi (J.set d i) (line_inBox hU hp hJ (by omega)) i hn
    simpa only [List.set_set] using this) h0 htt h1
  exact ⟨v, v', (r6 t h0 (htt.trans h1) [c] (by simpa using hc)).trans a, (r6 t' (h0.trans htt) h1 [c] (by simpa using hc)).trans b, g⟩

end

/-- **C115** If the slopes of the control net of a B-spline do not decrease in a direction, then the values of `Evaluate` are a convex function of the
parameter of this direction. -/
theorem C115_convex {s : Spl ℝ} (h : WFSpl s) (hb : IsBSpline s) {d : ℕ} {U : List ℝ} {p : ℕ} (hU : s.ps.knots[d]? = some U)
    (hp : s.ps.degree[d]? = some p) (hp1 : 1 ≤ p) {c : ℕ} (hc : c < s.ph.dim) (hm : ∀ t ∈ U, knot U 0 < t → t < lastKnot U → U.count t ≤ p)
    (hd : ∀ I, InBox (npts s) I → ∀ i, i + 2 < U.length - p - 1 →
      (cpt s (I.set d (i + 1)) c - cpt s (I.set d i) c) / (knot U (i + 1 + p) - knot U (i + 1)) ≤
        (cpt s (I.set d (i + 2)) c - cpt s (I.set d (i + 1)) c) / (knot U (i + 2 + p) - knot U (i + 2)))
    {x : List ℝ} (hx : InDomain s x) {f : ℝ → ℝ} (hf : ∀ t, knot U 0 ≤ t → t ≤ lastKnot U → s.evaluate (x.set d t) [(c : ℤ)] = .ok [f t]) :
    ConvexOn ℝ (Set.Icc (knot U 0) (lastKnot U)) f := by
  obtain ⟨r, r1, r2, r3, r4, r5, r6, -, -, r9⟩ := C115_curve h hU hp hx
  obtain ⟨l, l1, l2, l3⟩ := r9 hb
  have hcr : c < r.ph.dim := by rw [r5]; exact hc
  refine C114_convex r1 (r2.2 hb) r3 r4 hp1 hcr hm (fun i hn => ?_) fun t g0 g1 => ((r6 t g0 g1 [c] (by simpa using hc)).symm.trans (hf t g0 g1))
  rw [l3 i (by omega) c hc, l3 (i + 1) (by omega) c hc, l3 (i + 2) hn c hc]
  have e : ∀ (a b : List ℕ → ℝ) (q : ℝ), (msum ((npts s).set d 1) (fun J => l J * a J) - msum ((npts s).set d 1) fun J => l J * b J) / q =
      msum ((npts s).set d 1) fun J => l J * ((a J - b J) / q) := fun a b q => by
    rw [msum_eq_sum_unlin, msum_eq_sum_unlin, msum_eq_sum_unlin, ← sum_sub_distrib, sum_div]
    exact sum_congr rfl fun j _ => by ring
  rw [e, e]
  refine msum_le fun J hJ => mul_le_mul_of_nonneg_left ?_ (l1 J hJ)
  have := hd (J.set d i) (line_inBox hU hp hJ (by omega)) i hn
  simpa only [List.set_set] using this
/-- A surface whose control points increase in the first direction. -/
def exSlope : Spl ℚ := ⟨exSurface.ps, ⟨1, [4, 2], [0, 1, 3, 4, 2, 2, 7, 8], none⟩⟩

theorem exSlope_wf : WFSpl exSlope where
  knots := exSurface_wf.knots
  basis := exSurface_wf.basis
  num := exSurface_wf.num
  dim := by decide
  cps := by decide +kernel
  weights := by intro w hw; simp [exSlope] at hw

/-- Satisfiable: the surface at (1/4, 1) and (3/4, 1). -/
example : ∃ v v', exSlope.evaluate [1/4, 1] [0] = .ok [v] ∧ exSlope.evaluate [3/4, 1] [0] = .ok [v'] ∧ v ≤ v' := by
  refine C115_increasing exSlope_wf rfl (d := 0) (U := [0, 0, 0, 1/2, 1, 1, 1]) (p := 2) rfl rfl (c := 0) (by decide) ?_ (x := [0, 1])
    (.cons (by decide +kernel) (.cons (by decide +kernel) .nil)) (t := 1/4) (t' := 3/4) (by decide +kernel) (by decide +kernel) (by decide +kernel)
  intro I hI i hi
  have hl := hI.length
  obtain ⟨a, b, rfl⟩ : ∃ a b, I = [a, b] := by
    rcases I with _ | ⟨a, _ | ⟨b, _ | ⟨c, I⟩⟩⟩
    · simp [exSlope, exSurface, npts] at hl
    · simp [exSlope, exSurface, npts] at hl
    · exact ⟨a, b, rfl⟩
    · simp [exSlope, exSurface, npts] at hl
  have hb := (inBox_cons.1 (inBox_cons.1 hI).2).1
  exact (by decide +kernel : ∀ i < 3, ∀ b < 2, cpt exSlope [i, b] 0 ≤ cpt exSlope [i + 1, b] 0) i (by simp at hi; omega) b (by simpa using hb)

/-- The two values are different. -/
example : exSlope.evaluate [1/4, 1] [0] ≠ exSlope.evaluate [3/4, 1] [0] := by decide +kernel

/-- Satisfiable: the slopes of the control points 3, 1, 0, 2 of the quadratic curve increase. -/
example : ∀ I, InBox (npts exConvex) I → ∀ i, i + 2 < [0, 0, 0, 1, 2, 2, (2 : ℝ)].length - 2 - 1 →
    (cpt exConvex (I.set 0 (i + 1)) 0 - cpt exConvex (I.set 0 i) 0) / (knot [0, 0, 0, 1, 2, 2, (2 : ℝ)] (i + 1 + 2) - knot [0, 0, 0, 1, 2, 2, (2 : ℝ)] (i + 1)) ≤
      (cpt exConvex (I.set 0 (i + 2)) 0 - cpt exConvex (I.set 0 (i + 1)) 0) /
        (knot [0, 0, 0, 1, 2, 2, (2 : ℝ)] (i + 2 + 2) - knot [0, 0, 0, 1, 2, 2, (2 : ℝ)] (i + 2)) := by
  intro I hI i hi
  have hl := hI.length
  obtain ⟨a, rfl⟩ : ∃ a, I = [a] := by
    rcases I with _ | ⟨a, _ | ⟨b, I⟩⟩
    · simp [exConvex, exSmooth, npts] at hl
    · exact ⟨a, rfl⟩
    · simp [exConvex, exSmooth, npts] at hl
  have : i = 0 ∨ i = 1 := by simp at hi; omega
  rcases this with rfl | rfl <;> simp [cpt, exConvex, exSmooth, npts, lin, knot] <;> norm_num

/-- **C115 (negation for NURBS).** For NURBS surfaces increasing control points are not enough: the control points of this bilinear patch increase by one in
the first direction, but the values decrease from 1000/101 to 111/101 along the line in the middle. -/
theorem C115_nurbs_counterexample : ∃ s : Spl ℚ, Spl.newNurbs [[0, 0, 1, 1], [0, 0, 1, 1]] [1, 1] [[0], [1], [10], [11]] [1, 100, 100, 1] = .ok s ∧
    cpt s [1, 0] 0 = cpt s [0, 0] 0 + 1 ∧ cpt s [1, 1] 0 = cpt s [0, 1] 0 + 1 ∧
    s.evaluate [0, 1/2] [0] = .ok [1000/101] ∧ s.evaluate [1, 1/2] [0] = .ok [111/101] :=
  ⟨⟨⟨[[0, 0, 1, 1], [0, 0, 1, 1]], [1, 1], mkTable [[0, 0, 1, 1], [0, 0, 1, 1]] [1, 1]⟩, ⟨1, [2, 2], [0, 1, 10, 11], some [1, 100, 100, 1]⟩⟩,
    by decide +kernel, by decide +kernel, by decide +kernel, by decide +kernel, by decide +kernel⟩

end SplineLib
