import Verif.Core.Safe
import Verif.Core.RatDeriv
import Verif.Props.Construction

/-!
# Property C69 (evaluation of accepted splines is defined)
-/

namespace SplineLib
set_option linter.unusedSectionVars false
variable {K : Type} [Field K] [LinearOrder K] [IsStrictOrderedRing K]

/-- In every direction the last knot is at least `kEpsilon` to the right of the first one, or left of it. -/
def NoShortRange (knots : List (List K)) : Prop := ∀ U ∈ knots, knot U 0 + kEps K ≤ lastKnot U ∨ lastKnot U < knot U 0

theorem wideSpl_of {s : Spl K} {knots : List (List K)} {degree : List ℕ} {points : List (List K)} {weights : Option (List K)}
    (h : HoldsData s knots degree points weights) (hv : ValidBSplineData knots degree points) (hne : points ≠ [])
    (hw : ∀ w, weights = some w → w.length = points.length) (hr : NoShortRange knots) {x : List K} (hx : InDomain s x) : WideSpl s := by
  have hx' : List.Forall₂ (fun U a => knot U 0 ≤ a ∧ a ≤ lastKnot U) knots x := by
    have := hx; unfold InDomain at this; rwa [h.knots_eq] at this
  have hk : List.Forall₂ WideKnots knots degree := by
    have h1 := hv.clamped
    clear hv h hx hw
    induction h1 generalizing x with
    | nil => exact .nil
    | cons h1 _ ih =>
      cases hx' with
      | cons ha hx' =>
        refine .cons ⟨h1.size, h1.first, h1.last, ?_⟩ (ih (fun V hV => hr V (by simp [hV])) hx')
        rcases hr _ List.mem_cons_self with h3 | h3
        · exact h3
        · exact absurd (ha.1.trans ha.2) (not_le.2 h3)
  have hsz : List.Forall₂ (fun U p => p + 1 ≤ U.length) knots degree := hk.imp fun U p h => by have := h.size; omega
  have hn : npts s = List.zipWith (fun U p => U.length - p - 1) knots degree := by rw [npts, h.knots_eq, h.degree_eq]
  have hdim : ∀ q ∈ points, q.length = s.ph.dim := fun q hq => (h.dim_eq q hq).symm
  refine ⟨by rw [h.knots_eq, h.degree_eq]; exact hk, ?_, by rw [h.num_eq, hn], ?_, ?_⟩
  · have := h.basis_eq
    rw [basisTable_eq hsz] at this
    rw [h.knots_eq, h.degree_eq]
    exact (Except.ok.inj this).symm
  · rw [h.cps_eq, hn, ← hv.count, List.length_flatten]
    have : points.map List.length = points.map fun _ => s.ph.dim := List.map_congr_left fun q hq => hdim q hq
    rw [this]
    simp [mul_comm]
  · intro w hw'
    rw [h.weights_eq] at hw'
    rw [hw w hw', hn, hv.count]

theorem outside_of {s : Spl K} {knots : List (List K)} {degree : List ℕ} {points : List (List K)} {weights : Option (List K)}
    (h : HoldsData s knots degree points weights) (hv : ValidBSplineData knots degree points) {x : List K}
    (hl : x.length = knots.length) (hx : ¬ InDomain s x) : PS.throwIfOutside s.ps.knots x = .error (.thrown .rangeError) := by
  rw [h.knots_eq]
  refine (throwIfOutside_wide ?_ hl).2 ?_
  · have h1 := hv.clamped
    intro U hU
    obtain ⟨i, hi, rfl⟩ := List.getElem_of_mem hU
    have h2 := (List.forall₂_iff_get.1 h1).2 i hi (by rw [← h1.length_eq]; exact hi)
    have h3 := h2.size
    intro e
    simp only [List.get_eq_getElem] at h3
    rw [e] at h3
    simp at h3
  · unfold InDomain at hx
    rwa [h.knots_eq] at hx

/-- **C69** for B-splines, with the condition that no range is shorter than `kEpsilon`. The object holds data that the constructor
accepts; its knots need not be sorted. Inside the range `Evaluate` and `EvaluateDerivative` (any order) return as many numbers as were
asked for; outside they throw `std::range_error`. -/
theorem C69_bspline_partial {s : Spl K} {knots : List (List K)} {degree : List ℕ} {points : List (List K)}
    (h : HoldsData s knots degree points none) (hv : ValidBSplineData knots degree points) (hne : points ≠ [])
    (hr : NoShortRange knots) {x : List K} (hl : x.length = knots.length) (dims : List ℕ) (hd : ∀ c ∈ dims, c < s.ph.dim) (k : List ℤ) :
    (InDomain s x → (∃ v, s.evaluate x (zl dims) = .ok v ∧ v.length = dims.length) ∧
      ∃ v, s.evaluateDerivative x (zl dims) k = .ok v ∧ v.length = dims.length) ∧
    (¬ InDomain s x → s.evaluate x (zl dims) = .error (.thrown .rangeError) ∧
      s.evaluateDerivative x (zl dims) k = .error (.thrown .rangeError)) := by
  constructor
  · intro hx
    have hw := wideSpl_of h hv hne (by simp) hr hx
    have hn : s.ph.weights = none := h.weights_eq
    constructor
    · obtain ⟨v, e1, e2⟩ := hw.evalWith_ok hx (dims := zl dims) (f := s.evaluatedCP x) (by
        intro J hJ c hc
        obtain ⟨c, hc', rfl⟩ := List.mem_map.1 hc
        have hI : InBox (npts s) _ := act_inBox_wide hw.knots hx hJ
        obtain ⟨r, hr⟩ := hw.basisFunctions hx hJ
        simp only [Spl.evaluatedCP, hn, hr, hw.controlPoint hI (hd c hc'), ok_bind, pure_ok]
        exact ⟨_, rfl⟩)
      exact ⟨v, e1, by simpa using e2⟩
    · obtain ⟨v, e1, e2⟩ := hw.evalWith_ok hx (dims := zl dims) (f := s.evaluatedDerivCP x k) (by
        intro J hJ c hc
        obtain ⟨c, hc', rfl⟩ := List.mem_map.1 hc
        have hI : InBox (npts s) _ := act_inBox_wide hw.knots hx hJ
        obtain ⟨r, hr⟩ := hw.basisDerivs hx hJ k
        simp only [Spl.evaluatedDerivCP, hn, hr, hw.controlPoint hI (hd c hc'), ok_bind, pure_ok]
        exact ⟨_, rfl⟩)
      exact ⟨v, e1, by simpa using e2⟩
  · intro hx
    have := outside_of h hv hl hx
    simp only [Spl.evaluate, Spl.evaluateDerivative, Spl.evalWith, this, error_bind, and_self]

theorem Safe.length {s : Spl K} {x : List K} {dims : List ℕ} {f : List ℤ → ℤ → M K} (h : Safe (s.evalWith x (zl dims) f)) :
    (∃ v, s.evalWith x (zl dims) f = .ok v ∧ v.length = dims.length) ∨ s.evalWith x (zl dims) f = .error .nonfinite := by
  rcases h with ⟨v, h⟩ | h
  · exact .inl ⟨v, h, by simpa using evalWith_length h⟩
  · exact .inr h

/-- **C69** for NURBS, with the same condition: the weights may have any sign. Inside the range the functions return numbers, or divide by
a weight function that is zero there; outside they throw `std::range_error`. -/
theorem C69_nurbs_partial {s : Spl K} {knots : List (List K)} {degree : List ℕ} {points : List (List K)} {weights : List K}
    (h : HoldsData s knots degree points (some weights)) (hv : ValidBSplineData knots degree points) (hne : points ≠ [])
    (hw : weights.length = points.length) (hr : NoShortRange knots) {x : List K} (hl : x.length = knots.length) (dims : List ℕ)
    (hd : ∀ c ∈ dims, c < s.ph.dim) (k : List ℕ) :
    (InDomain s x → ((∃ v, s.evaluate x (zl dims) = .ok v ∧ v.length = dims.length) ∨ s.evaluate x (zl dims) = .error .nonfinite) ∧
      ((∃ v, s.evaluateDerivative x (zl dims) (zl k) = .ok v ∧ v.length = dims.length) ∨
        s.evaluateDerivative x (zl dims) (zl k) = .error .nonfinite)) ∧
    (¬ InDomain s x → s.evaluate x (zl dims) = .error (.thrown .rangeError) ∧
      s.evaluateDerivative x (zl dims) (zl k) = .error (.thrown .rangeError)) := by
  constructor
  · intro hx
    have hws := wideSpl_of h hv hne (by rintro w ⟨⟩; exact hw) hr hx
    have hn : s.ph.weights = some weights := h.weights_eq
    constructor
    · refine Safe.length (hws.evalWith hx (dims := zl dims) (f := s.evaluatedCP x) ?_)
      intro J hJ c hc
      obtain ⟨c, hc', rfl⟩ := List.mem_map.1 hc
      have hI : InBox (npts s) _ := act_inBox_wide hws.knots hx hJ
      obtain ⟨r, hr⟩ := hws.basisFunctions hx hJ
      have hcd := hd c hc'
      have hne : ¬ (s.ph.dim : ℤ) = (c : ℤ) := by omega
      simp only [Spl.evaluatedCP, hn, if_neg hne, hr, hws.getHomCP hI (by omega) hn, ok_bind]
      rw [getI_nat, getN_of_lt (by simp; omega)]
      exact Safe.bind (Safe.ok _) fun v _ => Safe.bind (hws.evaluatedWeightSum hx) fun a _ => Safe.fdiv _ _
    · refine Safe.length (hws.evalWith hx (dims := zl dims) (f := s.evaluatedDerivCP x (zl k)) ?_)
      intro J hJ c hc
      obtain ⟨c, hc', rfl⟩ := List.mem_map.1 hc
      have hI : InBox (npts s) _ := act_inBox_wide hws.knots hx hJ
      simp only [Spl.evaluatedDerivCP, hn, foldl_zl, hws.controlPoint hI (hd c hc'), ok_bind]
      exact Safe.bind (hws.rationalDeriv hx hJ _ k (le_refl _)) fun a _ => Safe.ok _
  · intro hx
    have := outside_of h hv hl hx
    simp only [Spl.evaluate, Spl.evaluateDerivative, Spl.evalWith, this, error_bind, and_self]

/-- A curve with sorted knots whose range is shorter than `kEpsilon` is accepted, but `Evaluate` at the first knot reads before the
beginning of the basis functions. -/
theorem C69_short_range_undefined {s : Spl K} {U : List K} {p : ℕ} {points : List (List K)} {weights : Option (List K)}
    (h : HoldsData s [U] [p] points weights) (hv : ValidBSplineData [U] [p] points) (hs : SortedKnots U)
    (hr : lastKnot U < knot U 0 + kEps K) {c : ℕ} (hc : c < s.ph.dim) : s.evaluate [knot U 0] [(c : ℤ)] = .error .ub := by
  have hcl : ClampedKnots U p := by
    have := hv.clamped
    cases this with
    | cons h1 _ => exact h1
  have hsz := hcl.size
  have hne : U ≠ [] := by rintro rfl; simp at hsz
  have hle : knot U 0 ≤ lastKnot U := hs.first_le (by omega)
  have hlast : |knot U 0 - lastKnot U| < kEps K := by
    rw [abs_lt]; constructor
    · linarith
    · have := kEps_pos (K := K); linarith
  have hlb : lowerBound U (knot U 0) = 0 := by
    obtain ⟨a, b, _⟩ := lowerBound_spec hs (knot U 0)
    by_contra hc
    exact lt_irrefl _ (b 0 (by omega) (by omega))
  have hspan : kvSpan U (knot U 0) = .ok (-1) := by
    rw [kvSpan_eq hne, if_pos hlast, hlb]; rfl
  have hb : ∃ row, s.ps.basis = [row] := by
    have := h.basis_eq
    rw [basisTable_eq (.cons (by omega) .nil)] at this
    exact ⟨_, (Except.ok.inj this).symm⟩
  obtain ⟨row, hb⟩ := hb
  have hneg : getI row ((0 : ℤ) + (-1 - (p : ℤ))) = .error .ub := by
    unfold getI
    rw [if_neg (by omega)]
  have hcp : s.evaluatedCP [knot U 0] [(0 : ℤ) + (-1 - (p : ℤ))] c = .error .ub := by
    unfold Spl.evaluatedCP
    have hbf : s.ps.getBasisFunctions [(0 : ℤ) + (-1 - (p : ℤ))] [knot U 0] = .error .ub := by
      simp only [PS.getBasisFunctions, hb, PS.basisProd, hneg, error_bind]
    cases s.ph.weights with
    | none => simp only [hbf, error_bind]
    | some w =>
      have : ¬ (s.ph.dim : ℤ) = (c : ℤ) := by omega
      simp only [this, if_false, hbf, error_bind]
  have hin : kvInRange U (knot U 0) = .ok true := by
    rw [kvInRange_eq hne]
    simp [hle]
  have hlen : (MIH.mk' [(p : ℤ) + 1]).length1D.toNat = p + 1 := by
    have e : MIH.mk' [(p : ℤ) + 1] = MIH.mk' (zl [p + 1]) := by simp [zl]
    rw [e, mk'_zl, length1D_zl]
    simp
  have hcur : (MIH.mk' [(p : ℤ) + 1]).cur = [0] := rfl
  unfold Spl.evaluate Spl.evalWith
  simp only [h.knots_eq, h.degree_eq, PS.throwIfOutside, hin, ok_bind, if_true, PS.firstNonZero, hspan, pure_ok, Spl.numBasis,
    List.map_cons, List.map_nil]
  rw [hlen]
  simp only [upLoop, hcur, List.zipWith_cons_cons, List.zipWith_nil_left, Spl.addEach, hcp, error_bind]

/-- The condition and the data exist: unsorted knots. -/
example : NoShortRange [[0, 0, 2, 1/2, 1, (1 : ℚ)]] ∧ ValidBSplineData [[0, 0, 2, 1/2, 1, 1]] [1] [[0], [1], [2], [(3 : ℚ)]] :=
  ⟨by simp only [NoShortRange]; decide +kernel, .cons ⟨by decide +kernel, by decide +kernel, by decide +kernel⟩ .nil, by decide +kernel,
    1, by decide +kernel⟩

/-- Accepted data for which `Evaluate` is undefined: all knots are equal. -/
theorem C69_accepted_undefined : ∃ s : Spl ℚ, Spl.newBSpline [[2, 2, 2, 2]] [1] [[0], [1]] = .ok s ∧ InDomain s [2] ∧
    s.evaluate [2] [0] = .error .ub :=
  ⟨⟨⟨[[2, 2, 2, 2]], [1], mkTable [[2, 2, 2, 2]] [1]⟩, ⟨1, [2], [0, 1], none⟩⟩, by decide +kernel,
    .cons (by decide +kernel) .nil, by decide +kernel⟩

end SplineLib
