import Verif.Props.Iga
/-!
# Derivatives of the rational basis functions for arbitrary weights

What `EvaluateAllNonZeroNURBSBasisFunctionDerivatives` returns for every NURBS (C53 gives the right values for unit weights only).
-/

namespace SplineLib
set_option linter.unusedSectionVars false
namespace Iga
open Elem Finset

section
variable {K : Type} [Field K] [LinearOrder K] [IsStrictOrderedRing K]

/-- **C53**, the exact error of the code for every NURBS. With the value `W` of the weight function and its derivative `W'` in direction `j`,
the entry of function number `k` with value `R` and derivative `r` is `r + R W' (W - 1) / W²` if `k < DIM` and `W r + R W'` otherwise. So an
entry of the first kind is right only if `R W' = 0` or `W = 1`, and one of the second kind only if `R W' = (1 - W) r`. -/
theorem C53_error {s : Spl K} (h : WFSpl s) (hn : IsNurbs s) (hl : ∀ U ∈ s.ps.knots, U.length < 2 ^ 64) (hD : 0 < D s)
    (hA : D s ≤ (s.ps.degree.map (· + 1)).prod) {e : List ℤ} {x : List K} (hx : InElement (elemsOf s.ps.knots) e x) :
    ∃ L, rationalDerivs s x = .ok L ∧ L.length = D s ∧ ∀ j row, L[j]? = some row →
      row.length = (s.ps.degree.map (· + 1)).prod ∧
      ∀ (k : ℕ) v, row[k]? = some v → ∃ I, InBox (npts s) I ∧
        globalIndex s (position (numElements (elemsOf s.ps.knots)) e) k = .ok ((lin (npts s) I : ℤ) + 1) ∧
        v = (if k < D s then ratBasis s x (unitIx (D s) j) I +
              ratFn s x I * tensorDerivSum s x (unitIx (D s) j) (wgt s) * (weightValue s x - 1) / weightValue s x ^ 2
            else weightValue s x * ratBasis s x (unitIx (D s) j) I + ratFn s x I * tensorDerivSum s x (unitIx (D s) j) (wgt s)) ∧
        (v = ratBasis s x (unitIx (D s) j) I ↔ if k < D s then ratFn s x I * tensorDerivSum s x (unitIx (D s) j) (wgt s) = 0 ∨ weightValue s x = 1
          else ratFn s x I * tensorDerivSum s x (unitIx (D s) j) (wgt s) = (1 - weightValue s x) * ratBasis s x (unitIx (D s) j) I) := by
  have hd := inElement_dom h.knots hx
  have hW := (weightValue_pos h hd).ne'
  refine ⟨_, rationalDerivs_eq h hn hl hD hA hx, by simp, ?_⟩
  intro j row hj
  rw [List.getElem?_map] at hj
  obtain ⟨j', h1, rfl⟩ := Option.map_eq_some_iff.1 hj
  obtain ⟨hlt, h1⟩ := List.getElem?_eq_some_iff.1 h1
  rw [List.getElem_range] at h1
  subst h1
  rw [List.length_range] at hlt
  refine ⟨by simp [actNum, actBox], ?_⟩
  intro k v hk
  rw [List.getElem?_map] at hk
  obtain ⟨k', h2, rfl⟩ := Option.map_eq_some_iff.1 hk
  obtain ⟨hlt', h2⟩ := List.getElem?_eq_some_iff.1 h2
  rw [List.getElem_range] at h2
  subst h2
  refine ⟨actIx s x k, actIx_inBox h hd k, globalIndex_eq h hl hx (by simpa using hlt'), ?_⟩
  have hr := ratBasis_unit s x hlt (actIx s x k)
  have hA : actTerm s x (unitIx (D s) j) k = weightValue s x * ratBasis s x (unitIx (D s) j) (actIx s x k) +
      ratFn s x (actIx s x k) * tensorDerivSum s x (unitIx (D s) j) (wgt s) := by
    rw [hr]; unfold actTerm; field_simp; ring
  by_cases hk : k < D s
  · simp only [if_pos hk]
    have hc : codeDeriv s x j k = ratBasis s x (unitIx (D s) j) (actIx s x k) +
        ratFn s x (actIx s x k) * tensorDerivSum s x (unitIx (D s) j) (wgt s) * (weightValue s x - 1) / weightValue s x ^ 2 := by
      unfold codeDeriv; rw [hA]; field_simp; ring
    refine ⟨hc, ?_⟩
    rw [hc, add_eq_left, div_eq_zero_iff, mul_eq_zero (b := weightValue s x - 1), sub_eq_zero]
    simp [hW]
  · simp only [if_neg hk]
    refine ⟨hA, ?_⟩
    rw [hA]
    constructor <;> intro h <;> linarith

/-- A NURBS whose weights are all equal to `c` is the same spline as with weights one, but the code returns `c` times the derivatives for
all functions except the first `DIM` ones: **C53** is false for every such NURBS with `c ≠ 1` at every point where one of these derivatives
does not vanish. -/
theorem C53_equal_weights {s : Spl K} (h : WFSpl s) (hn : IsNurbs s) (hl : ∀ U ∈ s.ps.knots, U.length < 2 ^ 64) (hD : 0 < D s)
    (hA : D s ≤ (s.ps.degree.map (· + 1)).prod) {c : K} (hc : ∀ w, s.ph.weights = some w → ∀ a ∈ w, a = c) {e : List ℤ} {x : List K}
    (hx : InElement (elemsOf s.ps.knots) e x) :
    ∃ L, rationalDerivs s x = .ok L ∧ L.length = D s ∧ ∀ j row, L[j]? = some row →
      row.length = (s.ps.degree.map (· + 1)).prod ∧
      ∀ (k : ℕ) v, row[k]? = some v → ∃ I, InBox (npts s) I ∧
        globalIndex s (position (numElements (elemsOf s.ps.knots)) e) k = .ok ((lin (npts s) I : ℤ) + 1) ∧
        v = (if k < D s then 1 else c) * ratBasis s x (unitIx (D s) j) I := by
  have hd := inElement_dom h.knots hx
  have hwc : ∀ I, InBox (npts s) I → wgt s I = c := by
    intro I hI
    obtain ⟨w, hw⟩ := hn
    unfold wgt
    rw [hw]
    dsimp only
    have hlt := lin_lt hI
    rw [← (h.weights w hw).1] at hlt
    rw [List.getD_eq_getElem?_getD, List.getElem?_eq_getElem hlt]
    exact hc w hw _ (List.getElem_mem _)
  have hW : weightValue s x = c := by
    have h1 := tensor_unity h.knots hd
    have : weightValue s x = msum (npts s) (fun I => dprod (basisFns s.ps.knots s.ps.degree x) I * c) :=
      msum_congr fun I hI => by dsimp only; rw [hwc I hI]
    rw [this, msum_mul_right]
    unfold npts
    rw [h1, one_mul]
  have hW' : ∀ j < D s, tensorDerivSum s x (unitIx (D s) j) (wgt s) = 0 := by
    intro j hj
    have h1 := msum_basisDeriv_unit h.knots (xs := x) hj hd.length_eq.symm
    have : tensorDerivSum s x (unitIx (D s) j) (wgt s) =
        msum (npts s) (fun I => dprod (basisDerivFns s.ps.knots s.ps.degree x (unitIx (D s) j)) I * c) :=
      msum_congr fun I hI => by rw [hwc I hI]
    rw [this, msum_mul_right]
    unfold npts
    rw [h1, zero_mul]
  obtain ⟨L, h1, h2, h3⟩ := C53_error h hn hl hD hA hx
  refine ⟨L, h1, h2, fun j row hj => ⟨(h3 j row hj).1, fun k v hk => ?_⟩⟩
  have hjD : j < D s := h2 ▸ (List.getElem?_eq_some_iff.1 hj).1
  obtain ⟨I, i1, i2, i3, _⟩ := (h3 j row hj).2 k v hk
  refine ⟨I, i1, i2, ?_⟩
  rw [i3, hW' j hjD, hW]
  split <;> simp

theorem forLoop_stop {σ : Type} {body : ℕ → σ → M σ} (st : ℕ → σ) {k : ℕ} {er : Err} (h : ∀ i < k, body i (st i) = .ok (st (i + 1)))
    (hk : body k (st k) = .error er) : ∀ (n i : ℕ), i ≤ k → k < i + n → Spl.forLoop body n i (st i) = .error er
  | 0, i, h1, h2 => by omega
  | n + 1, i, h1, h2 => by
    rw [Spl.forLoop]
    rcases Nat.lt_or_eq_of_le h1 with h3 | rfl
    · rw [h i h3, ok_bind]
      exact forLoop_stop st h hk n (i + 1) (by omega) (by omega)
    · rw [hk]; rfl

/-- The condition `DIM ≤ ∏ (p + 1)` of **C53** is necessary: with fewer functions than directions (as for a surface of degree 0 in both
directions) the second loop of the code reads behind the end of the values, for every NURBS and every point. -/
theorem C53_few_functions_undefined {s : Spl K} (h : WFSpl s) (hn : IsNurbs s) (hl : ∀ U ∈ s.ps.knots, U.length < 2 ^ 64)
    (hA : (s.ps.degree.map (· + 1)).prod < D s) {e : List ℤ} {x : List K} (hx : InElement (elemsOf s.ps.knots) e x) :
    rationalDerivs s x = .error .ub := by
  have hd := inElement_dom h.knots hx
  have hD : 0 < D s := by omega
  unfold rationalDerivs
  rw [basisRows_eq h hd, ok_bind, derivRows_eq h hd, ok_bind]
  dsimp only
  rw [rowsOf_sizes h.knots hd (by simp)]
  have e0 : (⟨[], 0, List.replicate (D s) [], List.replicate (D s) 0⟩ : DerivState K) = derivState s x 0 := by
    unfold derivState
    simp only [List.range_zero, List.map_nil, sum_range_zero, List.map_const', List.length_range]
  rw [e0, upLoop_fun (derivState s x) (fun k hk => derivBody_eq h hn hl hD hx hk), ok_bind]
  have e1 : derivState s x (actBox s.ps.degree).prod = normState s x 0 := by
    unfold derivState normState
    have hs := fun ks hk => sum_actTerm h hd (ks := ks) hk
    unfold actNum at hs ⊢
    simp only [Nat.not_lt_zero, if_false]
    rw [hs _ (by simp), tensorDerivSum_zero s x h.knots.length_eq hd.length_eq]
    congr 1
    apply List.map_congr_left
    intro j _
    rw [hs _ (unitIx_length _ _)]
  have hub : normaliseBody (actNum s) (normState s x (actNum s)) = .error .ub := by
    unfold normaliseBody normState
    dsimp only
    have : getN ((List.range (actNum s)).map fun m => if m < actNum s then ratFn s x (actIx s x m)
        else actTerm s x (List.replicate (D s) 0) m) (actNum s) = .error .ub := by
      simp [getN]
    rw [this]; rfl
  rw [e1, forLoop_stop (normState s x) (k := actNum s) (fun i hi => normaliseBody_eq h hd hi) hub (D s) 0 (by omega)
    (by simpa [actNum, actBox] using hA)]
  rfl

/-- A surface of degree 0 in both directions. -/
def exSteps : Spl ℚ := ⟨⟨[[0, 1, 2], [0, 1]], [0, 0], mkTable [[0, 1, 2], [0, 1]] [0, 0]⟩, ⟨1, [2, 1], [4, 5], some [1, 1]⟩⟩

example : (exSteps.ps.degree.map (· + 1)).prod < D exSteps ∧ rationalDerivs exSteps [1/2, 1/2] = .error .ub ∧
    exSteps.evaluate [1/2, 1/2] [0] = .ok [4] := by decide +kernel

/-- A parabola with the weights 2, 2, 2. -/
def exDouble : Spl ℚ := ⟨⟨[[0, 0, 0, 1, 1, 1]], [2], mkTable [[0, 0, 0, 1, 1, 1]] [2]⟩, ⟨1, [3], [0, 1, 3], some [2, 2, 2]⟩⟩

example : rationalDerivs exDouble [1/4] = .ok [[-3/2, 2, 1]] ∧
    (List.range 3).map (fun i => ratBasis exDouble [1/4] [1] [i]) = [-3/2, 1, 1/2] := by
  constructor <;> decide +kernel

end
end Iga
end SplineLib
