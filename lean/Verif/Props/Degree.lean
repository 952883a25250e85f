import Verif.Core.Reduce
import Verif.Props.KnotRemoval

/-!
# Properties C21, C22 (degree elevation and reduction)
-/

namespace SplineLib
set_option linter.unusedSectionVars false
open Finset
variable {K : Type} [Field K] [LinearOrder K] [IsStrictOrderedRing K] [HasSqrt K]

/-- **C21** is false of the code: for *every* well-formed B-spline or NURBS and every direction of degree at least 1,
`ElevateDegreeForDimension` does not produce finite control points. The loop over the inner control points (spline.h:353) stops one
short, so a point of every elevated segment stays zero, including its weight, by which it is divided afterwards. -/
theorem C21_elevation_never_succeeds {s : Spl K} (h : WFSpl s) {d p : ℕ} (hp : s.ps.degree[d]? = some p) (h1 : 1 ≤ p) (r : Spl K) :
    s.elevateDegree d ≠ .ok r := elevateDegree_fails h hp h1 r

example : WFSpl exNurbsSurface ∧ exNurbsSurface.ps.degree[0]? = some 2 := ⟨exNurbsSurface_wf, rfl⟩

/-- The failure on a well-formed curve is the division by the zero weight. -/
theorem C21_elevation_counterexample : WFSpl exCurve ∧ @Spl.elevateDegree ℚ _ _ ratSqrt exCurve 0 = .error .nonfinite :=
  ⟨exCurve_wf, by decide +kernel⟩

/-- What is true of C21: in a segment the loop gets every control value except the one with index `p` right. `new` is the list
before the call, `new'` after it; `b` the old segment. -/
theorem C21_elevated_values_partial {p len D i : ℕ} (hp : 1 ≤ p) {b new : List (List K)} (hb : IsNet b ((p + 1) * len) D)
    (hn : IsNet new ((p + 2) * len) D) (hi : i < len) :
    ∃ new', Spl.elevateLine p b (Spl.elevationCoefficients K p) i new = .ok new' ∧ IsNet new' ((p + 2) * len) D ∧
      (∀ j ≤ p + 1, j ≠ p → ∀ c < D, lineCoord (p + 2) new' i c j =
        (1 - (j : K) / ((p + 1 : ℕ) : K)) * lineCoord (p + 1) b i c j + (j : K) / ((p + 1 : ℕ) : K) * lineCoord (p + 1) b i c (j - 1)) ∧
      ∀ c, lineCoord (p + 2) new' i c p = lineCoord (p + 2) new i c p := by
  have hp0 : ((p + 1 : ℕ) : K) ≠ 0 := Nat.cast_ne_zero.2 (by omega)
  have hm1 : ∀ j < p + 1, j + (p + 1) * i < (p + 1) * len := fun j hj => by nlinarith
  have hm2 : ∀ j < p + 2, j + (p + 2) * i < (p + 2) * len := fun j hj => by nlinarith
  have hn1 := hn.set (0 + (p + 2) * i) (hb.getD (hm1 0 (by omega)))
  have hn2 := hn1.set (p + 1 + (p + 2) * i) (hb.getD (hm1 p (by omega)))
  have hal : ∀ j < p + 2, getN (Spl.elevationCoefficients K p) j = .ok ((j : K) / ((p + 1 : ℕ) : K)) := by
    intro j hj
    unfold Spl.elevationCoefficients
    rw [getN_eq_ok, List.getElem?_map, List.getElem?_range hj]
    simp
  unfold Spl.elevateLine
  dsimp only
  rw [hb.getI (i := 0 + (p + 1) * i) (by push_cast; ring) (hm1 0 (by omega)), ok_bind,
    hn.setI (i := 0 + (p + 2) * i) (by push_cast; ring) (hm2 0 (by omega)), ok_bind,
    hb.getI (i := p + (p + 1) * i) (by push_cast; ring) (hm1 p (by omega)), ok_bind,
    hn1.setI (i := p + 1 + (p + 2) * i) (by push_cast; ring) (hm2 (p + 1) (by omega)), ok_bind]
  obtain ⟨new', e1, e2, e3, e4⟩ := forLoop_inv (body := fun j new => do
      let b1 ← getI b ((j : ℤ) + ((p : ℤ) + 2 - 1) * i)
      let a1 ← getN (Spl.elevationCoefficients K p) j
      let b2 ← getI b (((j : ℤ) - 1) + ((p : ℤ) + 2 - 1) * i)
      let v ← Spl.addPt (Spl.scale (1 - a1) b1) (Spl.scale a1 b2)
      setI new ((j : ℤ) + ((p : ℤ) + 2) * i) v)
    (fun k new' => IsNet new' ((p + 2) * len) D ∧
      (∀ j, j < k ∨ j = p + 1 → ∀ c < D, lineCoord (p + 2) new' i c j =
        (1 - (j : K) / ((p + 1 : ℕ) : K)) * lineCoord (p + 1) b i c j + (j : K) / ((p + 1 : ℕ) : K) * lineCoord (p + 1) b i c (j - 1)) ∧
      ∀ c, lineCoord (p + 2) new' i c p = lineCoord (p + 2) new i c p) (p - 1) 1 (by
      rintro k st hk1 hk2 ⟨h3, h4, h5⟩
      have hkp : k < p := by omega
      obtain ⟨a1, a2, a3⟩ := addPt_ok (D := D) (p := Spl.scale (1 - (k : K) / ((p + 1 : ℕ) : K)) (b.getD (k + (p + 1) * i) []))
        (q := Spl.scale ((k : K) / ((p + 1 : ℕ) : K)) (b.getD (k - 1 + (p + 1) * i) [])) (by rw [scale_len]; exact hb.getD (hm1 k (by omega)))
        (by rw [scale_len]; exact hb.getD (hm1 (k - 1) (by omega)))
      refine ⟨_, ?_, h3.set (k + (p + 2) * i) a2, ?_, ?_⟩
      · rw [hb.getI (i := k + (p + 1) * i) (by push_cast; ring) (hm1 k (by omega)), ok_bind, hal k (by omega), ok_bind,
          hb.getI (i := k - 1 + (p + 1) * i) (by rw [Nat.cast_add, Nat.cast_sub hk1]; push_cast; ring) (hm1 (k - 1) (by omega)), ok_bind, a1, ok_bind,
          h3.setI (i := k + (p + 2) * i) (by push_cast; ring) (hm2 k (by omega))]
      · intro j hj c hc
        by_cases hjk : j = k
        · subst hjk
          rw [lineCoord_set_self h3 hi (by omega), a3 c hc, scale_getD, scale_getD]
          unfold lineCoord
          ring
        · rw [lineCoord_set_ne h3 hi (by omega) _ _ hjk, h4 j (by omega) c hc]
      · intro c
        rw [lineCoord_set_ne h3 hi (by omega) _ _ (by omega), h5]) _ ⟨hn2, by
      rintro j (hj | rfl) c hc
      · have : j = 0 := by omega
        subst this
        rw [lineCoord_set_ne hn1 hi (by omega) _ _ (by omega), lineCoord_set_self hn hi (by omega)]
        simp [lineCoord]
      · rw [lineCoord_set_self hn1 hi (by omega), div_self hp0]
        simp [lineCoord], fun c => by
      rw [lineCoord_set_ne hn1 hi (by omega) _ _ (by omega), lineCoord_set_ne hn hi (by omega) _ _ (by omega)]⟩
  exact ⟨new', e1, e2, fun j hj hjp => e3 j (by omega), e4⟩

/-- A segment of two points per line and one line meets the hypotheses. -/
example : IsNet ([[1, 2], [3, 4]] : List (List ℚ)) ((1 + 1) * 1) 2 ∧ IsNet ([[0, 0], [0, 0], [0, 0]] : List (List ℚ)) ((1 + 2) * 1) 2 := by
  unfold IsNet; decide

/-- **C22** (the reduction of a Bézier segment, which is where the tolerance is applied): for degree at least 2 the reduction of a
segment always terminates normally; if it reports success, then in every line of the segment the reduced curve of degree `p - 1`
differs from the original one by less than the tolerance, at every parameter, measured in homogeneous coordinates.
That the segments are the restrictions of the spline to its knot spans, and the whole operation, is in `Props/DegreeReduction.lean`. -/
theorem C22_reduced_segment_within_tolerance_partial [LawfulSqrt K] {s : Spl K} (h : WFSpl s) {d p : ℕ} (hp : s.ps.degree[d]? = some p)
    (h2 : 2 ≤ p) {b : List (List K)} (hb : IsNet b ((p + 1) * ((npts s).set d 1).prod) (s.ph.dim + 1)) (tol : K) :
    ∃ new success, s.reduceBezier d b tol = .ok (new, success) ∧ IsNet new (p * ((npts s).set d 1).prod) (s.ph.dim + 1) ∧
      (success = true → ∀ i < ((npts s).set d 1).prod, ∀ t : K, 0 ≤ t → t ≤ 1 →
        ∑ c ∈ range (s.ph.dim + 1), (bezier p (lineCoord (p + 1) b i c) t - bezier (p - 1) (lineCoord p new i c) t) ^ 2 < tol ^ 2) := by
  obtain ⟨new, err, es, e1, e2, e3, _⟩ := reduceBezier_ok h hp h2 hb tol
  refine ⟨new, _, e1, e2, fun hs i hi t h0 h1 => ?_⟩
  obtain ⟨a, b1⟩ := e3 i hi
  have hlt : Phys.twoNorm (es i) < tol := lt_of_le_of_lt b1 (of_decide_eq_true hs)
  refine lt_of_le_of_lt (a.error (by omega) h0 h1) ?_
  exact pow_lt_pow_left₀ hlt (twoNorm_nonneg _) (by omega)

/-- **C22** (exact recovery): if every line of the segment is the elevation of a line `Q` of degree `p - 1`, the reduction returns
exactly `Q`, and it reports success for every positive tolerance. -/
theorem C22_elevated_segment_recovered [LawfulSqrt K] {s : Spl K} (h : WFSpl s) {d p : ℕ} (hp : s.ps.degree[d]? = some p)
    (h2 : 2 ≤ p) {b : List (List K)} (hb : IsNet b ((p + 1) * ((npts s).set d 1).prod) (s.ph.dim + 1)) {tol : K} (htol : 0 < tol)
    {Q : ℕ → ℕ → ℕ → K}
    (hQ : ∀ i < ((npts s).set d 1).prod, ∀ c < s.ph.dim + 1, ∀ j ≤ p,
      lineCoord (p + 1) b i c j = (1 - (j : K) / p) * Q i c j + (j : K) / p * Q i c (j - 1)) :
    ∃ new, s.reduceBezier d b tol = .ok (new, true) ∧ IsNet new (p * ((npts s).set d 1).prod) (s.ph.dim + 1) ∧
      ∀ i < ((npts s).set d 1).prod, ∀ c < s.ph.dim + 1, ∀ j < p, lineCoord p new i c j = Q i c j := by
  obtain ⟨new, err, es, e1, e2, e3, e4⟩ := reduceBezier_ok h hp h2 hb tol
  have hzero : ∀ i < ((npts s).set d 1).prod, Phys.twoNorm (es i) = 0 := by
    intro i hi
    obtain ⟨a, _⟩ := e3 i hi
    have hz : (es i).map (fun x => x * x) = (es i).map fun _ => (0 : K) := by
      apply List.map_congr_left
      intro x hx
      obtain ⟨c, hc, rfl⟩ := List.mem_iff_getElem.1 hx
      have := (a.exact h2 (a.len ▸ hc) (hQ i hi c (a.len ▸ hc))).2
      rw [List.getD_eq_getElem?_getD, List.getElem?_eq_getElem hc] at this
      simp only [Option.getD_some] at this
      rw [this, mul_zero]
    unfold Phys.twoNorm
    rw [foldl_sq, hz, zero_add, List.map_const', List.sum_replicate, smul_zero, sqrt_zero]
  have herr : err = 0 := by
    rcases e4 with e4 | ⟨i, hi, e4⟩
    · exact e4
    · rw [e4, hzero i hi]
  refine ⟨new, by rw [e1, herr, decide_eq_true htol], e2, fun i hi c hc j hj => ?_⟩
  exact ((e3 i hi).1.exact h2 hc (hQ i hi c hc)).1 j hj

/-- The hypotheses are satisfiable: the line `1, 3` elevated to degree 2 is `1, 2, 3`. -/
example : exCurve.ps.degree[0]? = some 2 ∧ ((npts exCurve).set 0 1).prod = 1 ∧
    ∀ j ≤ 2, lineCoord 3 ([[1, 1, 1], [2, 2, 1], [3, 3, 1]] : List (List ℚ)) 0 0 j =
      (1 - (j : ℚ) / (2 : ℕ)) * ([1, 3] : List ℚ).getD j 0 + (j : ℚ) / (2 : ℕ) * ([1, 3] : List ℚ).getD (j - 1) 0 := by decide +kernel

/-- Reduction from degree 0 or 1 reads or writes outside of the arrays, whatever the segment. -/
theorem C22_reduce_low_degree_fails {s : Spl K} (h : WFSpl s) {d p : ℕ} (hp : s.ps.degree[d]? = some p) (h1 : p ≤ 1) (b : List (List K))
    (tol : K) (r : List (List K) × Bool) : s.reduceBezier d b tol ≠ .ok r := reduceBezier_low h hp h1 b tol r

/-- The whole operation on a concrete curve: reduced with a large tolerance, restored exactly with a small one. -/
example : (@Spl.reduceDegree ℚ _ _ ratSqrt exCurve 0 100).map (fun r => (r.1.ps.degree, r.2)) = .ok ([1], true) ∧
    @Spl.reduceDegree ℚ _ _ ratSqrt exCurve 0 (1/100) = .ok (exCurve, false) := by decide +kernel

end SplineLib
