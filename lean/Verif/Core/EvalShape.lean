import Verif.Core.RemoveMany

/-!
# Evaluation of a NURBS whose weights need not be positive (helper lemmas)
-/

namespace SplineLib
set_option linter.unusedSectionVars false
open Finset

section
variable {K : Type} [Field K] [LinearOrder K] [IsStrictOrderedRing K]

theorem ShapeSpl.getWeight {s : Spl K} (h : ShapeSpl s) {I : List ℕ} (hI : InBox (npts s) I) :
    s.ph.getWeight (zl I) = .ok (wgt s I) := by
  unfold Phys.getWeight wgt
  cases hw : s.ph.weights with
  | none => rfl
  | some w =>
    simp only
    rw [h.ph.num, oneD_zl, getI_getD (by rw [h.ph.weights w hw]; exact lin_lt hI) 0]

theorem ShapeSpl.getBasisFunctions {s : Spl K} (h : ShapeSpl s) {x : List K} (hx : Dom s.ps.knots x) {J : List ℕ}
    (hJ : InBox (actBox s.ps.degree) J) :
    s.ps.getBasisFunctions (zl (List.zipWith (· + ·) J (offs s.ps.knots s.ps.degree x))) x =
      .ok (dprod (basisFns s.ps.knots s.ps.degree x) (List.zipWith (· + ·) J (offs s.ps.knots s.ps.degree x))) := by
  simp only [PS.getBasisFunctions, h.ps.table, basisProd_eq h.ps.knots 1 hx hJ, one_mul]

theorem ShapeSpl.evaluatedWeightSum {s : Spl K} (h : ShapeSpl s) {x : List K} (hx : Dom s.ps.knots x) :
    s.evaluatedWeightSum x = .ok (weightValue s x) := by
  unfold Spl.evaluatedWeightSum
  rw [weightSumWith_eq h.ps.knots hx (g := fun I => dprod (basisFns s.ps.knots s.ps.degree x) I * wgt s I)]
  · rw [msum_active' h.ps.knots _ hx]; rfl
  · intro J hJ
    have hI : InBox (npts s) _ := act_inBox h.ps.knots hx hJ
    simp only [Spl.evaluatedWeight, h.getBasisFunctions hx hJ, h.getWeight hI, ok_bind, pure_ok]

theorem ShapeSpl.getHomCP {s : Spl K} (h : ShapeSpl s) {I : List ℕ} (hI : InBox (npts s) I) (hn : IsNurbs s) :
    s.ph.getHomCP (zl I) = .ok ((List.range s.ph.dim).map (fun c => cpt s I c * wgt s I) ++ [wgt s I]) := by
  obtain ⟨w, hw⟩ := hn
  have hg : getI w (MIH.oneD s.ph.num (zl I)) = .ok (wgt s I) := by
    have := h.getWeight hI
    simpa only [Phys.getWeight, hw] using this
  simp only [Phys.getHomCP, Phys.theWeights, hw, ok_bind, hg]
  rw [buildList_eq (g := fun c => cpt s I c * wgt s I)]
  · rfl
  · intro c hc
    have hd : ((s.ph.dim : ℤ) * MIH.oneD s.ph.num (zl I)).tdiv s.ph.dim = MIH.oneD s.ph.num (zl I) :=
      Int.mul_tdiv_cancel_left _ (by have := h.ph.dim; omega)
    rw [hd, hg]
    have : getI s.ph.cps ((s.ph.dim : ℤ) * MIH.oneD s.ph.num (zl I) + (c : ℤ)) = .ok (cpt s I c) := by
      rw [h.ph.num, oneD_zl]
      rw [show ((s.ph.dim : ℤ) * (lin (npts s) I : ℤ) + (c : ℤ)) = ((s.ph.dim * lin (npts s) I + c : ℕ) : ℤ) by push_cast; rfl]
      exact getI_getD (by rw [h.ph.cps]; exact mul_add_lt (lin_lt hI) hc) 0
    simp only [this, ok_bind, pure_ok]

/-- `Evaluate` of a NURBS where the weight function does not vanish. -/
theorem evaluate_nurbs_shape {s : Spl K} (h : ShapeSpl s) (hn : IsNurbs s) {x : List K} (hx : InDomain s x)
    (hpos : weightValue s x ≠ 0) (dims : List ℕ) (hd : ∀ c ∈ dims, c ≤ s.ph.dim) :
    s.evaluate x (zl dims) = .ok (dims.map fun c => if c = s.ph.dim then weightValue s x else nurbsValue s x c) := by
  unfold Spl.evaluate
  rw [evalWith_eq h.ps.knots hx (g := fun I c => if c.toNat = s.ph.dim then dprod (basisFns s.ps.knots s.ps.degree x) I * wgt s I
    else dprod (basisFns s.ps.knots s.ps.degree x) I * (wgt s I * cpt s I c.toNat) / weightValue s x)]
  · congr 1
    simp only [zl, List.map_map]
    apply List.map_congr_left
    intro c hc
    simp only [Function.comp_apply, Int.toNat_natCast]
    split
    · exact msum_active' h.ps.knots (fun I => wgt s I) hx
    · rw [msum_div, msum_active' h.ps.knots (fun I => wgt s I * cpt s I c) hx]; rfl
  · intro J hJ c hc
    obtain ⟨c, hc', rfl⟩ := List.mem_map.1 hc
    have hI : InBox (npts s) _ := act_inBox h.ps.knots hx hJ
    have hcd := hd c hc'
    obtain ⟨w, hw⟩ := hn
    simp only [Spl.evaluatedCP, hw, h.getBasisFunctions hx hJ, h.getHomCP hI ⟨w, hw⟩, ok_bind, pure_ok,
      Int.toNat_natCast, h.evaluatedWeightSum hx]
    by_cases hcc : c = s.ph.dim
    · subst hcc
      have : getI ((List.range s.ph.dim).map (fun c => cpt s (List.zipWith (· + ·) J (offs s.ps.knots s.ps.degree x)) c *
          wgt s (List.zipWith (· + ·) J (offs s.ps.knots s.ps.degree x))) ++
          [wgt s (List.zipWith (· + ·) J (offs s.ps.knots s.ps.degree x))]) (s.ph.dim : ℤ) =
          .ok (wgt s (List.zipWith (· + ·) J (offs s.ps.knots s.ps.degree x))) := by
        rw [getI_nat, getN_of_lt (by simp)]; simp
      simp [this]
    · have hlt : c < s.ph.dim := by omega
      have : getI ((List.range s.ph.dim).map (fun c => cpt s (List.zipWith (· + ·) J (offs s.ps.knots s.ps.degree x)) c *
          wgt s (List.zipWith (· + ·) J (offs s.ps.knots s.ps.degree x))) ++
          [wgt s (List.zipWith (· + ·) J (offs s.ps.knots s.ps.degree x))]) (c : ℤ) =
          .ok (cpt s (List.zipWith (· + ·) J (offs s.ps.knots s.ps.degree x)) c *
            wgt s (List.zipWith (· + ·) J (offs s.ps.knots s.ps.degree x))) := by
        rw [getI_nat, getN_of_lt (by simp; omega)]
        rw [List.getElem_append_left (by simpa using hlt)]; simp
      have hne : ¬ ((s.ph.dim : ℤ) = (c : ℤ)) := by omega
      simp only [this, hne, hcc, if_false, ok_bind, fdiv, hpos]
      congr 2
      ring

/-- A shape without weights is a well-formed B-spline. -/
theorem ShapeSpl.wf_bspline {s : Spl K} (h : ShapeSpl s) (hb : IsBSpline s) : WFSpl s :=
  ⟨h.ps.knots, h.ps.basis, h.ph.num, h.ph.dim, h.ph.cps, by intro w hw; rw [hb] at hw; simp at hw⟩

end
end SplineLib
