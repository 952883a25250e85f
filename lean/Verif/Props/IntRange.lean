import Verif.Core.IntRange
import Verif.Core.EvalShape
import Verif.Props.RoundedDerivs
import Verif.Core.IgaSystem
import Verif.Spec.Examples

/-!
# C80: when the index arithmetic fits into `int`

`Evaluate` and `EvaluateDerivative` with 32 bit index arithmetic.
-/

namespace SplineLib
set_option linter.unusedSectionVars false
variable {K : Type} [Field K] [LinearOrder K] [IsStrictOrderedRing K]

/-- Dimension, number of control points and number of coordinates of a spline fit into `int`. -/
structure FitsInt (s : Spl K) : Prop where
  dim : s.ph.dim < 2 ^ 31
  points : (npts s).prod < 2 ^ 31
  coords : s.ph.dim * (npts s).prod ≤ 2 ^ 31

theorem actBox_prod_le {Us : List (List K)} {ps : List ℕ} (h : List.Forall₂ WFKnots Us ps) :
    (actBox ps).prod ≤ (List.zipWith (fun U p => U.length - p - 1) Us ps).prod := by
  induction h with
  | nil => simp [actBox]
  | cons h _ ih =>
    simp only [actBox, List.map_cons, List.prod_cons, List.zipWith_cons_cons] at ih ⊢
    have := h.size
    exact Nat.mul_le_mul (by omega) ih

section points
variable {s : Spl K} (h : WFSpl s) (hP : (npts s).prod < 2 ^ 31)
include h hP

theorem i32_oneD {I : List ℕ} (hI : InBox (npts s) I) : I32.oneD s.ph.num (zl I) = .ok (lin (npts s) I : ℤ) := by
  rw [h.num]; exact oneD_ok hI ((lin_lt hI).trans hP)

theorem i32_act_pos : (∀ n ∈ actBox s.ps.degree, 0 < n) ∧ (∀ n ∈ actBox s.ps.degree, n < 2 ^ 31) ∧ (actBox s.ps.degree).prod < 2 ^ 31 := by
  have h1 : ∀ n ∈ actBox s.ps.degree, 0 < n := by simp [actBox]
  have h2 : (actBox s.ps.degree).prod < 2 ^ 31 := lt_of_le_of_lt (actBox_prod_le h.knots) hP
  exact ⟨h1, fun n hn => lt_of_le_of_lt (le_prod_of_pos h1 n hn) h2, h2⟩

theorem i32_succs : I32.succs (s.ps.degree.map fun p : ℕ => (p : ℤ)) = .ok (zl (actBox s.ps.degree)) :=
  succs_ok (i32_act_pos h hP).2.1

theorem i32_getWeight {I : List ℕ} (hI : InBox (npts s) I) : I32.getWeight s.ph (zl I) = .ok (wgt s I) := by
  have := getWeight_eq h hI
  unfold Phys.getWeight at this
  unfold I32.getWeight
  cases hw : s.ph.weights with
  | none => simpa only [hw] using this
  | some w =>
    simp only [hw] at this ⊢
    rw [i32_oneD h hP hI, ok_bind]
    rwa [h.num, oneD_zl] at this

theorem entry_lt : ∀ {ns I : List ℕ}, InBox ns I → (∀ n ∈ ns, n < 2 ^ 31) → ∀ i ∈ I, i < 2 ^ 31
  | [], I, hI, _ => by rw [inBox_nil_iff] at hI; subst hI; simp
  | n :: ns, [], hI, _ => by simp
  | n :: ns, i :: I, hI, hn => by
    simp only [inBox_cons] at hI
    intro j hj
    rcases List.mem_cons.1 hj with rfl | hj
    · exact hI.1.trans (hn n (by simp))
    · exact entry_lt hI.2 (fun m hm => hn m (by simp [hm])) j hj

theorem i32_plus {x : List K} (hx : Dom s.ps.knots x) {J : List ℕ} (hJ : InBox (actBox s.ps.degree) J) :
    I32.plus (zl J) (zl (offs s.ps.knots s.ps.degree x)) = .ok (zl (List.zipWith (· + ·) J (offs s.ps.knots s.ps.degree x))) := by
  have hI : InBox (npts s) _ := act_inBox h.knots hx hJ
  exact plus_ok (entry_lt h hP hI fun n hn => lt_of_le_of_lt (le_prod_of_pos (Iga.npts_pos h) n hn) hP)

omit hP in
theorem i32_firstNonZero' {Us : List (List K)} {ps : List ℕ} (hk : List.Forall₂ WFKnots Us ps) :
    ∀ {xs : List K}, Dom Us xs → (∀ n ∈ List.zipWith (fun U p => U.length - p - 1) Us ps, n < 2 ^ 31) →
      I32.firstNonZero Us ps xs = .ok (zl (offs Us ps xs)) := by
  induction hk with
  | nil => intro xs hx _; cases hx; rfl
  | @cons U p Us ps h _ ih =>
    intro xs hx hn
    cases hx with
    | @cons _ y _ _ hx hxs =>
      obtain ⟨h1, h2, h3, h4⟩ := h.span hx.1 hx.2
      simp only [List.zipWith_cons_cons] at hn
      have hh := hn _ (List.mem_cons_self)
      have e1 := int_nat (a := spanIx U y) (by omega)
      simp only [I32.firstNonZero, h1, e1, ok_bind]
      rw [int_ok (by omega) (by omega), ok_bind, ih hxs fun n h => hn n (by simp [h])]
      simp only [ok_bind, pure_ok, offs, List.map_cons]
      congr 2; omega

theorem i32_firstNonZero {x : List K} (hx : Dom s.ps.knots x) :
    I32.firstNonZero s.ps.knots s.ps.degree x = .ok (zl (offs s.ps.knots s.ps.degree x)) :=
  i32_firstNonZero' h h.knots hx fun n hn => lt_of_le_of_lt (le_prod_of_pos (Iga.npts_pos h) n hn) hP

theorem i32_weightSumWith {x : List K} (hx : Dom s.ps.knots x) {f g : List ℤ → M K}
    (hf : ∀ J, InBox (actBox s.ps.degree) J → f (zl (List.zipWith (· + ·) J (offs s.ps.knots s.ps.degree x))) =
      g (zl (List.zipWith (· + ·) J (offs s.ps.knots s.ps.degree x)))) :
    I32.weightSumWith s x f = s.weightSumWith x g := by
  obtain ⟨a1, a2, a3⟩ := i32_act_pos h hP
  simp only [I32.weightSumWith, Spl.weightSumWith, i32_firstNonZero h hP hx, firstNonZero_eq h.knots hx, i32_succs h hP, numBasis_eq, ok_bind]
  rw [mk'_zl, length1D_ok a1 a3, length1D_zl, ok_bind]
  apply i32_upLoop_eq a1 a2
  intro m _ _ st
  have hJ := unlin_inBox a1 m
  simp only [i32_plus h hP hx hJ, zipWith_zl, ok_bind, hf _ hJ]

theorem i32_evaluatedWeightSum {x : List K} (hx : Dom s.ps.knots x) : I32.evaluatedWeightSum s x = .ok (weightValue s x) := by
  rw [← evaluatedWeightSum_eq h hx]
  apply i32_weightSumWith h hP hx
  intro J hJ
  have hI : InBox (npts s) _ := act_inBox h.knots hx hJ
  simp only [Spl.evaluatedWeight, i32_getWeight h hP hI, getWeight_eq h hI]

theorem i32_evaluatedDerivWeight {x : List K} (hx : Dom s.ps.knots x) {J : List ℕ} (hJ : InBox (actBox s.ps.degree) J) (k : List ℤ) :
    I32.evaluatedDerivWeight s x k (zl (List.zipWith (· + ·) J (offs s.ps.knots s.ps.degree x))) =
      s.evaluatedDerivWeight x k (zl (List.zipWith (· + ·) J (offs s.ps.knots s.ps.degree x))) := by
  have hI : InBox (npts s) _ := act_inBox h.knots hx hJ
  simp only [I32.evaluatedDerivWeight, Spl.evaluatedDerivWeight, i32_getWeight h hP hI, getWeight_eq h hI]

theorem i32_evaluatedDerivWeightSum {x : List K} (hx : Dom s.ps.knots x) (k : List ℤ) :
    I32.evaluatedDerivWeightSum s x k = s.evaluatedDerivWeightSum x k :=
  i32_weightSumWith h hP hx fun _ hJ => i32_evaluatedDerivWeight h hP hx hJ k

/-- The coordinates of a control point: the indices fit if the last one does. -/
theorem i32_getCP (hd : s.ph.dim < 2 ^ 31) {I : List ℕ} (hI : InBox (npts s) I) :
    I32.getCP s.ph (zl I) = if s.ph.dim * lin (npts s) I + s.ph.dim ≤ 2 ^ 31 then s.ph.getCP (zl I) else .error .ub := by
  have hdim := h.dim
  simp only [I32.getCP, i32_oneD h hP hI, ok_bind, ← Nat.cast_mul]
  have hget : ∀ c, c < s.ph.dim → getI s.ph.cps ((s.ph.dim * lin (npts s) I + c : ℕ) : ℤ) =
      .ok (s.ph.cps.getD (s.ph.dim * lin (npts s) I + c) 0) := fun c hc =>
    getI_getD (by rw [h.cps]; exact mul_add_lt (lin_lt hI) hc) 0
  by_cases hf : s.ph.dim * lin (npts s) I < 2 ^ 31
  · rw [int_nat hf, ok_bind]
    split
    · rename_i hle
      rw [getCP_eq h.num h.cps hI]
      apply buildList_eq
      intro c hc
      rw [← Nat.cast_add, int_nat (by omega), ok_bind]
      exact hget c hc
    · rename_i hle
      apply buildList_error
      · intro c hc
        by_cases hs : s.ph.dim * lin (npts s) I + c < 2 ^ 31
        · left; rw [← Nat.cast_add, int_nat hs, ok_bind]; exact ⟨_, hget c hc⟩
        · right; rw [← Nat.cast_add, int_ub (by omega)]; rfl
      · refine ⟨s.ph.dim - 1, by omega, ?_⟩
        rw [← Nat.cast_add, int_ub (by omega)]; rfl
  · rw [int_ub (by omega), if_neg (by omega)]; rfl

theorem i32_getHomCP (hd : s.ph.dim < 2 ^ 31) (hn : IsNurbs s) {I : List ℕ} (hI : InBox (npts s) I) :
    I32.getHomCP s.ph (zl I) = if s.ph.dim * lin (npts s) I + s.ph.dim ≤ 2 ^ 31 then s.ph.getHomCP (zl I) else .error .ub := by
  have hdim := h.dim
  have hw0 := getHomCP_eq h hI hn
  obtain ⟨w, hw⟩ := hn
  have hg : getI w (lin (npts s) I : ℤ) = .ok (wgt s I) := by
    have := getWeight_eq h hI
    simpa only [Phys.getWeight, hw, h.num, oneD_zl] using this
  simp only [I32.getHomCP, Phys.theWeights, hw, i32_oneD h hP hI, ok_bind, ← Nat.cast_mul]
  have hget : ∀ c, c < s.ph.dim → getI s.ph.cps ((s.ph.dim * lin (npts s) I + c : ℕ) : ℤ) = .ok (cpt s I c) := fun c hc =>
    getI_getD (by rw [h.cps]; exact mul_add_lt (lin_lt hI) hc) 0
  have hdiv : ((s.ph.dim * lin (npts s) I : ℕ) : ℤ).tdiv (s.ph.dim : ℤ) = (lin (npts s) I : ℤ) := by
    rw [Nat.cast_mul]; exact Int.mul_tdiv_cancel_left _ (by omega)
  by_cases hf : s.ph.dim * lin (npts s) I < 2 ^ 31
  · rw [int_nat hf, ok_bind]
    simp only [hdiv, hg]
    split
    · rename_i hle
      rw [hw0, buildList_eq (g := fun c => cpt s I c * wgt s I)]
      · rfl
      · intro c hc
        rw [← Nat.cast_add, int_nat (by omega), ok_bind, hget c hc]; rfl
    · rename_i hle
      rw [buildList_error (e := .ub)]
      · rfl
      · intro c hc
        by_cases hs : s.ph.dim * lin (npts s) I + c < 2 ^ 31
        · left; rw [← Nat.cast_add, int_nat hs, ok_bind, hget c hc]; exact ⟨_, rfl⟩
        · right; rw [← Nat.cast_add, int_ub (by omega)]; rfl
      · refine ⟨s.ph.dim - 1, by omega, ?_⟩
        rw [← Nat.cast_add, int_ub (by omega)]; rfl
  · rw [int_ub (by omega), if_neg (by omega)]; rfl

/-- One summand of `Evaluate`: as with unbounded integers, or undefined. -/
theorem i32_evaluatedCP (hd : s.ph.dim < 2 ^ 31) {x : List K} (hx : Dom s.ps.knots x) {J : List ℕ} (hJ : InBox (actBox s.ps.degree) J) (c : ℤ) :
    I32.evaluatedCP s x (zl (List.zipWith (· + ·) J (offs s.ps.knots s.ps.degree x))) c =
      if s.ph.dim * lin (npts s) (List.zipWith (· + ·) J (offs s.ps.knots s.ps.degree x)) + s.ph.dim ≤ 2 ^ 31 then
        s.evaluatedCP x (zl (List.zipWith (· + ·) J (offs s.ps.knots s.ps.degree x))) c
      else .error .ub := by
  have hI : InBox (npts s) _ := act_inBox h.knots hx hJ
  unfold I32.evaluatedCP Spl.evaluatedCP
  have hb := getBasisFunctions_eq h hx hJ
  cases hw : s.ph.weights with
  | none =>
    simp only [hb, ok_bind, I32.controlPoint, Spl.controlPoint, i32_getCP h hP hd hI]
    split <;> rfl
  | some w =>
    simp only [hb, ok_bind, i32_getHomCP h hP hd ⟨w, hw⟩ hI, i32_evaluatedWeightSum h hP hx, evaluatedWeightSum_eq h hx]
    split_ifs <;> rfl

theorem i32_evalWith {x : List K} (hx : Dom s.ps.knots x) {dims : List ℤ} {f g : List ℤ → ℤ → M K}
    (hf : ∀ J, InBox (actBox s.ps.degree) J → ∀ c ∈ dims, f (zl (List.zipWith (· + ·) J (offs s.ps.knots s.ps.degree x))) c =
      g (zl (List.zipWith (· + ·) J (offs s.ps.knots s.ps.degree x))) c) :
    I32.evalWith s x dims f = s.evalWith x dims g := by
  obtain ⟨a1, a2, a3⟩ := i32_act_pos h hP
  simp only [I32.evalWith, Spl.evalWith, i32_firstNonZero h hP hx, firstNonZero_eq h.knots hx, i32_succs h hP, numBasis_eq, ok_bind,
    throwIfOutside_ok h.knots hx]
  rw [mk'_zl, length1D_ok a1 a3, length1D_zl, ok_bind]
  apply i32_upLoop_eq a1 a2
  intro m _ _ st
  have hJ := unlin_inBox a1 m
  simp only [i32_plus h hP hx hJ, zipWith_zl, ok_bind]
  have hf' := hf _ hJ
  clear hf
  induction dims generalizing st with
  | nil => rfl
  | cons c dims ih =>
    cases st with
    | nil => rfl
    | cons a st =>
      simp only [Spl.addEach, hf' c (by simp)]
      rw [ih st fun c hc => hf' c (by simp [hc])]

end points

/-- Outside of the domain the exception is thrown before any index arithmetic. -/
theorem i32_evalWith_outside {s : Spl K} (h : WFSpl s) {x : List K} (hl : x.length = s.ps.knots.length) (hx : ¬ Dom s.ps.knots x)
    (dims : List ℤ) (f g : List ℤ → ℤ → M K) : I32.evalWith s x dims f = s.evalWith x dims g := by
  simp only [I32.evalWith, Spl.evalWith, throwIfOutside_err h.knots hl hx, error_bind]

/-- If the number of coordinates fits into `int`, `Evaluate` with 32 bit integers does the same as with unbounded integers: same values, same
exceptions, same undefined behaviour for invalid dimensions. -/
theorem C80_evaluate {s : Spl K} (h : WFSpl s) (hs : FitsInt s) {x : List K} (hl : x.length = s.ps.knots.length) (dims : List ℤ) :
    I32.evaluate s x dims = s.evaluate x dims := by
  by_cases hx : Dom s.ps.knots x
  · apply i32_evalWith h hs.points hx
    intro J hJ c _
    have hI : InBox (npts s) _ := act_inBox h.knots hx hJ
    rw [i32_evaluatedCP h hs.points hs.dim hx hJ, if_pos]
    have h1 := Nat.mul_le_mul_left s.ph.dim (show lin (npts s) _ + 1 ≤ (npts s).prod from lin_lt hI)
    have := hs.coords
    rw [Nat.mul_add, Nat.mul_one] at h1
    omega
  · exact i32_evalWith_outside h hl hx dims _ _

theorem i32_rationalDeriv {s : Spl K} (h : WFSpl s) (hP : (npts s).prod < 2 ^ 31) {x : List K} (hx : Dom s.ps.knots x) {J : List ℕ}
    (hJ : InBox (actBox s.ps.degree) J) : ∀ (fuel : ℕ) (k : List ℕ), BinomialsFit k → (k.map (· + 1)).prod < 2 ^ 31 →
    I32.rationalDeriv s x (zl (List.zipWith (· + ·) J (offs s.ps.knots s.ps.degree x))) fuel (zl k) =
      s.rationalDeriv x (zl (List.zipWith (· + ·) J (offs s.ps.knots s.ps.degree x))) fuel (zl k) := by
  have hI : InBox (npts s) _ := act_inBox h.knots hx hJ
  intro fuel
  induction fuel with
  | zero =>
    intro k _ _
    rw [I32.rationalDeriv, Spl.rationalDeriv]
    simp only [i32_getWeight h hP hI, getWeight_eq h hI, i32_evaluatedWeightSum h hP hx, evaluatedWeightSum_eq h hx]
  | succ fuel ih =>
    intro k hs hp
    rw [I32.rationalDeriv, Spl.rationalDeriv]
    have e1 : (zl k).map (· + 1) = zl (k.map (· + 1)) := by simp [zl]
    have hpos := mem_actBox_pos (k := k)
    have hlt : ∀ n ∈ k.map (· + 1), n < 2 ^ 31 := fun n hn => lt_of_le_of_lt (le_prod_of_pos hpos n hn) hp
    have hPP := prod_pos_of hpos
    simp only [i32_getWeight h hP hI, getWeight_eq h hI, i32_evaluatedWeightSum h hP hx, evaluatedWeightSum_eq h hx,
      i32_evaluatedDerivWeight h hP hx hJ, succs_ok hlt, ok_bind, e1]
    simp only [mk'_zl, i32_incr hpos hlt, ok_bind, incr_zl hpos, length1D_ok hpos hp, length1D_zl]
    rw [i32_upLoop_eq hpos hlt (body' := fun h sum => do
          let c ← Spl.binomialCoefficients (zl k) h.cur
          let r ← s.rationalDeriv x (zl (List.zipWith (· + ·) J (offs s.ps.knots s.ps.degree x))) fuel h.differenceIndices
          let ws ← s.evaluatedDerivWeightSum x h.cur
          return sum + (c : K) * r * ws)]
    intro m hm1 hm2 st
    have hb := unlin_inBox hpos m
    have hbin := i32_binomials (bc := 1) hb (by omega) (by omega)
    rw [Nat.cast_one, one_mul, if_pos (hs _ hb)] at hbin
    simp only [hbin, binomialCoefficients_eq hb, diff_ok hb hlt, ok_bind, differenceIndices_zl hb, i32_evaluatedDerivWeightSum h hP hx]
    rw [ih _ (hs.sub (by simp)) (lt_of_le_of_lt msub_prod_le hp)]
    simp

/-- The same for `EvaluateDerivative`, if in addition the orders of the derivative are not negative and not too large. -/
theorem C80_derivative {s : Spl K} (h : WFSpl s) (hs : FitsInt s) {x : List K} (hl : x.length = s.ps.knots.length) (dims : List ℤ)
    {k : List ℕ} (hk : BinomialsFit k) (hp : (k.map (· + 1)).prod < 2 ^ 31) :
    I32.evaluateDerivative s x dims (zl k) = s.evaluateDerivative x dims (zl k) := by
  by_cases hx : Dom s.ps.knots x
  · apply i32_evalWith h hs.points hx
    intro J hJ c _
    have hI : InBox (npts s) _ := act_inBox h.knots hx hJ
    have h1 := Nat.mul_le_mul_left s.ph.dim (show lin (npts s) _ + 1 ≤ (npts s).prod from lin_lt hI)
    have := hs.coords
    rw [Nat.mul_add, Nat.mul_one] at h1
    have hcp := i32_getCP h hs.points hs.dim hI
    rw [if_pos (by omega)] at hcp
    unfold I32.evaluatedDerivCP Spl.evaluatedDerivCP
    cases hw : s.ph.weights <;>
      simp only [I32.controlPoint, Spl.controlPoint, hcp, i32_rationalDeriv h hs.points hx hJ _ k hk hp]
  · exact i32_evalWith_outside h hl hx dims _ _

/-- The hypotheses hold for the NURBS surface of the examples and the mixed derivative of orders 2 and 1. -/
example : WFSpl exNurbsSurface ∧ FitsInt exNurbsSurface ∧ BinomialsFit [2, 1] ∧ (([2, 1] : List ℕ).map (· + 1)).prod < 2 ^ 31 :=
  ⟨exNurbsSurface_wf, ⟨by decide +kernel, by decide +kernel, by decide +kernel⟩, binomialsFit_sum (by decide), by decide⟩

/-! ### Too many coordinates -/

theorem addEach_ub (f : ℤ → M K) : ∀ {dims : List ℤ} {acc : List K}, acc.length = dims.length → dims ≠ [] → (∀ c ∈ dims, f c = .error .ub) →
    Spl.addEach f dims acc = .error .ub
  | [], _, _, h, _ => absurd rfl h
  | c :: dims, [], hl, _, _ => by simp at hl
  | c :: dims, a :: acc, _, _, hf => by
    simp only [Spl.addEach, hf c (by simp)]; rfl

theorem addEach_cases (f : ℤ → M K) : ∀ {dims : List ℤ} {acc : List K}, acc.length = dims.length →
    (∀ c ∈ dims, (∃ v, f c = .ok v) ∨ f c = .error .ub) →
    (∃ r, Spl.addEach f dims acc = .ok r ∧ r.length = dims.length) ∨ Spl.addEach f dims acc = .error .ub
  | [], [], _, _ => .inl ⟨[], rfl, rfl⟩
  | [], _ :: _, hl, _ => by simp at hl
  | c :: dims, [], hl, _ => by simp at hl
  | c :: dims, a :: acc, hl, hf => by
    rcases hf c (by simp) with ⟨v, hv⟩ | hv
    · rcases addEach_cases f (dims := dims) (acc := acc) (by simpa using hl) fun c hc => hf c (by simp [hc]) with ⟨r, hr, hr'⟩ | hr
      · left; simp only [Spl.addEach, hv, hr]; exact ⟨_, rfl, by simp [hr']⟩
      · right; simp only [Spl.addEach, hv, hr]; rfl
    · right; simp only [Spl.addEach, hv]; rfl

/-- A sum in which one term is undefined and the others are defined or undefined. -/
theorem i32_evalWith_ub {s : Spl K} (h : WFSpl s) (hP : (npts s).prod < 2 ^ 31) {x : List K} (hx : Dom s.ps.knots x) {dims : List ℤ}
    (hne : dims ≠ []) {f : List ℤ → ℤ → M K} {J : List ℕ} (hJ : InBox (actBox s.ps.degree) J)
    (hub : ∀ c ∈ dims, f (zl (List.zipWith (· + ·) J (offs s.ps.knots s.ps.degree x))) c = .error .ub)
    (hall : ∀ J, InBox (actBox s.ps.degree) J → ∀ c ∈ dims, (∃ v, f (zl (List.zipWith (· + ·) J (offs s.ps.knots s.ps.degree x))) c = .ok v) ∨
      f (zl (List.zipWith (· + ·) J (offs s.ps.knots s.ps.degree x))) c = .error .ub) :
    I32.evalWith s x dims f = .error .ub := by
  obtain ⟨a1, a2, a3⟩ := i32_act_pos h hP
  simp only [I32.evalWith, i32_firstNonZero h hP hx, i32_succs h hP, ok_bind, throwIfOutside_ok h.knots hx]
  rw [mk'_zl, length1D_ok a1 a3, ok_bind]
  have hj : unlin (actBox s.ps.degree) (lin (actBox s.ps.degree) J) = J := unlin_lin hJ
  refine i32_upLoop_ub a1 a2 (Inv := fun st : List K => st.length = dims.length) (j := lin (actBox s.ps.degree) J) ?_ _ 0 _ (Nat.zero_le _) ?_ (by simp) ?_
  · intro st hst
    simp only [hj, i32_plus h hP hx hJ, ok_bind]
    exact addEach_ub _ hst hne hub
  · rw [Int.toNat_natCast, Nat.zero_add]; exact lin_lt hJ
  · intro m _ _ st hst
    have hm := unlin_inBox a1 m
    simp only [i32_plus h hP hx hm, ok_bind]
    exact (addEach_cases _ hst (hall _ hm)).imp_left fun ⟨r, h1, h2⟩ => ⟨r, h1, h2⟩

/-- `Evaluate` needs a coordinate whose index does not fit into `int`: the behaviour is undefined. -/
theorem C80_undefined_index {s : Spl K} (h : WFSpl s) (hP : (npts s).prod < 2 ^ 31) (hd : s.ph.dim < 2 ^ 31) {x : List K} (hx : Dom s.ps.knots x)
    {dims : List ℤ} (hne : dims ≠ []) (hdims : ∀ c ∈ dims, 0 ≤ c ∧ c < s.ph.dim) {J : List ℕ} (hJ : InBox (actBox s.ps.degree) J)
    (hbig : 2 ^ 31 < s.ph.dim * (lin (npts s) (List.zipWith (· + ·) J (offs s.ps.knots s.ps.degree x)) + 1)) :
    I32.evaluate s x dims = .error .ub := by
  rw [Nat.mul_add, Nat.mul_one] at hbig
  refine i32_evalWith_ub h hP hx hne hJ ?_ ?_
  · intro c hc
    rw [i32_evaluatedCP h hP hd hx hJ, if_neg (by omega)]
  · intro J' hJ' c hc
    rw [i32_evaluatedCP h hP hd hx hJ']
    split
    · left
      have hI : InBox (npts s) _ := act_inBox h.knots hx hJ'
      obtain ⟨c0, c1⟩ := hdims c hc
      lift c to ℕ using c0
      have hw0 := weightValue_pos h hx
      unfold Spl.evaluatedCP
      cases hw : s.ph.weights with
      | none =>
        simp only [getBasisFunctions_eq h hx hJ', ok_bind, controlPoint_eq h hI (show c < s.ph.dim by omega)]
        exact ⟨_, rfl⟩
      | some w =>
        simp only
        rw [if_neg (by omega)]
        simp only [getBasisFunctions_eq h hx hJ', ok_bind, getHomCP_eq h hI ⟨w, hw⟩, evaluatedWeightSum_eq h hx]
        have : getI (List.map (fun c => cpt s (List.zipWith (· + ·) J' (offs s.ps.knots s.ps.degree x)) c *
            wgt s (List.zipWith (· + ·) J' (offs s.ps.knots s.ps.degree x))) (List.range s.ph.dim) ++
            [wgt s (List.zipWith (· + ·) J' (offs s.ps.knots s.ps.degree x))]) (c : ℤ) = .ok (cpt s (List.zipWith (· + ·) J' (offs s.ps.knots s.ps.degree x)) c *
            wgt s (List.zipWith (· + ·) J' (offs s.ps.knots s.ps.degree x))) := by
          rw [getI_nat, getN_of_lt (by simp; omega)]
          congr 1
          rw [List.getElem_append_left (by simp; omega)]
          simp
        rw [this, ok_bind, fdiv, if_neg hw0.ne']
        exact ⟨_, rfl⟩
    · exact .inr rfl

theorem spanIx_last {U : List K} {p : ℕ} (h : WFKnots U p) (he : ExactEnds U p) : spanIx U (lastKnot U) = U.length - p - 2 := by
  obtain ⟨_, h2, h3, h4⟩ := h.span h.range.le le_rfl
  have hsz := h.size
  refine InSpan.unique h.sorted (by omega) (by omega) h2 (.inr ⟨he.2, ?_, rfl⟩)
  rw [← h.last p le_rfl]; congr 1; omega

theorem last_index {Us : List (List K)} {ps : List ℕ} (h : List.Forall₂ WFKnots Us ps) : List.Forall₂ ExactEnds Us ps →
    Dom Us (Us.map lastKnot) ∧ InBox (actBox ps) ps ∧
      lin (List.zipWith (fun U p => U.length - p - 1) Us ps) (List.zipWith (· + ·) ps (offs Us ps (Us.map lastKnot))) + 1 =
        (List.zipWith (fun U p => U.length - p - 1) Us ps).prod := by
  induction h with
  | nil => intro _; exact ⟨.nil, by simp, by simp [lin]⟩
  | @cons U p Us ps h _ ih =>
    intro he
    cases he with
    | cons he hes =>
      obtain ⟨i1, i2, i3⟩ := ih hes
      have hsz := h.size
      refine ⟨.cons ⟨h.range.le, le_rfl⟩ i1, ?_, ?_⟩
      · simp only [actBox, List.map_cons, inBox_cons]; exact ⟨by omega, i2⟩
      · simp only [List.map_cons, offs, List.zipWith_cons_cons, lin, List.prod_cons, spanIx_last h he]
        rw [← i3]
        have : p + (U.length - p - 2 - p) = U.length - p - 1 - 1 := by omega
        rw [this, Nat.mul_add, Nat.mul_one]
        omega

/-- With more than `2^31` coordinates the last point of the spline cannot be evaluated: the behaviour of `Evaluate` is undefined although the
spline is well-formed and each of its vectors and counts is small enough for `int`. -/
theorem C80_too_many_coordinates {s : Spl K} (h : WFSpl s) (he : List.Forall₂ ExactEnds s.ps.knots s.ps.degree) (hP : (npts s).prod < 2 ^ 31)
    (hd : s.ph.dim < 2 ^ 31) (hbig : 2 ^ 31 < s.ph.dim * (npts s).prod) {dims : List ℤ} (hne : dims ≠ [])
    (hdims : ∀ c ∈ dims, 0 ≤ c ∧ c < s.ph.dim) : I32.evaluate s (s.ps.knots.map lastKnot) dims = .error .ub := by
  obtain ⟨h1, h2, h3⟩ := last_index h.knots he
  refine C80_undefined_index h hP hd h1 hne hdims h2 ?_
  have : lin (npts s) _ + 1 = (npts s).prod := h3
  rw [this]; exact hbig

/-- A quadratic curve with four control points in a space of dimension `d`. -/
def wideCurve (d : ℕ) : Spl ℚ := ⟨exCurve.ps, ⟨d, [4], List.replicate (d * 4) 0, none⟩⟩

/-- The hypotheses hold for this curve if `d` is large enough. -/
example {d : ℕ} (h1 : 2 ^ 29 < d) (h2 : d < 2 ^ 31) : WFSpl (wideCurve d) ∧ List.Forall₂ ExactEnds (wideCurve d).ps.knots (wideCurve d).ps.degree ∧
    (npts (wideCurve d)).prod < 2 ^ 31 ∧ (wideCurve d).ph.dim < 2 ^ 31 ∧ 2 ^ 31 < (wideCurve d).ph.dim * (npts (wideCurve d)).prod := by
  have hn : (npts (wideCurve d)).prod = 4 := by
    have : npts (wideCurve d) = npts exCurve := rfl
    rw [this]; decide +kernel
  refine ⟨⟨exCurve_wf.knots, exCurve_wf.basis, exCurve_wf.num, ?_, ?_, ?_⟩, ?_, by rw [hn]; omega, h2, ?_⟩
  · show 0 < d; omega
  · rw [hn]; exact List.length_replicate
  · intro w hw; cases hw
  · simp only [wideCurve, exCurve]; exact .cons (by decide +kernel) .nil
  · rw [hn]; show 2 ^ 31 < d * 4; omega

/-! ### Orders of derivatives that are too large -/

theorem i32_rationalDeriv_ub {s : Spl K} (h : WFSpl s) (hP : (npts s).prod < 2 ^ 31) {x : List K} (hx : Dom s.ps.knots x) {J : List ℕ}
    (hJ : InBox (actBox s.ps.degree) J) (fuel : ℕ) (k : List ℕ) (hl : k.length = s.ps.knots.length) (hs : k.sum ≤ fuel)
    (hp : (k.map (· + 1)).prod < 2 ^ 31) (hf : ¬ BinomialsFit k) :
    I32.rationalDeriv s x (zl (List.zipWith (· + ·) J (offs s.ps.knots s.ps.degree x))) fuel (zl k) = .error .ub := by
  have hI : InBox (npts s) _ := act_inBox h.knots hx hJ
  induction fuel generalizing k with
  | zero =>
    refine absurd (binomialsFit_sum ?_) hf
    omega
  | succ fuel ih =>
    have hnz : ¬ k.all (fun a => decide (a = 0)) = true := by
      intro hz
      have := all_zero_iff.1 hz
      apply hf
      apply binomialsFit_sum
      rw [this]; simp
    have hpos := mem_actBox_pos (k := k)
    have hlt : ∀ n ∈ k.map (· + 1), n < 2 ^ 31 := fun n hn => lt_of_le_of_lt (le_prod_of_pos hpos n hn) hp
    have hPP := prod_pos_of hpos
    rw [I32.rationalDeriv, zl_all_zero, if_neg hnz, i32_evaluatedDerivWeight h hP hx hJ]
    simp only [Spl.evaluatedDerivWeight, getBasisFunctionDerivatives_eq h hx hJ hl, getWeight_eq h hI, ok_bind, pure_ok, succs_ok hlt]
    simp only [mk'_zl, i32_incr hpos hlt, ok_bind, length1D_ok hpos hp]
    have hcnt : ((((k.map (· + 1)).prod : ℕ) : ℤ) - 1).toNat = (k.map (· + 1)).prod - 1 := by omega
    rw [hcnt]
    unfold BinomialsFit at hf
    push Not at hf
    obtain ⟨j, hj, hjb⟩ := hf
    have hj0 : lin (k.map (· + 1)) j ≠ 0 := by
      intro h0
      have := unlin_lin hj
      rw [h0, unlin_zero] at this
      rw [← this] at hjb
      have hz := mbinom_zero k
      rw [List.map_map] at hjb
      rw [show (fun _ => 0) ∘ (fun x : ℕ => x + 1) = fun _ => 0 from rfl, hz] at hjb
      omega
    have hjl := lin_lt hj
    rw [i32_upLoop_ub hpos hlt (Inv := fun _ => True) (j := lin (k.map (· + 1)) j) _ _ 1 0 (by omega) (by omega) trivial]
    · rfl
    · intro m hm1 hm2 st _
      have hb := unlin_inBox hpos m
      have hbin := i32_binomials (bc := 1) hb (by omega) (by omega)
      rw [Nat.cast_one, one_mul] at hbin
      have hl' : (unlin (k.map (· + 1)) m).length = s.ps.knots.length := by simp [hl]
      have hlt' := msub_sum_lt hb (by
        have := unlin_ne_zero (ns := k.map (· + 1)) (m := m) (by omega) (by omega)
        rwa [show (List.map (fun _ => 0) (unlin (k.map (· + 1)) m)) = (k.map (· + 1)).map fun _ => 0 by
          simp only [List.map_const', unlin_length]])
      simp only [hbin]
      split
      · simp only [ok_bind, diff_ok hb hlt, differenceIndices_zl hb, i32_evaluatedDerivWeightSum h hP hx, evaluatedDerivWeightSum_eq h hx hl']
        have hl2 : (msub k (unlin (k.map (· + 1)) m)).length = s.ps.knots.length := by rw [msub_length (by simp)]; exact hl
        have hp2 := lt_of_le_of_lt (msub_prod_le (k := k) (j := unlin (k.map (· + 1)) m)) hp
        by_cases hf2 : BinomialsFit (msub k (unlin (k.map (· + 1)) m))
        · left
          rw [i32_rationalDeriv h hP hx hJ fuel _ hf2 hp2, rationalDeriv_eq h hx hJ fuel _ hl2 (by omega)]
          exact ⟨_, rfl, trivial⟩
        · right
          rw [ih _ hl2 (by omega) hp2 hf2]; rfl
      · exact .inr rfl
    · intro st _
      simp only [unlin_lin hj]
      have hbin := i32_binomials (bc := 1) hj (by omega) (by omega)
      rw [Nat.cast_one, one_mul, if_neg (by omega)] at hbin
      rw [hbin]; rfl

theorem succs_ub : ∀ {k : List ℕ}, (∃ n ∈ k, 2 ^ 31 ≤ n + 1) → I32.succs (zl k) = .error .ub
  | [], h => by simp at h
  | a :: k, h => by
    simp only [List.map_cons, I32.succs]
    by_cases ha : 2 ^ 31 ≤ a + 1
    · have := int_ub ha
      push_cast at this
      rw [this]; rfl
    · have := int_nat (a := a + 1) (by omega)
      push_cast at this
      rw [this, ok_bind]
      have ih := succs_ub (k := k) (by
        obtain ⟨n, hn, h34⟩ := h
        rcases List.mem_cons.1 hn with rfl | hn
        · exact absurd h34 ha
        · exact ⟨n, hn, h34⟩)
      rw [show (List.map (fun i : ℕ => (i : ℤ)) k) = zl k from rfl, ih]; rfl

theorem i32_rationalDeriv_many {s : Spl K} (h : WFSpl s) (hP : (npts s).prod < 2 ^ 31) {x : List K} (hx : Dom s.ps.knots x) {J : List ℕ}
    (hJ : InBox (actBox s.ps.degree) J) (fuel : ℕ) (k : List ℕ) (hl : k.length = s.ps.knots.length) (hs : k.sum ≤ fuel)
    (hp : 2 ^ 31 ≤ (k.map (· + 1)).prod) :
    I32.rationalDeriv s x (zl (List.zipWith (· + ·) J (offs s.ps.knots s.ps.degree x))) fuel (zl k) = .error .ub := by
  have hI : InBox (npts s) _ := act_inBox h.knots hx hJ
  have hnz : ¬ k.all (fun a => decide (a = 0)) = true := by
    intro hz
    have := all_zero_iff.1 hz
    rw [this, List.map_map] at hp
    have e : ∀ l : List ℕ, (l.map ((fun x => x + 1) ∘ fun _ => 0)).prod = 1 := by
      intro l; induction l with
      | nil => rfl
      | cons a l ih => simpa using ih
    rw [e] at hp
    omega
  cases fuel with
  | zero =>
    exfalso
    apply hnz
    rw [List.all_eq_true]; intro a ha
    have := List.single_le_sum (l := k) (by simp) a ha
    simp; omega
  | succ fuel =>
    rw [I32.rationalDeriv, zl_all_zero, if_neg hnz, i32_evaluatedDerivWeight h hP hx hJ]
    simp only [Spl.evaluatedDerivWeight, getBasisFunctionDerivatives_eq h hx hJ hl, getWeight_eq h hI, ok_bind, pure_ok]
    by_cases hn : ∃ n ∈ k, 2 ^ 31 ≤ n + 1
    · rw [succs_ub hn]; rfl
    · push Not at hn
      have hlt : ∀ n ∈ k.map (· + 1), n < 2 ^ 31 := by
        intro n h
        obtain ⟨m, hm, rfl⟩ := List.mem_map.1 h
        exact hn m hm
      have hpos := mem_actBox_pos (k := k)
      have := scale_ub (t := 1) hpos (by omega) (by rw [one_mul]; exact hp)
      rw [Nat.cast_one] at this
      simp only [succs_ok hlt, mk'_zl, i32_incr hpos hlt, ok_bind, I32.length1D, this]
      rfl

/-- The exact condition for derivatives of NURBS: if some product of binomial coefficients or the number of lower orders does not fit into `int`,
the behaviour of `EvaluateDerivative` is undefined. -/
theorem C80_large_order {s : Spl K} (h : WFSpl s) (hn : IsNurbs s) (hP : (npts s).prod < 2 ^ 31) {x : List K} (hx : InDomain s x) {dims : List ℤ}
    (hne : dims ≠ []) {k : List ℕ} (hl : k.length = s.ps.knots.length) (hk : ¬ (BinomialsFit k ∧ (k.map (· + 1)).prod < 2 ^ 31)) :
    I32.evaluateDerivative s x dims (zl k) = .error .ub := by
  have hx' : Dom s.ps.knots x := hx
  have hall : ∀ J, InBox (actBox s.ps.degree) J → ∀ c ∈ dims,
      I32.evaluatedDerivCP s x (zl k) (zl (List.zipWith (· + ·) J (offs s.ps.knots s.ps.degree x))) c = .error .ub := by
    intro J hJ c _
    obtain ⟨w, hw⟩ := hn
    have hsum : ((zl k).foldl (· + ·) 0).toNat = k.sum := foldl_zl k
    simp only [I32.evaluatedDerivCP, hw, hsum]
    by_cases hp : (k.map (· + 1)).prod < 2 ^ 31
    · rw [i32_rationalDeriv_ub h hP hx' hJ _ k hl le_rfl hp fun hb => hk ⟨hb, hp⟩]; rfl
    · rw [i32_rationalDeriv_many h hP hx' hJ _ k hl le_rfl (by omega)]; rfl
  have h0 : InBox (actBox s.ps.degree) (unlin (actBox s.ps.degree) 0) := unlin_inBox (i32_act_pos h hP).1 0
  exact i32_evalWith_ub h hP hx' hne h0 (hall _ h0) fun J hJ c hc => .inr (hall J hJ c hc)

/-- In particular: orders of 34 and more in some direction. -/
theorem C80_order_34 {s : Spl K} (h : WFSpl s) (hn : IsNurbs s) (hP : (npts s).prod < 2 ^ 31) {x : List K} (hx : InDomain s x) {dims : List ℤ}
    (hne : dims ≠ []) {k : List ℕ} (hl : k.length = s.ps.knots.length) (hk : ∃ n ∈ k, 34 ≤ n) :
    I32.evaluateDerivative s x dims (zl k) = .error .ub :=
  C80_large_order h hn hP hx hne hl fun hf => not_binomialsFit hk hf.1

/-- Total orders up to 33 are safe. -/
theorem C80_order_33 {s : Spl K} (h : WFSpl s) (hs : FitsInt s) {x : List K} (hl : x.length = s.ps.knots.length) (dims : List ℤ) {k : List ℕ}
    (hk : k.sum ≤ 33) (hp : (k.map (· + 1)).prod < 2 ^ 31) : I32.evaluateDerivative s x dims (zl k) = s.evaluateDerivative x dims (zl k) :=
  C80_derivative h hs hl dims (binomialsFit_sum hk) hp

/-- The hypotheses hold for the NURBS surface of the examples and orders 34 and 0. -/
example : WFSpl exNurbsSurface ∧ IsNurbs exNurbsSurface ∧ (npts exNurbsSurface).prod < 2 ^ 31 ∧ InDomain exNurbsSurface (exNurbsSurface.ps.knots.map lastKnot) ∧
    ([34, 0] : List ℕ).length = exNurbsSurface.ps.knots.length ∧ ∃ n ∈ ([34, 0] : List ℕ), 34 ≤ n :=
  ⟨exNurbsSurface_wf, ⟨_, rfl⟩, by decide +kernel, .cons (by decide +kernel) (.cons (by decide +kernel) .nil), rfl, 34, by simp, le_rfl⟩

end SplineLib
