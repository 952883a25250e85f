import Verif.Core.IgaIntegral
import Verif.Props.Iga

/-!
# C67: the assembled matrices and vectors are the integrals of the weak form

`boxInt (paramBox s) g` is the iterated integral of `g` over the parameter range of `s`, `volFactor s x` the volume factor of the geometry and
`gaussRule n` the Gauss-Legendre rule with `n` points. `PolyOn m box g` says that `g` is a polynomial of the coordinates in the box with degree at
most `m k` in the direction `k`. All statements are over the real numbers.
-/

namespace SplineLib
set_option linter.unusedSectionVars false
open Finset Elem
namespace Iga

/-! ### The rules -/

/-- C67: the points of the rules of the example lie inside `(-1, 1)` and their weights are positive. -/
theorem C67_rules {n : ℕ} (h1 : 1 ≤ n) (h5 : n ≤ 5) : gaussRule n ≠ [] ∧ ∀ p ∈ gaussRule n, -1 < p.1 ∧ p.1 < 1 ∧ 0 < p.2 := by
  have key : ∀ {x : ℝ}, x < 1 → Real.sqrt x < 1 := fun {x} hx => by
    rw [Real.sqrt_lt' one_pos]; simpa using hx
  have h65 : Real.sqrt (6 / 5) < 3 / 2 := by rw [Real.sqrt_lt' (by norm_num)]; norm_num
  have h107 : Real.sqrt (10 / 7) < 3 / 2 := by rw [Real.sqrt_lt' (by norm_num)]; norm_num
  interval_cases n
  · refine ⟨by simp [gaussRule, gauss1], fun p hp => ?_⟩
    simp only [gaussRule, gauss1, List.mem_singleton] at hp
    subst hp; norm_num
  · have h := key (x := 1 / 3) (by norm_num)
    have h0 := Real.sqrt_nonneg (1 / 3)
    refine ⟨by simp [gaussRule, gauss2], fun p hp => ?_⟩
    simp only [gaussRule, gauss2, HasSqrt.sqrt, List.mem_cons, List.not_mem_nil, or_false] at hp
    rcases hp with rfl | rfl <;> exact ⟨by dsimp only; linarith, by dsimp only; linarith, by norm_num⟩
  · have h := key (x := 3 / 5) (by norm_num)
    have h0 := Real.sqrt_nonneg (3 / 5)
    refine ⟨by simp [gaussRule, gauss3], fun p hp => ?_⟩
    simp only [gaussRule, gauss3, HasSqrt.sqrt, List.mem_cons, List.not_mem_nil, or_false] at hp
    rcases hp with rfl | rfl | rfl <;> exact ⟨by dsimp only; linarith, by dsimp only; linarith, by norm_num⟩
  · have ha := key (x := 3 / 7 + 2 / 7 * Real.sqrt (6 / 5)) (by linarith)
    have ha0 := Real.sqrt_nonneg (3 / 7 + 2 / 7 * Real.sqrt (6 / 5))
    have hb := key (x := 3 / 7 - 2 / 7 * Real.sqrt (6 / 5)) (by have := Real.sqrt_nonneg (6 / 5); linarith)
    have hb0 := Real.sqrt_nonneg (3 / 7 - 2 / 7 * Real.sqrt (6 / 5))
    have h30 : Real.sqrt 30 < 18 := by rw [Real.sqrt_lt' (by norm_num)]; norm_num
    have h300 := Real.sqrt_nonneg 30
    refine ⟨by simp [gaussRule, gauss4], fun p hp => ?_⟩
    simp only [gaussRule, gauss4, HasSqrt.sqrt, List.mem_cons, List.not_mem_nil, or_false] at hp
    rcases hp with rfl | rfl | rfl | rfl <;> exact ⟨by dsimp only; linarith, by dsimp only; linarith, by dsimp only; linarith⟩
  · have ha : Real.sqrt (5 + 2 * Real.sqrt (10 / 7)) < 3 := by rw [Real.sqrt_lt' (by norm_num)]; linarith
    have ha0 := Real.sqrt_nonneg (5 + 2 * Real.sqrt (10 / 7))
    have hb : Real.sqrt (5 - 2 * Real.sqrt (10 / 7)) < 3 := by
      rw [Real.sqrt_lt' (by norm_num)]; have := Real.sqrt_nonneg (10 / 7); linarith
    have hb0 := Real.sqrt_nonneg (5 - 2 * Real.sqrt (10 / 7))
    have h70 : Real.sqrt 70 < 9 := by rw [Real.sqrt_lt' (by norm_num)]; norm_num
    have h700 := Real.sqrt_nonneg 70
    refine ⟨by simp [gaussRule, gauss5], fun p hp => ?_⟩
    simp only [gaussRule, gauss5, HasSqrt.sqrt, List.mem_cons, List.not_mem_nil, or_false] at hp
    rcases hp with rfl | rfl | rfl | rfl | rfl <;> exact ⟨by dsimp only; linarith, by dsimp only; linarith, by dsimp only; linarith⟩

theorem gaussRule_good {n : ℕ} (h1 : 1 ≤ n) (h5 : n ≤ 5) : GoodRule (gaussRule n) :=
  ⟨(C67_rules h1 h5).1, fun p hp => ⟨((C67_rules h1 h5).2 p hp).1.le, ((C67_rules h1 h5).2 p hp).2.1⟩⟩

theorem gaussRule_exact {n : ℕ} (h1 : 1 ≤ n) (h5 : n ≤ 5) : ExactRule (gaussRule n) (2 * n - 1) :=
  fun _ hp _ _ hab => C44_gauss_exact_on_element h1 h5 hp hab

/-! ### The integrands -/

theorem inCell_inElement : ∀ {Es : List (List (ℝ × ℝ))} {I : List ℕ} {x : List ℝ}, InBox (Es.map List.length) I → InCell (cellOf Es I) x →
    InElement Es (zl I) x
  | [], I, x, hI, hx => by
    obtain rfl := inBox_nil_iff.1 hI
    cases hx
    trivial
  | E :: Es, [], x, hI, _ => by simp [InBox] at hI
  | E :: Es, i :: I, x, hI, hx => by
    rw [List.map_cons, inBox_cons] at hI
    rw [cellOf] at hx
    cases hx with
    | cons ha hx =>
      refine ⟨⟨i, E.getD i (0, 0), rfl, ?_, ha.1, ha.2⟩, inCell_inElement hI.2 hx⟩
      rw [List.getD_eq_getElem _ _ hI.1, List.getElem?_eq_getElem hI.1]

theorem inCell_dom {s : Spl ℝ} (h : WFSpl s) {I : List ℕ} (hI : InBox (elemBox s) I) {x : List ℝ} (hx : InCell (cellOf (elemsOf s.ps.knots) I) x) :
    InDomain s x := inElement_dom h.knots (inCell_inElement hI hx)

/-- The element `I` of `s`. -/
noncomputable abbrev cell (s : Spl ℝ) (I : List ℕ) : List (ℝ × ℝ) := cellOf (elemsOf s.ps.knots) I

theorem deriv_poly {s : Spl ℝ} (h : WFSpl s) (hu : UnitWeights s) {I : List ℕ} (hI : InBox (elemBox s) I) {j : ℕ} (hj : j < D s) {J : List ℕ}
    (hJ : InBox (npts s) J) :
    PolyOn (fun k => s.ps.degree.getD k 0 - (unitIx (D s) j).getD k 0) (cell s I) fun x => ratBasis s x (unitIx (D s) j) J := by
  refine (dprod_poly h.knots (ks := unitIx (D s) j) (unitIx_length _ _) hJ hI).congr fun x hx => ?_
  have hd := inCell_dom h hI hx
  rw [ratBasis_unit s x hj, weightValue_unit h hu hd, weightDeriv_unit h hu hd hj, wgt_unit h hu hJ]
  ring

theorem fn_poly {s : Spl ℝ} (h : WFSpl s) (hu : UnitWeights s) {I : List ℕ} (hI : InBox (elemBox s) I) (a : ℕ) :
    PolyOn (fun k => s.ps.degree.getD k 0) (cell s I) fun x => fnAt s x a := by
  have hJ := unlin_inBox (npts_pos h) a
  refine ((dprod_poly h.knots (ks := List.replicate (D s) 0) (by simp [D]) hJ hI).congr fun x hx => ?_).mono fun k => Nat.sub_le _ _
  have hd := inCell_dom h hI hx
  rw [fnAt, ratFn, weightValue_unit h hu hd, wgt_unit h hu hJ, basisDerivFns_rep]
  ring

theorem polyOn_det {d : ℕ} {box : List (ℝ × ℝ)} {m : Fin d → ℕ → ℕ} {A : List ℝ → Matrix (Fin d) (Fin d) ℝ}
    (h : ∀ i j, PolyOn (m j) box fun x => A x i j) : PolyOn (fun k => ∑ j, m j k) box fun x => (A x).det := by
  have : ∀ x, (A x).det = ∑ σ : Equiv.Perm (Fin d), ((Equiv.Perm.sign σ : ℤ) : ℝ) * ∏ i, A x (σ i) i := fun x => Matrix.det_apply' _
  simp only [this]
  apply PolyOn.sum
  intro σ _
  apply PolyOn.const_mul
  have : ∀ t : Finset (Fin d), PolyOn (fun k => ∑ j ∈ t, m j k) box fun x => ∏ i ∈ t, A x (σ i) i := by
    intro t
    classical
    induction t using Finset.induction_on with
    | empty => exact (PolyOn.const 1).congr fun x _ => by simp
    | insert a t ha ih =>
      refine (((h (σ a) a).mul ih).congr fun x _ => ?_).mono fun k => ?_
      · rw [prod_insert ha]
      · rw [sum_insert ha]
  exact this univ

theorem det_poly {s : Spl ℝ} (h : WFSpl s) (hu : UnitWeights s) {I : List ℕ} (hI : InBox (elemBox s) I) :
    PolyOn (fun k => D s * s.ps.degree.getD k 0 - 1) (cell s I) fun x => (geoMat (D s) s x).det := by
  have hlen : s.ps.degree.length = D s := h.knots.length_eq.symm
  refine (polyOn_det (m := fun j k => s.ps.degree.getD k 0 - (unitIx (D s) j).getD k 0) fun i j => ?_).mono fun k => ?_
  · refine PolyOn.msum (npts s) (f := fun J x => ratBasis s x (unitIx (D s) j) J * cpt s J i) (fun J hJ => ?_) (npts_pos h)
    exact (deriv_poly h hu hI j.2 hJ).mul_const _
  · by_cases hk : k < D s
    · have hs : ∑ j : Fin (D s), (s.ps.degree.getD k 0 - (unitIx (D s) j).getD k 0) =
          ∑ j ∈ (univ : Finset (Fin (D s))).erase ⟨k, hk⟩, (s.ps.degree.getD k 0 - (unitIx (D s) j).getD k 0) +
            (s.ps.degree.getD k 0 - (unitIx (D s) k).getD k 0) := (sum_erase_add _ _ (mem_univ _)).symm
      have h1 : (unitIx (D s) k).getD k 0 = 1 := by simp [unitIx, hk]
      have h2 : ∑ j ∈ (univ : Finset (Fin (D s))).erase ⟨k, hk⟩, (s.ps.degree.getD k 0 - (unitIx (D s) j).getD k 0) ≤
          (D s - 1) * s.ps.degree.getD k 0 := by
        refine (sum_le_card_nsmul _ _ (s.ps.degree.getD k 0) fun j _ => Nat.sub_le _ _).trans ?_
        rw [card_erase_of_mem (mem_univ _), card_univ, Fintype.card_fin, smul_eq_mul]
      rw [hs, h1]
      have h3 : (D s - 1) * s.ps.degree.getD k 0 + s.ps.degree.getD k 0 = D s * s.ps.degree.getD k 0 := by
        rw [← Nat.succ_mul, Nat.succ_eq_add_one, Nat.sub_add_cancel (by omega)]
      generalize ∑ j ∈ (univ : Finset (Fin (D s))).erase ⟨k, hk⟩, (s.ps.degree.getD k 0 - (unitIx (D s) j).getD k 0) = S at h2 ⊢
      rcases Nat.eq_zero_or_pos (s.ps.degree.getD k 0) with h0 | h0
      · rw [h0] at h2 ⊢; simpa using h2
      · omega
    · have : s.ps.degree.getD k 0 = 0 := by
        rw [List.getD_eq_getElem?_getD, List.getElem?_eq_none (by omega)]; rfl
      rw [this]; simp

/-- In every element the geometry keeps its orientation. -/
def Oriented (s : Spl ℝ) : Prop := ∀ I, InBox (elemBox s) I →
  (∀ x, InCell (cell s I) x → 0 ≤ (geoMat (D s) s x).det) ∨ (∀ x, InCell (cell s I) x → (geoMat (D s) s x).det ≤ 0)

theorem vol_poly {s : Spl ℝ} (h : WFSpl s) (hu : UnitWeights s) (hd : s.ph.dim = D s) (ho : Oriented s) {I : List ℕ} (hI : InBox (elemBox s) I) :
    PolyOn (fun k => D s * s.ps.degree.getD k 0 - 1) (cell s I) fun x => volFactor s x := by
  rcases ho I hI with ho | ho
  · exact (det_poly h hu hI).congr fun x hx => by rw [volFactor_square s x hd, abs_of_nonneg (ho x hx)]
  · exact ((det_poly h hu hI).const_mul (-1)).congr fun x hx => by rw [volFactor_square s x hd, abs_of_nonpos (ho x hx)]; ring

/-! ### The statements -/

section
variable {s : Spl ℝ} {n : ℕ}

/-- **C67.** The quadrature of the code over all elements is the integral over the parameter range, for every integrand that in every element is,
together with the volume factor, a polynomial of degree at most `2n - 1` in every direction. -/
theorem C67_quadrature (h1 : 1 ≤ n) (h5 : n ≤ 5) (P : Problem s (gaussRule n)) {g : List ℝ → ℝ}
    (hg : ∀ I, InBox (elemBox s) I → PolyOn (fun _ => 2 * n - 1) (cell s I) fun x => volFactor s x * g x) :
    quadSum s (gaussRule n) g = boxInt (paramBox s) fun x => volFactor s x * g x :=
  quadSum_integral P (gaussRule_exact h1 h5) hg

theorem degree_bound (h2 : 0 < D s) (hdeg : ∀ p ∈ s.ps.degree, (D s + 2) * p ≤ 2 * n) (h1 : 1 ≤ n) (k : ℕ) :
    D s * s.ps.degree.getD k 0 - 1 + (s.ps.degree.getD k 0 + s.ps.degree.getD k 0) ≤ 2 * n - 1 := by
  rcases Nat.eq_zero_or_pos (s.ps.degree.getD k 0) with h0 | h0
  · rw [h0]; simp
  · have hk : k < s.ps.degree.length := by
      by_contra hc
      rw [List.getD_eq_getElem?_getD, List.getElem?_eq_none (by omega)] at h0
      simp at h0
    have := hdeg (s.ps.degree.getD k 0) (by rw [List.getD_eq_getElem _ _ hk]; exact List.getElem_mem _)
    rw [Nat.add_mul] at this
    have h3 : 0 < D s * s.ps.degree.getD k 0 := Nat.mul_pos h2 h0
    omega

/-- **C67.** With unit weights, as many coordinates as directions, a geometry that is not folded and enough integration points for the degrees, the
assembled mass matrix consists of the integrals of `R_a R_b` over the parameter range with the volume element of the geometry. -/
theorem C67_mass_matrix (h1 : 1 ≤ n) (h5 : n ≤ 5) (P : Problem s (gaussRule n)) (hu : UnitWeights s) (hd : s.ph.dim = D s) (ho : Oriented s)
    (hdeg : ∀ p ∈ s.ps.degree, (D s + 2) * p ≤ 2 * n) :
    massMatrix s (gaussRule n) = .ok (matOf (npts s).prod fun a b =>
      boxInt (paramBox s) fun x => |(geoMat (D s) s x).det| * (fnAt s x a * fnAt s x b)) := by
  rw [massMatrix_eq P]
  congr 2
  funext a b
  rw [C67_quadrature h1 h5 P]
  · simp only [volFactor_square s _ hd]
  · intro I hI
    refine ((vol_poly P.wf hu hd ho hI).mul ((fn_poly P.wf hu hI a).mul (fn_poly P.wf hu hI b))).mono fun k => degree_bound P.dirs hdeg h1 k

/-- **C67.** Under the same hypotheses the right side consists of the integrals of `R_a` times the source. -/
theorem C67_right_side (h1 : 1 ≤ n) (h5 : n ≤ 5) (P : Problem s (gaussRule n)) (hu : UnitWeights s) (hd : s.ph.dim = D s) (ho : Oriented s)
    (hdeg : ∀ p ∈ s.ps.degree, (D s + 2) * p ≤ 2 * n) (src f : ℕ → ℝ) :
    rightSide s (gaussRule n) (vecOf (npts s).prod src) (vecOf (npts s).prod f) = .ok (vecOf (npts s).prod fun a =>
      f a + boxInt (paramBox s) fun x => |(geoMat (D s) s x).det| * (fnAt s x a * field s src x)) := by
  rw [C55_right_side P]
  congr 2
  funext a
  rw [C67_quadrature h1 h5 P]
  · simp only [volFactor_square s _ hd]
  · intro I hI
    refine ((vol_poly P.wf hu hd ho hI).mul ((fn_poly P.wf hu hI a).mul ?_)).mono fun k => degree_bound P.dirs hdeg h1 k
    exact PolyOn.sum _ fun b _ => (fn_poly P.wf hu hI b).mul_const _

/-- **C67.** All entries of the mass matrix together are the volume of the geometry. -/
theorem C67_volume (h1 : 1 ≤ n) (h5 : n ≤ 5) (P : Problem s (gaussRule n)) (hu : UnitWeights s) (hd : s.ph.dim = D s) (ho : Oriented s)
    (hdeg : ∀ p ∈ s.ps.degree, D s * p ≤ 2 * n) :
    ∃ A : ℕ → ℕ → ℝ, massMatrix s (gaussRule n) = .ok (matOf (npts s).prod A) ∧
      (∑ a ∈ range (npts s).prod, ∑ b ∈ range (npts s).prod, A a b) = boxInt (paramBox s) fun x => |(geoMat (D s) s x).det| := by
  obtain ⟨A, hA, _, _, hs, _⟩ := C55_mass_matrix P
  refine ⟨A, hA, ?_⟩
  rw [hs, C67_quadrature h1 h5 P]
  · simp only [volFactor_square s _ hd, mul_one]
  · intro I hI
    refine ((vol_poly P.wf hu hd ho hI).mul_const 1).mono fun k => ?_
    rcases Nat.lt_or_ge k s.ps.degree.length with hk | hk
    · have := hdeg (s.ps.degree.getD k 0) (by rw [List.getD_eq_getElem _ _ hk]; exact List.getElem_mem _)
      omega
    · rw [List.getD_eq_getElem?_getD, List.getElem?_eq_none hk]; simp

/-- **C67.** For an affine geometry (constant invertible Jacobian matrix) with unit weights and degrees less than the number of integration points,
`GetLeftSide` adds the integrals of the conductivity times the products of the gradients. -/
theorem C67_laplace (h1 : 1 ≤ n) (h5 : n ≤ 5) (P : Problem s (gaussRule n)) (R : Regular s (gaussRule n)) (hu : UnitWeights s) (hd : s.ph.dim = D s)
    {J : Matrix (Fin (D s)) (Fin (D s)) ℝ} (hJ : ∀ I, InBox (elemBox s) I → ∀ x, InCell (cell s I) x → geoMat (D s) s x = J)
    (hdeg : ∀ p ∈ s.ps.degree, p < n) (κ : ℝ) (f : ℕ → ℕ → ℝ) :
    leftSide s (gaussRule n) κ (matOf (npts s).prod f) = .ok (matOf (npts s).prod fun a b => f a b +
      κ * boxInt (paramBox s) fun x => |(geoMat (D s) s x).det| *
        ∑ i : Fin (D s), physDeriv s x i (unlin (npts s) a) * physDeriv s x i (unlin (npts s) b)) := by
  obtain ⟨A, hA, hq, _, _, _⟩ := C55_left_side_partial P R hu κ
  rw [hA f]
  congr 1
  unfold matOf
  apply List.map_congr_left
  intro a ha
  apply List.map_congr_left
  intro b hb
  dsimp only
  rw [hq a (List.mem_range.1 ha) b (List.mem_range.1 hb), C67_quadrature h1 h5 P]
  · simp only [volFactor_square s _ hd]
  · intro I hI
    have hdp : ∀ (i : Fin (D s)) (c : ℕ), PolyOn (fun k => s.ps.degree.getD k 0) (cell s I) fun x => physDeriv s x i (unlin (npts s) c) := by
      intro i c
      refine (PolyOn.sum univ (f := fun (k : Fin (D s)) x => ratBasis s x (unitIx (D s) k) (unlin (npts s) c) * J⁻¹ k i) fun k _ =>
        ((deriv_poly P.wf hu hI k.2 (unlin_inBox (npts_pos P.wf) c)).mul_const _).mono fun k => Nat.sub_le _ _).congr fun x hx => ?_
      rw [physDeriv, hJ I hI x hx]
    refine (PolyOn.congr (PolyOn.const_mul |J.det| (PolyOn.sum univ fun i _ => (hdp i a).mul (hdp i b))) fun x hx => ?_).mono fun k => ?_
    · rw [volFactor_square s x hd, hJ I hI x hx]
    · rcases Nat.lt_or_ge k s.ps.degree.length with hk | hk
      · have := hdeg (s.ps.degree.getD k 0) (by rw [List.getD_eq_getElem _ _ hk]; exact List.getElem_mem _)
        omega
      · rw [List.getD_eq_getElem?_getD, List.getElem?_eq_none hk]; simp

end

/-! ### Satisfiability of the hypotheses -/

/-- All hypotheses hold for the quadratic line and the rule with three points. -/
theorem exLine_gauss : Problem exLine (gaussRule 3) ∧ Regular exLine (gaussRule 3) ∧ UnitWeights exLine ∧ exLine.ph.dim = D exLine ∧ Oriented exLine ∧
    (∀ p ∈ exLine.ps.degree, (D exLine + 2) * p ≤ 2 * 3) ∧ (∀ p ∈ exLine.ps.degree, p < 3) ∧
    ∃ J : Matrix (Fin (D exLine)) (Fin (D exLine)) ℝ, ∀ I, InBox (elemBox exLine) I → ∀ x, InCell (cell exLine I) x → geoMat (D exLine) exLine x = J := by
  have hP : Problem exLine (gaussRule 3) := { exLine_problem with rule := gaussRule_good (by norm_num) (by norm_num) }
  have hD : D exLine = 1 := by simp [exLine, D]
  have hone : ∀ e x, InElement (elemsOf exLine.ps.knots) e x → ∃ t : ℝ, x = [t] ∧ 0 ≤ t ∧ t < 1 := by
    intro e x hx
    have he : elemsOf exLine.ps.knots = [[(0, 1)]] := by simp [elemsOf, exLine, uniq]
    rw [he] at hx
    rcases e with _ | ⟨e, _ | ⟨e', es⟩⟩ <;> rcases x with _ | ⟨t, _ | ⟨t', ts⟩⟩ <;> simp only [InElement, and_false, and_true] at hx
    obtain ⟨n, ab, _, hab, h1, h2⟩ := hx
    obtain ⟨hn, rfl⟩ := List.getElem?_eq_some_iff.1 hab
    have : n = 0 := by simpa using hn
    subst this
    exact ⟨t, rfl, h1, h2⟩
  have hfin : ∀ i : Fin (D exLine), (i : ℕ) = 0 := fun i => by have := i.2; omega
  have hgeo : ∀ I, InBox (elemBox exLine) I → ∀ x, InCell (cell exLine I) x → geoMat (D exLine) exLine x = Matrix.of fun _ _ => 1 := by
    intro I hI x hx
    obtain ⟨t, rfl, h0, h1⟩ := hone _ _ (inCell_inElement hI hx)
    ext i j
    rw [Matrix.of_apply, geoMat, hfin i, hfin j, exLine_geo h0 h1]
  refine ⟨hP, ⟨by rw [hD]; simp [exLine], by rw [hD]; simp [exLine], fun m q => ?_⟩, exLine_unit, by rw [hD]; simp [exLine], fun I hI => Or.inl fun x hx => ?_,
    by rw [hD]; simp [exLine], by simp [exLine], _, hgeo⟩
  · obtain ⟨t, e, h0, h1⟩ := hone _ _ (quadPoint_in hP m q)
    rw [e, exLine_det h0 h1]
    exact one_ne_zero
  · obtain ⟨t, rfl, h0, h1⟩ := hone _ _ (inCell_inElement hI hx)
    rw [exLine_det h0 h1]
    exact zero_le_one

end Iga
end SplineLib
