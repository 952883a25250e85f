import Verif.Core.RoundedEval
import Verif.Core.Binary
import Verif.Core.Elevate
import Mathlib.Data.Rat.Floor
import Mathlib.Algebra.Order.Ring.Pow

/-!
# Property C70 (rounded arithmetic)

Evaluation in floating point arithmetic stays close to the exact values. `r.u` is the relative error of one operation, `2^-53` for
`double`; the bounds are of the form `(1/(1-u))^m - 1`, about `m * u`, where `m` counts roundings.
-/

namespace SplineLib
set_option linter.unusedSectionVars false
open Finset Rounding
variable {K : Type} [Field K] [LinearOrder K] [IsStrictOrderedRing K]

/-- The relative error of `m` operations. -/
def growth (r : Rounding K) (m : ℕ) : K := (1 / (1 - r.u)) ^ m - 1

/-- The usual bound `m u / (1 - m u)`. -/
theorem C70_growth (r : Rounding K) (m : ℕ) (h : m * r.u < 1) : growth r m ≤ m * r.u / (1 - m * r.u) := by
  have h1 := r.u_nonneg
  have h2 := r.u_lt
  have h3 : 1 + (m : K) * (-r.u) ≤ (1 + -r.u) ^ m := one_add_mul_le_pow (by linarith) m
  have h4 : 0 < 1 - (m : K) * r.u := by linarith
  have h5 : 0 < (1 - r.u) ^ m := pow_pos (by linarith) m
  have h6 : 1 - (m : K) * r.u ≤ (1 - r.u) ^ m := by
    rw [sub_eq_add_neg, ← mul_neg]; simpa [sub_eq_add_neg] using h3
  unfold growth
  rw [one_div, inv_pow, le_div_iff₀ h4]
  have h7 : ((1 - r.u) ^ m)⁻¹ * (1 - m * r.u) ≤ 1 := by
    rw [inv_mul_le_iff₀ h5]; linarith
  linarith

/-- Basis functions: the factory builds the object. Its value at a coordinate of the range is never negative, zero outside the support,
and its relative error is that of `6 p` operations. -/
theorem C70_basis (r : Rounding K) {U : List K} {p : ℕ} (h : WFKnots U p) (hp : 0 < p) {i : ℕ} (hi : i + p + 1 < U.length) :
    ∃ b, Fl.create r U i p = .ok b ∧ ∀ x, 0 ≤ Fl.eval r b x ∧ (x < knot U i ∨ knot U (i + p + 1) < x → Fl.eval r b x = 0) ∧
      |Fl.eval r b x - coxDeBoor U p i x| ≤ growth r (6 * p) * coxDeBoor U p i x := by
  refine ⟨_, fl_create_eq hi, fun x => ?_⟩
  obtain ⟨h1, h2⟩ := flBasis_eval (r := r) h.sorted h.sep x p i hi (by omega)
  refine ⟨h1.nonneg h2, ?_, (h1.close h2).1⟩
  intro hx
  have hz : coxDeBoor U p i x = 0 := by
    refine cox_zero (not_inSpan_of_not_support h.sorted h.sep hi ?_)
    rw [inSupport_iff h.sorted h.sep hi]
    rintro (⟨a, b⟩ | ⟨a, b⟩)
    · rcases hx with hx | hx <;> linarith
    · rcases hx with hx | hx
      · have := h.sorted.mono (show i ≤ i + p + 1 by omega) hi
        rw [b, ← a] at hx; linarith
      · rw [b, ← a] at hx; exact lt_irrefl _ hx
  rw [hz] at h1
  have a := h1.1
  have b := h1.2
  rw [mul_zero] at a
  exact le_antisymm a (h1.nonneg le_rfl)

/-- `EvaluateAllNonZeroBasisFunctions`: the same window of basis functions as in exact arithmetic, with small relative errors. -/
theorem C70_all_nonzero (r : Rounding K) {s : Spl K} (h : Fl.WF r s) {d : ℕ} {U : List K} {p : ℕ} (hU : s.ps.knots[d]? = some U)
    (hp : s.ps.degree[d]? = some p) {x : K} (h0 : knot U 0 ≤ x) (h1 : x ≤ lastKnot U) :
    ∃ v k, Fl.evalAllNonZero r s.ps d x = .ok v ∧ v.length = p + 1 ∧ InSpan U (k + p) x ∧ k + 2 * p + 1 < U.length ∧
      ∀ j ≤ p, |v.getD j 0 - coxDeBoor U p (k + j) x| ≤ growth r (6 * p) * coxDeBoor U p (k + j) x := by
  have hw := forall₂_getElem? h.knots hU hp
  obtain ⟨e1, h2, h3, h4⟩ := hw.span h0 h1
  have hrow : s.ps.basis[d]? = some ((List.range (U.length - p - 1)).map (flBasis r U p)) := by
    rw [h.table]; simp [flTable, List.getElem?_zipWith, hU, hp]
  refine ⟨(List.range (p + 1)).map fun j => Fl.eval r (flBasis r U p (spanIx U x - p + j)) x, spanIx U x - p, ?_, by simp, ?_, by omega, ?_⟩
  · simp only [Fl.evalAllNonZero, getN_some hrow, getN_some hU, getN_some hp, fl_span hw h0 h1, ok_bind]
    apply buildList_eq
    intro j hj
    rw [show (spanIx U x : ℤ) - (p : ℤ) + (j : ℤ) = ((spanIx U x - p + j : ℕ) : ℤ) by omega, fl_getI_row (by omega)]
    rfl
  · rw [show spanIx U x - p + p = spanIx U x by omega]; exact h2
  · intro j hj
    have e : ((List.range (p + 1)).map fun j => Fl.eval r (flBasis r U p (spanIx U x - p + j)) x).getD j 0 =
        Fl.eval r (flBasis r U p (spanIx U x - p + j)) x := by
      rw [List.getD_eq_getElem?_getD, List.getElem?_map, List.getElem?_range (by omega)]; rfl
    rw [e]
    obtain ⟨k1, k2⟩ := flBasis_eval (r := r) hw.sorted hw.sep x p (spanIx U x - p + j) (by omega) (by
      intro hp; left
      rw [show spanIx U x - p + j = spanIx U x by omega]
      exact inSpan_lt h2)
    exact (k1.close k2).1

/-- B-splines: `Evaluate` returns the exact value up to `growth` times `Σ N_I |P_I|`. -/
theorem C70_bspline (r : Rounding K) {s : Spl K} (h : Fl.WF r s) (hb : IsBSpline s) {x : List K} (hx : InDomain s x) (dims : List ℕ)
    (hd : ∀ c ∈ dims, c < s.ph.dim) :
    ∃ v, Fl.evaluate r s x (zl dims) = .ok v ∧ List.Forall₂ (fun c a => |a - bsplineValue s x c| ≤
      growth r (basisSteps s.ps.degree + 1 + (s.ps.degree.map (· + 1)).prod) * tensorSum s x fun I => |cpt s I c|) dims v := by
  obtain ⟨v, e1, e2⟩ := fl_evalWith (r := r) h.knots hx (dims := zl dims) (f := Fl.evaluatedCP r s x) (m := basisSteps s.ps.degree + 1)
    (g := fun I c => dprod (basisFns s.ps.knots s.ps.degree x) I * cpt s I c.toNat)
    (e := fun I c => dprod (basisFns s.ps.knots s.ps.degree x) I * |cpt s I c.toNat|) (by
      intro J hJ c hc
      obtain ⟨c, hc', rfl⟩ := List.mem_map.1 hc
      have hI : InBox (npts s) _ := act_inBox h.knots hx hJ
      obtain ⟨b, b1, b2, b3⟩ := fl_basisProd (r := r) h.knots hx hJ (Near.refl 1 zero_le_one) zero_le_one
      rw [one_mul, zero_add] at b2
      rw [one_mul] at b3
      have hcp : s.controlPoint _ (c : ℤ) = .ok (cpt s _ c) := controlPoint_eq h.exact hI (hd c hc')
      have hn : s.ph.weights = none := hb
      simp only [Fl.evaluatedCP, hn, h.table, b1, hcp, ok_bind, pure_ok]
      exact ⟨_, rfl, ((b2.close b3).mul (Close.exact _)).rnd⟩)
  refine ⟨v, e1, ?_⟩
  rw [zl, List.forall₂_map_left_iff] at e2
  refine e2.imp fun c a hca => ?_
  simp only [Int.toNat_natCast] at hca
  rw [msum_active' h.knots (fun I => cpt s I c) hx, msum_active' h.knots (fun I => |cpt s I c|) hx] at hca
  exact hca.1

/-- NURBS with positive weights: the same with the rational basis functions. -/
theorem C70_nurbs (r : Rounding K) {s : Spl K} (h : Fl.WF r s) (hn : IsNurbs s) {x : List K} (hx : InDomain s x) (dims : List ℕ)
    (hd : ∀ c ∈ dims, c < s.ph.dim) :
    ∃ v, Fl.evaluate r s x (zl dims) = .ok v ∧ List.Forall₂ (fun c a => |a - nurbsValue s x c| ≤
      growth r (2 * basisSteps s.ps.degree + 4 + 2 * (s.ps.degree.map (· + 1)).prod) *
        (tensorSum s x (fun I => wgt s I * |cpt s I c|) / weightValue s x)) dims v := by
  have hpos : 0 < weightValue s x := weightValue_pos h.exact hx
  obtain ⟨ws, w1, w2⟩ := fl_weightSum h hx
  have hws := w2.pos hpos
  obtain ⟨w, hw⟩ := hn
  obtain ⟨v, e1, e2⟩ := fl_evalWith (r := r) h.knots hx (dims := zl dims) (f := Fl.evaluatedCP r s x)
    (m := 2 * basisSteps s.ps.degree + 4 + (actBox s.ps.degree).prod)
    (g := fun I c => dprod (basisFns s.ps.knots s.ps.degree x) I * (wgt s I * cpt s I c.toNat) * (1 / weightValue s x))
    (e := fun I c => dprod (basisFns s.ps.knots s.ps.degree x) I * (wgt s I * |cpt s I c.toNat|) * (1 / weightValue s x)) (by
      intro J hJ c hc
      obtain ⟨c, hc', rfl⟩ := List.mem_map.1 hc
      have hcd := hd c hc'
      have hI : InBox (npts s) _ := act_inBox h.knots hx hJ
      obtain ⟨b, b1, b2, b3⟩ := fl_basisProd (r := r) h.knots hx hJ (Near.refl 1 zero_le_one) zero_le_one
      rw [one_mul, zero_add] at b2
      rw [one_mul] at b3
      generalize hIe : List.zipWith (· + ·) J (offs s.ps.knots s.ps.degree x) = I at *
      have hwp : 0 < wgt s I := wgt_pos h.exact hI
      have hhom : Fl.homCP r s.ph (zl I) = .ok ((List.range s.ph.dim).map (fun c => r.rnd (cpt s I c * wgt s I)) ++ [wgt s I]) := by
        have hg : getI w (MIH.oneD s.ph.num (zl I)) = .ok (wgt s I) := by
          have := getWeight_eq h.exact hI
          have hw' : (exactOf s).ph.weights = some w := hw
          simp only [Phys.getWeight, hw'] at this
          exact this
        simp only [Fl.homCP, Phys.theWeights, hw, ok_bind, hg]
        rw [buildList_eq (g := fun c => r.rnd (cpt s I c * wgt s I))]
        · rfl
        · intro c hc
          have hd : ((s.ph.dim : ℤ) * MIH.oneD s.ph.num (zl I)).tdiv s.ph.dim = MIH.oneD s.ph.num (zl I) :=
            Int.mul_tdiv_cancel_left _ (by have := h.dim; omega)
          rw [hd, hg]
          have : getI s.ph.cps ((s.ph.dim : ℤ) * MIH.oneD s.ph.num (zl I) + (c : ℤ)) = .ok (cpt s I c) := by
            rw [h.num, oneD_zl]
            rw [show ((s.ph.dim : ℤ) * (lin (npts s) I : ℤ) + (c : ℤ)) = ((s.ph.dim * lin (npts s) I + c : ℕ) : ℤ) by push_cast; rfl]
            exact getI_getD (by rw [h.cps]; exact mul_add_lt (lin_lt hI) hc) 0
          simp only [this, ok_bind, pure_ok]
      have hne : ¬ (s.ph.dim : ℤ) = (c : ℤ) := by omega
      have hget : getI ((List.range s.ph.dim).map (fun c => r.rnd (cpt s I c * wgt s I)) ++ [wgt s I]) (c : ℤ) =
          .ok (r.rnd (cpt s I c * wgt s I)) := by
        rw [getI_nat, getN_of_lt (by simp; omega)]
        simp [List.getElem_append_left, hcd]
      simp only [Fl.evaluatedCP, hw, if_neg hne, h.table, b1, hhom, hget, w1, ok_bind, Fl.div, fdiv_ok hws.ne', pure_ok]
      refine ⟨_, rfl, ?_⟩
      have c1 := ((Close.exact (r := r) (cpt s I c)).mul ((Near.refl (r := r) (wgt s I) hwp.le).close hwp.le)).rnd
      have c2 := ((b2.close b3).mul c1).rnd
      have c3 := (c2.mul ((w2.inv hpos).close (by positivity))).rnd
      rw [mul_one_div] at c3
      simp only [Int.toNat_natCast]
      rw [mul_comm (wgt s I) (cpt s I c), mul_comm (wgt s I) |cpt s I c|]
      exact c3.mono (l := 2 * basisSteps s.ps.degree + 4 + (actBox s.ps.degree).prod) (by omega))
  refine ⟨v, e1, ?_⟩
  rw [zl, List.forall₂_map_left_iff] at e2
  refine e2.imp fun c a hca => ?_
  simp only [Int.toNat_natCast, msum_mul_right] at hca
  rw [msum_active' h.knots (fun I => wgt s I * cpt s I c) hx, msum_active' h.knots (fun I => wgt s I * |cpt s I c|) hx,
    mul_one_div, mul_one_div] at hca
  rw [show 2 * basisSteps s.ps.degree + 4 + (actBox s.ps.degree).prod + (actBox s.ps.degree).prod =
    2 * basisSteps s.ps.degree + 4 + 2 * (s.ps.degree.map (· + 1)).prod by simp only [actBox]; ring] at hca
  exact hca.1

/-- Derivatives of B-splines of any order: the error is relative to the sum in which all terms of the recursion are added. -/
theorem C70_derivative (r : Rounding K) {s : Spl K} (h : Fl.WF r s) (hb : IsBSpline s) {x : List K} (hx : InDomain s x) (dims : List ℕ)
    (hd : ∀ c ∈ dims, c < s.ph.dim) {k : List ℕ} (hk : k.length = s.ps.knots.length) :
    ∃ v, Fl.evaluateDerivative r s x (zl dims) (zl k) = .ok v ∧ List.Forall₂ (fun c a =>
      |a - tensorDerivSum s x k fun I => cpt s I c| ≤ growth r (basisSteps s.ps.degree + 1 + (s.ps.degree.map (· + 1)).prod) *
        msum (npts s) fun I => dprod (basisDerivMags s.ps.knots s.ps.degree x k) I * |cpt s I c|) dims v := by
  obtain ⟨v, e1, e2⟩ := fl_evalWith (r := r) h.knots hx (dims := zl dims) (f := Fl.evaluatedDerivCP r s x (zl k))
    (m := basisSteps s.ps.degree + 1)
    (g := fun I c => dprod (basisDerivFns s.ps.knots s.ps.degree x k) I * cpt s I c.toNat)
    (e := fun I c => dprod (basisDerivMags s.ps.knots s.ps.degree x k) I * |cpt s I c.toNat|) (by
      intro J hJ c hc
      obtain ⟨c, hc', rfl⟩ := List.mem_map.1 hc
      have hI : InBox (npts s) _ := act_inBox h.knots hx hJ
      obtain ⟨b, b1, b2⟩ := fl_basisDerivProd (r := r) h.knots hx hJ hk ((Near.refl 1 zero_le_one).close zero_le_one)
      rw [one_mul, one_mul, zero_add] at b2
      have hcp : s.controlPoint _ (c : ℤ) = .ok (cpt s _ c) := controlPoint_eq h.exact hI (hd c hc')
      have hn : s.ph.weights = none := hb
      simp only [Fl.evaluatedDerivCP, hn, h.table, b1, hcp, ok_bind, pure_ok]
      exact ⟨_, rfl, (b2.mul (Close.exact _)).rnd⟩)
  refine ⟨v, e1, ?_⟩
  rw [zl, List.forall₂_map_left_iff] at e2
  refine e2.imp fun c a hca => ?_
  simp only [Int.toNat_natCast] at hca
  rw [msum_active h.knots (fun I => cpt s I c) hx hk, msum_active_mag h.knots (fun I => |cpt s I c|) hx hk] at hca
  exact hca.1

/-- If all coordinates are at most `B` in absolute value then the error of `Evaluate` is at most `growth` times `B`. -/
theorem C70_bspline_uniform (r : Rounding K) {s : Spl K} (h : Fl.WF r s) (hb : IsBSpline s) {x : List K} (hx : InDomain s x)
    (dims : List ℕ) (hd : ∀ c ∈ dims, c < s.ph.dim) {B : K} (hB : ∀ c ∈ dims, ∀ I, InBox (npts s) I → |cpt s I c| ≤ B) :
    ∃ v, Fl.evaluate r s x (zl dims) = .ok v ∧ List.Forall₂ (fun c a => |a - bsplineValue s x c| ≤
      growth r (basisSteps s.ps.degree + 1 + (s.ps.degree.map (· + 1)).prod) * B) dims v := by
  obtain ⟨v, e1, e2⟩ := C70_bspline r h hb hx dims hd
  refine ⟨v, e1, ?_⟩
  refine List.Forall₂.imp ?_ (forall₂_mem e2)
  rintro c a ⟨hc, hca⟩
  refine hca.trans (mul_le_mul_of_nonneg_left ?_ ?_)
  · calc tensorSum s x (fun I => |cpt s I c|) ≤ tensorSum s x fun _ => B :=
          msum_le fun I hI => mul_le_mul_of_nonneg_left (hB c hc I hI) (tensor_nonneg h.knots hx hI)
      _ = B := by
          unfold tensorSum
          rw [msum_mul_right]
          have : msum (npts s) (fun I => dprod (basisFns s.ps.knots s.ps.degree x) I) = 1 := tensor_unity h.knots hx
          rw [this, one_mul]
  · have := r.one_le_pow (basisSteps s.ps.degree + 1 + (s.ps.degree.map (· + 1)).prod)
    unfold growth; unfold Rounding.t at this; linarith

/-- The rounding that does nothing. -/
def exactRounding (K : Type) [Field K] [LinearOrder K] [IsStrictOrderedRing K] : Rounding K :=
  ⟨id, 0, le_rfl, one_pos, fun _ _ h => h, fun _ => rfl, fun x => by simp, rfl⟩

theorem fl_exact_isLast : Fl.isLast (exactRounding K) = kvIsLast := rfl

theorem fl_exact_span : Fl.span (exactRounding K) = kvSpan := rfl

theorem fl_exact_create (U : List K) : ∀ p i, Fl.create (exactRounding K) U i p = Basis.create U i p := by
  intro p
  induction p with
  | zero => intro i; rfl
  | succ p ih => intro i; simp only [Fl.create, Basis.create, ih]; rfl

theorem fl_exact_eval : ∀ (b : Basis K) x, Fl.eval (exactRounding K) b x = b.eval x := by
  intro b
  induction b with
  | zero => intro x; rfl
  | node p s e l li ri a b iha ihb => intro x; simp only [Fl.eval, Basis.eval, iha, ihb]; rfl

theorem fl_exact_evalDeriv : ∀ (b : Basis K) x k, Fl.evalDeriv (exactRounding K) b x k = b.evalDeriv x k := by
  intro b
  induction b with
  | zero => intro x k; rfl
  | node p s e l li ri a b iha ihb =>
    intro x k
    simp only [Fl.evalDeriv, Basis.evalDeriv, iha, ihb, fl_exact_eval]; rfl

theorem fl_exact_table : ∀ (Us : List (List K)) ps, Fl.basisTable (exactRounding K) Us ps = PS.basisTable Us ps := by
  intro Us
  induction Us with
  | nil => intro ps; rfl
  | cons U Us ih =>
    intro ps
    cases ps with
    | nil => rfl
    | cons p ps => simp only [Fl.basisTable, PS.basisTable, ih, Fl.basisRow, PS.basisRow, fl_exact_create]

theorem fl_exact_firstNonZero : ∀ (Us : List (List K)) ps xs, Fl.firstNonZero (exactRounding K) Us ps xs = PS.firstNonZero Us ps xs := by
  intro Us
  induction Us with
  | nil => intro ps xs; rfl
  | cons U Us ih =>
    intro ps xs
    cases ps with
    | nil => rfl
    | cons p ps => cases xs with
      | nil => rfl
      | cons x xs => simp only [Fl.firstNonZero, PS.firstNonZero, ih, fl_exact_span]

theorem fl_exact_prod : ∀ (t : List (List (Basis K))) is xs v, Fl.basisProd (exactRounding K) t is xs v = PS.basisProd t is xs v := by
  intro t
  induction t with
  | nil => intro is xs v; simp [Fl.basisProd, PS.basisProd]
  | cons row t ih =>
    intro is xs v
    cases is with
    | nil => simp [Fl.basisProd, PS.basisProd]
    | cons i is => cases xs with
      | nil => simp [Fl.basisProd, PS.basisProd]
      | cons x xs => simp only [Fl.basisProd, PS.basisProd, ih, fl_exact_eval]; rfl

theorem fl_exact_derivProd : ∀ (t : List (List (Basis K))) is xs ks v,
    Fl.basisDerivProd (exactRounding K) t is xs ks v = PS.basisDerivProd t is xs ks v := by
  intro t
  induction t with
  | nil => intro is xs ks v; simp [Fl.basisDerivProd, PS.basisDerivProd]
  | cons row t ih =>
    intro is xs ks v
    cases is with
    | nil => simp [Fl.basisDerivProd, PS.basisDerivProd]
    | cons i is => cases xs with
      | nil => simp [Fl.basisDerivProd, PS.basisDerivProd]
      | cons x xs => cases ks with
        | nil => simp [Fl.basisDerivProd, PS.basisDerivProd]
        | cons k ks => simp only [Fl.basisDerivProd, PS.basisDerivProd, ih, fl_exact_evalDeriv]; rfl

theorem fl_exact_addEach (f : ℤ → M K) : ∀ dims v, Fl.addEach (exactRounding K) f dims v = Spl.addEach f dims v := by
  intro dims
  induction dims with
  | nil => intro v; rfl
  | cons c cs ih =>
    intro v
    cases v with
    | nil => rfl
    | cons a v => simp only [Fl.addEach, Spl.addEach, ih]; rfl

theorem fl_exact_evalWith (s : Spl K) (x : List K) (dims : List ℤ) (f : List ℤ → ℤ → M K) :
    Fl.evalWith (exactRounding K) s x dims f = s.evalWith x dims f := by
  simp only [Fl.evalWith, Spl.evalWith, fl_exact_firstNonZero, fl_exact_addEach]

/-- Without rounding the rounded model is the exact one, for all arguments: the constructors, `Evaluate`, and (B-splines)
`EvaluateDerivative`. -/
theorem C70_exact_arithmetic :
    (∀ knots degree points, Fl.newBSpline (exactRounding K) knots degree points = Spl.newBSpline knots degree points) ∧
    (∀ knots degree points weights, Fl.newNurbs (exactRounding K) knots degree points weights = Spl.newNurbs knots degree points weights) ∧
    (∀ s x dims, Fl.evaluate (exactRounding K) s x dims = s.evaluate x dims) ∧
    ∀ s x dims k, IsBSpline s → Fl.evaluateDerivative (exactRounding K) s x dims k = s.evaluateDerivative x dims k := by
  have hps : ∀ knots degree, Fl.newPS (exactRounding K) knots degree = PS.new knots degree := fun knots degree => by
    simp only [Fl.newPS, PS.new, fl_exact_table]
  have hcp : ∀ ps, Fl.copyPS (exactRounding K) ps = ps.copy := fun ps => by simp only [Fl.copyPS, PS.copy, fl_exact_table]
  refine ⟨?_, ?_, ?_, ?_⟩
  · intro knots degree points
    simp only [Fl.newBSpline, Spl.newBSpline, hps, hcp]
  · intro knots degree points weights
    simp only [Fl.newNurbs, Spl.newNurbs, hps, hcp]
  · intro s x dims
    have hws : Fl.evaluatedWeightSum (exactRounding K) s x = s.evaluatedWeightSum x := by
      simp only [Fl.evaluatedWeightSum, Spl.evaluatedWeightSum, Spl.weightSumWith, Fl.evaluatedWeight, Spl.evaluatedWeight,
        fl_exact_firstNonZero, fl_exact_prod, PS.getBasisFunctions]
      rfl
    have hhom : ∀ ix, Fl.homCP (exactRounding K) s.ph ix = s.ph.getHomCP ix := fun ix => rfl
    have hdiv : ∀ a b, Fl.div (exactRounding K) a b = fdiv a b := fun a b => by
      simp only [Fl.div]
      cases fdiv a b <;> rfl
    have hcpt : Fl.evaluatedCP (exactRounding K) s x = s.evaluatedCP x := by
      funext ix c
      simp only [Fl.evaluatedCP, Spl.evaluatedCP, fl_exact_prod, PS.getBasisFunctions, hws, hhom, hdiv]
      rfl
    simp only [Fl.evaluate, Spl.evaluate, fl_exact_evalWith, hcpt]
  · intro s x dims k hb
    have hn : s.ph.weights = none := hb
    have hcpt : Fl.evaluatedDerivCP (exactRounding K) s x k = s.evaluatedDerivCP x k := by
      funext ix c
      simp only [Fl.evaluatedDerivCP, Spl.evaluatedDerivCP, hn, fl_exact_derivProd, PS.getBasisFunctionDerivatives]
      rfl
    simp only [Fl.evaluateDerivative, Spl.evaluateDerivative, fl_exact_evalWith, hcpt]

/-- The constructors build a rounded object with the same data as in exact arithmetic. -/
theorem C70_constructors (r : Rounding K) {knots : List (List K)} {degree : List ℕ} {points : List (List K)} {weights : List K} {s : Spl K}
    (hs : WFSpl s) : (Spl.newBSpline knots degree points = .ok s → ∃ s', Fl.newBSpline r knots degree points = .ok s' ∧
      s'.ps.knots = s.ps.knots ∧ s'.ps.degree = s.ps.degree ∧ s'.ph = s.ph ∧ Fl.WF r s') ∧
    (Spl.newNurbs knots degree points weights = .ok s → ∃ s', Fl.newNurbs r knots degree points weights = .ok s' ∧
      s'.ps.knots = s.ps.knots ∧ s'.ps.degree = s.ps.degree ∧ s'.ph = s.ph ∧ Fl.WF r s') := by
  have hps : ∀ {tmp ps : PS K}, PS.new knots degree = .ok tmp → tmp.copy = .ok ps → s.ps = ps →
      Fl.newPS r knots degree = .ok ⟨knots, degree, flTable r knots degree⟩ ∧ ps.knots = knots ∧ ps.degree = degree ∧
      Fl.copyPS r ⟨knots, degree, flTable r knots degree⟩ = .ok ⟨knots, degree, flTable r knots degree⟩ := by
    intro tmp ps h1 h2 h3
    simp only [PS.new] at h1
    obtain ⟨_, c1, h1⟩ := bind_eq_ok.1 h1
    obtain ⟨b, c2, h1⟩ := bind_eq_ok.1 h1
    cases h1
    simp only [PS.copy] at h2
    obtain ⟨b', c3, h2⟩ := bind_eq_ok.1 h2
    cases h2
    have hk := hs.knots
    rw [h3] at hk
    have hsz := forall₂_size hk
    exact ⟨by simp only [Fl.newPS, c1, fl_basisTable_eq hsz, ok_bind, pure_ok], rfl, rfl,
      by simp only [Fl.copyPS, fl_basisTable_eq hsz, ok_bind, pure_ok]⟩
  have hwf : ∀ {ph : Phys K}, s.ps.knots = knots → s.ps.degree = degree → s.ph = ph →
      Fl.WF r ⟨⟨knots, degree, flTable r knots degree⟩, ph⟩ := by
    rintro ph rfl rfl rfl
    exact ⟨hs.knots, fl_basisTable_eq (forall₂_size hs.knots), hs.num, hs.dim, hs.cps, hs.weights⟩
  constructor
  · intro h
    simp only [Spl.newBSpline] at h
    obtain ⟨tmp, h1, h⟩ := bind_eq_ok.1 h
    obtain ⟨ps, h2, h⟩ := bind_eq_ok.1 h
    obtain ⟨ph, h3, h⟩ := bind_eq_ok.1 h
    cases h
    obtain ⟨e1, e2, e3, e4⟩ := hps h1 h2 rfl
    exact ⟨⟨⟨knots, degree, flTable r knots degree⟩, ph⟩, by simp only [Fl.newBSpline, e1, e4, h3, ok_bind, pure_ok], e2.symm, e3.symm, rfl, hwf e2 e3 rfl⟩
  · intro h
    simp only [Spl.newNurbs] at h
    obtain ⟨tmp, h1, h⟩ := bind_eq_ok.1 h
    obtain ⟨ps, h2, h⟩ := bind_eq_ok.1 h
    obtain ⟨ph, h3, h⟩ := bind_eq_ok.1 h
    cases h
    obtain ⟨e1, e2, e3, e4⟩ := hps h1 h2 rfl
    exact ⟨⟨⟨knots, degree, flTable r knots degree⟩, ph⟩, by simp only [Fl.newNurbs, e1, e4, h3, ok_bind, pure_ok], e2.symm, e3.symm, rfl, hwf e2 e3 rfl⟩

/-- Arithmetic of `double`, without overflow and underflow. -/
def doubleRounding : Rounding ℚ := binary ℚ 53 (by norm_num)

/-- A rounded object with `double` arithmetic: a curve of degree 1 on the knots 0, 0, 49, 49. -/
def flLine : Spl ℚ := ⟨⟨[[0, 0, 49, 49]], [1], flTable doubleRounding [[0, 0, 49, 49]] [1]⟩, ⟨1, [2], [1, 3], none⟩⟩

example : Fl.WF doubleRounding flLine ∧ IsBSpline flLine ∧ InDomain flLine [7] :=
  ⟨⟨.cons (by decide +kernel) .nil, fl_basisTable_eq (.cons (by decide +kernel) .nil), by decide +kernel, by decide +kernel,
    by decide +kernel, by simp [flLine]⟩, rfl, .cons (by decide +kernel) .nil⟩

/-- In `double` arithmetic the end points are not interpolated exactly: the value at the first knot is not the first control point,
because `49 * (1 / 49)` is rounded to a number below 1. -/
theorem C70_end_point_not_exact : Fl.newBSpline doubleRounding [[0, 0, 49, 49]] [1] [[1], [3]] = .ok flLine ∧
    Fl.evaluate doubleRounding flLine [0] [0] = .ok [1 - 1 / 2 ^ 53] ∧ bsplineValue flLine [0] 0 = 1 := by
  refine ⟨by decide +kernel, by decide +kernel, by decide +kernel⟩

end SplineLib
