import Verif.Core.IgaDeriv
import Verif.Spec.Examples
import Mathlib.Algebra.Order.Field.Rat

/-!
# C94: tangents at the corners of a spline
-/

namespace SplineLib
set_option linter.unusedSectionVars false
open Finset
variable {K : Type} [Field K] [LinearOrder K] [IsStrictOrderedRing K]

/-- The factor between the first derivative and the difference of the corner control point's neighbour and the corner control point: degree divided by
the length of the outermost span, negative at the end (`e = true`) of the direction. -/
def endSlope (U : List K) (p : ℕ) (e : Bool) : K :=
  if e then -(p / (lastKnot U - knot U (U.length - p - 2))) else p / (knot U (p + 1) - knot U 0)

/-- The neighbour of the corner control point in direction `d`. -/
def besideCorner (s : Spl K) (b : List Bool) (d : ℕ) : List ℕ :=
  (cornerIndex s b).set d (if b.getD d false then (npts s).getD d 0 - 2 else 1)

theorem coxDeriv_end {U : List K} {p : ℕ} (h : WFKnots U p) (he : ExactEnds U p) (e : Bool) {i : ℕ} (hi : i + p + 1 < U.length) :
    coxDeBoorDeriv U p 1 i (if e then lastKnot U else knot U 0) =
      endSlope U p e * ((if i = (if e then U.length - p - 1 - 2 else 1) then 1 else 0) - if i = (if e then U.length - p - 1 - 1 else 0) then 1 else 0) := by
  have hs := h.size
  cases p with
  | zero => cases e <;> simp [coxDeBoorDeriv, endSlope]
  | succ q =>
    have hz : ∀ j x, coxDeBoorDeriv U q 0 j x = coxDeBoor U q j x := fun j x => by cases q <;> rfl
    simp only [coxDeBoorDeriv, hz]
    cases e with
    | false =>
      have hf : ∀ j, j + q + 1 < U.length → coxDeBoor U q j (knot U 0) = if j = 1 then 1 else 0 := by
        intro j hj
        have e1 := h.first (q + 1) le_rfl
        have hsp : InSpan U (q + 1) (knot U 0) := Or.inl ⟨e1.le, by rw [← e1]; exact he.1⟩
        rw [cox_eq_Nb h.sorted (by omega) hsp hj]
        apply Nb_left _ q 1 (by omega)
        · intro j h1 h2; rw [ku_eq (by omega)]; exact h.first j h2
        · rw [ku_eq (by omega), ← e1]; exact he.1
      simp only [Bool.false_eq_true, if_false, endSlope]
      rw [hf i (by omega), hf (i + 1) (by omega)]
      have e2 := h.first 1 (by omega)
      rcases Nat.lt_or_ge i 1 with hc | hc
      · obtain rfl : i = 0 := by omega
        simp [e2, div_eq_mul_inv]
      · rcases Nat.lt_or_ge i 2 with hc2 | hc2
        · obtain rfl : i = 1 := by omega
          simp [e2, div_eq_mul_inv, show 1 + q + 1 = q + 2 by omega, show q + 1 + 1 = q + 2 by omega]
        · simp [show i ≠ 1 by omega, show i ≠ 0 by omega]
    | true =>
      have ek : ∀ j, U.length - (q + 1) - 2 < j → j < U.length → knot U j = lastKnot U := by
        intro j h1 h2
        have := h.last (U.length - 1 - j) (by omega)
        rwa [show U.length - 1 - (U.length - 1 - j) = j by omega] at this
      have hf : ∀ j, j + q + 1 < U.length → coxDeBoor U q j (lastKnot U) = if j = U.length - (q + 1) - 2 then 1 else 0 := by
        intro j hj
        have e1 := ek (U.length - (q + 1) - 2 + 1) (by omega) (by omega)
        have hsp : InSpan U (U.length - (q + 1) - 2) (lastKnot U) := Or.inr ⟨he.2, e1.symm, rfl⟩
        rw [cox_eq_Nb h.sorted (by omega) hsp hj]
        apply Nb_right _ q
        · intro j h1 h2; rw [ku_eq (by omega)]; exact ek j h1 (by omega)
        · rw [ku_eq (by omega)]; exact he.2
      simp only [if_true, endSlope]
      rw [hf i (by omega), hf (i + 1) (by omega)]
      by_cases hc : i = U.length - (q + 1) - 2
      · rw [if_pos hc, if_neg (show ¬ i + 1 = U.length - (q + 1) - 2 by omega), if_neg (show ¬ i = U.length - (q + 1) - 1 - 2 by omega),
          if_pos (show i = U.length - (q + 1) - 1 - 1 by omega), ek (i + q + 1) (by omega) (by omega), hc]
        push_cast
        simp [div_eq_mul_inv]
      · by_cases hc2 : i + 1 = U.length - (q + 1) - 2
        · rw [if_neg hc, if_pos hc2, if_pos (show i = U.length - (q + 1) - 1 - 2 by omega), if_neg (show ¬ i = U.length - (q + 1) - 1 - 1 by omega),
            ek (i + q + 2) (by omega) (by omega), hc2]
          push_cast
          simp [div_eq_mul_inv]
        · rw [if_neg hc, if_neg hc2, if_neg (show ¬ i = U.length - (q + 1) - 1 - 2 by omega), if_neg (show ¬ i = U.length - (q + 1) - 1 - 1 by omega)]
          simp

theorem corner_sum {Us : List (List K)} {ps : List ℕ} (h : List.Forall₂ WFKnots Us ps) (he : List.Forall₂ ExactEnds Us ps) {b : List Bool}
    (hb : b.length = Us.length) (F : List ℕ → K) :
    msum (List.zipWith (fun U p => U.length - p - 1) Us ps)
      (fun I => dprod (basisFns Us ps (List.zipWith (fun U e => if e then lastKnot U else knot U 0) Us b)) I * F I) =
    F (List.zipWith (fun n e => if e then n - 1 else 0) (List.zipWith (fun U p => U.length - p - 1) Us ps) b) := by
  have hI := corner_inBox h hb
  rw [msum_single hI]
  · rw [corner_dprod h he hb hI, if_pos rfl, one_mul]
  · intro J hJ hne
    rw [corner_dprod h he hb hJ, if_neg hne, zero_mul]

theorem sum_end {U : List K} {p : ℕ} (h : WFKnots U p) (he : ExactEnds U p) (e : Bool) (G : ℕ → K) :
    ∑ i ∈ range (U.length - p - 1), coxDeBoorDeriv U p 1 i (if e then lastKnot U else knot U 0) * G i =
      endSlope U p e * (G (if e then U.length - p - 1 - 2 else 1) - G (if e then U.length - p - 1 - 1 else 0)) := by
  have hs := h.size
  rcases Nat.eq_zero_or_pos p with rfl | hp
  · have : endSlope U 0 e = 0 := by cases e <;> simp [endSlope]
    rw [this, zero_mul]
    exact sum_eq_zero fun i _ => by simp [coxDeBoorDeriv]
  · have e1 : ∀ i ∈ range (U.length - p - 1), coxDeBoorDeriv U p 1 i (if e then lastKnot U else knot U 0) * G i =
        endSlope U p e * ((if i = (if e then U.length - p - 1 - 2 else 1) then G i else 0) - if i = (if e then U.length - p - 1 - 1 else 0) then G i else 0) := by
      intro i hi
      have := mem_range.1 hi
      rw [coxDeriv_end h he e (by omega), mul_assoc, sub_mul]
      simp only [ite_mul, one_mul, zero_mul]
    have m1 : (if e then U.length - p - 1 - 2 else 1) ∈ range (U.length - p - 1) := by rw [mem_range]; cases e <;> simp <;> omega
    have m2 : (if e then U.length - p - 1 - 1 else 0) ∈ range (U.length - p - 1) := by rw [mem_range]; cases e <;> simp <;> omega
    rw [sum_congr rfl e1, ← mul_sum, sum_sub_distrib, sum_ite_eq', sum_ite_eq', if_pos m1, if_pos m2]

theorem corner_derivSum {Us : List (List K)} {ps : List ℕ} (h : List.Forall₂ WFKnots Us ps) : List.Forall₂ ExactEnds Us ps → ∀ {b : List Bool} {d : ℕ} {U : List K} {p : ℕ}
    (_ : b.length = Us.length) (_ : Us[d]? = some U) (_ : ps[d]? = some p) (F : List ℕ → K),
    msum (List.zipWith (fun U p => U.length - p - 1) Us ps)
      (fun I => dprod (basisDerivFns Us ps (List.zipWith (fun U e => if e then lastKnot U else knot U 0) Us b) (Iga.unitIx Us.length d)) I * F I) =
    endSlope U p (b.getD d false) *
      (F ((List.zipWith (fun n e => if e then n - 1 else 0) (List.zipWith (fun U p => U.length - p - 1) Us ps) b).set d
          (if b.getD d false then (List.zipWith (fun U p => U.length - p - 1) Us ps).getD d 0 - 2 else 1)) -
        F (List.zipWith (fun n e => if e then n - 1 else 0) (List.zipWith (fun U p => U.length - p - 1) Us ps) b)) := by
  induction h with
  | nil => intro _ b d U p _ hU; simp at hU
  | @cons U0 p0 Us ps h1 h2 ih =>
    intro he b d U p hb hU hp F
    cases he with
    | cons he hes =>
      cases b with
      | nil => simp at hb
      | cons e b =>
        have hb' : b.length = Us.length := by simpa using hb
        cases d with
        | zero =>
          obtain rfl : U0 = U := by simpa using hU
          obtain rfl : p0 = p := by simpa using hp
          have hrep : ∀ x, basisDerivFns Us ps x (List.replicate Us.length 0) = basisFns Us ps x := fun x => by
            rw [← basisDerivFns_zero, List.map_const']
          simp only [List.length_cons, Iga.unitIx_zero, List.zipWith_cons_cons, basisDerivFns, msum, dprod, hrep, mul_assoc, msum_mul_left]
          have : ∀ i, msum (List.zipWith (fun U p => U.length - p - 1) Us ps) (fun I =>
              dprod (basisFns Us ps (List.zipWith (fun U e => if e then lastKnot U else knot U 0) Us b)) I * F (i :: I)) = _ :=
            fun i => corner_sum h2 hes hb' fun I => F (i :: I)
          simp only [this]
          exact sum_end h1 he e _
        | succ d =>
          simp only [List.length_cons, Iga.unitIx_succ, List.zipWith_cons_cons, basisDerivFns, msum, dprod, mul_assoc, msum_mul_left, List.set_cons_succ,
            List.getD_cons_succ]
          have : ∀ i, msum (List.zipWith (fun U p => U.length - p - 1) Us ps) (fun I => dprod (basisDerivFns Us ps
              (List.zipWith (fun U e => if e then lastKnot U else knot U 0) Us b) (Iga.unitIx Us.length d)) I * F (i :: I)) = _ :=
            fun i => ih hes hb' (by simpa using hU) (by simpa using hp) fun I => F (i :: I)
          simp only [this]
          have hz : ∀ i x, coxDeBoorDeriv U0 p0 0 i x = coxDeBoor U0 p0 i x := fun i x => by cases p0 <;> rfl
          have hc := corner_sum (Us := [U0]) (ps := [p0]) (.cons h1 .nil) (.cons he .nil) (b := [e]) rfl
          simp only [List.zipWith_cons_cons, List.zipWith_nil_left, msum, basisFns, dprod, mul_one] at hc
          simp only [hz]
          exact hc fun I => endSlope U p (b.getD d false) *
            (F (I.headD 0 :: (List.zipWith (fun n e => if e then n - 1 else 0) (List.zipWith (fun U p => U.length - p - 1) Us ps) b).set d
                (if b.getD d false then (List.zipWith (fun U p => U.length - p - 1) Us ps).getD d 0 - 2 else 1)) -
              F (I.headD 0 :: List.zipWith (fun n e => if e then n - 1 else 0) (List.zipWith (fun U p => U.length - p - 1) Us ps) b))

/-- **C94** At a corner of the parameter range, the first derivative of a B-spline in direction `d` is the difference of the corner control point and its
neighbour, times degree divided by length of the outermost span. -/
theorem C94_bspline {s : Spl K} (h : WFSpl s) (hk : IsBSpline s) (he : List.Forall₂ ExactEnds s.ps.knots s.ps.degree) {b : List Bool}
    (hb : b.length = s.ps.knots.length) {d : ℕ} {U : List K} {p : ℕ} (hU : s.ps.knots[d]? = some U) (hp : s.ps.degree[d]? = some p) (dims : List ℕ)
    (hd : ∀ c ∈ dims, c < s.ph.dim) :
    s.evaluateDerivative (cornerParam s b) (zl dims) (zl ((List.replicate s.ps.knots.length 0).set d 1)) =
      .ok (dims.map fun c => endSlope U p (b.getD d false) * (cpt s (besideCorner s b d) c - cpt s (cornerIndex s b) c)) := by
  have hx : InDomain s (cornerParam s b) := corner_dom h.knots hb
  rw [evaluateDerivative_bspline h hk hx dims hd (by simp)]
  congr 1
  exact List.map_congr_left fun c _ => corner_derivSum h.knots he hb hU hp _

/-- **C94** The same for NURBS, with the quotient of the two weights as additional factor. -/
theorem C94_nurbs {s : Spl K} (h : WFSpl s) (hk : IsNurbs s) (he : List.Forall₂ ExactEnds s.ps.knots s.ps.degree) {b : List Bool}
    (hb : b.length = s.ps.knots.length) {d : ℕ} {U : List K} {p : ℕ} (hU : s.ps.knots[d]? = some U) (hp : s.ps.degree[d]? = some p) (dims : List ℕ)
    (hd : ∀ c ∈ dims, c < s.ph.dim) :
    s.evaluateDerivative (cornerParam s b) (zl dims) (zl ((List.replicate s.ps.knots.length 0).set d 1)) =
      .ok (dims.map fun c => endSlope U p (b.getD d false) * (wgt s (besideCorner s b d) / wgt s (cornerIndex s b)) *
        (cpt s (besideCorner s b d) c - cpt s (cornerIndex s b) c)) := by
  have hx : InDomain s (cornerParam s b) := corner_dom h.knots hb
  rw [evaluateDerivative_nurbs h hk hx dims hd (by simp)]
  congr 1
  refine List.map_congr_left fun c _ => ?_
  have hdl : d < s.ps.knots.length := lt_of_some hU
  have hsum : ∀ a : List ℕ → K, tensorSum s (cornerParam s b) a = a (cornerIndex s b) := fun a => corner_sum h.knots he hb a
  have hder : ∀ a : List ℕ → K, tensorDerivSum s (cornerParam s b) (Iga.unitIx s.ps.knots.length d) a =
      endSlope U p (b.getD d false) * (a (besideCorner s b d) - a (cornerIndex s b)) := fun a => corner_derivSum h.knots he hb hU hp a
  have hW : weightValue s (cornerParam s b) = wgt s (cornerIndex s b) := hsum _
  have hw0 : wgt s (cornerIndex s b) ≠ 0 := (wgt_pos h (corner_inBox h.knots hb)).ne'
  have e1 : ∀ I, ratBasis s (cornerParam s b) ((List.replicate s.ps.knots.length 0).set d 1) I * cpt s I c =
      (dprod (basisDerivFns s.ps.knots s.ps.degree (cornerParam s b) (Iga.unitIx s.ps.knots.length d)) I * (wgt s I * cpt s I c) -
        dprod (basisFns s.ps.knots s.ps.degree (cornerParam s b)) I * (wgt s I * cpt s I c) *
          (tensorDerivSum s (cornerParam s b) (Iga.unitIx s.ps.knots.length d) (wgt s) / weightValue s (cornerParam s b))) / weightValue s (cornerParam s b) := by
    intro I
    have := Iga.ratBasis_unit s (cornerParam s b) hdl I
    unfold Iga.unitIx at this
    rw [this, Iga.ratFn]
    unfold Iga.unitIx
    ring
  simp only [e1]
  rw [msum_div, msum_sub, msum_mul_right]
  have f1 := hder fun I => wgt s I * cpt s I c
  have f2 := hsum fun I => wgt s I * cpt s I c
  unfold tensorDerivSum at f1
  unfold tensorSum at f2
  rw [f1, f2, hder, hW]
  field_simp
  ring

/-- Satisfiable: both ends of a curve. -/
example : exCurve.evaluateDerivative [0] [0, 1] [1] = .ok [4, 8] ∧ exCurve.evaluateDerivative [1] [0, 1] [1] = .ok [4, -8] := by
  have he : List.Forall₂ ExactEnds exCurve.ps.knots exCurve.ps.degree := .cons (by decide +kernel) .nil
  have h1 := C94_bspline exCurve_wf rfl he (b := [false]) rfl (d := 0) (U := [0, 0, 0, 1/2, 1, 1, 1]) (p := 2) rfl rfl [0, 1] (by decide)
  have h2 := C94_bspline exCurve_wf rfl he (b := [true]) rfl (d := 0) (U := [0, 0, 0, 1/2, 1, 1, 1]) (p := 2) rfl rfl [0, 1] (by decide)
  exact ⟨h1.trans (by decide +kernel), h2.trans (by decide +kernel)⟩

/-- Satisfiable: a corner of a rational surface. -/
example : exNurbsSurface.evaluateDerivative [1, -1] [0] [0, 1] = .ok (([0] : List ℕ).map fun c =>
    endSlope [-1, -1, 3, 3] 1 false * (wgt exNurbsSurface [3, 1] / wgt exNurbsSurface [3, 0]) * (cpt exNurbsSurface [3, 1] c - cpt exNurbsSurface [3, 0] c)) :=
  C94_nurbs exNurbsSurface_wf ⟨_, rfl⟩ (.cons (by decide +kernel) (.cons (by decide +kernel) .nil)) (b := [true, false]) rfl (d := 1) (U := [-1, -1, 3, 3]) (p := 1)
    rfl rfl [0] (by decide)

end SplineLib
