import Verif.Core.Interpolation
import Verif.Props.KnotVector
import Verif.Core.EvalProps
import Mathlib.Data.List.GetD
import Mathlib.Algebra.Order.Field.Rat

/-!
# C87: interpolation

The knot vector that is built from parameters by averaging belongs to a solvable interpolation problem: for any points there is exactly one B-spline
with these knots that runs through the points at the parameters. In general this is so if and only if no basis function vanishes at the parameter
with the same index.
-/

namespace SplineLib
set_option linter.unusedSectionVars false
open Finset
variable {K : Type} [Field K] [LinearOrder K] [IsStrictOrderedRing K]

/-- `s` is a B-spline curve with knots `U` and degree `p` in space of dimension `dim` that has the points `Q` at the parameters `t`. -/
structure Interpolates (U : List K) (p dim : ℕ) (t : ℕ → K) (Q : ℕ → List K) (s : Spl K) : Prop where
  wf : WFSpl s
  bspline : IsBSpline s
  knots : s.ps.knots = [U]
  degree : s.ps.degree = [p]
  dimension : s.ph.dim = dim
  points : ∀ j < U.length - p - 1, s.evaluate [t j] (zl (List.range dim)) = .ok (Q j)

/-- The curve with control point coordinates `C i c`. -/
def curveOf (U : List K) (p dim : ℕ) (C : ℕ → ℕ → K) : Spl K where
  ps := { knots := [U], degree := [p], basis := mkTable [U] [p] }
  ph := { dim := dim, num := zl [U.length - p - 1], cps := (List.range (dim * (U.length - p - 1))).map fun q => C (q / dim) (q % dim), weights := none }

theorem curveOf_wf {U : List K} {p dim : ℕ} (h : WFKnots U p) (hd : 0 < dim) (C : ℕ → ℕ → K) : WFSpl (curveOf U p dim C) where
  knots := .cons h .nil
  basis := basisTable_eq (.cons (by have := h.size; omega) .nil)
  num := rfl
  dim := hd
  cps := by simp [curveOf, npts]
  weights := by simp [curveOf]

theorem curveOf_cpt {U : List K} {p dim : ℕ} (C : ℕ → ℕ → K) {i c : ℕ} (hi : i < U.length - p - 1) (hc : c < dim) :
    cpt (curveOf U p dim C) [i] c = C i c := by
  have hlt : dim * i + c < dim * (U.length - p - 1) := by
    have : dim * (i + 1) ≤ dim * (U.length - p - 1) := Nat.mul_le_mul_left dim hi
    rw [Nat.mul_succ] at this
    omega
  have e1 : (dim * i + c) / dim = i := by
    rw [Nat.mul_add_div (by omega), Nat.div_eq_of_lt hc, Nat.add_zero]
  have e2 : (dim * i + c) % dim = c := by rw [Nat.mul_add_mod, Nat.mod_eq_of_lt hc]
  simp [cpt, curveOf, lin, npts, hlt, e1, e2]

theorem bspline_curve {s : Spl K} {U : List K} {p : ℕ} (hU : s.ps.knots = [U]) (hp : s.ps.degree = [p]) (x : K) (c : ℕ) :
    bsplineValue s [x] c = ∑ i ∈ range (U.length - p - 1), coxDeBoor U p i x * cpt s [i] c := by
  simp [bsplineValue, tensorSum, npts, hU, hp, msum, dprod, basisFns]

/-- What interpolation means for the coordinates of the control points. -/
theorem interpolates_iff {U : List K} {p dim : ℕ} {t : ℕ → K} {Q : ℕ → List K} {s : Spl K} (hwf : WFSpl s) (hb : IsBSpline s) (hU : s.ps.knots = [U])
    (hp : s.ps.degree = [p]) (hd : s.ph.dim = dim) (hdom : ∀ j < U.length - p - 1, knot U 0 ≤ t j ∧ t j ≤ lastKnot U)
    (hQ : ∀ j < U.length - p - 1, (Q j).length = dim) :
    (∀ j < U.length - p - 1, s.evaluate [t j] (zl (List.range dim)) = .ok (Q j)) ↔
      ∀ c < dim, ∀ j : Fin (U.length - p - 1), collocation U p t (fun i => cpt s [i] c) j = (Q j).getD c 0 := by
  have ev : ∀ j < U.length - p - 1, s.evaluate [t j] (zl (List.range dim)) = .ok ((List.range dim).map (bsplineValue s [t j])) := fun j hj =>
    evaluate_bspline hwf hb (by unfold InDomain; rw [hU]; exact .cons (hdom j hj) .nil) _ (by rw [hd]; simp)
  have key : ∀ c (j : Fin (U.length - p - 1)), collocation U p t (fun i => cpt s [i] c) j = bsplineValue s [t j] c := by
    intro c j
    rw [collocation_apply, bspline_curve hU hp, ← Fin.sum_univ_eq_sum_range (fun i => coxDeBoor U p i (t j) * cpt s [i] c)]
  constructor
  · intro h c hc j
    have e := Except.ok.inj ((ev j j.2).symm.trans (h j j.2))
    rw [key, ← e]
    simp [hc]
  · intro h j hj
    rw [ev j hj]
    congr 1
    refine List.ext_getElem (by simp [hQ j hj]) fun c h1 h2 => ?_
    have hc : c < dim := by simpa using h1
    have := h c hc ⟨j, hj⟩
    rw [key] at this
    simp only [List.getElem_map, List.getElem_range]
    rw [this, List.getD_eq_getElem _ _ h2]

theorem interpolates_ext {U : List K} {p : ℕ} {s s' : Spl K} (h : WFSpl s) (h' : WFSpl s') (hU : s.ps.knots = [U]) (hU' : s'.ps.knots = [U])
    (hp : s.ps.degree = [p]) (hp' : s'.ps.degree = [p]) (hb : IsBSpline s) (hb' : IsBSpline s') (hd : s.ph.dim = s'.ph.dim)
    (hc : ∀ i < U.length - p - 1, ∀ c < s.ph.dim, cpt s [i] c = cpt s' [i] c) : s = s' := by
  have hn : npts s = [U.length - p - 1] := by simp [npts, hU, hp]
  have hn' : npts s' = [U.length - p - 1] := by simp [npts, hU', hp']
  have hcps : s.ph.cps = s'.ph.cps := by
    have l1 := h.cps
    have l2 := h'.cps
    rw [hn] at l1
    rw [hn', ← hd] at l2
    simp only [List.prod_cons, List.prod_nil, mul_one] at l1 l2
    refine List.ext_getElem (by rw [l1, l2]) fun q h1 h2 => ?_
    have hpos := h.dim
    have hq : q / s.ph.dim < U.length - p - 1 := Nat.div_lt_of_lt_mul (by rw [← l1]; exact h1)
    have := hc (q / s.ph.dim) hq (q % s.ph.dim) (Nat.mod_lt _ hpos)
    unfold cpt at this
    rw [hn, hn', ← hd] at this
    simp only [lin, mul_zero, add_zero, Nat.div_add_mod] at this
    rw [List.getD_eq_getElem _ _ h1, List.getD_eq_getElem _ _ h2] at this
    exact this
  have hb1 := h.wfps.table
  have hb2 := h'.wfps.table
  have hnum := h.num
  have hnum' := h'.num
  rw [hn] at hnum
  rw [hn'] at hnum'
  have w1 : s.ph.weights = none := hb
  have w2 : s'.ph.weights = none := hb'
  obtain ⟨⟨k1, d1, b1⟩, ⟨a1, a2, a3, a4⟩⟩ := s
  obtain ⟨⟨k2, d2, b2⟩, ⟨c1, c2, c3, c4⟩⟩ := s'
  dsimp only at *
  subst hU hU' hp hp' hcps hd w1 w2 hnum hnum'
  rw [hb1, hb2]

/-- **C87** Let `t` be increasing parameters in the range of the knots, one for every control point. For all points there is exactly one B-spline curve
with the given knots and degree that has these points at the parameters, if and only if no basis function vanishes at the parameter with the same
index. -/
theorem C87_unique_iff {U : List K} {p : ℕ} (h : WFKnots U p) {t : ℕ → K} (ht : ∀ j, j + 1 < U.length - p - 1 → t j < t (j + 1))
    (hdom : ∀ j < U.length - p - 1, knot U 0 ≤ t j ∧ t j ≤ lastKnot U) :
    (∀ (dim : ℕ) (Q : ℕ → List K), 0 < dim → (∀ j < U.length - p - 1, (Q j).length = dim) → ∃! s, Interpolates U p dim t Q s) ↔
      ∀ j < U.length - p - 1, coxDeBoor U p j (t j) ≠ 0 := by
  constructor
  · intro hs
    refine collocation_necessary h ht hdom fun d => ?_
    obtain ⟨s, hi, -⟩ := hs 1 (fun j => [if hj : j < U.length - p - 1 then d ⟨j, hj⟩ else 0]) one_pos (by simp)
    have := (interpolates_iff hi.wf hi.bspline hi.knots hi.degree hi.dimension hdom (by simp)).1 hi.points 0 one_pos
    exact ⟨_, funext fun j => by rw [this j, dif_pos j.2]; rfl⟩
  · intro hsw dim Q hd hQ
    obtain ⟨hinj, hsurj⟩ := collocation_bijective h ht hdom hsw
    choose C hC using fun c : ℕ => hsurj fun j => (Q j).getD c 0
    refine ⟨curveOf U p dim fun i c => if hi : i < U.length - p - 1 then C c ⟨i, hi⟩ else 0, ?_, ?_⟩
    · have hw := curveOf_wf h hd fun i c => if hi : i < U.length - p - 1 then C c ⟨i, hi⟩ else 0
      refine ⟨hw, rfl, rfl, rfl, rfl, (interpolates_iff hw rfl rfl rfl rfl hdom hQ).2 fun c hc j => ?_⟩
      rw [show (fun i : Fin (U.length - p - 1) => cpt (curveOf U p dim fun i c => if hi : i < U.length - p - 1 then C c ⟨i, hi⟩ else 0) [(i : ℕ)] c) =
        C c from funext fun i => by rw [curveOf_cpt (dim := dim) _ i.2 hc, dif_pos i.2], hC]
    · intro s hi
      have hw := curveOf_wf h hd fun i c => if hi : i < U.length - p - 1 then C c ⟨i, hi⟩ else 0
      refine interpolates_ext hi.wf hw hi.knots rfl hi.degree rfl hi.bspline rfl hi.dimension fun i hin c hc => ?_
      rw [hi.dimension] at hc
      have h1 := (interpolates_iff hi.wf hi.bspline hi.knots hi.degree hi.dimension hdom hQ).1 hi.points c hc
      have : (fun i : Fin (U.length - p - 1) => cpt s [(i : ℕ)] c) = C c := hinj (by rw [hC]; exact funext h1)
      rw [curveOf_cpt _ hin hc, dif_pos hin]
      exact congrFun this ⟨i, hin⟩

theorem windowAverage_lt {c : List K} {p i : ℕ} (hp : 0 < p) {b : K} (hb : ∀ j < p, knot c (i + j) < b) : windowAverage c p i < b := by
  have hp' : (0 : K) < p := Nat.cast_pos.2 hp
  rw [windowAverage, div_lt_iff₀ hp']
  calc ∑ j ∈ range p, knot c (i + j) < ∑ _j ∈ range p, b := sum_lt_sum_of_nonempty (by simpa using hp.ne') fun j hj => hb j (mem_range.1 hj)
    _ = b * p := by simp [mul_comm]

theorem lt_windowAverage {c : List K} {p i : ℕ} (hp : 0 < p) {b : K} (hb : ∀ j < p, b < knot c (i + j)) : b < windowAverage c p i := by
  have hp' : (0 : K) < p := Nat.cast_pos.2 hp
  rw [windowAverage, lt_div_iff₀ hp']
  calc b * p = ∑ _j ∈ range p, b := by simp [mul_comm]
    _ < ∑ j ∈ range p, knot c (i + j) := sum_lt_sum_of_nonempty (by simpa using hp.ne') fun j hj => hb j (mem_range.1 hj)

theorem windowAverage_step {c : List K} {p i : ℕ} (hp : 0 < p) {e : K} (h : ∀ j < p, knot c (i + j) + e ≤ knot c (i + 1 + j)) :
    windowAverage c p i + e ≤ windowAverage c p (i + 1) := by
  have hp' : (0 : K) < p := Nat.cast_pos.2 hp
  rw [windowAverage, windowAverage, ← sub_nonneg, ← sub_sub, ← sub_div, ← sum_sub_distrib, sub_nonneg, le_div_iff₀ hp']
  calc e * p = ∑ _j ∈ range p, e := by simp [mul_comm]
    _ ≤ _ := sum_le_sum fun j hj => by have := h j (mem_range.1 hj); linarith

theorem separated_of_steps {U : List K} (hs : SortedKnots U) (h : ∀ i, i + 1 < U.length → knot U i < knot U (i + 1) → kEps K ≤ knot U (i + 1) - knot U i) :
    Separated U := by
  have key : ∀ d i, i + d < U.length → knot U i < knot U (i + d) → kEps K ≤ knot U (i + d) - knot U i := by
    intro d
    induction d with
    | zero => intro i _ hc; exact absurd hc (lt_irrefl _)
    | succ d ih =>
      intro i hi hlt
      have m1 : knot U i ≤ knot U (i + d) := hs.mono (by omega) (by omega)
      have m2 : knot U (i + d) ≤ knot U (i + (d + 1)) := hs.mono (by omega) (by omega)
      rcases m1.lt_or_eq with g | g
      · have := ih i (by omega) g; linarith
      · rw [g] at hlt ⊢; exact h (i + d) (by omega) hlt
  intro x hx y hy hxy
  obtain ⟨i, hi, rfl⟩ := List.mem_iff_getElem.1 hx
  obtain ⟨j, hj, rfl⟩ := List.mem_iff_getElem.1 hy
  have ei : knot U i = U[i] := List.getD_eq_getElem _ _ hi
  have ej : knot U j = U[j] := List.getD_eq_getElem _ _ hj
  rw [← ei, ← ej] at hxy ⊢
  have hij : i < j := by
    by_contra hc
    have := hs.mono (i := j) (j := i) (by omega) hi
    linarith
  have := key (j - i) i (by omega)
  rw [show i + (j - i) = j by omega] at this
  exact this hxy

/-- **C87** For parameters that start at 0 and increase by at least `kEpsilon` each, the knot vector built by averaging is well-formed and makes the
interpolation problem at these parameters uniquely solvable. -/
theorem C87_averaged {c : List K} {p : ℕ} (hp : 1 ≤ p) (hn : p + 1 ≤ c.length) (hg : ∀ j, j + 1 < c.length → knot c j + kEps K ≤ knot c (j + 1))
    (h0 : knot c 0 = 0) :
    ∃ U, kvAveraged c p c.length = .ok U ∧ WFKnots U p ∧ U.length - p - 1 = c.length ∧
      ∀ (dim : ℕ) (Q : ℕ → List K), 0 < dim → (∀ j < c.length, (Q j).length = dim) → ∃! s, Interpolates U p dim (knot c) Q s := by
  have heps := kEps_pos (K := K)
  have hs : ∀ j, j + 1 < c.length → knot c j < knot c (j + 1) := fun j hj => by have := hg j hj; linarith
  have hlt : ∀ d i, i + d + 1 < c.length → knot c i < knot c (i + d + 1) := by
    intro d
    induction d with
    | zero => intro i hi; exact hs i hi
    | succ d ih => intro i hi; exact (ih i (by omega)).trans (hs _ hi)
  have hlt' : ∀ i j, i < j → j < c.length → knot c i < knot c j := fun i j h1 h2 => by
    have := hlt (j - i - 1) i (by omega)
    rwa [show i + (j - i - 1) + 1 = j by omega] at this
  have hsort : SortedKnots c := by
    unfold SortedKnots
    rw [List.pairwise_iff_getElem]
    intro i j hi hj hij
    have := hlt' i j hij hj
    rw [knot, knot, List.getD_eq_getElem _ _ hi, List.getD_eq_getElem _ _ hj] at this
    exact this.le
  obtain ⟨heq, hU⟩ := C45_averaged c p c.length hp hn le_rfl hsort h0
  refine ⟨_, heq, ?_⟩
  obtain ⟨u1, u2, u3, u4⟩ := hU _ heq
  set U := List.replicate (p + 1) 0 ++ ((List.range (c.length - 1 - p)).map fun i => windowAverage c p (i + 1)) ++ List.replicate (p + 1) (lastKnot c) with hUdef
  have hne : U ≠ [] := by intro e; rw [e] at u2; simp at u2
  have hlast : lastKnot U = lastKnot c := by have := u4 0 (Nat.zero_le _); simpa [lastKnot] using this
  have hfirst : knot U 0 = 0 := u3 0 (Nat.zero_le _)
  have hlc : lastKnot c = knot c (c.length - 1) := rfl
  have hnum : U.length - p - 1 = c.length := by omega
  have hmid : ∀ j, p < j → j < c.length → knot U j = windowAverage c p (j - p) := by
    intro j h1 h2
    rw [knot, hUdef, List.getD_append _ _ _ _ (by simp; omega), List.getD_append_right _ _ _ _ (by simp; omega)]
    simp only [List.length_replicate]
    rw [List.getD_eq_getElem _ _ (by simp; omega)]
    simp only [List.getElem_map, List.getElem_range]
    congr 1
    omega
  have hend : ∀ j, c.length ≤ j → j < U.length → knot U j = lastKnot c := by
    intro j h1 h2
    have := u4 (U.length - 1 - j) (by omega)
    rwa [show U.length - 1 - (U.length - 1 - j) = j by omega] at this
  have hsep : Separated U := by
    refine separated_of_steps u1 fun i hi hlt => ?_
    rcases Nat.lt_or_ge i p with g | g
    · rw [u3 i (by omega), u3 (i + 1) (by omega)] at hlt
      exact absurd hlt (lt_irrefl _)
    rcases Nat.lt_or_ge i c.length with g1 | g1
    · rcases Nat.lt_or_ge (i + 1) c.length with g2 | g2
      · rw [hmid (i + 1) (by omega) g2]
        rcases Nat.eq_or_lt_of_le g with rfl | g3
        · rw [u3 p le_rfl, sub_zero, show p + 1 - p = 1 by omega]
          refine le_windowAverage (by omega) fun l hl => ?_
          have := hg l (by omega)
          have := hsort.first_le (i := l) (by omega)
          rw [show 1 + l = l + 1 by omega]
          linarith
        · rw [hmid i g3 g1, show i + 1 - p = i - p + 1 by omega]
          have := windowAverage_step (c := c) (p := p) (i := i - p) (by omega) (e := kEps K) fun l hl => by
            have := hg (i - p + l) (by omega)
            rwa [show i - p + 1 + l = i - p + l + 1 by omega]
          linarith
      · have e1 : i = c.length - 1 := by omega
        rw [hend (i + 1) (by omega) hi, hlc]
        have hb : knot c (c.length - 2) + kEps K ≤ knot c (c.length - 1) := by
          have := hg (c.length - 2) (by omega)
          rwa [show c.length - 2 + 1 = c.length - 1 by omega] at this
        have : knot U i ≤ knot c (c.length - 2) := by
          rcases Nat.eq_or_lt_of_le g with e | g3
          · rw [← e, u3 p le_rfl, ← h0]; exact hsort.first_le (by omega)
          · rw [hmid i g3 g1]
            exact windowAverage_le (by omega) fun l hl => hsort.mono (by omega) (by omega)
        linarith
    · rw [hend i g1 (by omega), hend (i + 1) (by omega) hi] at hlt
      exact absurd hlt (lt_irrefl _)
  have hw : WFKnots U p := by
    refine ⟨u1, by omega, fun j hj => by rw [u3 j hj, hfirst], fun j hj => by rw [u4 j hj, hlast], ?_, hsep⟩
    rw [hfirst, hlast, ← h0, hlc]
    exact hlt' 0 _ (by omega) (by omega)
  -- every parameter is inside the support of its function
  have hlow : ∀ j, 0 < j → j < c.length → knot U j < knot c j := by
    intro j h1 h2
    rcases Nat.lt_or_ge p j with g | g
    · rw [hmid j g h2]
      exact windowAverage_lt (by omega) fun l hl => hlt' _ _ (by omega) h2
    · rw [u3 j g, ← h0]
      exact hlt' 0 j h1 h2
  have hup : ∀ j, j + 1 < c.length → knot c j < knot U (j + p + 1) := by
    intro j h1
    rcases Nat.lt_or_ge (j + p + 1) c.length with g | g
    · rw [hmid _ (by omega) g]
      exact lt_windowAverage (by omega) fun l hl => hlt' _ _ (by omega) (by omega)
    · rw [hend _ g (by omega), hlc]
      exact hlt' _ _ (by omega) (by omega)
  have hsw : ∀ j < U.length - p - 1, coxDeBoor U p j (knot c j) ≠ 0 := by
    intro j hj
    rcases Nat.eq_zero_or_pos j with rfl | h1
    · have := hup 0 (by omega)
      rw [h0, ← hfirst, cox_first hw (by rw [u3 p le_rfl, ← h0]; simpa [Nat.zero_add] using this) (by omega), if_pos rfl]
      exact one_ne_zero
    · rcases Nat.lt_or_ge (j + 1) c.length with g | g
      · exact (cox_pos hw (by omega) (hlow j h1 (by omega)) (hup j g)).ne'
      · have hj' : j = c.length - 1 := by omega
        have := hlow j h1 (by omega)
        rw [show knot c j = lastKnot U by rw [hlast, hlc, hj'], cox_last hw (by
          rw [hlast, hlc, show U.length - p - 2 = j by omega, ← hj']; exact this) (by omega), if_pos (by omega)]
        exact one_ne_zero
  refine ⟨hw, hnum, fun dim Q hd hQ => ?_⟩
  refine (C87_unique_iff hw (t := knot c) (fun j hj => hs j (by omega)) (fun j hj => ?_)).2 hsw dim Q hd (by rw [hnum]; exact hQ)
  rw [hfirst, hlast, ← h0]
  exact ⟨hsort.first_le (by omega), hsort.le_last (by omega)⟩

/-- Satisfiable: five parameters and degree 2. -/
example : (∀ j < 4, knot [0, 1, 5/2, 3, (4 : ℚ)] j + kEps ℚ ≤ knot [0, 1, 5/2, 3, (4 : ℚ)] (j + 1)) ∧
    kvAveraged [0, 1, 5/2, 3, (4 : ℚ)] 2 5 = .ok [0, 0, 0, 7/4, 11/4, 4, 4, 4] := by decide +kernel

/-- For other parameters the problem may have no solution: all but one of the parameters are in the first element. -/
example : WFKnots [0, 0, 0, 7/4, 11/4, 4, 4, (4 : ℚ)] 2 ∧ coxDeBoor [0, 0, 0, 7/4, 11/4, 4, 4, (4 : ℚ)] 2 3 (3/2) = 0 := by decide +kernel

end SplineLib
