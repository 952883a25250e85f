import Verif.Model.RoundedProjection
import Verif.Props.RoundedSampling
import Verif.Props.RoundedDerivs
import Verif.Props.Projection
import Verif.Core.IgaSolution

/-!
# C105: projection and the output of solutions with rounded arithmetic
-/

namespace SplineLib
set_option linter.unusedSectionVars false
open Finset Rounding
variable {K : Type} [Field K] [LinearOrder K] [IsStrictOrderedRing K] {r : Rounding K} {s : Spl K} {P : List K}

theorem fl_derivative_inside (h : Fl.WF r s) {x : List K} (hx : InDomain s x) {dims : List ℕ} (hd : ∀ c ∈ dims, c < s.ph.dim) {k : List ℕ}
    (hk : k.length = s.ps.knots.length) : ∃ v, Fl.evaluateDerivative r s x (zl dims) (zl k) = .ok v ∧ v.length = dims.length := by
  cases hw : s.ph.weights with
  | none =>
    obtain ⟨v, h1, h2⟩ := C70_derivative r h hw hx dims hd hk
    exact ⟨v, h1, h2.length_eq.symm⟩
  | some w =>
    obtain ⟨v, -, h1, -, h2, -⟩ := C79_nurbs_derivative r h ⟨w, hw⟩ hx dims hd hk
    exact ⟨v, h1, h2.length_eq.symm⟩

theorem fl_point_inside (h : Fl.WF r s) (hP : P.length ≤ s.ph.dim) {x : List K} (hx : InDomain s x) :
    ∃ v, Fl.evaluate r s x (Proj.dimensions P) = .ok v ∧ v.length = P.length := by
  obtain ⟨v, h1, h2⟩ := fl_evaluate_inside h hx (mem_range_dims hP)
  exact ⟨v, h1, by rw [h2, List.length_range]⟩

theorem fl_vecDistance_ok [HasSqrt K] {q : List K} (hq : q.length = P.length) : ∃ d, Fl.vecDistance r P q = .ok d := by
  refine ⟨Fl.twoNorm r (List.zipWith (fun x y => r.rnd (x - y)) P q ++ q.drop P.length), ?_⟩
  simp only [Fl.vecDistance, Fl.difference]
  rw [if_neg (by omega), ok_bind, pure_ok]

/-! ### Curves -/

theorem rnd_half_le (hu : r.u ≤ 1 / 4) {d : K} (hd : 0 ≤ d) : 0 ≤ r.rnd (1 / 2 * r.rnd d) ∧ r.rnd (1 / 2 * r.rnd d) ≤ d := by
  have h0 : 0 ≤ r.rnd d := r.rnd_nonneg hd
  have h1 := abs_le.1 (r.err d)
  rw [abs_of_nonneg hd] at h1
  have h2 := abs_le.1 (r.err (1 / 2 * r.rnd d))
  rw [abs_of_nonneg (by positivity)] at h2
  have hu0 := r.u_nonneg
  refine ⟨r.rnd_nonneg (by positivity), ?_⟩
  nlinarith [mul_nonneg hu0 hd, mul_nonneg hu0 h0]

theorem fl_delta1 {C dC : List K} (h1 : C.length = P.length) (h2 : dC.length = P.length) :
    (∃ d, Fl.delta1 r C dC P = .ok [d]) ∨ Fl.delta1 r C dC P = .error .nonfinite := by
  unfold Fl.delta1 Fl.difference Fl.scalarProduct
  rw [if_neg (by omega), ok_bind, if_neg (by simp [h1, h2]), ok_bind, if_neg (by omega), ok_bind]
  unfold Fl.div fdiv
  split_ifs with h0
  · exact .inr rfl
  · exact .inl ⟨_, rfl⟩

theorem fl_projLoop_curve {U : List K} {p : ℕ} (h : Fl.WF r s) (hk : s.ps.knots = [U]) (hw : WFKnots U p) (hP : P.length ≤ s.ph.dim) (tol : K) :
    ∀ (fuel it : ℕ) (x : K), fuel + it = 1001 → InDomain s [x] → 0 < fuel →
      (∃ t n, Fl.projLoop r (Fl.curveStep r s P) s tol fuel it [x] = .ok ([t], n) ∧ InDomain s [t] ∧ n ≤ 1001) ∨
        Fl.projLoop r (Fl.curveStep r s P) s tol fuel it [x] = .error .nonfinite := by
  have hU : s.ps.knots[0]? = some U := by rw [hk]; rfl
  intro fuel
  induction fuel with
  | zero => intro it x _ _ h0; omega
  | succ fuel ih =>
    intro it x hf hx _
    obtain ⟨dC, e1, l1⟩ := fl_derivative_inside h hx (mem_range_dims hP) (k := [1]) (by rw [hk]; rfl)
    obtain ⟨C, e2, l2⟩ := fl_point_inside h hP hx
    rw [List.length_range] at l1
    have e1' : Fl.evaluateDerivative r s [x] (Proj.dimensions P) [1] = .ok dC := e1
    rw [Fl.projLoop]
    have hst : Fl.curveStep r s P [x] = Fl.delta1 r C dC P := by
      unfold Fl.curveStep
      rw [e1', ok_bind, e2, ok_bind]
    rw [hst]
    rcases fl_delta1 (r := r) l2 l1 with ⟨d, hd⟩ | hd
    · rw [hd, ok_bind, Proj.check_eq hU hw, ok_bind]
      have hle : knot U 0 ≤ lastKnot U := hw.range.le
      have hin : InDomain s [Proj.clamp (knot U 0) (lastKnot U) (r.rnd (x + d))] := by
        unfold InDomain
        rw [hk]
        exact .cons (Proj.clamp_mem hle _) .nil
      simp only [Fl.update, List.zipWith_cons_cons, List.zipWith_nil_right, List.map_cons, List.map_nil]
      split_ifs with hc
      · exact .inl ⟨_, _, rfl, hin, by omega⟩
      · simp only [Bool.or_eq_true, decide_eq_true_eq, not_or] at hc
        exact ih (it + 1) _ (by omega) hin (by omega)
    · rw [hd]
      exact .inr rfl

/-- The knots are floating point numbers. -/
def FloatKnots (r : Rounding K) (U : List K) : Prop := ∀ t ∈ U, r.rnd t = t

theorem fl_initialLoop1 [HasSqrt K] {U : List K} (h : Fl.WF r s) (hk : s.ps.knots = [U]) (hP : P.length ≤ s.ph.dim) (hu : r.u ≤ 1 / 4) :
    ∀ (es : List (K × K)), (∀ e ∈ es, knot U 0 ≤ e.1 ∧ e.1 < e.2 ∧ e.2 ≤ lastKnot U ∧ r.rnd e.1 = e.1 ∧ r.rnd e.2 = e.2) → ∀ (dist x : K), InDomain s [x] →
      ∃ z, Fl.initialLoop1 r s P es dist x = .ok z ∧ InDomain s [z] := by
  intro es
  induction es with
  | nil => intro _ dist x hx; exact ⟨x, rfl, hx⟩
  | cons e es ih =>
    intro he dist x hx
    obtain ⟨h1, h2, h3, f1, f2⟩ := he e (by simp)
    obtain ⟨b1, b2⟩ := rnd_half_le hu (sub_nonneg.2 h2.le)
    have c1 := r.mono e.1 (r.rnd (1 / 2 * r.rnd (e.2 - e.1)) + e.1) (by linarith)
    have c2 := r.mono (r.rnd (1 / 2 * r.rnd (e.2 - e.1)) + e.1) e.2 (by linarith)
    rw [f1] at c1
    rw [f2] at c2
    have hy : InDomain s [r.rnd (r.rnd (1 / 2 * r.rnd (e.2 - e.1)) + e.1)] := by
      unfold InDomain
      rw [hk]
      exact .cons ⟨by linarith, by linarith⟩ .nil
    obtain ⟨q, e1, l1⟩ := fl_point_inside h hP hy
    obtain ⟨d, e2⟩ := fl_vecDistance_ok (r := r) l1
    rw [Fl.initialLoop1]
    rw [e1, ok_bind, e2, ok_bind]
    have he' := fun e' (h' : e' ∈ es) => he e' (by simp [h'])
    split_ifs
    · exact ih he' _ _ hy
    · exact ih he' _ _ hx

/-- **C105**, curves: over a range that starts at 0 the projection with rounded arithmetic never throws. Whatever the curve, the point, and the
tolerance, it returns a parameter inside the range after at most 1001 iterations, unless a division by zero occurs. -/
theorem C105_curve [HasSqrt K] {U : List K} (h : Fl.WF r s) (hk : s.ps.knots = [U]) (hl : U.length < 2 ^ 64) (h0 : knot U 0 = 0)
    (hf : FloatKnots r U) (hu : r.u ≤ 1 / 4) (hP : P.length ≤ s.ph.dim) (tol : K) :
    (∃ t n, Fl.onCurve r s P tol = .ok ([t], n) ∧ knot U 0 ≤ t ∧ t ≤ lastKnot U ∧ n ≤ 1001) ∨ Fl.onCurve r s P tol = .error .nonfinite := by
  obtain ⟨p, hd, hw⟩ := degree_of h.exact hk
  have hd : s.ps.degree = [p] := hd
  obtain ⟨es, hE, -⟩ := C43_elements_consecutive hw hl
  obtain ⟨hne, hm, hhead⟩ := element_mem hw hl hE
  obtain ⟨e, es, rfl⟩ := List.exists_cons_of_ne_nil hne
  have hmem : ∀ e' ∈ e :: es, e'.1 ∈ U ∧ e'.2 ∈ U := by
    intro e' he'
    rw [Elem.elementsDir_eq hw hl] at hE
    rw [← Except.ok.inj hE] at he'
    have hm := List.of_mem_zip (a := e'.1) (b := e'.2) he'
    exact ⟨Elem.mem_uniq.1 hm.1, Elem.mem_uniq.1 (List.mem_of_mem_tail hm.2)⟩
  have e0 : e.1 = 0 := by rw [hhead e rfl, h0]
  obtain ⟨m1, m2, m3⟩ := hm e (by simp)
  obtain ⟨b1, b2⟩ := rnd_half_le hu (sub_nonneg.2 m2.le)
  have hy : InDomain s [r.rnd (1 / 2 * r.rnd (e.2 - e.1))] := by
    unfold InDomain
    rw [hk]
    exact .cons ⟨by linarith, by linarith⟩ .nil
  obtain ⟨q, e1, l1⟩ := fl_point_inside h hP hy
  obtain ⟨d, e2⟩ := fl_vecDistance_ok (r := r) l1
  obtain ⟨z, e3, hz⟩ := fl_initialLoop1 h hk hP hu es (fun e' he' => by
    obtain ⟨a1, a2, a3⟩ := hm e' (by simp [he'])
    obtain ⟨a4, a5⟩ := hmem e' (by simp [he'])
    exact ⟨a1, a2, a3, hf _ a4, hf _ a5⟩) d _ hy
  have hi : Fl.initial1 r s P = .ok [z] := by
    unfold Fl.initial1
    rw [hk, hd]
    simp only [Elem.elements, hE, ok_bind, pure_ok, getN, List.getElem?_cons_zero, e1, e2, List.tail_cons, e3]
  unfold Fl.onCurve
  rw [hi, ok_bind]
  rcases fl_projLoop_curve h hk hw hP tol 1001 0 z rfl hz (by omega) with ⟨t, n, h1, h2, h3⟩ | h1
  · unfold InDomain at h2
    rw [hk] at h2
    cases h2 with
    | cons h2 _ => exact .inl ⟨t, n, h1, h2.1, h2.2, h3⟩
  · exact .inr h1

/-! ### Surfaces -/

theorem fl_initialRow [HasSqrt K] (h : Fl.WF r s) (hl : s.ps.knots.length = 2) (hP : P.length ≤ s.ph.dim) (u a2 b2 : K) (sc2 : ℤ) :
    ∀ (n j : ℕ) (dist : K) (x : List K),
      ((∃ z, Fl.initialRow r s P u a2 b2 sc2 n j dist x = .ok z) ∧ ∀ i, j ≤ i → i < j + n → InDomain s [u, Fl.gridParam2 r a2 b2 sc2 i]) ∨
      (Fl.initialRow r s P u a2 b2 sc2 n j dist x = .error (.thrown .rangeError) ∧
        ∃ i, j ≤ i ∧ i < j + n ∧ ¬ InDomain s [u, Fl.gridParam2 r a2 b2 sc2 i]) := by
  intro n
  induction n with
  | zero => intro j dist x; exact .inl ⟨⟨_, rfl⟩, fun i h1 h2 => by omega⟩
  | succ n ih =>
    intro j dist x
    rw [Fl.initialRow]
    by_cases hx : InDomain s [u, Fl.gridParam2 r a2 b2 sc2 j]
    · obtain ⟨q, e1, l1⟩ := fl_point_inside h hP hx
      obtain ⟨d, e2⟩ := fl_vecDistance_ok (r := r) l1
      rw [e1, ok_bind, e2, ok_bind]
      have comb : ∀ {m : M (K × List K)},
          ((∃ z, m = .ok z) ∧ ∀ i, j + 1 ≤ i → i < j + 1 + n → InDomain s [u, Fl.gridParam2 r a2 b2 sc2 i]) ∨
            (m = .error (.thrown .rangeError) ∧ ∃ i, j + 1 ≤ i ∧ i < j + 1 + n ∧ ¬ InDomain s [u, Fl.gridParam2 r a2 b2 sc2 i]) →
          ((∃ z, m = .ok z) ∧ ∀ i, j ≤ i → i < j + (n + 1) → InDomain s [u, Fl.gridParam2 r a2 b2 sc2 i]) ∨
            (m = .error (.thrown .rangeError) ∧ ∃ i, j ≤ i ∧ i < j + (n + 1) ∧ ¬ InDomain s [u, Fl.gridParam2 r a2 b2 sc2 i]) := by
        rintro m (⟨h1, h2⟩ | ⟨h1, i, h2, h3, h4⟩)
        · refine .inl ⟨h1, fun i h3 h4 => ?_⟩
          rcases Nat.lt_or_ge j i with h5 | h5
          · exact h2 i h5 (by omega)
          · obtain rfl : i = j := by omega
            exact hx
        · exact .inr ⟨h1, i, by omega, by omega, h4⟩
      split_ifs
      · exact comb (ih _ _ _)
      · exact comb (ih _ _ _)
    · rw [fl_evaluate_outside h (by rw [hl]; rfl) hx]
      exact .inr ⟨rfl, j, le_rfl, by omega, hx⟩

theorem fl_initialRows [HasSqrt K] (h : Fl.WF r s) (hl : s.ps.knots.length = 2) (hP : P.length ≤ s.ph.dim) (a1 b1 a2 b2 : K) (sc1 sc2 : ℤ) :
    ∀ (n i : ℕ) (dist : K) (x : List K),
      ((∃ z, Fl.initialRows r s P a1 b1 a2 b2 sc1 sc2 n i dist x = .ok z) ∧ ∀ k, i ≤ k → k < i + n → ∀ j, 1 ≤ j → j < 1 + sc2.toNat →
        InDomain s [Fl.gridParam2 r a1 b1 sc1 k, Fl.gridParam2 r a2 b2 sc2 j]) ∨
      (Fl.initialRows r s P a1 b1 a2 b2 sc1 sc2 n i dist x = .error (.thrown .rangeError) ∧ ∃ k, i ≤ k ∧ k < i + n ∧ ∃ j, 1 ≤ j ∧ j < 1 + sc2.toNat ∧
        ¬ InDomain s [Fl.gridParam2 r a1 b1 sc1 k, Fl.gridParam2 r a2 b2 sc2 j]) := by
  intro n
  induction n with
  | zero => intro i dist x; exact .inl ⟨⟨_, rfl⟩, fun k h1 h2 => by omega⟩
  | succ n ih =>
    intro i dist x
    rw [Fl.initialRows]
    rcases fl_initialRow h hl hP (Fl.gridParam2 r a1 b1 sc1 i) a2 b2 sc2 sc2.toNat 1 dist x with ⟨⟨z, h1⟩, h2⟩ | ⟨h1, h2⟩
    · rw [h1, ok_bind]
      rcases ih (i + 1) z.1 z.2 with ⟨h3, h4⟩ | ⟨h3, k, h4, h5, h6⟩
      · refine .inl ⟨h3, fun k h5 h6 => ?_⟩
        rcases Nat.lt_or_ge i k with h7 | h7
        · exact h4 k h7 (by omega)
        · obtain rfl : k = i := by omega
          exact h2
      · exact .inr ⟨h3, k, by omega, by omega, h6⟩
    · rw [h1]
      exact .inr ⟨rfl, i, le_rfl, by omega, h2⟩

theorem gridParam2_mono {a b : K} (hab : a ≤ b) {sc : ℕ} {i j : ℕ} (hij : i ≤ j) : Fl.gridParam2 r a b (sc : ℤ) i ≤ Fl.gridParam2 r a b (sc : ℤ) j := by
  refine r.mono _ _ (div_le_div_of_nonneg_right (r.mono _ _ ?_) (by positivity))
  exact mul_le_mul_of_nonneg_right (by exact_mod_cast hij) (r.rnd_nonneg (sub_nonneg.2 hab))

theorem gridParam2_nonneg {a b : K} (hab : a ≤ b) {sc : ℕ} (i : ℕ) : 0 ≤ Fl.gridParam2 r a b (sc : ℤ) i :=
  r.rnd_nonneg (div_nonneg (r.rnd_nonneg (mul_nonneg (Nat.cast_nonneg i) (r.rnd_nonneg (sub_nonneg.2 hab)))) (by positivity))

/-- The last parameter that `ProjectionOnSurface` computes for the range from 0 to `T` with `n` points. -/
def lastParam (r : Rounding K) (T : K) (n : ℕ) : K := r.rnd (r.rnd ((n : K) * r.rnd T) / (n : K))

/-- **C105**, surfaces: over ranges that start at 0, the starting point of the projection is found if in both directions the last computed
parameter is not behind the last knot. Otherwise the projection throws `range_error`, whatever the point and the tolerance are. -/
theorem C105_surface [HasSqrt K] {U V : List K} (h : Fl.WF r s) (hk : s.ps.knots = [U, V]) (hU : knot U 0 = 0) (hV : knot V 0 = 0)
    (hP : P.length ≤ s.ph.dim) {n m : ℕ} (hn : 0 < n) (hm : 0 < m) :
    (lastParam r (lastKnot U) n ≤ lastKnot U ∧ lastParam r (lastKnot V) m ≤ lastKnot V → ∃ x, Fl.initial2 r s P n m = .ok x) ∧
    (lastKnot U < lastParam r (lastKnot U) n ∨ lastKnot V < lastParam r (lastKnot V) m →
      ∀ tol, Fl.onSurface r s P n m tol = .error (.thrown .rangeError)) := by
  have hw := h.knots
  rw [hk] at hw
  have hl2 : s.ps.knots.length = 2 := by rw [hk]; rfl
  generalize s.ps.degree = ps at hw
  cases hw with
  | @cons _ p _ ps hwU hw =>
  cases hw with
  | @cons _ q _ ps hwV hw =>
  have kU : kvGet U 0 = .ok (knot U 0) := by unfold kvGet; rw [getN_getD (by have := hwU.size; omega) 0]; rfl
  have kV : kvGet V 0 = .ok (knot V 0) := by unfold kvGet; rw [getN_getD (by have := hwV.size; omega) 0]; rfl
  have lU : kvLast U = .ok (lastKnot U) := kvLast_eq (List.ne_nil_of_length_pos (by have := hwU.size; omega))
  have lV : kvLast V = .ok (lastKnot V) := kvLast_eq (List.ne_nil_of_length_pos (by have := hwV.size; omega))
  have dom : ∀ x y, InDomain s [x, y] ↔ (knot U 0 ≤ x ∧ x ≤ lastKnot U) ∧ knot V 0 ≤ y ∧ y ≤ lastKnot V := by
    intro x y
    unfold InDomain
    rw [hk]
    constructor
    · intro hd
      cases hd with
      | cons a hd => cases hd with
        | cons b _ => exact ⟨a, b⟩
    · rintro ⟨a, b⟩
      exact .cons a (.cons b .nil)
  have hst : InDomain s [knot U 0, knot V 0] := (dom _ _).2 ⟨⟨le_rfl, hwU.range.le⟩, le_rfl, hwV.range.le⟩
  obtain ⟨q0, e1, l1⟩ := fl_point_inside h hP hst
  obtain ⟨d, e2⟩ := fl_vecDistance_ok (r := r) l1
  have key := fl_initialRows h hl2 hP (knot U 0) (lastKnot U) (knot V 0) (lastKnot V) n m n 1 d [knot U 0, knot V 0]
  have e : Fl.initial2 r s P n m = (Fl.initialRows r s P (knot U 0) (lastKnot U) (knot V 0) (lastKnot V) n m n 1 d [knot U 0, knot V 0]).bind
      fun t => .ok t.2 := by
    unfold Fl.initial2
    rw [hk]
    simp only [getN, List.getElem?_cons_zero, List.getElem?_cons_succ, kU, kV, lU, lV, ok_bind, e1, e2, Int.toNat_natCast]
    rfl
  have lp : ∀ (W : List K), knot W 0 = 0 → ∀ k : ℕ, lastParam r (lastKnot W) k = Fl.gridParam2 r (knot W 0) (lastKnot W) (k : ℤ) k := by
    intro W hW k
    unfold lastParam Fl.gridParam2
    rw [hW, sub_zero]
    push_cast
    rfl
  rw [lp U hU n, lp V hV m]
  constructor
  · rintro ⟨hu, hv⟩
    rcases key with ⟨⟨z, k⟩, -⟩ | ⟨-, i, hi1, hi2, j, hj1, hj2, hx⟩
    · exact ⟨z.2, by rw [e, k]; rfl⟩
    · refine absurd ((dom _ _).2 ⟨⟨?_, ?_⟩, ?_, ?_⟩) hx
      · rw [hU]; exact gridParam2_nonneg (hU ▸ hwU.range.le) i
      · exact (gridParam2_mono hwU.range.le (by omega)).trans hu
      · rw [hV]; exact gridParam2_nonneg (hV ▸ hwV.range.le) j
      · rw [Int.toNat_natCast] at hj2
        exact (gridParam2_mono hwV.range.le (by omega)).trans hv
  · intro ho tol
    rcases key with ⟨-, k⟩ | ⟨k, -⟩
    · have := (dom _ _).1 (k n hn (by omega) m hm (by rw [Int.toNat_natCast]; omega))
      rcases ho with ho | ho
      · exact absurd this.1.2 (not_le.2 ho)
      · exact absurd this.2.2 (not_le.2 ho)
    · unfold Fl.onSurface
      rw [e, k]
      rfl

/-! ### The output of solutions -/

theorem fl_solutionSpline (h : Fl.WF r s) (hn : IsNurbs s) (hsz : (npts s).prod < 2 ^ 64) (u : ℕ → K) :
    ∃ t, Fl.solutionSpline r s (Iga.vecOf (npts s).prod u) = .ok t ∧ Fl.WF r t ∧ t.ps.knots = s.ps.knots ∧ t.ph.dim = s.ph.dim + 1 ∧ IsNurbs t := by
  obtain ⟨t0, e0, ht⟩ := Iga.solutionSpline_eq (s := exactOf s) h.exact hn hsz u
  have hc : Fl.copyPS r s.ps = .ok s.ps := by
    unfold Fl.copyPS
    rw [h.basis, ok_bind, pure_ok]
  unfold Iga.solutionSpline at e0
  obtain ⟨n, e1, e0⟩ := bind_eq_ok.1 e0
  obtain ⟨pts, e2, e0⟩ := bind_eq_ok.1 e0
  obtain ⟨ps, -, e0⟩ := bind_eq_ok.1 e0
  obtain ⟨w, e3, e0⟩ := bind_eq_ok.1 e0
  obtain ⟨ph, e4, e0⟩ := bind_eq_ok.1 e0
  cases e0
  have e1' : s.ph.numCPs = .ok n := e1
  have e2' : upLoop (Iga.solutionBody s (Iga.vecOf (npts s).prod u)) n.toNat (MIH.mk' s.ph.num) [] = .ok pts := e2
  have e3' : s.ph.theWeights = .ok w := e3
  have e4' : Phys.newWeighted pts w s.ph.num = .ok ph := e4
  have hk : ps.knots = s.ps.knots := ht.knots
  have hdg : ps.degree = s.ps.degree := ht.degree
  have hnp : npts (⟨s.ps, ph⟩ : Spl K) = npts (⟨ps, ph⟩ : Spl K) := by rw [npts_eq, npts_eq]; simp only [hk, hdg]
  refine ⟨⟨s.ps, ph⟩, ?_, ⟨h.knots, h.basis, ?_, ht.wf.dim, ?_, ?_⟩, rfl, ht.dim, ht.nurbs⟩
  · simp only [Fl.solutionSpline, e1', e2', hc, e3', e4', ok_bind, pure_ok]
  · rw [hnp]; exact ht.wf.num
  · rw [hnp]; exact ht.wf.cps
  · rw [hnp]; exact ht.wf.weights

/-- The point with index `i` of `n` cells on the range of `U` in the output of solutions. -/
def flOutPoint (r : Rounding K) (U : List K) (n i : ℕ) : K :=
  r.rnd (knot U 0 + r.rnd ((i : K) * r.rnd (r.rnd (lastKnot U - knot U 0) / (n : K))))

/-- The parameters of a point of the output. -/
def flOutPointParam (r : Rounding K) : List (List K) → List ℕ → List ℕ → List K
  | U :: Us, n :: ns, i :: I => flOutPoint r U n i :: flOutPointParam r Us ns I
  | _, _, _ => []

theorem fl_solutionCoord_eq {Us : List (List K)} {ps : List ℕ} (h : List.Forall₂ WFKnots Us ps) : ∀ {ns I : List ℕ},
    (∀ U ∈ Us, U.length < 2 ^ 64) → ns.length = Us.length → (∀ n ∈ ns, 0 < n) → I.length = ns.length →
    Fl.solutionCoord r Us (zl I) (zl ns) = .ok (flOutPointParam r Us ns I) ∧ (flOutPointParam r Us ns I).length = Us.length := by
  induction h with
  | nil => intro ns I _ hl _ _; exact ⟨rfl, rfl⟩
  | @cons U p Us ps hU _ ih =>
    intro ns I hsz hl hpos hI
    cases ns with
    | nil => simp at hl
    | cons n ns =>
      cases I with
      | nil => simp at hI
      | cons i I =>
        obtain ⟨h1, h2⟩ := ih (ns := ns) (I := I) (fun V hV => hsz V (by simp [hV])) (by simpa using hl) (fun m hm => hpos m (by simp [hm]))
          (by simpa using hI)
        have hn : 0 < n := hpos n (by simp)
        have hnK : ((n : ℤ) : K) ≠ 0 := by exact_mod_cast hn.ne'
        have hlen : 0 < U.length := by have := hU.size; omega
        have e1 : kvGet U 0 = .ok (knot U 0) := by unfold kvGet; rw [getN_getD hlen 0]; rfl
        have e2 : kvGet U (toSizeT ((U.length : ℤ) - 1)) = .ok (lastKnot U) := by
          have := hsz U (by simp)
          rw [show ((U.length : ℤ) - 1) = ((U.length - 1 : ℕ) : ℤ) by omega, toSizeT_nat (by omega)]
          unfold kvGet
          rw [getN_getD (by omega) 0]
          rfl
        have h1' : Fl.solutionCoord r Us (List.map Nat.cast I) (List.map Nat.cast ns) = _ := h1
        refine ⟨?_, by simp [flOutPointParam, h2]⟩
        simp only [List.map_cons, Fl.solutionCoord, e1, e2, ok_bind, Fl.div, fdiv_ok hnK, h1', pure_ok, flOutPointParam, flOutPoint]
        push_cast
        rfl

theorem flOutPoint_mono {U : List K} {p : ℕ} (h : WFKnots U p) (n : ℕ) {i j : ℕ} (hij : i ≤ j) : flOutPoint r U n i ≤ flOutPoint r U n j := by
  have h1 : (i : K) * r.rnd (r.rnd (lastKnot U - knot U 0) / (n : K)) ≤ (j : K) * r.rnd (r.rnd (lastKnot U - knot U 0) / (n : K)) :=
    mul_le_mul_of_nonneg_right (by exact_mod_cast hij) (r.rnd_nonneg (div_nonneg (r.rnd_nonneg (sub_nonneg.2 h.range.le)) (Nat.cast_nonneg n)))
  exact r.mono _ _ (by linarith [r.mono _ _ h1])

theorem flOutPoint_zero {U : List K} (hf : r.rnd (knot U 0) = knot U 0) (n : ℕ) : flOutPoint r U n 0 = knot U 0 := by simp [flOutPoint, r.rnd_zero, hf]

theorem fl_points_in {Us : List (List K)} {ps : List ℕ} (h : List.Forall₂ WFKnots Us ps) (hf : ∀ U ∈ Us, r.rnd (knot U 0) = knot U 0) :
    ∀ {ns : List ℕ}, List.Forall₂ (fun U n => flOutPoint r U n n ≤ lastKnot U) Us ns → ∀ {I}, InBox (ns.map (· + 1)) I → Dom Us (flOutPointParam r Us ns I) := by
  induction h with
  | nil => intro ns _ I _; exact .nil
  | @cons U p Us ps hU _ ih =>
    intro ns hn I hI
    cases hn with
    | @cons _ n _ ns h1 h2 =>
      cases I with
      | nil => simp at hI
      | cons i I =>
        simp only [List.map_cons, inBox_cons] at hI
        have m1 := flOutPoint_mono (r := r) hU n (Nat.zero_le i)
        have m2 := flOutPoint_mono (r := r) hU n (Nat.lt_succ_iff.1 hI.1)
        rw [flOutPoint_zero (hf U (by simp))] at m1
        exact .cons ⟨m1, m2.trans h1⟩ (ih (fun V hV => hf V (by simp [hV])) h2 hI.2)

theorem fl_last_point_out : ∀ {Us : List (List K)} {ns : List ℕ}, ns.length = Us.length →
    Dom Us (flOutPointParam r Us ns ns) → List.Forall₂ (fun U n => flOutPoint r U n n ≤ lastKnot U) Us ns
  | [], [], _, _ => .nil
  | [], _ :: _, h, _ => by simp at h
  | _ :: _, [], h, _ => by simp at h
  | U :: Us, n :: ns, h, hd => by
    simp only [flOutPointParam] at hd
    cases hd with
    | cons h1 h2 => exact .cons h1.2 (fl_last_point_out (by simpa using h) h2)

/-- **C105**, solutions: let the first knots be floating point numbers. The values of a solution can be written if in every direction the last
computed parameter is not behind the last knot; otherwise the writer throws `range_error`. -/
theorem C105_solution (h : Fl.WF r s) (hn : IsNurbs s) (hsz : (npts s).prod < 2 ^ 64) (hkl : ∀ U ∈ s.ps.knots, U.length < 2 ^ 64)
    (hf : ∀ U ∈ s.ps.knots, r.rnd (knot U 0) = knot U 0) {ns : List ℕ} (hl : ns.length = s.ps.knots.length)
    (hpos : ∀ n ∈ ns, 0 < n) (u : ℕ → K) :
    (List.Forall₂ (fun U n => flOutPoint r U n n ≤ lastKnot U) s.ps.knots ns → ∃ l, Fl.solutionData r s (Iga.vecOf (npts s).prod u) (zl ns) = .ok l) ∧
    (¬ List.Forall₂ (fun U n => flOutPoint r U n n ≤ lastKnot U) s.ps.knots ns →
      Fl.solutionData r s (Iga.vecOf (npts s).prod u) (zl ns) = .error (.thrown .rangeError)) := by
  obtain ⟨t, et, ht, hk, hdim, -⟩ := fl_solutionSpline h hn hsz u
  have hp : ∀ n ∈ ns.map (· + 1), 0 < n := by simp
  have hlen : ∀ k, (unlin (ns.map (· + 1)) k).length = ns.length := fun k => by have := (unlin_inBox hp k).length; simp at this ⊢
  let body : MIH → List K → M (List K) := fun h acc => do
    let x ← Fl.solutionCoord r s.ps.knots h.cur (zl ns)
    let v ← Fl.evaluate r t x [(s.ph.dim : ℤ)]
    let a ← getN v 0
    return acc ++ [a]
  have hdom : ∀ x, InDomain t x ↔ InDomain s x := fun x => by unfold InDomain; rw [hk]
  have hin : ∀ k, InDomain s (flOutPointParam r s.ps.knots ns (unlin (ns.map (· + 1)) k)) →
      ∀ st, ∃ st', body ⟨zl (ns.map (· + 1)), zl (unlin (ns.map (· + 1)) k)⟩ st = .ok st' := by
    intro k hd st
    obtain ⟨h1, h2⟩ := fl_solutionCoord_eq (r := r) h.knots hkl hl hpos (hlen k)
    obtain ⟨v, hv, hl⟩ := fl_evaluate_inside ht ((hdom _).2 hd) (dims := [s.ph.dim]) (by simp [hdim])
    simp only [List.map_cons, List.map_nil] at hv
    match v, hl with
    | [a], _ => exact ⟨st ++ [a], by simp only [body, h1, hv, ok_bind, pure_ok, getN, List.getElem?_cons_zero]⟩
  have hout : ∀ k, ¬ InDomain s (flOutPointParam r s.ps.knots ns (unlin (ns.map (· + 1)) k)) →
      ∀ st, body ⟨zl (ns.map (· + 1)), zl (unlin (ns.map (· + 1)) k)⟩ st = .error (.thrown .rangeError) := by
    intro k hd st
    obtain ⟨h1, h2⟩ := fl_solutionCoord_eq (r := r) h.knots hkl hl hpos (hlen k)
    simp only [body, h1, fl_evaluate_outside ht (by rw [hk]; exact h2) (fun hc => hd ((hdom _).1 hc)), ok_bind, error_bind]
  have key := upLoop_ok_or_error hp (body := body) (e := .thrown .rangeError) (fun k _ => by
    by_cases hd : InDomain s (flOutPointParam r s.ps.knots ns (unlin (ns.map (· + 1)) k))
    · exact .inl (hin k hd)
    · exact .inr (hout k hd)) (ns.map (· + 1)).prod 0 [] (by omega)
  have e : Fl.solutionData r s (Iga.vecOf (npts s).prod u) (zl ns)
      = upLoop body (ns.map (· + 1)).prod ⟨zl (ns.map (· + 1)), zl (unlin (ns.map (· + 1)) 0)⟩ [] := by
    unfold Fl.solutionData
    have e : (zl ns).map (· + 1) = zl (ns.map (· + 1)) := by simp [zl]
    rw [et, ok_bind, e, mk'_zl]
    dsimp only
    rw [length1D_zl, Int.toNat_natCast]
  rw [← e] at key
  constructor
  · intro hle
    rcases key with ⟨k, -⟩ | ⟨-, j, -, -, k⟩
    · exact k
    · obtain ⟨st', k'⟩ := hin j (fl_points_in h.knots hf hle (unlin_inBox hp j)) []
      rw [k] at k'
      cases k'
  · intro hle
    rcases key with ⟨-, k⟩ | ⟨k, -⟩
    · have hI := box_last_inBox ns
      have hlt := lin_lt hI
      obtain ⟨st', k'⟩ := k _ (Nat.zero_le _) (by rwa [zero_add]) []
      rw [hout _ (by rw [unlin_lin hI]; exact fun hd => hle (fl_last_point_out hl hd))] at k'
      cases k'
    · exact k

/-! ### Without rounding -/

/-- **C105** Without rounding this is the exact model, for all arguments. -/
theorem C105_exact_arithmetic [HasSqrt K] :
    (∀ (s : Spl K) (P : List K) (tol : K), Fl.onCurve (exactRounding K) s P tol = Proj.onCurve s P tol) ∧
    (∀ (s : Spl K) (P : List K) (n m : ℤ) (tol : K), Fl.onSurface (exactRounding K) s P n m tol = Proj.onSurface s P n m tol) ∧
    ∀ (s : Spl K) (sol : List K) (scat : List ℤ), Fl.solutionData (exactRounding K) s sol scat = Iga.solutionData s sol scat := by
  have ev : ∀ (s : Spl K) x dims, Fl.evaluate (exactRounding K) s x dims = s.evaluate x dims := C70_exact_arithmetic.2.2.1
  have hdiv : ∀ a b : K, Fl.div (exactRounding K) a b = fdiv a b := fun a b => by
    simp only [Fl.div]
    cases fdiv a b <;> rfl
  have hdf : ∀ a b : List K, Fl.difference (exactRounding K) a b = Vec.difference a b := fun a b => rfl
  have hsp : ∀ a b : List K, Fl.scalarProduct (exactRounding K) a b = Vec.scalarProduct a b := fun a b => rfl
  have htn : ∀ a : List K, Fl.twoNorm (exactRounding K) a = Phys.twoNorm a := fun a => rfl
  have hdist : ∀ a b : List K, Fl.vecDistance (exactRounding K) a b = Vec.distance a b := fun a b => rfl
  have hder := C79_exact_arithmetic (K := K)
  have hup : ∀ a b : List K, Fl.update (exactRounding K) a b = Proj.update a b := fun a b => rfl
  have hloop : ∀ (f : List K → M (List K)) (s : Spl K) tol fuel it x, Fl.projLoop (exactRounding K) f s tol fuel it x = Proj.loop f s tol fuel it x := by
    intro f s tol fuel
    induction fuel with
    | zero => intro it x; rfl
    | succ fuel ih => intro it x; simp only [Fl.projLoop, Proj.loop, ih, hup]
  refine ⟨fun s P tol => ?_, fun s P n m tol => ?_, fun s sol scat => ?_⟩
  · have h1 : Fl.curveStep (exactRounding K) s P = Proj.curveStep s P := by
      funext x
      simp only [Fl.curveStep, Proj.curveStep, hder, ev, Fl.delta1, Proj.delta1, hdf, hsp, hdiv]
    have h2 : ∀ es dist x, Fl.initialLoop1 (exactRounding K) s P es dist x = Proj.initialLoop1 s P es dist x := by
      intro es
      induction es with
      | nil => intro dist x; rfl
      | cons e es ih => intro dist x; simp only [Fl.initialLoop1, Proj.initialLoop1, ev, hdist, ih]; rfl
    simp only [Fl.onCurve, Proj.onCurve, Fl.initial1, Proj.initial1, h1, h2, hloop, ev, hdist]
    rfl
  · have h1 : Fl.surfaceStep (exactRounding K) s P = Proj.surfaceStep s P := by
      funext x
      simp only [Fl.surfaceStep, Proj.surfaceStep, hder, ev, Fl.delta2, Proj.delta2, Fl.getQ, Proj.getQ, hdf, hsp, hdiv, htn]
      rfl
    have h2 : ∀ u a b sc n j dist x, Fl.initialRow (exactRounding K) s P u a b sc n j dist x = Proj.initialRow s P u a b sc n j dist x := by
      intro u a b sc n
      induction n with
      | zero => intro j dist x; rfl
      | succ n ih => intro j dist x; simp only [Fl.initialRow, Proj.initialRow, ev, hdist, ih]; rfl
    have h3 : ∀ a1 b1 a b sc1 sc n j dist x, Fl.initialRows (exactRounding K) s P a1 b1 a b sc1 sc n j dist x
        = Proj.initialRows s P a1 b1 a b sc1 sc n j dist x := by
      intro a1 b1 a b sc1 sc n
      induction n with
      | zero => intro j dist x; rfl
      | succ n ih => intro j dist x; simp only [Fl.initialRows, Proj.initialRows, h2, ih]; rfl
    simp only [Fl.onSurface, Proj.onSurface, Fl.initial2, Proj.initial2, h1, h3, hloop, ev, hdist]
  · have h1 : ∀ (Us : List (List K)) is ns, Fl.solutionCoord (exactRounding K) Us is ns = Iga.solutionCoord Us is ns := by
      intro Us
      induction Us with
      | nil => intro is ns; rfl
      | cons U Us ih => intro is ns; cases is with
        | nil => rfl
        | cons i is => cases ns with
          | nil => rfl
          | cons n ns =>
            simp only [Fl.solutionCoord, Iga.solutionCoord, ih, hdiv]
            rfl
    have h2 : Fl.solutionSpline (exactRounding K) s sol = Iga.solutionSpline s sol := by
      simp only [Fl.solutionSpline, Iga.solutionSpline, Fl.copyPS, PS.copy, fl_exact_table]
    simp only [Fl.solutionData, Iga.solutionData, h1, h2, ev]

/-! ### When nothing is thrown -/

/-- **C105** If the ends of the ranges are integers, and integers up to the length of the range times the number of points are floating point
numbers, the last computed parameter is the last knot. -/
theorem C105_integer_range {N : ℕ} (hN : ∀ m : ℤ, |m| ≤ N → r.rnd (m : K) = m) {T n : ℕ} (hn : 0 < n) (h1 : n * T ≤ N) : lastParam r (T : K) n = T := by
  have hnK : (n : K) ≠ 0 := by exact_mod_cast hn.ne'
  have hle : T ≤ n * T := Nat.le_mul_of_pos_left T hn
  have nat : ∀ m : ℕ, m ≤ N → r.rnd (m : K) = m := fun m hm => by
    have := hN (m : ℤ) (by rw [abs_of_nonneg (Int.natCast_nonneg m)]; exact_mod_cast hm)
    push_cast at this
    exact this
  have e2 := nat (n * T) h1
  push_cast at e2
  rw [lastParam, nat T (by omega), e2, mul_div_cancel_left₀ _ hnK, nat T (by omega)]

/-- **C105** If the ends of the range, its length and a part of it are floating point numbers, the last parameter in the output of solutions is
the last knot. -/
theorem C105_exact_step {n : ℕ} (hn : 0 < n) {U : List K} (h1 : r.rnd (lastKnot U) = lastKnot U)
    (h2 : r.rnd (lastKnot U - knot U 0) = lastKnot U - knot U 0)
    (h3 : r.rnd ((lastKnot U - knot U 0) / n) = (lastKnot U - knot U 0) / n) : flOutPoint r U n n = lastKnot U := by
  have hnK : (n : K) ≠ 0 := by exact_mod_cast hn.ne'
  rw [flOutPoint, h2, h3, mul_div_cancel₀ _ hnK, h2, add_sub_cancel, h1]

/-! ### Double precision -/

attribute [local instance] ratSqrt

/-- The number `0.11` in double precision. -/
def double011 : ℚ := 7926335344172073 / 2 ^ 56

/-- **C105**, counterexample: in double precision no point can be projected onto a surface over a range from 0 to 0.11 in one of the directions
with the default numbers of points, 10 in each direction: `10 * 0.11 / 10` is greater than `0.11`. -/
theorem C105_surface_default {s : Spl ℚ} (h : Fl.WF doubleRounding s) {U V : List ℚ} (hk : s.ps.knots = [U, V]) (hU : knot U 0 = 0)
    (hV : knot V 0 = 0) (hT : lastKnot U = double011 ∨ lastKnot V = double011) {P : List ℚ} (hP : P.length ≤ s.ph.dim) (tol : ℚ) :
    Fl.onSurface doubleRounding s P 10 10 tol = .error (.thrown .rangeError) := by
  have : double011 < lastParam doubleRounding double011 10 := by decide +kernel
  refine (C105_surface h hk hU hV hP (n := 10) (m := 10) (by omega) (by omega)).2 ?_ tol
  rcases hT with hT | hT
  · exact .inl (by rw [hT]; exact this)
  · exact .inr (by rw [hT]; exact this)

/-- **C105**, double precision: the starting point on surfaces over ranges from 0 to integers is found for any numbers of points `n`, as long as
`n` times the length of the range is at most `2^53`. -/
theorem C105_surface_integer {s : Spl ℚ} (h : Fl.WF doubleRounding s) {U V : List ℚ} (hk : s.ps.knots = [U, V]) (hU : knot U 0 = 0)
    (hV : knot V 0 = 0) {A B : ℕ} (hA : lastKnot U = A) (hB : lastKnot V = B) {n m : ℕ} (hn : 0 < n) (hm : 0 < m) (hnA : n * A ≤ 2 ^ 53)
    (hmB : m * B ≤ 2 ^ 53) {P : List ℚ} (hP : P.length ≤ s.ph.dim) : ∃ x, Fl.initial2 doubleRounding s P n m = .ok x := by
  refine (C105_surface h hk hU hV hP hn hm).1 ⟨?_, ?_⟩
  · rw [hA]; exact (C105_integer_range double_int hn hnA).le
  · rw [hB]; exact (C105_integer_range double_int hm hmB).le

/-- **C105**, counterexample: in double precision a solution over the range from 0 to 29 cannot be written with seven cells: `7 * (29.0 / 7)` is
greater than `29.0`. -/
theorem C105_solution_seven {s : Spl ℚ} (h : Fl.WF doubleRounding s) (hn : IsNurbs s) (hsz : (npts s).prod < 2 ^ 64) {U : List ℚ}
    (hU : s.ps.knots = [U]) (hl : U.length < 2 ^ 64) (h0 : knot U 0 = 0) (h1 : lastKnot U = 29) (u : ℕ → ℚ) :
    Fl.solutionData doubleRounding s (Iga.vecOf (npts s).prod u) [7] = .error (.thrown .rangeError) := by
  refine (C105_solution h hn hsz (fun V hV => ?_) (fun V hV => ?_) (ns := [7]) (by rw [hU]; rfl) (by simp) u).2 fun hc => ?_
  · rw [hU, List.mem_singleton] at hV
    rw [hV]
    exact hl
  · rw [hU, List.mem_singleton] at hV
    rw [hV, h0, doubleRounding.rnd_zero]
  · rw [hU] at hc
    cases hc with
    | cons hc _ =>
      rw [flOutPoint, h0, h1] at hc
      exact absurd hc (by decide +kernel)

/-- A plane over two ranges from 0, built with double precision. -/
def flPlaneOver (a b : ℚ) : Spl ℚ := ⟨⟨[[0, 0, a, a], [0, 0, b, b]], [1, 1], flTable doubleRounding [[0, 0, a, a], [0, 0, b, b]] [1, 1]⟩,
  ⟨3, [2, 2], [0, 0, 0, 1, 0, 0, 0, 1, 0, 1, 1, 1], none⟩⟩

/-- A line over the range from 0 to 29 with weights, built with double precision. -/
def flRationalLine : Spl ℚ := ⟨⟨[[0, 0, 29, 29]], [1], flTable doubleRounding [[0, 0, 29, 29]] [1]⟩, ⟨1, [2], [1, 3], some [1, 2]⟩⟩

/-- Inputs for `C105_surface_default`, `C105_surface_integer` and `C105_solution_seven`. -/
example : Fl.WF doubleRounding (flPlaneOver double011 1) ∧ Fl.WF doubleRounding (flPlaneOver 3 7) ∧ Fl.WF doubleRounding flRationalLine ∧
    IsNurbs flRationalLine :=
  ⟨⟨.cons (by decide +kernel) (.cons (by decide +kernel) .nil), fl_basisTable_eq (.cons (by decide +kernel) (.cons (by decide +kernel) .nil)),
      by decide +kernel, by decide +kernel, by decide +kernel, by simp [flPlaneOver]⟩,
    ⟨.cons (by decide +kernel) (.cons (by decide +kernel) .nil), fl_basisTable_eq (.cons (by decide +kernel) (.cons (by decide +kernel) .nil)),
      by decide +kernel, by decide +kernel, by decide +kernel, by simp [flPlaneOver]⟩,
    ⟨.cons (by decide +kernel) .nil, fl_basisTable_eq (.cons (by decide +kernel) .nil), by decide +kernel, by decide +kernel, by decide +kernel, by
      intro w hw
      cases hw
      exact ⟨by decide +kernel, by decide +kernel⟩⟩,
    ⟨_, rfl⟩⟩

/-- `C105_curve`: the line over the range from 0 to 7. -/
example (P : ℚ) (tol : ℚ) : (∃ t n, Fl.onCurve doubleRounding (flLineOver 0 7) [P] tol = .ok ([t], n) ∧ 0 ≤ t ∧ t ≤ 7 ∧ n ≤ 1001) ∨
    Fl.onCurve doubleRounding (flLineOver 0 7) [P] tol = .error .nonfinite :=
  C105_curve (U := [0, 0, 7, 7]) ⟨.cons (by decide +kernel) .nil, fl_basisTable_eq (.cons (by decide +kernel) .nil), by decide +kernel, by decide +kernel,
    by decide +kernel, by simp [flLineOver]⟩ rfl (by decide) rfl (by unfold FloatKnots; decide +kernel) (by decide +kernel) (le_refl 1) tol

end SplineLib
