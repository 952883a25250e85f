import Verif.Core.Projection
import Verif.Props.Evaluation
import Verif.Props.Derivatives
import Verif.Props.Elements
import Verif.Props.KnotRemoval

/-!
# Property C41: projection onto curves and surfaces
-/

namespace SplineLib
set_option linter.unusedSectionVars false
open Proj
variable {K : Type} [Field K] [LinearOrder K] [IsStrictOrderedRing K]

section
variable {s : Spl K} {U P : List K} {p : ℕ}

theorem mem_range_dims {P : List K} {n : ℕ} (h : P.length ≤ n) : ∀ c ∈ List.range P.length, c < n :=
  fun _ hc => lt_of_lt_of_le (List.mem_range.1 hc) h

/-- The evaluations at one parameter. -/
theorem eval_both (h : WFSpl s) (hP : P.length ≤ s.ph.dim) {x : List K} (hl : x.length = s.ps.knots.length) (hx : InDomain s x)
    (k : List ℕ) (hk : k.length = s.ps.knots.length) :
    ∃ C dC, s.evaluate x (dimensions P) = .ok C ∧ s.evaluateDerivative x (dimensions P) (zl k) = .ok dC ∧
      C.length = P.length ∧ dC.length = P.length := by
  obtain ⟨C, e1, l1⟩ := (C02_evaluate h hl).2 _ (mem_range_dims hP) hx
  obtain ⟨dC, e2, l2⟩ := (C02_evaluateDerivative h hl).2 _ k (mem_range_dims hP) hk hx
  rw [List.length_range] at l1 l2
  exact ⟨C, dC, e1, e2, l1, l2⟩

theorem domain_of_ok (h : WFSpl s) {x : List K} (hl : x.length = s.ps.knots.length) {dims : List ℤ} {v : List K}
    (he : s.evaluate x dims = .ok v) : InDomain s x := by
  by_contra hx
  rw [(C02_evaluate h hl).1 dims hx] at he
  cases he

theorem curveStep_eq_ok (h : WFSpl s) (hk : s.ps.knots = [U]) (hP : P.length ≤ s.ph.dim) {x : K} {δ : List K}
    (he : curveStep s P [x] = .ok δ) : InDomain s [x] ∧ ∃ C dC, s.evaluate [x] (dimensions P) = .ok C ∧
      s.evaluateDerivative [x] (dimensions P) [1] = .ok dC ∧ C.length = P.length ∧ dC.length = P.length ∧ Vec.dot dC dC ≠ 0 ∧
      δ = [Vec.dot dC (Vec.sub P C) / Vec.dot dC dC] := by
  have hl : [x].length = s.ps.knots.length := by rw [hk]; rfl
  unfold curveStep at he
  obtain ⟨dC, h1, he⟩ := bind_eq_ok.1 he
  obtain ⟨C, h2, he⟩ := bind_eq_ok.1 he
  have hx := domain_of_ok h hl h2
  obtain ⟨C', dC', e1, e2, l1, l2⟩ := eval_both h hP hl hx [1] (by rw [hk]; rfl)
  rw [h2] at e1
  cases e1
  rw [show zl [1] = [1] from rfl, h1] at e2
  cases e2
  have := (delta1_eq_ok l1 l2).1 he
  exact ⟨hx, C, dC, h2, h1, l1, l2, this.1, this.2⟩

/-- **C41**, curves: whatever the curve, the point and the tolerance, a parameter returned by the projection is inside the knot range
and was found in at most 1001 iterations. It is the result of a Gauss-Newton step from a parameter `x` of the curve, limited to the knot
range. If the iteration ended before the 1001st iteration, this step was smaller than the tolerance, i.e. the vector from the point of
the curve at `x` to the given point is orthogonal to the curve up to the tolerance. -/
theorem C41_curve_result [HasSqrt K] (h : WFSpl s) (hk : s.ps.knots = [U]) (hP : P.length ≤ s.ph.dim) {tol : K} {y : List K} {n : ℕ}
    (hr : onCurve s P tol = .ok (y, n)) :
    n ≤ 1001 ∧ ∃ x t δ C dC, y = [t] ∧ InDomain s [t] ∧ InDomain s [x] ∧ s.evaluate [x] (dimensions P) = .ok C ∧
      s.evaluateDerivative [x] (dimensions P) [1] = .ok dC ∧ Vec.dot dC dC ≠ 0 ∧ δ * Vec.dot dC dC = Vec.dot dC (Vec.sub P C) ∧
      t = max (knot U 0) (min (lastKnot U) (x + δ)) ∧ (n < 1001 → |δ| < tol) := by
  obtain ⟨p, hd, hw⟩ : ∃ p, s.ps.degree = [p] ∧ WFKnots U p := by
    have := h.knots
    rw [hk] at this
    cases hp : s.ps.degree with
    | nil => rw [hp] at this; cases this
    | cons p l => rw [hp] at this; cases this with | cons a b => cases b; exact ⟨p, rfl, a⟩
  have hU : s.ps.knots[0]? = some U := by rw [hk]; rfl
  unfold onCurve at hr
  obtain ⟨x1, h1, hr⟩ := bind_eq_ok.1 hr
  obtain ⟨z, rfl⟩ : ∃ z, x1 = [z] := by
    unfold initial1 at h1
    obtain ⟨_, _, h1⟩ := bind_eq_ok.1 h1
    obtain ⟨_, _, h1⟩ := bind_eq_ok.1 h1
    obtain ⟨_, _, h1⟩ := bind_eq_ok.1 h1
    obtain ⟨_, _, h1⟩ := bind_eq_ok.1 h1
    obtain ⟨_, _, h1⟩ := bind_eq_ok.1 h1
    obtain ⟨z, _, h1⟩ := bind_eq_ok.1 h1
    cases h1; exact ⟨z, rfl⟩
  obtain ⟨hn, x0, δ, ⟨x, rfl⟩, hs, hc, hv⟩ := loop_result (I := fun x => ∃ t, x = [t]) (by
    rintro _ δ y ⟨t, rfl⟩ h1 h2
    obtain ⟨_, C, dC, _, _, _, _, _, rfl⟩ := curveStep_eq_ok h hk hP h1
    rw [check_eq hU hw] at h2
    cases h2; exact ⟨_, rfl⟩) (by omega) ⟨z, rfl⟩ hr
  obtain ⟨hx, C, dC, e1, e2, l1, l2, h0, rfl⟩ := curveStep_eq_ok h hk hP hs
  rw [check_eq hU hw] at hc
  have hle : knot U 0 ≤ lastKnot U := hw.range.le
  refine ⟨hn, x, clamp (knot U 0) (lastKnot U) (x + _), _, C, dC, ?_, ?_, hx, e1, e2, h0, div_mul_cancel₀ _ h0, clamp_eq hle _, fun hlt => ?_⟩
  · exact (Except.ok.inj hc).symm
  · unfold InDomain
    rw [hk]
    exact .cons (clamp_mem hle _) .nil
  · exact converged_iff.1 (hv hlt) _ (by simp)

theorem degree_of (h : WFSpl s) (hk : s.ps.knots = [U]) : ∃ p, s.ps.degree = [p] ∧ WFKnots U p := by
  have := h.knots
  rw [hk] at this
  cases hp : s.ps.degree with
  | nil => rw [hp] at this; cases this
  | cons p l => rw [hp] at this; cases this with | cons a b => cases b; exact ⟨p, rfl, a⟩

theorem mem_bounds {p : ℕ} (hw : WFKnots U p) {x : K} (hx : x ∈ U) : knot U 0 ≤ x ∧ x ≤ lastKnot U := by
  obtain ⟨i, hi, rfl⟩ := List.mem_iff_getElem.1 hx
  have e : U[i] = knot U i := by simp [knot, hi]
  rw [e]
  exact ⟨hw.sorted.first_le hi, hw.sorted.le_last hi⟩

theorem element_mem {p : ℕ} (hw : WFKnots U p) (hl : U.length < 2 ^ 64) {es : List (K × K)} (hE : Elem.elementsDir U p = .ok es) :
    es ≠ [] ∧ (∀ e ∈ es, knot U 0 ≤ e.1 ∧ e.1 < e.2 ∧ e.2 ≤ lastKnot U) ∧ ∀ a, es.head? = some a → a.1 = knot U 0 := by
  obtain ⟨es', e1, h1, h2, _, h3, _⟩ := C43_elements_consecutive hw hl
  rw [hE] at e1
  cases e1
  refine ⟨h1, fun e he => ?_, h3⟩
  rw [Elem.elementsDir_eq hw hl] at hE
  cases hE
  have hm := List.of_mem_zip (a := e.1) (b := e.2) he
  have m1 := Elem.mem_uniq.1 hm.1
  have m2 := Elem.mem_uniq.1 (List.mem_of_mem_tail hm.2)
  exact ⟨(mem_bounds hw m1).1, h2 e he, (mem_bounds hw m2).2⟩

theorem sq_le_of_sqrt_le [HasSqrt K] [LawfulSqrt K] {a b : K} (ha : 0 ≤ a) (hb : 0 ≤ b) (h : HasSqrt.sqrt a ≤ HasSqrt.sqrt b) : a ≤ b := by
  rw [← LawfulSqrt.sq a ha, ← LawfulSqrt.sq b hb]
  exact mul_le_mul h h (LawfulSqrt.nonneg a ha) (LawfulSqrt.nonneg b hb)

/-- The squared distance between the given point and the point of the spline at a parameter. -/
def sqDist (s : Spl K) (P x : List K) : M K := do
  let C ← s.evaluate x (dimensions P)
  return Vec.dot (Vec.sub P C) (Vec.sub P C)

theorem sqDist_ok (h : WFSpl s) (hP : P.length ≤ s.ph.dim) {x : List K} (hl : x.length = s.ps.knots.length) (hx : InDomain s x) :
    ∃ C a, s.evaluate x (dimensions P) = .ok C ∧ C.length = P.length ∧ sqDist s P x = .ok a ∧ a = Vec.dot (Vec.sub P C) (Vec.sub P C) := by
  obtain ⟨C, e1, l1⟩ := (C02_evaluate h hl).2 _ (mem_range_dims hP) hx
  rw [← dimensions_eq] at e1
  rw [List.length_range] at l1
  exact ⟨C, _, e1, l1, by unfold sqDist; rw [e1, ok_bind]; rfl, rfl⟩

/-- `x` is the nearest of the candidates. -/
def Nearest (s : Spl K) (P x : List K) (cands : List (List K)) : Prop :=
  x ∈ cands ∧ ∀ y ∈ cands, ∃ a b, sqDist s P x = .ok a ∧ sqDist s P y = .ok b ∧ a ≤ b

theorem Nearest.mono {x : List K} {l l' : List (List K)} (h : Nearest s P x l) (hm : ∀ y, y ∈ l' ↔ y ∈ l) : Nearest s P x l' :=
  ⟨(hm x).2 h.1, fun y hy => h.2 y ((hm y).1 hy)⟩

theorem Nearest.step [HasSqrt K] [LawfulSqrt K] {x y : List K} {l : List (List K)} {a b : K} (h : Nearest s P x l)
    (ha : sqDist s P x = .ok a) (hb : sqDist s P y = .ok b) (ha0 : 0 ≤ a) (hb0 : 0 ≤ b) :
    (HasSqrt.sqrt b < HasSqrt.sqrt a → Nearest s P y (y :: l)) ∧ (¬ HasSqrt.sqrt b < HasSqrt.sqrt a → Nearest s P x (y :: l)) := by
  constructor
  · intro hlt
    have hba := sq_le_of_sqrt_le hb0 ha0 hlt.le
    refine ⟨by simp, fun z hz => ?_⟩
    rcases List.mem_cons.1 hz with rfl | hz
    · exact ⟨b, b, hb, hb, le_refl _⟩
    · obtain ⟨a', c, h1, h2, h3⟩ := h.2 z hz
      rw [ha] at h1
      cases h1
      exact ⟨b, c, hb, h2, hba.trans h3⟩
  · intro hge
    have hab := sq_le_of_sqrt_le ha0 hb0 (not_lt.1 hge)
    refine ⟨by simp [h.1], fun z hz => ?_⟩
    rcases List.mem_cons.1 hz with rfl | hz
    · exact ⟨a, b, ha, hb, hab⟩
    · exact h.2 z hz

theorem initialLoop1_eq [HasSqrt K] [LawfulSqrt K] (h : WFSpl s) (hk : s.ps.knots = [U]) (hP : P.length ≤ s.ph.dim) :
    ∀ {es : List (K × K)}, (∀ e ∈ es, InDomain s [(e.1 + e.2) / 2]) → ∀ {x a : K} {l : List (List K)}, Nearest s P [x] l →
      sqDist s P [x] = .ok a → 0 ≤ a →
      ∃ z, initialLoop1 s P es (HasSqrt.sqrt a) x = .ok z ∧ Nearest s P [z] ((es.map fun e => [(e.1 + e.2) / 2]) ++ l) := by
  intro es
  induction es with
  | nil => intro _ x a l hn _ _; exact ⟨x, rfl, hn⟩
  | cons e es ih =>
    intro hd x a l hn ha ha0
    have he : 1 / 2 * (e.2 - e.1) + e.1 = (e.1 + e.2) / 2 := by ring
    obtain ⟨C, b, e1, l1, e2, rfl⟩ := sqDist_ok h hP (x := [(e.1 + e.2) / 2]) (by rw [hk]; rfl) (hd e (by simp))
    have hb0 := Vec.dot_self_nonneg (Vec.sub P C)
    have st := hn.step ha e2 ha0 hb0
    unfold initialLoop1
    rw [he]
    dsimp only
    rw [e1, ok_bind, Vec.distance_eq l1.symm, ok_bind]
    have hsub : ∀ e ∈ es, InDomain s [(e.1 + e.2) / 2] := fun e he => hd e (List.mem_cons_of_mem _ he)
    have hmem : ∀ z, z ∈ (((e :: es).map fun e => [(e.1 + e.2) / 2]) ++ l) ↔
        z ∈ ((es.map fun e => [(e.1 + e.2) / 2]) ++ ([(e.1 + e.2) / 2] :: l)) := fun z => by
      simp only [List.map_cons, List.cons_append, List.mem_cons, List.mem_append]; tauto
    split
    · rename_i hlt
      obtain ⟨z, h1, h2⟩ := ih hsub (st.1 hlt) e2 hb0
      exact ⟨z, h1, h2.mono hmem⟩
    · rename_i hlt
      obtain ⟨z, h1, h2⟩ := ih hsub (st.2 hlt) ha ha0
      exact ⟨z, h1, h2.mono hmem⟩

/-- **C41**, curves: the parameter at which the iteration starts is the nearest one of the midpoints of the elements, but with half of
the length of the first element instead of its midpoint. These agree if the knot range starts at `0`. -/
theorem C41_curve_start [HasSqrt K] [LawfulSqrt K] (h : WFSpl s) (hk : s.ps.knots = [U]) (hd : s.ps.degree = [p]) (hl : U.length < 2 ^ 64)
    (hP : P.length ≤ s.ph.dim) {e : K × K} {es : List (K × K)} (hE : Elem.elementsDir U p = .ok (e :: es))
    (hx : InDomain s [(e.2 - e.1) / 2]) :
    ∃ x, initial1 s P = .ok [x] ∧ Nearest s P [x] ([(e.2 - e.1) / 2] :: es.map fun e => [(e.1 + e.2) / 2]) ∧
      (knot U 0 = 0 → (e.2 - e.1) / 2 = (e.1 + e.2) / 2) := by
  obtain ⟨p', hd', hw⟩ := degree_of h hk
  rw [hd] at hd'
  cases hd'
  obtain ⟨_, hm, hf⟩ := element_mem hw hl hE
  obtain ⟨C, a, e1, l1, e2, rfl⟩ := sqDist_ok h hP (x := [(e.2 - e.1) / 2]) (by rw [hk]; rfl) hx
  obtain ⟨z, e3, hn⟩ := initialLoop1_eq h hk hP (es := es) (fun e' he' => by
    obtain ⟨h1, h2, h3⟩ := hm e' (by simp [he'])
    unfold InDomain
    rw [hk]
    refine .cons ⟨?_, ?_⟩ .nil <;> linarith) (x := (e.2 - e.1) / 2) (l := [[(e.2 - e.1) / 2]])
    ⟨by simp, fun y hy => by rw [List.mem_singleton.1 hy]; exact ⟨_, _, e2, e2, le_refl _⟩⟩ e2 (Vec.dot_self_nonneg _)
  refine ⟨z, ?_, hn.mono fun y => by simp only [List.mem_cons, List.mem_append, List.not_mem_nil, or_false]; tauto, fun h0 => ?_⟩
  · unfold initial1
    rw [hk, hd]
    unfold Elem.elements Elem.elements
    rw [hE, ok_bind, ok_bind]
    have he : 1 / 2 * (e.2 - e.1) = (e.2 - e.1) / 2 := by ring
    simp only [getN, ok_bind, List.getElem?_cons_zero, pure, Except.pure, List.tail_cons]
    rw [he, e1, ok_bind, Vec.distance_eq l1.symm, ok_bind, e3, ok_bind]
  · have := hf e rfl
    rw [this, h0]; ring

/-- **C41**, curves: if the half of the length of the first element is a parameter of the curve, the projection either returns a
parameter or meets a parameter of the curve at which the derivative vanishes. -/
theorem C41_curve_outcome_partial [HasSqrt K] [LawfulSqrt K] (h : WFSpl s) (hk : s.ps.knots = [U]) (hd : s.ps.degree = [p]) (hl : U.length < 2 ^ 64)
    (hP : P.length ≤ s.ph.dim) {e : K × K} {es : List (K × K)} (hE : Elem.elementsDir U p = .ok (e :: es))
    (hx : InDomain s [(e.2 - e.1) / 2]) (tol : K) :
    (∃ y n, onCurve s P tol = .ok (y, n)) ∨ (onCurve s P tol = .error .nonfinite ∧
      ∃ x dC, InDomain s [x] ∧ s.evaluateDerivative [x] (dimensions P) [1] = .ok dC ∧ Vec.dot dC dC = 0) := by
  obtain ⟨p', hd', hw⟩ := degree_of h hk
  obtain ⟨x, e1, hn, _⟩ := C41_curve_start h hk hd hl hP hE hx
  have hx0 : InDomain s [x] := by
    obtain ⟨a, b, h1, _⟩ := hn.2 _ hn.1
    unfold sqDist at h1
    obtain ⟨C, h1, _⟩ := bind_eq_ok.1 h1
    exact domain_of_ok h (by rw [hk]; rfl) h1
  have hU : s.ps.knots[0]? = some U := by rw [hk]; rfl
  unfold onCurve
  rw [e1, ok_bind]
  have key : ∀ x, InDomain s [x] → ∃ C dC, s.evaluate [x] (dimensions P) = .ok C ∧
      s.evaluateDerivative [x] (dimensions P) [1] = .ok dC ∧ C.length = P.length ∧ dC.length = P.length := fun x hx =>
    eval_both h hP (by rw [hk]; rfl) hx [1] (by rw [hk]; rfl)
  have := loop_total (tol := tol) (step := curveStep s P) (s := s) (I := fun x => ∃ t, x = [t] ∧ InDomain s [t]) (by
    rintro _ ⟨t, rfl, ht⟩
    obtain ⟨C, dC, f1, f2, l1, l2⟩ := key t ht
    by_cases h0 : Vec.dot dC dC = 0
    · left
      unfold curveStep
      rw [f2, ok_bind, f1, ok_bind, delta1_err l1 l2 h0]
    · right
      refine ⟨[Vec.dot dC (Vec.sub P C) / Vec.dot dC dC], _, ?_, check_eq hU hw _, _, rfl, ?_⟩
      · unfold curveStep
        rw [f2, ok_bind, f1, ok_bind]
        exact (delta1_eq_ok l1 l2).2 ⟨h0, rfl⟩
      · unfold InDomain
        rw [hk]
        exact .cons (clamp_mem hw.range.le _) .nil) (fuel := 1001) (it := 0) (by omega) (by omega) ⟨x, rfl, hx0⟩
  rcases this with ⟨r, hr⟩ | ⟨hr, _, ⟨t, rfl, ht⟩, h0⟩
  · exact Or.inl ⟨r.1, r.2, hr⟩
  · refine Or.inr ⟨hr, t, ?_⟩
    obtain ⟨C, dC, f1, f2, l1, l2⟩ := key t ht
    refine ⟨dC, ht, f2, ?_⟩
    by_contra hne
    unfold curveStep at h0
    rw [f2, ok_bind, f1, ok_bind, (delta1_eq_ok l1 l2).2 ⟨hne, rfl⟩] at h0
    cases h0

/-- **C41** is false for curves whose knot range does not contain the half of the length of its first element, for example all ranges
`[a, b]` without interior knots and `a > 0`, `3 a > b`: the projection of every point throws. -/
theorem C41_curve_late_range_throws [HasSqrt K] (h : WFSpl s) (hk : s.ps.knots = [U]) (hd : s.ps.degree = [p]) (P : List K)
    {e : K × K} {es : List (K × K)} (hE : Elem.elementsDir U p = .ok (e :: es)) (hx : ¬ InDomain s [(e.2 - e.1) / 2]) (tol : K) :
    onCurve s P tol = .error (.thrown .rangeError) := by
  unfold onCurve initial1
  rw [hk, hd]
  unfold Elem.elements Elem.elements
  rw [hE, ok_bind, ok_bind]
  have he : 1 / 2 * (e.2 - e.1) = (e.2 - e.1) / 2 := by ring
  simp only [getN, ok_bind, List.getElem?_cons_zero, pure, Except.pure]
  rw [he, (C02_evaluate h (by rw [hk]; rfl)).1 _ hx]
  rfl

/-- **C41**, straight lines: if the curve is a straight line with constant speed, the result is a parameter of a point of the curve with
the smallest distance of all points of the curve, whatever the point and the tolerance. -/
theorem C41_line_exact [HasSqrt K] (h : WFSpl s) (hk : s.ps.knots = [U]) (hP : P.length ≤ s.ph.dim) {tol : K} {y : List K} {n : ℕ}
    (hr : onCurve s P tol = .ok (y, n)) {A D : List K} (hA : A.length = P.length) (hD : D.length = P.length)
    (hC : ∀ x, InDomain s [x] → s.evaluate [x] (dimensions P) = .ok (Vec.pt A D x) ∧ s.evaluateDerivative [x] (dimensions P) [1] = .ok D) :
    ∃ t a, y = [t] ∧ InDomain s [t] ∧ sqDist s P [t] = .ok a ∧ ∀ x, InDomain s [x] → ∃ b, sqDist s P [x] = .ok b ∧ a ≤ b := by
  obtain ⟨_, x, t, δ, C, dC, rfl, ht, hx, e1, e2, h0, hδ, e3, _⟩ := C41_curve_result h hk hP hr
  rw [(hC x hx).1] at e1
  rw [(hC x hx).2] at e2
  cases e1
  cases e2
  have hd : ∀ z, InDomain s [z] → sqDist s P [z] = .ok (Vec.dot (Vec.sub P (Vec.pt A D z)) (Vec.sub P (Vec.pt A D z))) := fun z hz => by
    unfold sqDist; rw [(hC z hz).1]; rfl
  refine ⟨t, _, rfl, ht, hd t ht, fun z hz => ⟨_, hd z hz, ?_⟩⟩
  have hAD : A.length = D.length := hA.trans hD.symm
  rw [Vec.dist_pt hD.symm hAD, Vec.dist_pt hD.symm hAD]
  rw [Vec.dot_sub_pt hD.symm hAD rfl] at hδ
  have hb : knot U 0 ≤ z ∧ z ≤ lastKnot U := by
    unfold InDomain at hz
    rw [hk] at hz
    cases hz with | cons a _ => exact a
  have hq : 0 ≤ Vec.dot D D := Vec.dot_self_nonneg D
  generalize Vec.dot D D = q at *
  generalize Vec.dot D (Vec.sub P A) = w at *
  have hf : w = (x + δ) * q := by linear_combination -hδ
  generalize x + δ = f at *
  suffices hs : 0 ≤ (z - t) * (z + t - 2 * f) by
    have := mul_nonneg hq hs
    rw [hf]
    linarith [show q * ((z - t) * (z + t - 2 * f)) = (z * z * q - 2 * z * (f * q)) - (t * t * q - 2 * t * (f * q)) by ring]
  rcases le_total f (knot U 0) with hf1 | hf1
  · have : t = knot U 0 := by rw [e3]; exact max_eq_left ((min_le_right _ _).trans hf1)
    exact mul_nonneg (by linarith [hb.1]) (by linarith [hb.1])
  · rcases le_total (lastKnot U) f with hf2 | hf2
    · have : t = lastKnot U := by rw [e3, min_eq_left hf2]; exact max_eq_right (hb.1.trans hb.2)
      exact mul_nonneg_of_nonpos_of_nonpos (by linarith [hb.2]) (by linarith [hb.2])
    · have : t = f := by rw [e3, min_eq_right hf2, max_eq_right hf1]
      rw [this]
      nlinarith [mul_self_nonneg (z - f)]

theorem linear_basis {a b x : K} (hab : a < b) (h0 : a ≤ x) (h1 : x ≤ b) :
    (coxDeBoor [a, a, b, b] 1 0 x = (b - x) / (b - a) ∧ coxDeBoor [a, a, b, b] 1 1 x = (x - a) / (b - a)) ∧
    coxDeBoorDeriv [a, a, b, b] 1 1 0 x = -1 / (b - a) ∧ coxDeBoorDeriv [a, a, b, b] 1 1 1 x = 1 / (b - a) := by
  have i0 : ¬ InSpan [a, a, b, b] 0 x := by
    rintro (⟨h, h'⟩ | ⟨h, h', _⟩)
    · exact absurd h (not_le.2 h')
    · exact absurd h' (ne_of_gt h)
  have i1 : InSpan [a, a, b, b] 1 x := by
    rcases lt_or_eq_of_le h1 with h | h
    · exact Or.inl ⟨h0, h⟩
    · exact Or.inr ⟨by rw [h]; exact hab, h, h⟩
  have i2 : ¬ InSpan [a, a, b, b] 2 x := by
    rintro (⟨h, h'⟩ | ⟨h, h', _⟩)
    · exact absurd h (not_le.2 h')
    · exact absurd h' (ne_of_gt h)
  have k0 : knot [a, a, b, b] 0 = a := rfl
  have k1 : knot [a, a, b, b] 1 = a := rfl
  have k2 : knot [a, a, b, b] 2 = b := rfl
  have k3 : knot [a, a, b, b] 3 = b := rfl
  simp only [coxDeBoor, coxDeBoorDeriv, Nat.zero_add, Nat.reduceAdd, if_neg i0, if_pos i1, if_neg i2, k0, k1, k2, k3]
  norm_num
  rw [neg_div, one_div]

/-- **C41**, segments: for every straight B-spline segment between two points and every given point the projection, if it returns,
returns the parameter of the nearest point of the segment exactly. -/
theorem C41_segment_exact [HasSqrt K] {a b : K} (h : WFSpl s) (hk : s.ps.knots = [[a, a, b, b]]) (hd : s.ps.degree = [1]) (hb : IsBSpline s)
    (hP : P.length ≤ s.ph.dim) {tol : K} {y : List K} {n : ℕ} (hr : onCurve s P tol = .ok (y, n)) :
    ∃ t c, y = [t] ∧ InDomain s [t] ∧ sqDist s P [t] = .ok c ∧ ∀ x, InDomain s [x] → ∃ e, sqDist s P [x] = .ok e ∧ c ≤ e := by
  have hab : a < b := by
    have := h.knots
    rw [hk, hd] at this
    cases this with | cons w _ => exact w.range
  have hne : b - a ≠ 0 := (sub_pos.2 hab).ne'
  have hn : npts s = [2] := by unfold npts; rw [hk, hd]; rfl
  refine C41_line_exact h hk hP hr
    (A := (List.range P.length).map fun c => (b * cpt s [0] c - a * cpt s [1] c) / (b - a))
    (D := (List.range P.length).map fun c => (cpt s [1] c - cpt s [0] c) / (b - a)) (by simp) (by simp) fun x hx => ?_
  have hx' : a ≤ x ∧ x ≤ b := by
    unfold InDomain at hx
    rw [hk] at hx
    cases hx with | cons h _ => exact h
  obtain ⟨⟨b0, b1⟩, c0, c1⟩ := linear_basis hab hx'.1 hx'.2
  rw [dimensions_eq, evaluate_bspline h hb hx _ (mem_range_dims hP), show ([1] : List ℤ) = zl [1] from rfl,
    evaluateDerivative_bspline h hb hx _ (mem_range_dims hP) (by rw [hk]; rfl)]
  constructor
  · rw [Vec.pt, List.zipWith_map, List.zipWith_self]
    refine congrArg _ (List.map_congr_left fun c _ => ?_)
    simp only [bsplineValue, tensorSum, hn, hk, hd, msum, basisFns, dprod, Finset.sum_range_succ, Finset.sum_range_zero, b0, b1]
    field_simp
    ring
  · refine congrArg _ (List.map_congr_left fun c _ => ?_)
    simp only [tensorDerivSum, hn, hk, hd, msum, basisDerivFns, dprod, Finset.sum_range_succ, Finset.sum_range_zero, c0, c1]
    field_simp
    ring

/-! ### Surfaces -/

variable {V : List K} {q : ℕ}

theorem degrees_of (h : WFSpl s) (hk : s.ps.knots = [U, V]) : ∃ p q, s.ps.degree = [p, q] ∧ WFKnots U p ∧ WFKnots V q := by
  have := h.knots
  rw [hk] at this
  match hp : s.ps.degree with
  | [] => rw [hp] at this; cases this
  | [p] => rw [hp] at this; cases this with | cons a b => cases b
  | p :: q :: l =>
    rw [hp] at this
    cases this with | cons a b => cases b with | cons c d => cases d; exact ⟨p, q, rfl, a, c⟩

theorem domain2 (hk : s.ps.knots = [U, V]) {u v : K} :
    InDomain s [u, v] ↔ (knot U 0 ≤ u ∧ u ≤ lastKnot U) ∧ knot V 0 ≤ v ∧ v ≤ lastKnot V := by
  unfold InDomain
  rw [hk]
  simp

/-- The values computed in one iteration on a surface: position and partial derivatives. -/
structure SurfaceValues (s : Spl K) (P x S Su Sv : List K) : Prop where
  pos : s.evaluate x (dimensions P) = .ok S
  du : s.evaluateDerivative x (dimensions P) [1, 0] = .ok Su
  dv : s.evaluateDerivative x (dimensions P) [0, 1] = .ok Sv

theorem surfaceValues (h : WFSpl s) (hk : s.ps.knots = [U, V]) (hP : P.length ≤ s.ph.dim) {u v : K} (hx : InDomain s [u, v]) :
    ∃ S Su Sv, SurfaceValues s P [u, v] S Su Sv ∧ S.length = P.length ∧ Su.length = P.length ∧ Sv.length = P.length := by
  obtain ⟨S, Su, e1, e2, l1, l2⟩ := eval_both h hP (by rw [hk]; rfl) hx [1, 0] (by rw [hk]; rfl)
  obtain ⟨_, Sv, _, e3, _, l3⟩ := eval_both h hP (by rw [hk]; rfl) hx [0, 1] (by rw [hk]; rfl)
  exact ⟨S, Su, Sv, ⟨e1, e2, e3⟩, l1, l2, l3⟩

variable [HasSqrt K]

theorem surfaceStep_eq {x S Su Sv : List K} (hv : SurfaceValues s P x S Su Sv) : surfaceStep s P x = delta2 S Su Sv P := by
  unfold surfaceStep
  rw [hv.du, ok_bind, hv.dv, ok_bind, hv.pos, ok_bind]

theorem surfaceStep_eq_ok (h : WFSpl s) (hk : s.ps.knots = [U, V]) (hP : P.length ≤ s.ph.dim) (h3 : P.length = 3) {u v : K} {δ : List K}
    (he : surfaceStep s P [u, v] = .ok δ) : InDomain s [u, v] ∧ ∃ S Su Sv d1 d2, SurfaceValues s P [u, v] S Su Sv ∧
      S.length = 3 ∧ Su.length = 3 ∧ Sv.length = 3 ∧ gram Su Sv ≠ 0 ∧
      δ = [d1, d2] ∧ d1 * Vec.dot Su Su + d2 * Vec.dot Sv Su = Vec.dot (Vec.sub P S) Su ∧
      d1 * Vec.dot Sv Su + d2 * Vec.dot Sv Sv = Vec.dot (Vec.sub P S) Sv := by
  have hx : InDomain s [u, v] := by
    unfold surfaceStep at he
    obtain ⟨_, _, he⟩ := bind_eq_ok.1 he
    obtain ⟨_, _, he⟩ := bind_eq_ok.1 he
    obtain ⟨_, h2, _⟩ := bind_eq_ok.1 he
    exact domain_of_ok h (by rw [hk]; rfl) h2
  obtain ⟨S, Su, Sv, hv, l1, l2, l3⟩ := surfaceValues h hk hP hx
  rw [surfaceStep_eq hv] at he
  obtain ⟨hg, d1, d2, e, n1, n2⟩ := delta2_eq_ok h3 (l1.trans h3) (l2.trans h3) (l3.trans h3) he
  exact ⟨hx, S, Su, Sv, d1, d2, hv, l1.trans h3, l2.trans h3, l3.trans h3, hg, e, n1, n2⟩

theorem initialRow_pair {u a2 b2 : K} {sc : ℤ} : ∀ {n j : ℕ} {dist : K} {x : List K} {r : K × List K}, (∃ a b, x = [a, b]) →
    initialRow s P u a2 b2 sc n j dist x = .ok r → ∃ a b, r.2 = [a, b] := by
  intro n
  induction n with
  | zero => intro j dist x r hx h; cases h; exact hx
  | succ n ih =>
    intro j dist x r hx h
    unfold initialRow at h
    obtain ⟨_, _, h⟩ := bind_eq_ok.1 h
    obtain ⟨_, _, h⟩ := bind_eq_ok.1 h
    split at h
    · exact ih ⟨_, _, rfl⟩ h
    · exact ih hx h

theorem initialRows_pair {a1 b1 a2 b2 : K} {sc1 sc2 : ℤ} : ∀ {n j : ℕ} {dist : K} {x : List K} {r : K × List K}, (∃ a b, x = [a, b]) →
    initialRows s P a1 b1 a2 b2 sc1 sc2 n j dist x = .ok r → ∃ a b, r.2 = [a, b] := by
  intro n
  induction n with
  | zero => intro j dist x r hx h; cases h; exact hx
  | succ n ih =>
    intro j dist x r hx h
    unfold initialRows at h
    obtain ⟨_, h1, h⟩ := bind_eq_ok.1 h
    exact ih (initialRow_pair hx h1) h

theorem initial2_pair {sc1 sc2 : ℤ} {x : List K} (h : initial2 s P sc1 sc2 = .ok x) : ∃ a b, x = [a, b] := by
  unfold initial2 at h
  obtain ⟨_, _, h⟩ := bind_eq_ok.1 h
  obtain ⟨_, _, h⟩ := bind_eq_ok.1 h
  obtain ⟨_, _, h⟩ := bind_eq_ok.1 h
  obtain ⟨_, _, h⟩ := bind_eq_ok.1 h
  obtain ⟨_, _, h⟩ := bind_eq_ok.1 h
  obtain ⟨_, _, h⟩ := bind_eq_ok.1 h
  obtain ⟨_, _, h⟩ := bind_eq_ok.1 h
  obtain ⟨_, _, h⟩ := bind_eq_ok.1 h
  obtain ⟨_, h1, h⟩ := bind_eq_ok.1 h
  cases h
  exact initialRows_pair ⟨_, _, rfl⟩ h1

/-- **C41**, surfaces in space: whatever the surface, the point, the numbers of starting values and the tolerance, a result was found
in at most 1001 iterations. It is the result of a Gauss-Newton step `(d1, d2)` (the minimum of the linearised distance) from a parameter
`(a, b)` of the surface, at which the tangent vectors are not parallel. Both coordinates are limited to the range of the *first* knot
vector. If the iteration ended before the 1001st iteration, the step was smaller than the tolerance. -/
theorem C41_surface_result (h : WFSpl s) (hk : s.ps.knots = [U, V]) (hP : P.length ≤ s.ph.dim) (h3 : P.length = 3) {sc1 sc2 : ℤ}
    {tol : K} {y : List K} {n : ℕ} (hr : onSurface s P sc1 sc2 tol = .ok (y, n)) :
    n ≤ 1001 ∧ ∃ a b d1 d2 S Su Sv, InDomain s [a, b] ∧ SurfaceValues s P [a, b] S Su Sv ∧
      Vec.dot Su Su * Vec.dot Sv Sv ≠ Vec.dot Sv Su * Vec.dot Sv Su ∧
      d1 * Vec.dot Su Su + d2 * Vec.dot Sv Su = Vec.dot (Vec.sub P S) Su ∧
      d1 * Vec.dot Sv Su + d2 * Vec.dot Sv Sv = Vec.dot (Vec.sub P S) Sv ∧
      y = [max (knot U 0) (min (lastKnot U) (a + d1)), max (knot U 0) (min (lastKnot U) (b + d2))] ∧
      (n < 1001 → |d1| < tol ∧ |d2| < tol) := by
  obtain ⟨p, q, hd, hw, hw'⟩ := degrees_of h hk
  have hU : s.ps.knots[0]? = some U := by rw [hk]; rfl
  unfold onSurface at hr
  obtain ⟨x1, h1, hr⟩ := bind_eq_ok.1 hr
  obtain ⟨hn, x0, δ, ⟨a, b, rfl⟩, hs, hc, hv⟩ := loop_result (I := fun x => ∃ a b, x = [a, b]) (by
    rintro _ δ y ⟨a, b, rfl⟩ h1 h2
    obtain ⟨_, S, Su, Sv, d1, d2, _, _, _, _, _, rfl, _⟩ := surfaceStep_eq_ok h hk hP h3 h1
    rw [check_eq hU hw] at h2
    cases h2; exact ⟨_, _, rfl⟩) (by omega) (initial2_pair h1) hr
  obtain ⟨hx, S, Su, Sv, d1, d2, hv', _, _, _, hg, rfl, n1, n2⟩ := surfaceStep_eq_ok h hk hP h3 hs
  rw [check_eq hU hw] at hc
  have hle : knot U 0 ≤ lastKnot U := hw.range.le
  refine ⟨hn, a, b, d1, d2, S, Su, Sv, hx, hv', fun hc => hg (sub_eq_zero.2 hc), n1, n2, ?_, fun hlt => ?_⟩
  · rw [← clamp_eq hle, ← clamp_eq hle]
    exact (Except.ok.inj hc).symm
  · have := converged_iff.1 (hv hlt)
    exact ⟨this _ (by simp), this _ (by simp)⟩

/-- **C41**, surfaces with the same range in both directions: the result is inside the knot ranges. -/
theorem C41_surface_in_range_partial (h : WFSpl s) (hk : s.ps.knots = [U, V]) (hP : P.length ≤ s.ph.dim) (h3 : P.length = 3) {sc1 sc2 : ℤ}
    {tol : K} {y : List K} {n : ℕ} (hr : onSurface s P sc1 sc2 tol = .ok (y, n)) (h0 : knot V 0 = knot U 0)
    (h1 : lastKnot V = lastKnot U) : InDomain s y := by
  obtain ⟨p, q, hd, hw, hw'⟩ := degrees_of h hk
  obtain ⟨_, a, b, d1, d2, _, _, _, _, _, _, _, _, rfl, _⟩ := C41_surface_result h hk hP h3 hr
  have hle : knot U 0 ≤ lastKnot U := hw.range.le
  rw [domain2 hk, h0, h1, ← clamp_eq hle, ← clamp_eq hle]
  exact ⟨clamp_mem hle _, clamp_mem hle _⟩

/-- **C41** fails for surfaces with different ranges: the parameters of the second direction beyond the range of the first direction
are never returned. -/
theorem C41_surface_second_direction_cut (h : WFSpl s) (hk : s.ps.knots = [U, V]) (hP : P.length ≤ s.ph.dim) (h3 : P.length = 3)
    {sc1 sc2 : ℤ} {tol : K} {y : List K} {n : ℕ} (hr : onSurface s P sc1 sc2 tol = .ok (y, n)) :
    ∃ u v, y = [u, v] ∧ knot U 0 ≤ v ∧ v ≤ lastKnot U := by
  obtain ⟨p, q, hd, hw, hw'⟩ := degrees_of h hk
  obtain ⟨_, a, b, d1, d2, _, _, _, _, _, _, _, _, rfl, _⟩ := C41_surface_result h hk hP h3 hr
  have hle : knot U 0 ≤ lastKnot U := hw.range.le
  refine ⟨_, _, rfl, ?_⟩
  rw [← clamp_eq hle]
  exact clamp_mem hle _

section grid
variable [LawfulSqrt K]

/-- **C41**, surfaces in space: the point used for a step is the foot of the given point on the tangent plane: it lies in the plane through
the point `S` of the surface, and differs from the given point by a multiple of the normal vector. -/
theorem C41_tangent_foot {P q : List K} {s0 s1 s2 a0 a1 a2 b0 b1 b2 : K} (hP : P.length = 3)
    (h : getQ P [s0, s1, s2] [a0, a1, a2] [b0, b1, b2] = .ok q) :
    let n := [a1 * b2 - a2 * b1, a2 * b0 - a0 * b2, a0 * b1 - a1 * b0]
    Vec.dot (Vec.sub q [s0, s1, s2]) n = 0 ∧ ∃ c, Vec.sub q P = n.map fun a => c * a := by
  obtain ⟨p0, p1, p2, rfl⟩ := length3 hP
  unfold getQ at h
  rw [cross3, ok_bind] at h
  obtain ⟨f, hf, h⟩ := bind_eq_ok.1 h
  dsimp only at h
  rw [Vec.scalarProduct_eq (by simp [Vec.scale]), ok_bind, Vec.scalarProduct_eq (by simp [Vec.scale]), ok_bind,
    Vec.difference_eq (by simp [Vec.scale])] at h
  cases h
  generalize e1 : a1 * b2 - a2 * b1 = n0 at hf ⊢
  generalize e2 : a2 * b0 - a0 * b2 = n1 at hf ⊢
  generalize e3 : a0 * b1 - a1 * b0 = n2 at hf ⊢
  have hn : f * f * (n0 * n0 + n1 * n1 + n2 * n2) = 1 := by
    unfold fdiv at hf
    split at hf
    · cases hf
    · rename_i h0
      cases hf
      unfold Phys.twoNorm at h0 ⊢
      rw [foldl_sq, zero_add] at h0 ⊢
      have := LawfulSqrt.sq _ (sum_sq_nonneg [n0, n1, n2])
      set r := HasSqrt.sqrt (List.map (fun x => x * x) [n0, n1, n2]).sum with hr
      have e4 : n0 * n0 + n1 * n1 + n2 * n2 = r * r := by rw [this]; simp; ring
      rw [e4]
      field_simp
  simp only [Vec.dot, Vec.sub, Vec.scale, List.map_cons, List.map_nil, List.zipWith_cons_cons, List.zipWith_nil_left, List.sum_cons,
      List.sum_nil]
  refine ⟨?_, f * f * ((s0 - p0) * n0 + (s1 - p1) * n1 + (s2 - p2) * n2), ?_⟩
  · linear_combination ((s0 - p0) * n0 + (s1 - p1) * n1 + (s2 - p2) * n2) * hn
  · congr 1
    · ring
    · congr 1
      · ring
      · congr 1
        ring

theorem initialRow_eq (h : WFSpl s) (hk : s.ps.knots = [U, V]) (hP : P.length ≤ s.ph.dim) {u a2 b2 : K} {sc : ℤ} : ∀ {n j : ℕ},
    (∀ i, j ≤ i → i < j + n → InDomain s [u, (i : K) * (b2 - a2) / (sc : K)]) → ∀ {x : List K} {a : K} {l : List (List K)}, Nearest s P x l →
      sqDist s P x = .ok a → 0 ≤ a →
      ∃ z b, initialRow s P u a2 b2 sc n j (HasSqrt.sqrt a) x = .ok (HasSqrt.sqrt b, z) ∧ sqDist s P z = .ok b ∧ 0 ≤ b ∧
        Nearest s P z (((List.range' j n).map fun i : ℕ => [u, (i : K) * (b2 - a2) / (sc : K)]) ++ l) := by
  intro n
  induction n with
  | zero => intro j _ x a l hn ha ha0; exact ⟨x, a, rfl, ha, ha0, hn⟩
  | succ n ih =>
    intro j hd x a l hn ha ha0
    obtain ⟨C, b, e1, l1, e2, rfl⟩ := sqDist_ok h hP (x := [u, (j : K) * (b2 - a2) / (sc : K)]) (by rw [hk]; rfl)
      (hd j (le_refl _) (by omega))
    have hb0 := Vec.dot_self_nonneg (Vec.sub P C)
    have st := hn.step ha e2 ha0 hb0
    unfold initialRow
    dsimp only
    rw [e1, ok_bind, Vec.distance_eq l1.symm, ok_bind]
    have hsub : ∀ i, j + 1 ≤ i → i < j + 1 + n → InDomain s [u, (i : K) * (b2 - a2) / (sc : K)] := fun i h1 h2 => hd i (by omega) (by omega)
    have hmem : ∀ z, z ∈ (((List.range' j (n + 1)).map fun i : ℕ => [u, (i : K) * (b2 - a2) / (sc : K)]) ++ l) ↔
        z ∈ (((List.range' (j + 1) n).map fun i : ℕ => [u, (i : K) * (b2 - a2) / (sc : K)]) ++ ([u, (j : K) * (b2 - a2) / (sc : K)] :: l)) :=
      fun z => by
        rw [List.range'_succ]
        simp only [List.map_cons, List.cons_append, List.mem_cons, List.mem_append]; tauto
    split
    · rename_i hlt
      obtain ⟨z, b, h1, h2, h3, h4⟩ := ih hsub (st.1 hlt) e2 hb0
      exact ⟨z, b, h1, h2, h3, h4.mono hmem⟩
    · rename_i hlt
      obtain ⟨z, b, h1, h2, h3, h4⟩ := ih hsub (st.2 hlt) ha ha0
      exact ⟨z, b, h1, h2, h3, h4.mono hmem⟩

/-- The grid of the starting values. -/
def grid (a1 b1 a2 b2 : K) (sc1 sc2 : ℤ) (i n : ℕ) : List (List K) :=
  (List.range' i n).flatMap fun i : ℕ => (List.range' 1 sc2.toNat).map fun j : ℕ => [(i : K) * (b1 - a1) / (sc1 : K), (j : K) * (b2 - a2) / (sc2 : K)]

theorem initialRows_eq (h : WFSpl s) (hk : s.ps.knots = [U, V]) (hP : P.length ≤ s.ph.dim) {a1 b1 a2 b2 : K} {sc1 sc2 : ℤ} : ∀ {n i : ℕ},
    (∀ z ∈ grid a1 b1 a2 b2 sc1 sc2 i n, InDomain s z) → ∀ {x : List K} {a : K} {l : List (List K)}, Nearest s P x l →
      sqDist s P x = .ok a → 0 ≤ a →
      ∃ z b, initialRows s P a1 b1 a2 b2 sc1 sc2 n i (HasSqrt.sqrt a) x = .ok (HasSqrt.sqrt b, z) ∧ sqDist s P z = .ok b ∧ 0 ≤ b ∧
        Nearest s P z (grid a1 b1 a2 b2 sc1 sc2 i n ++ l) := by
  intro n
  induction n with
  | zero => intro i _ x a l hn ha ha0; exact ⟨x, a, rfl, ha, ha0, hn⟩
  | succ n ih =>
    intro i hd x a l hn ha ha0
    have hg : grid a1 b1 a2 b2 sc1 sc2 i (n + 1) = ((List.range' 1 sc2.toNat).map fun j : ℕ =>
        [(i : K) * (b1 - a1) / (sc1 : K), (j : K) * (b2 - a2) / (sc2 : K)]) ++ grid a1 b1 a2 b2 sc1 sc2 (i + 1) n := by
      unfold grid
      rw [List.range'_succ, List.flatMap_cons]
    rw [hg] at hd ⊢
    obtain ⟨z, b, h1, h2, h3, h4⟩ := initialRow_eq h hk hP (u := (i : K) * (b1 - a1) / (sc1 : K)) (a2 := a2) (b2 := b2) (sc := sc2)
      (n := sc2.toNat) (j := 1) (fun j hj1 hj2 => hd _ (List.mem_append_left _ (List.mem_map.2 ⟨j, by
        rw [List.mem_range'_1]; omega, rfl⟩))) hn ha ha0
    obtain ⟨z', b', e1, e2, e3, e4⟩ := ih (fun z hz => hd z (List.mem_append_right _ hz)) h4 h2 h3
    refine ⟨z', b', ?_, e2, e3, e4.mono fun y => by simp only [List.mem_append]; tauto⟩
    unfold initialRows
    rw [h1, ok_bind]
    exact e1

/-- **C41**, surfaces: the iteration starts at the nearest one of the corner `(a1, a2)` and the points of a regular grid. The grid
starts at the origin instead of the first knots, so that it is in the range only if the first knots are `0`. -/
theorem C41_surface_start (h : WFSpl s) (hk : s.ps.knots = [U, V]) (hP : P.length ≤ s.ph.dim) (hU0 : knot U 0 = 0) (hV0 : knot V 0 = 0)
    (sc1 sc2 : ℤ) :
    ∃ x, initial2 s P sc1 sc2 = .ok x ∧ InDomain s x ∧ Nearest s P x ([0, 0] :: (List.range' 1 sc1.toNat).flatMap fun i : ℕ =>
      (List.range' 1 sc2.toNat).map fun j : ℕ => [(i : K) * lastKnot U / (sc1 : K), (j : K) * lastKnot V / (sc2 : K)]) := by
  obtain ⟨p, q, hd, hw, hw'⟩ := degrees_of h hk
  have hr := hw.range
  have hr' := hw'.range
  rw [hU0] at hr
  rw [hV0] at hr'
  have hfrac : ∀ {n : ℤ} {i : ℕ} {b : K}, 0 < b → 1 ≤ i → i < 1 + n.toNat → 0 ≤ (i : K) * (b - 0) / (n : K) ∧ (i : K) * (b - 0) / (n : K) ≤ b := by
    intro n i b hb h1 h2
    have hn : (0 : K) < (n : K) := by
      have : 0 < n := by omega
      exact_mod_cast this
    have hi : (i : K) ≤ (n : K) := by
      have : (i : ℤ) ≤ n := by omega
      exact_mod_cast this
    rw [sub_zero]
    refine ⟨div_nonneg (mul_nonneg (Nat.cast_nonneg _) hb.le) hn.le, ?_⟩
    rw [div_le_iff₀ hn, mul_comm b]
    exact mul_le_mul_of_nonneg_right hi hb.le
  have h00 : InDomain s [0, 0] := by rw [domain2 hk, hU0, hV0]; exact ⟨⟨le_refl _, hr.le⟩, le_refl _, hr'.le⟩
  obtain ⟨C, a, e1, l1, e2, rfl⟩ := sqDist_ok h hP (x := [0, 0]) (by rw [hk]; rfl) h00
  have hgrid : ∀ z ∈ grid 0 (lastKnot U) 0 (lastKnot V) sc1 sc2 1 sc1.toNat, InDomain s z := by
    intro z hz
    unfold grid at hz
    obtain ⟨i, hi, hz⟩ := List.mem_flatMap.1 hz
    obtain ⟨j, hj, rfl⟩ := List.mem_map.1 hz
    rw [List.mem_range'_1] at hi hj
    rw [domain2 hk, hU0, hV0]
    exact ⟨hfrac hr hi.1 hi.2, hfrac hr' hj.1 hj.2⟩
  obtain ⟨z, b, f1, f2, f3, f4⟩ := initialRows_eq h hk hP (n := sc1.toNat) (i := 1) hgrid (x := [0, 0]) (l := [[0, 0]])
    ⟨by simp, fun y hy => by rw [List.mem_singleton.1 hy]; exact ⟨_, _, e2, e2, le_refl _⟩⟩ e2 (Vec.dot_self_nonneg _)
  refine ⟨z, ?_, ?_, f4.mono fun y => ?_⟩
  · unfold initial2
    rw [hk, show getN [U, V] 0 = .ok U from rfl, ok_bind, show getN [U, V] 1 = .ok V from rfl, ok_bind,
      kvGet_eq (List.length_pos_iff.2 hw.ne_nil), ok_bind, kvLast_eq hw.ne_nil, ok_bind, kvGet_eq (List.length_pos_iff.2 hw'.ne_nil), ok_bind,
      kvLast_eq hw'.ne_nil, ok_bind, hU0, hV0, e1, ok_bind, Vec.distance_eq l1.symm, ok_bind, f1, ok_bind]
    rfl
  · unfold sqDist at f2
    obtain ⟨C, h1, _⟩ := bind_eq_ok.1 f2
    rcases List.mem_append.1 f4.1 with hz | hz
    · exact hgrid z hz
    · rw [List.mem_singleton.1 hz]; exact h00
  · unfold grid
    simp only [sub_zero, List.mem_cons, List.mem_append, List.not_mem_nil, or_false]; tauto

/-- **C41**, surfaces in space with the same knot range `[0, b]` in both directions: the projection either returns a parameter or meets
a parameter of the surface at which the tangent vectors are parallel. -/
theorem C41_surface_outcome_partial (h : WFSpl s) (hk : s.ps.knots = [U, V]) (hP : P.length ≤ s.ph.dim) (h3 : P.length = 3) (hU0 : knot U 0 = 0)
    (hV0 : knot V 0 = 0) (hUV : lastKnot V = lastKnot U) (sc1 sc2 : ℤ) (tol : K) :
    (∃ y n, onSurface s P sc1 sc2 tol = .ok (y, n)) ∨ (onSurface s P sc1 sc2 tol = .error .nonfinite ∧
      ∃ u v S Su Sv, InDomain s [u, v] ∧ SurfaceValues s P [u, v] S Su Sv ∧
        Vec.dot Su Su * Vec.dot Sv Sv = Vec.dot Sv Su * Vec.dot Sv Su) := by
  obtain ⟨p, q, hd, hw, hw'⟩ := degrees_of h hk
  obtain ⟨x, e1, hx, _⟩ := C41_surface_start h hk hP hU0 hV0 sc1 sc2
  have hU : s.ps.knots[0]? = some U := by rw [hk]; rfl
  unfold onSurface
  obtain ⟨a, b, rfl⟩ := initial2_pair e1
  rw [e1, ok_bind]
  have := loop_total (tol := tol) (step := surfaceStep s P) (s := s) (I := fun x => ∃ u v, x = [u, v] ∧ InDomain s [u, v]) (by
    rintro _ ⟨u, v, rfl, ht⟩
    obtain ⟨S, Su, Sv, hv, l1, l2, l3⟩ := surfaceValues h hk hP ht
    obtain ⟨t1, t2⟩ := delta2_total h3 (l1.trans h3) (l2.trans h3) (l3.trans h3)
    rw [surfaceStep_eq hv]
    by_cases h0 : gram Su Sv = 0
    · exact Or.inl (t1 h0)
    · right
      obtain ⟨δ, hδ⟩ := t2 h0
      obtain ⟨_, d1, d2, rfl, _⟩ := delta2_eq_ok h3 (l1.trans h3) (l2.trans h3) (l3.trans h3) hδ
      refine ⟨_, _, hδ, check_eq hU hw _, _, _, rfl, ?_⟩
      rw [domain2 hk, hV0, hUV, ← hU0]
      exact ⟨clamp_mem hw.range.le _, clamp_mem hw.range.le _⟩) (fuel := 1001) (it := 0) (by omega) (by omega) ⟨a, b, rfl, hx⟩
  rcases this with ⟨r, hr⟩ | ⟨hr, _, ⟨u, v, rfl, ht⟩, h0⟩
  · exact Or.inl ⟨r.1, r.2, hr⟩
  · refine Or.inr ⟨hr, u, v, ?_⟩
    obtain ⟨S, Su, Sv, hv, l1, l2, l3⟩ := surfaceValues h hk hP ht
    refine ⟨S, Su, Sv, ht, hv, ?_⟩
    obtain ⟨t1, t2⟩ := delta2_total h3 (l1.trans h3) (l2.trans h3) (l3.trans h3)
    by_contra hne
    obtain ⟨δ, hδ⟩ := t2 fun hc => hne (sub_eq_zero.1 hc)
    rw [surfaceStep_eq hv, hδ] at h0
    cases h0

/-- **C41** fails for planar surfaces: with fewer than three coordinates the cross product accesses its operands out of bounds. -/
theorem C41_planar_surface_undefined (h : WFSpl s) (hk : s.ps.knots = [U, V]) (hP : P.length ≤ s.ph.dim) (h2 : P.length < 3)
    (hU0 : knot U 0 = 0) (hV0 : knot V 0 = 0) (sc1 sc2 : ℤ) (tol : K) : onSurface s P sc1 sc2 tol = .error .ub := by
  obtain ⟨x, e1, hx, _⟩ := C41_surface_start h hk hP hU0 hV0 sc1 sc2
  obtain ⟨a, b, rfl⟩ := initial2_pair e1
  obtain ⟨S, Su, Sv, hv, l1, l2, l3⟩ := surfaceValues h hk hP hx
  unfold onSurface
  rw [e1, ok_bind]
  unfold loop
  rw [surfaceStep_eq hv, delta2_short (by omega)]
  rfl

end grid

/-- The point `A + u B + v C` of a plane. -/
def planePt (A B C : List K) (u v : K) : List K := Vec.pt (Vec.pt A B u) C v

/-- **C41**, planes: if the surface is a plane with constant derivatives `B`, `C` and the foot of the given point on the plane is in the
range of the first knot vector, the result is exactly the parameter of this foot, whatever the number of starting values and the
tolerance, and no point of the surface is nearer. -/
theorem C41_plane_exact (h : WFSpl s) (hk : s.ps.knots = [U, V]) (hP : P.length ≤ s.ph.dim) (h3 : P.length = 3) {sc1 sc2 : ℤ}
    {tol : K} {y : List K} {n : ℕ} (hr : onSurface s P sc1 sc2 tol = .ok (y, n)) {A B C : List K} (hA : A.length = 3) (hB : B.length = 3)
    (hC : C.length = 3) (hS : ∀ u v, InDomain s [u, v] → SurfaceValues s P [u, v] (planePt A B C u v) B C) {u v : K}
    (hu : knot U 0 ≤ u ∧ u ≤ lastKnot U) (hv : knot U 0 ≤ v ∧ v ≤ lastKnot U)
    (hf1 : Vec.dot (Vec.sub P (planePt A B C u v)) B = 0) (hf2 : Vec.dot (Vec.sub P (planePt A B C u v)) C = 0) :
    y = [u, v] ∧ ∀ u' v', Vec.dot (Vec.sub P (planePt A B C u v)) (Vec.sub P (planePt A B C u v)) ≤
      Vec.dot (Vec.sub P (planePt A B C u' v')) (Vec.sub P (planePt A B C u' v')) := by
  obtain ⟨_, a, b, d1, d2, S, Su, Sv, hx, hv', hg, n1, n2, rfl, _⟩ := C41_surface_result h hk hP h3 hr
  have hs := hS a b hx
  have e1 := hv'.pos
  have e2 := hv'.du
  have e3 := hv'.dv
  rw [hs.pos] at e1
  rw [hs.du] at e2
  rw [hs.dv] at e3
  cases e1
  cases e2
  cases e3
  obtain ⟨a0, a1, a2, rfl⟩ := length3 hA
  obtain ⟨b0, b1, b2, rfl⟩ := length3 hB
  obtain ⟨c0, c1, c2, rfl⟩ := length3 hC
  obtain ⟨p0, p1, p2, rfl⟩ := length3 h3
  simp only [planePt, Vec.pt, Vec.dot, Vec.sub, List.zipWith_cons_cons, List.zipWith_nil_left, List.sum_cons, List.sum_nil] at n1 n2 hf1 hf2 hg ⊢
  constructor
  · have hdet : (b0 * b0 + (b1 * b1 + (b2 * b2 + 0))) * (c0 * c0 + (c1 * c1 + (c2 * c2 + 0))) -
        (c0 * b0 + (c1 * b1 + (c2 * b2 + 0))) * (c0 * b0 + (c1 * b1 + (c2 * b2 + 0))) ≠ 0 := sub_ne_zero.2 hg
    have h1 : a + d1 = u := by
      refine sub_eq_zero.1 ((mul_eq_zero.1 ?_).resolve_right hdet)
      linear_combination (c0 * c0 + (c1 * c1 + (c2 * c2 + 0))) * (n1 + hf1) - (c0 * b0 + (c1 * b1 + (c2 * b2 + 0))) * (n2 + hf2)
    have h2 : b + d2 = v := by
      refine sub_eq_zero.1 ((mul_eq_zero.1 ?_).resolve_right hdet)
      linear_combination (b0 * b0 + (b1 * b1 + (b2 * b2 + 0))) * (n2 + hf2) - (c0 * b0 + (c1 * b1 + (c2 * b2 + 0))) * (n1 + hf1)
    rw [h1, h2, min_eq_right hu.2, max_eq_right hu.1, min_eq_right hv.2, max_eq_right hv.1]
  · intro u' v'
    rw [← sub_nonneg]
    have : 0 ≤ ((u' - u) * b0 + (v' - v) * c0) * ((u' - u) * b0 + (v' - v) * c0) + ((u' - u) * b1 + (v' - v) * c1) * ((u' - u) * b1 + (v' - v) * c1) +
        ((u' - u) * b2 + (v' - v) * c2) * ((u' - u) * b2 + (v' - v) * c2) :=
      add_nonneg (add_nonneg (mul_self_nonneg _) (mul_self_nonneg _)) (mul_self_nonneg _)
    refine this.trans (le_of_eq ?_)
    linear_combination 2 * (u' - u) * hf1 + 2 * (v' - v) * hf2

end

/-! ### Examples -/

/-- The straight line `(2 x, 1 + x)` over `[0, 1]`. -/
def exProjLine : Spl ℚ := ⟨⟨[[0, 0, 1, 1]], [1], mkTable [[0, 0, 1, 1]] [1]⟩, ⟨2, [2], [0, 1, 2, 2], none⟩⟩

/-- The rectangle `(u, v, 0)` over `[0, b] × [0, c]`. -/
def exRect (b c : ℚ) : Spl ℚ := ⟨⟨[[0, 0, b, b], [0, 0, c, c]], [1, 1], mkTable [[0, 0, b, b], [0, 0, c, c]] [1, 1]⟩,
  ⟨3, [2, 2], [0, 0, 0, b, 0, 0, 0, c, 0, b, c, 0], none⟩⟩

/-- The line from `(0, 0)` to `(1, 0)` over the range `[2, 3]`. -/
def exLate : Spl ℚ := ⟨⟨[[2, 2, 3, 3]], [1], mkTable [[2, 2, 3, 3]] [1]⟩, ⟨2, [2], [0, 0, 1, 0], none⟩⟩

theorem exProjLine_wf : WFSpl exProjLine where
  knots := .cons ⟨by decide +kernel, by decide +kernel, by decide +kernel, by decide +kernel, by decide +kernel, by unfold Separated; decide +kernel⟩ .nil
  basis := rfl
  num := rfl
  dim := by decide
  cps := rfl
  weights := by intro w hw; cases hw

theorem exLate_wf : WFSpl exLate where
  knots := .cons ⟨by decide +kernel, by decide +kernel, by decide +kernel, by decide +kernel, by decide +kernel, by unfold Separated; decide +kernel⟩ .nil
  basis := rfl
  num := rfl
  dim := by decide
  cps := rfl
  weights := by intro w hw; cases hw

theorem exRect_wf : WFSpl (exRect 2 1) where
  knots := .cons ⟨by decide +kernel, by decide +kernel, by decide +kernel, by decide +kernel, by decide +kernel, by unfold Separated; decide +kernel⟩
    (.cons ⟨by decide +kernel, by decide +kernel, by decide +kernel, by decide +kernel, by decide +kernel, by unfold Separated; decide +kernel⟩ .nil)
  basis := rfl
  num := rfl
  dim := by decide
  cps := rfl
  weights := by intro w hw; cases hw

example : Elem.elementsDir ([0, 0, 1, 1] : List ℚ) 1 = .ok [(0, 1)] ∧ InDomain exProjLine [(1 - 0) / 2] :=
  ⟨by decide +kernel, .cons ⟨by decide +kernel, by decide +kernel⟩ .nil⟩

example : @onCurve ℚ _ _ ratSqrt exProjLine [1, 1] (1/10000) = .ok ([2/5], 2) := by decide +kernel

/-- The projection of a point on the line, but its range does not start at `0`. -/
example : ¬ InDomain exLate [(3 - 2) / 2] ∧ Elem.elementsDir ([2, 2, 3, 3] : List ℚ) 1 = .ok [(2, 3)] ∧
    @onCurve ℚ _ _ ratSqrt exLate [1/2, 0] (1/10000) = .error (.thrown .rangeError) :=
  ⟨fun h => by cases h with | cons a _ => exact absurd a.1 (by decide +kernel), by decide +kernel, by decide +kernel⟩

example : @onSurface ℚ _ _ ratSqrt (exRect 1 1) [1/4, 3/4, 5] 2 2 (1/10000) = .ok ([1/4, 3/4], 2) := by decide +kernel

/-- **C41** is false for surfaces: the result can be outside of the range of the second direction. -/
theorem C41_surface_outside_range : ∃ y n, WFSpl (exRect 2 1) ∧ @onSurface ℚ _ _ ratSqrt (exRect 2 1) [2, 1 + 1/1000000, 0] 2 2 (1/100000) = .ok (y, n) ∧
    ¬ InDomain (exRect 2 1) y :=
  ⟨[2, 1000001/1000000], 1, exRect_wf, by decide +kernel, fun h => by
    rw [domain2 (U := [0, 0, 2, 2]) (V := [0, 0, 1, 1]) rfl] at h
    exact absurd h.2.2 (by decide +kernel)⟩

/-- **C41** is false for surfaces: a point above an edge of the second direction makes the projection throw. -/
theorem C41_surface_throws : @onSurface ℚ _ _ ratSqrt (exRect 2 1) [1, 3/2, 0] 1 1 (1/100000) = .error (.thrown .rangeError) := by decide +kernel

end SplineLib
