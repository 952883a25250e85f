import Verif.Core.ChangeDir
import Verif.Core.InsertOne
import Verif.Spec.Examples
import Mathlib.Algebra.Order.Field.Rat
import Mathlib.Algebra.BigOperators.Intervals

/-!
# C90, C91, C92: equivalent descriptions of a spline

The same geometry can be described in several ways: with shifted and scaled knots, with weights that are multiplied by a common factor, with a reversed
direction, with exchanged directions. `Evaluate` and `EvaluateDerivative` do not depend on the choice.
-/

namespace SplineLib
set_option linter.unusedSectionVars false
open Finset
variable {K : Type} [Field K] [LinearOrder K] [IsStrictOrderedRing K]

/-! ## C90: scaled knots and weights -/

/-- `s'` has the knots `r·u + m` in direction `d` and is otherwise equal to `s`. -/
structure Rescaled (s s' : Spl K) (d : ℕ) (U : List K) (r m : K) : Prop where
  old : s.ps.knots[d]? = some U
  knots : s'.ps.knots = s.ps.knots.set d (U.map fun u => r * u + m)
  degree : s'.ps.degree = s.ps.degree
  points : s'.ph = s.ph
  wf : WFSpl s'

theorem exists_degree {s : Spl K} (h : WFSpl s) {d : ℕ} {U : List K} (hU : s.ps.knots[d]? = some U) : ∃ p, s.ps.degree[d]? = some p :=
  ⟨_, List.getElem?_eq_getElem (by rw [← h.knots.length_eq]; exact lt_of_some hU)⟩

theorem inDomain_get {s : Spl K} {x : List K} (hx : InDomain s x) {d : ℕ} {U : List K} (hU : s.ps.knots[d]? = some U) {a : K} (ha : x[d]? = some a) :
    knot U 0 ≤ a ∧ a ≤ lastKnot U := forall₂_get hx hU ha

theorem Rescaled.redesc {s s' : Spl K} (h : WFSpl s) {d : ℕ} {U : List K} {r m : K} (hr : 0 < r) (hs : Rescaled s s' d U r m) {x : List K}
    (hx : InDomain s x) {a : K} (ha : x[d]? = some a) :
    Redesc s s' x (x.set d (r * a + m)) (fun I => I.set d (ixd I d)) (fun k => k) (fun k => r⁻¹ ^ ixd k d) 1 fun _ => True := by
  obtain ⟨p, hp⟩ := exists_degree h hs.old
  have hw := forall₂_get h.knots hs.old hp
  have hsz := hw.size
  have hdom := inDomain_get hx hs.old ha
  have hn : npts s' = npts s := by
    have hdn : d < (npts s).length := lt_of_some (nptsOf_get hs.old hp)
    rw [npts_eq, hs.knots, hs.degree, nptsOf_set _ hp, List.length_map, ← nptsOf_ixd hs.old hp]
    exact set_ixd hdn
  have hset : ∀ I, InBox (npts s) I → I.set d (ixd I d) = I := fun I hI =>
    set_ixd (by rw [hI.length]; exact lt_of_some (nptsOf_get hs.old hp))
  refine Redesc.dir (π := fun i => i) (B := fun _ => True) h hs.wf hs.old hp hs.knots hs.degree (List.length_map _) (by rw [hs.points]) (by rw [hs.points]) hx ha ?_ (fun _ h => h)
    (fun _ => rfl) trivial (fun _ _ _ _ => trivial) (fun k _ i hi => coxDeriv_affine hr a p k i (by omega)) ?_ one_pos ?_
  · rw [lastKnot_eq, List.length_map, knot_map (by omega), knot_map (by omega), ← lastKnot_eq]
    have h1 := mul_le_mul_of_nonneg_left hdom.1 hr.le
    have h2 := mul_le_mul_of_nonneg_left hdom.2 hr.le
    exact ⟨by linarith, by linarith⟩
  · intro I hI c _
    rw [hset I hI]
    unfold cpt
    rw [hn, hs.points]
  · intro I hI
    rw [hset I hI, one_mul]
    unfold wgt
    rw [hn, hs.points]

/-- **C90** Knots that are shifted by `m` and scaled by `r > 0` in one direction: the point at `r·a + m` is the point of the original spline at `a`, and
derivatives are divided by `r` per order in this direction. -/
theorem C90_knots {s s' : Spl K} (h : WFSpl s) {d : ℕ} {U : List K} {r m : K} (hr : 0 < r) (hs : Rescaled s s' d U r m) {x : List K} (hx : InDomain s x)
    {a : K} (ha : x[d]? = some a) (dims : List ℕ) (hd : ∀ c ∈ dims, c < s.ph.dim) :
    InDomain s' (x.set d (r * a + m)) ∧ s'.evaluate (x.set d (r * a + m)) (zl dims) = s.evaluate x (zl dims) ∧
    ∀ k : List ℕ, k.length = s.ps.knots.length → ∃ v, s.evaluateDerivative x (zl dims) (zl k) = .ok v ∧
      s'.evaluateDerivative (x.set d (r * a + m)) (zl dims) (zl k) = .ok (v.map fun z => z / r ^ ixd k d) := by
  have hR := hs.redesc h hr hx ha
  refine ⟨hR.dom', hR.evaluate dims hd, fun k hk => ?_⟩
  obtain ⟨v, e1, e2⟩ := hR.derivative dims hd hk trivial
  refine ⟨v, e1, e2.trans ?_⟩
  congr 2
  funext z
  rw [inv_pow, mul_comm, div_eq_mul_inv]

/-- **C90** Weights that are multiplied by a common positive factor: all points and derivatives stay the same. -/
theorem C90_weights {s s' : Spl K} (h : WFSpl s) {w : List K} (hw : s.ph.weights = some w) {ν : K} (hν : 0 < ν)
    (hs : s' = ⟨s.ps, { s.ph with weights := some (w.map fun z => ν * z) }⟩) {x : List K} (hx : InDomain s x) (dims : List ℕ)
    (hd : ∀ c ∈ dims, c < s.ph.dim) :
    s'.evaluate x (zl dims) = s.evaluate x (zl dims) ∧
    ∀ k : List ℕ, k.length = s.ps.knots.length → s'.evaluateDerivative x (zl dims) (zl k) = s.evaluateDerivative x (zl dims) (zl k) := by
  have hW := h.weights w hw
  have h' : WFSpl s' := by
    subst hs
    exact ⟨h.knots, h.basis, h.num, h.dim, h.cps, fun v hv => by
      obtain rfl : w.map (fun z => ν * z) = v := Option.some.inj hv
      refine ⟨by rw [List.length_map]; exact hW.1, fun a ha => ?_⟩
      obtain ⟨b, hb, rfl⟩ := List.mem_map.1 ha
      exact mul_pos hν (hW.2 b hb)⟩
  have hR : Redesc s s' x x (fun I => I) (fun k => k) (fun _ => 1) ν fun _ => True := by
    refine ⟨h, h', by rw [hs], ?_, hx, by rw [hs]; exact hx, by rw [hs], fun I hI => by rw [hs]; exact hI, fun G => by rw [hs]; rfl, fun I _ c _ => by rw [hs]; rfl, ?_,
      hν, trivial, rfl, fun k _ _ I _ => by rw [hs, one_mul], fun k hk => hk, Renames.id, fun _ _ _ _ _ => ⟨trivial, trivial⟩, fun _ _ _ _ => one_mul 1⟩
    · subst hs; simp [hw]
    · intro I hI
      have hl : lin (npts s) I < w.length := by rw [hW.1]; exact lin_lt hI
      subst hs
      show (w.map fun z => ν * z).getD (lin (npts s) I) 0 = ν * wgt s I
      unfold wgt
      rw [hw]
      simp only [List.getD_eq_getElem?_getD, List.getElem?_map, List.getElem?_eq_getElem hl, Option.map_some, Option.getD_some]
  refine ⟨hR.evaluate dims hd, fun k hk => ?_⟩
  obtain ⟨v, e1, e2⟩ := hR.derivative dims hd hk trivial
  rw [e1, e2]
  simp

/-- Satisfiable: weights that are twice as large. -/
example : (⟨exNurbs.ps, { exNurbs.ph with weights := some ([1, 2, 1/2, 3].map fun z => 2 * z) }⟩ : Spl ℚ).evaluate [1/3] [0, 1] =
    exNurbs.evaluate [1/3] [0, 1] :=
  (C90_weights exNurbs_wf (by decide +kernel) (by norm_num) rfl (.cons (by decide +kernel) .nil) [0, 1] (by decide)).1

/-! ## C91: a reversed direction -/

/-- `s'` describes direction `d` of `s` backwards: knots `first + last - u` and control points in reverse order. -/
structure Reversed (s s' : Spl K) (d : ℕ) (U : List K) : Prop where
  old : s.ps.knots[d]? = some U
  knots : s'.ps.knots = s.ps.knots.set d ((U.map fun u => knot U 0 + lastKnot U - u).reverse)
  degree : s'.ps.degree = s.ps.degree
  dim : s'.ph.dim = s.ph.dim
  kind : s'.ph.weights = none ↔ s.ph.weights = none
  points : ∀ I, InBox (npts s) I → ∀ c < s.ph.dim, cpt s' (I.set d (ixd (npts s) d - 1 - ixd I d)) c = cpt s I c
  weights : ∀ I, InBox (npts s) I → wgt s' (I.set d (ixd (npts s) d - 1 - ixd I d)) = wgt s I
  wf : WFSpl s'

/-- **C91** Reversing a direction: the point at `first + last - a` is the point of the original spline at `a`, and derivatives change their sign with each
order in this direction. `a` is an end of the range, or its multiplicity as a knot is at most the degree minus the order of the derivative, so that the
spline (the derivative) is continuous there. -/
theorem C91_reversed {s s' : Spl K} (h : WFSpl s) {d : ℕ} {U : List K} {p : ℕ} (hp : s.ps.degree[d]? = some p) (hs : Reversed s s' d U) {x : List K}
    (hx : InDomain s x) {a : K} (ha : x[d]? = some a) (hm : a = knot U 0 ∨ a = lastKnot U ∨ U.count a ≤ p) (dims : List ℕ)
    (hd : ∀ c ∈ dims, c < s.ph.dim) :
    InDomain s' (x.set d (knot U 0 + lastKnot U - a)) ∧
    s'.evaluate (x.set d (knot U 0 + lastKnot U - a)) (zl dims) = s.evaluate x (zl dims) ∧
    ∀ k : List ℕ, k.length = s.ps.knots.length → (a = knot U 0 ∨ a = lastKnot U ∨ U.count a + ixd k d ≤ p ∨ U.count a = 0) →
      ∃ v, s.evaluateDerivative x (zl dims) (zl k) = .ok v ∧
        s'.evaluateDerivative (x.set d (knot U 0 + lastKnot U - a)) (zl dims) (zl k) = .ok (v.map fun z => (-1) ^ ixd k d * z) := by
  have hw := forall₂_get h.knots hs.old hp
  have hsz := hw.size
  have hdom := inDomain_get hx hs.old ha
  have hix : ixd (npts s) d = U.length - p - 1 := nptsOf_ixd hs.old hp
  have hR : Redesc s s' x (x.set d (knot U 0 + lastKnot U - a)) (fun I => I.set d (U.length - p - 1 - 1 - ixd I d)) (fun k => k)
      (fun k => (-1) ^ ixd k d) 1 fun k => a = knot U 0 ∨ a = lastKnot U ∨ U.count a + ixd k d ≤ p ∨ U.count a = 0 := by
    refine Redesc.dir (π := fun i => U.length - p - 1 - 1 - i) (B := fun k => a = knot U 0 ∨ a = lastKnot U ∨ U.count a + k ≤ p ∨ U.count a = 0) h hs.wf
      hs.old hp hs.knots hs.degree (revKnots_length U) hs.dim hs.kind hx ha ?_ (fun i hi => by omega) (fun g => sum_range_reflect g _) ?_ ?_ ?_ ?_ one_pos ?_
    · have e1 := revKnots_first (U := U) (by omega)
      have e2 := revKnots_last (U := U) (by omega)
      unfold revKnots at e1 e2
      rw [e1, e2]
      exact ⟨by linarith [hdom.2], by linarith [hdom.1]⟩
    · rcases hm with hm | hm | hm
      · exact Or.inl hm
      · exact Or.inr (Or.inl hm)
      · exact Or.inr (Or.inr (Or.inl hm))
    · rintro k j hj (hk | hk | hk | hk)
      · exact Or.inl hk
      · exact Or.inr (Or.inl hk)
      · exact Or.inr (Or.inr (Or.inl (by omega)))
      · exact Or.inr (Or.inr (Or.inr hk))
    · intro k hk i hi
      have := coxDeriv_rev (U := U) a p k (U.length - p - 1 - 1 - i) (by omega)
      unfold revKnots at this
      rw [this, show U.length - 2 - p - (U.length - p - 1 - 1 - i) = i by omega]
      congr 1
      refine left_eq_right hw.sorted (by omega) hdom.1 hdom.2 ?_ hw.range (by omega)
      rcases hk with hk | hk | hk | hk
      · exact Or.inl hk
      · exact Or.inr (Or.inl hk)
      · exact Or.inr (Or.inr (Or.inl hk))
      · rcases Nat.lt_or_ge p k with hpk | hpk
        · exact Or.inr (Or.inr (Or.inr hpk))
        · exact Or.inr (Or.inr (Or.inl (by omega)))
    · intro I hI c hc
      rw [← hix]; exact hs.points I hI c hc
    · intro I hI
      rw [← hix, one_mul]; exact hs.weights I hI
  exact ⟨hR.dom', hR.evaluate dims hd, fun k hk hm => hR.derivative dims hd hk hm⟩

/-- A curve with a jump at 1/2: degree 1, the knot 1/2 twice. -/
def exBreak : Spl ℚ :=
  ⟨⟨[[0, 0, 1/2, 1/2, 1, 1]], [1], mkTable [[0, 0, 1/2, 1/2, 1, 1]] [1]⟩, ⟨1, [4], [0, 1, 5, 6], none⟩⟩

/-- The same curve backwards. -/
def exBreakBack : Spl ℚ :=
  ⟨⟨[[0, 0, 1/2, 1/2, 1, 1]], [1], mkTable [[0, 0, 1/2, 1/2, 1, 1]] [1]⟩, ⟨1, [4], [6, 5, 1, 0], none⟩⟩

theorem exBreak_wf : WFSpl exBreak where
  knots := by simp only [exBreak]; exact .cons (by decide +kernel) .nil
  basis := by decide +kernel
  num := by decide +kernel
  dim := by decide +kernel
  cps := by decide +kernel
  weights := by intro w h; exact absurd h (by simp [exBreak])

theorem exBreakBack_wf : WFSpl exBreakBack where
  knots := by simp only [exBreakBack]; exact .cons (by decide +kernel) .nil
  basis := by decide +kernel
  num := by decide +kernel
  dim := by decide +kernel
  cps := by decide +kernel
  weights := by intro w h; exact absurd h (by simp [exBreakBack])

theorem exBreak_reversed : Reversed exBreak exBreakBack 0 [0, 0, 1/2, 1/2, 1, 1] where
  old := rfl
  knots := by decide +kernel
  degree := rfl
  dim := rfl
  kind := Iff.rfl
  points := by
    intro I hI c hc
    obtain ⟨i, rfl⟩ : ∃ i, I = [i] := List.length_eq_one_iff.1 hI.length
    have hi : i < 4 := by
      have := hI.getD_lt (d := 0) (by decide)
      exact this
    obtain rfl : c = 0 := by have : c < 1 := hc; omega
    have : ∀ i < 4, cpt exBreakBack ([i].set 0 (ixd (npts exBreak) 0 - 1 - ixd [i] 0)) 0 = cpt exBreak [i] 0 := by decide +kernel
    exact this i hi
  weights := fun _ _ => rfl
  wf := exBreakBack_wf

/-- **C91** The condition on the multiplicity is needed: at a jump the value from the right is taken, and reversing exchanges right and left. -/
theorem C91_jump : Reversed exBreak exBreakBack 0 [0, 0, 1/2, 1/2, 1, 1] ∧ exBreak.evaluate [1/2] [0] = .ok [5] ∧ exBreakBack.evaluate [1/2] [0] = .ok [1] :=
  ⟨exBreak_reversed, by decide +kernel, by decide +kernel⟩

/-- Satisfiable, away from the jump. -/
example : exBreakBack.evaluate [3/4] [0] = exBreak.evaluate [1/4] [0] ∧ exBreak.evaluate [1/4] [0] = .ok [1/2] := by
  have := (C91_reversed exBreak_wf (p := 1) rfl exBreak_reversed (x := [1/4]) (a := 1/4) (.cons (by decide +kernel) .nil) rfl (by decide +kernel) [0]
    (by decide)).2.1
  refine ⟨?_, by decide +kernel⟩
  have e : ([1/4].set 0 (knot [0, 0, 1/2, 1/2, 1, 1] 0 + lastKnot [0, 0, 1/2, 1/2, 1, 1] - 1/4) : List ℚ) = [3/4] := by decide +kernel
  rw [e] at this
  exact this

/-! ## C92: exchanged directions -/

/-- `s'` is `s` with the directions `d` and `d+1` exchanged. -/
structure Swapped (s s' : Spl K) (d : ℕ) : Prop where
  knots : s'.ps.knots = swapAt d s.ps.knots
  degree : s'.ps.degree = swapAt d s.ps.degree
  dim : s'.ph.dim = s.ph.dim
  kind : s'.ph.weights = none ↔ s.ph.weights = none
  points : ∀ I, InBox (npts s) I → ∀ c < s.ph.dim, cpt s' (swapAt d I) c = cpt s I c
  weights : ∀ I, InBox (npts s) I → wgt s' (swapAt d I) = wgt s I
  wf : WFSpl s'

/-- **C92** Exchanging two neighbouring directions (any order of the directions is a sequence of such exchanges): points and derivatives are those of the
original spline, with exchanged parameters and orders. -/
theorem C92_swapped {s s' : Spl K} (h : WFSpl s) {d : ℕ} (hs : Swapped s s' d) {x : List K} (hx : InDomain s x) (dims : List ℕ)
    (hd : ∀ c ∈ dims, c < s.ph.dim) :
    InDomain s' (swapAt d x) ∧ s'.evaluate (swapAt d x) (zl dims) = s.evaluate x (zl dims) ∧
    ∀ k : List ℕ, k.length = s.ps.knots.length →
      s'.evaluateDerivative (swapAt d x) (zl dims) (zl (swapAt d k)) = s.evaluateDerivative x (zl dims) (zl k) := by
  have hR := Redesc.swap h hs.wf d hs.knots hs.degree hs.dim hs.kind hx hs.points hs.weights
  refine ⟨hR.dom', hR.evaluate dims hd, fun k hk => ?_⟩
  obtain ⟨v, e1, e2⟩ := hR.derivative dims hd hk trivial
  rw [e1, e2]
  simp

/-- `exNurbsSurface` with exchanged directions. -/
def exNurbsSwapped : Spl ℚ :=
  ⟨⟨[[-1, -1, 3, 3], [0, 0, 0, 1/2, 1, 1, 1]], [1, 2], mkTable [[-1, -1, 3, 3], [0, 0, 0, 1/2, 1, 1, 1]] [1, 2]⟩,
   ⟨1, [2, 4], [0, 2, 1, -1, 3, 7, 4, 5], some [1, 1/2, 2, 1, 3, 1, 1, 4]⟩⟩

theorem exNurbsSwapped_wf : WFSpl exNurbsSwapped where
  knots := by simp only [exNurbsSwapped]; exact .cons (by decide +kernel) (.cons (by decide +kernel) .nil)
  basis := by decide +kernel
  num := by decide +kernel
  dim := by decide +kernel
  cps := by decide +kernel
  weights := by
    intro w h
    obtain rfl : [1, 1/2, 2, 1, 3, 1, 1, 4] = w := by simpa [exNurbsSwapped] using h
    exact ⟨by decide +kernel, by decide +kernel⟩

theorem exNurbs_box {I : List ℕ} (hI : InBox (npts exNurbsSurface) I) : ∃ i < 4, ∃ j < 2, I = [i, j] := by
  match I, hI with
  | [i, j], hI =>
    have h1 := hI.getD_lt (d := 0) (by decide)
    have h2 := hI.getD_lt (d := 1) (by decide)
    exact ⟨i, h1, j, h2, rfl⟩
  | [], hI => exact absurd hI.length (by decide)
  | [_], hI => exact absurd hI.length (by simp [npts, exNurbsSurface])
  | _ :: _ :: _ :: _, hI => exact absurd hI.length (by simp [npts, exNurbsSurface])

theorem exNurbs_swapped : Swapped exNurbsSurface exNurbsSwapped 0 where
  knots := by decide +kernel
  degree := by decide +kernel
  dim := rfl
  kind := by simp [exNurbsSurface, exNurbsSwapped]
  points := by
    intro I hI c hc
    obtain ⟨i, hi, j, hj, rfl⟩ := exNurbs_box hI
    obtain rfl : c = 0 := by have : c < 1 := hc; omega
    have : ∀ i < 4, ∀ j < 2, cpt exNurbsSwapped (swapAt 0 [i, j]) 0 = cpt exNurbsSurface [i, j] 0 := by decide +kernel
    exact this i hi j hj
  weights := by
    intro I hI
    obtain ⟨i, hi, j, hj, rfl⟩ := exNurbs_box hI
    have : ∀ i < 4, ∀ j < 2, wgt exNurbsSwapped (swapAt 0 [i, j]) = wgt exNurbsSurface [i, j] := by decide +kernel
    exact this i hi j hj
  wf := exNurbsSwapped_wf

/-- Satisfiable. -/
example : exNurbsSwapped.evaluateDerivative [1, 1/3] [0] [1, 2] = exNurbsSurface.evaluateDerivative [1/3, 1] [0] [2, 1] :=
  (C92_swapped exNurbsSurface_wf exNurbs_swapped (x := [1/3, 1]) (.cons (by decide +kernel) (.cons (by decide +kernel) .nil)) [0] (by decide)).2.2 [2, 1] rfl

/-- `exCurve` on the range from -1 to 3. -/
def exLong : Spl ℚ :=
  ⟨⟨[[-1, -1, -1, 1, 3, 3, 3]], [2], mkTable [[-1, -1, -1, 1, 3, 3, 3]] [2]⟩, ⟨2, [4], [0, 0, 1, 2, 3, 2, 4, 0], none⟩⟩

theorem exLong_wf : WFSpl exLong where
  knots := by simp only [exLong]; exact .cons (by decide +kernel) .nil
  basis := by decide +kernel
  num := by decide +kernel
  dim := by decide +kernel
  cps := by decide +kernel
  weights := by intro w h; exact absurd h (by simp [exLong])

/-- Satisfiable: the range of a curve is changed from [0, 1] to [-1, 3]. -/
example : exLong.evaluate [0] [0, 1] = exCurve.evaluate [1/4] [0, 1] ∧ exCurve.evaluateDerivative [1/4] [0, 1] [1] = .ok [4, 4] ∧
    exLong.evaluateDerivative [0] [0, 1] [1] = .ok [1, 1] := by
  have hs : Rescaled exCurve exLong 0 [0, 0, 0, 1/2, 1, 1, 1] 4 (-1) := ⟨rfl, by decide +kernel, rfl, rfl, exLong_wf⟩
  have := (C90_knots exCurve_wf (by norm_num) hs (x := [1/4]) (a := 1/4) (.cons (by decide +kernel) .nil) rfl [0, 1] (by decide)).2.1
  have e : ([1/4].set 0 (4 * (1/4) + -1) : List ℚ) = [0] := by decide +kernel
  rw [e] at this
  exact ⟨this, by decide +kernel, by decide +kernel⟩

end SplineLib
