import Verif.Core.CloseKnots
import Verif.Props.Safety

/-!
# Property C88 (evaluation of splines with knots closer than `kEpsilon`)
-/

namespace SplineLib
set_option linter.unusedSectionVars false
variable {K : Type} [Field K] [LinearOrder K] [IsStrictOrderedRing K]

/-- `x` lies in a knot span of length at least `kEpsilon`. -/
def LongSpan (U : List K) (x : K) : Prop :=
  ∃ k, k + 1 < U.length ∧ InSpan U k x ∧ kEps K ≤ knot U (k + 1) - knot U k

/-- `x` lies in a knot span shorter than `kEpsilon`, and at least `kEpsilon` to the left of the last knot. -/
def ShortSpan (U : List K) (x : K) : Prop :=
  (∃ k, k + 1 < U.length ∧ knot U k ≤ x ∧ x < knot U (k + 1) ∧ knot U (k + 1) - knot U k < kEps K) ∧ x + kEps K ≤ lastKnot U

/-- All basis functions, and products with anything, summed over all control points. -/
theorem window_long {Us : List (List K)} {ps : List ℕ} (h : List.Forall₂ WideKnots Us ps) (hs : ∀ U ∈ Us, SortedKnots U) :
    ∀ {xs : List K} (F : List ℕ → K), List.Forall₂ LongSpan Us xs →
      msum (actBox ps) (fun J => dprod (codeFns Us ps xs) (List.zipWith (· + ·) J (offs Us ps xs)) *
          F (List.zipWith (· + ·) J (offs Us ps xs))) =
        msum (List.zipWith (fun U p => U.length - p - 1) Us ps) (fun I => dprod (basisFns Us ps xs) I * F I) := by
  induction h with
  | nil => intro xs F hx; cases hx; simp [msum, codeFns, basisFns, offs, dprod]
  | @cons U p Us ps h _ ih =>
    intro xs F hx
    cases hx with
    | @cons _ a _ as hx hxs =>
      obtain ⟨k, hk, hin, hl⟩ := hx
      have hsU := hs U (by simp)
      have hix := spanIx_local hsU hk hin hl
      have hlt := inSpan_lt hin
      have hk1 : p ≤ k := by
        by_contra hc
        rw [h.first k (by omega), h.first (k + 1) (by omega)] at hlt
        exact lt_irrefl _ hlt
      have hk2 : k + p + 1 < U.length := by
        by_contra hc
        have h1 := h.last (U.length - 1 - k) (by omega)
        have h2 := h.last (U.length - 1 - (k + 1)) (by omega)
        rw [show U.length - 1 - (U.length - 1 - k) = k by omega] at h1
        rw [show U.length - 1 - (U.length - 1 - (k + 1)) = k + 1 by omega] at h2
        rw [h1, h2] at hlt; exact lt_irrefl _ hlt
      simp only [actBox, List.map_cons, List.zipWith_cons_cons, offs, basisFns, codeFns, msum, dprod, hix]
      rw [sum_window (n := U.length - p - 1) (o := k - p) (w := p + 1) (by omega) ?_]
      · apply Finset.sum_congr rfl
        intro j hj
        have hj := Finset.mem_range.1 hj
        have := ih (fun V hV => hs V (by simp [hV])) (xs := as) (fun I => F ((j + (k - p)) :: I)) hxs
        simp only [mul_assoc, msum_mul_left]
        rw [← this, mkBasis_eval_local hsU hk hin hl p _ (by omega)]
        rintro rfl
        rw [show j + (k - 0) = k by omega]
        exact hlt
      · intro i hi hio
        rw [cox_zero]
        · simp [msum_zero]
        · intro j h1 h2 h3
          have := InSpan.unique hsU (by omega) hk h3 hin
          omega

theorem LongSpan.dom {U : List K} (hs : SortedKnots U) {x : K} (h : LongSpan U x) :
    (knot U 0 ≤ x ∧ x ≤ lastKnot U) ∧ knot U 0 + kEps K ≤ lastKnot U := by
  obtain ⟨k, hk, hin, hl⟩ := h
  have h1 := hs.first_le (show k < U.length by omega)
  have h2 := hs.le_last hk
  refine ⟨?_, by linarith⟩
  rcases hin with ⟨a, b⟩ | ⟨a, b, c⟩
  · exact ⟨by linarith, by linarith⟩
  · exact ⟨by linarith, by linarith⟩

theorem long_dom {Us : List (List K)} {xs : List K} (hs : ∀ U ∈ Us, SortedKnots U) (h : List.Forall₂ LongSpan Us xs) :
    Dom Us xs ∧ NoShortRange Us := by
  induction h with
  | nil => exact ⟨.nil, by simp [NoShortRange]⟩
  | cons h _ ih =>
    obtain ⟨a, b⟩ := ih fun V hV => hs V (by simp [hV])
    obtain ⟨c, d⟩ := h.dom (hs _ (by simp))
    refine ⟨.cons c a, ?_⟩
    intro U hU
    rcases List.mem_cons.1 hU with rfl | hU
    · exact Or.inl d
    · exact b U hU

section
variable {s : Spl K} {knots : List (List K)} {degree : List ℕ} {points : List (List K)} {weights : Option (List K)} {x : List K}

theorem windowSum_long (h : HoldsData s knots degree points weights) (hv : ValidBSplineData knots degree points) (hne : points ≠ [])
    (hw : ∀ w, weights = some w → w.length = points.length) (hs : ∀ U ∈ knots, SortedKnots U) (hx : List.Forall₂ LongSpan knots x) :
    WideSpl s ∧ Dom s.ps.knots x ∧ ∀ F, windowSum s x F = tensorSum s x F := by
  obtain ⟨h1, h2⟩ := long_dom hs hx
  have hd : InDomain s x := by unfold InDomain; rw [h.knots_eq]; exact h1
  have hws := wideSpl_of h hv hne hw h2 hd
  refine ⟨hws, hd, fun F => ?_⟩
  unfold windowSum tensorSum npts
  exact window_long hws.knots (by rw [h.knots_eq]; exact hs) F (by rw [h.knots_eq]; exact hx)

/-- **C88** for B-splines, where the code is right: the data are accepted by the constructor and the knots are sorted, but knots may be
arbitrarily close. `Evaluate` returns the value of the spline at every parameter whose knot spans are at least `kEpsilon` long. -/
theorem C88_bspline_partial (h : HoldsData s knots degree points none) (hv : ValidBSplineData knots degree points) (hne : points ≠ [])
    (hs : ∀ U ∈ knots, SortedKnots U) (hx : List.Forall₂ LongSpan knots x) (dims : List ℕ) (hd : ∀ c ∈ dims, c < s.ph.dim) :
    s.evaluate x (zl dims) = .ok (dims.map (bsplineValue s x)) := by
  obtain ⟨hws, hx', hF⟩ := windowSum_long h hv hne (by simp) hs hx
  rw [hws.evaluate_bspline hx' h.weights_eq dims hd]
  congr 1
  exact List.map_congr_left fun c _ => hF _

/-- **C88** for NURBS, where the code is right; the weights may have any sign, as long as the weight function is not zero at the
parameter. -/
theorem C88_nurbs_partial {weights : List K} (h : HoldsData s knots degree points (some weights))
    (hv : ValidBSplineData knots degree points) (hne : points ≠ []) (hw : weights.length = points.length)
    (hs : ∀ U ∈ knots, SortedKnots U) (hx : List.Forall₂ LongSpan knots x) (hn : weightValue s x ≠ 0) (dims : List ℕ)
    (hd : ∀ c ∈ dims, c < s.ph.dim) : s.evaluate x (zl dims) = .ok (dims.map (nurbsValue s x)) := by
  obtain ⟨hws, hx', hF⟩ := windowSum_long h hv hne (by rintro w ⟨⟩; exact hw) hs hx
  rw [hws.evaluate_nurbs hx' ⟨_, h.weights_eq⟩ (by rw [hF]; exact hn) dims hd]
  congr 1
  refine List.map_congr_left fun c _ => ?_
  rw [hF, hF]
  unfold nurbsValue weightValue
  congr 2
  funext I
  rw [mul_comm]

/-- A short span in a direction of positive degree makes all products of basis functions zero. -/
theorem dprod_short {Us : List (List K)} {ps : List ℕ} (h : List.Forall₂ WideKnots Us ps) :
    ∀ {xs : List K} {J : List ℕ} {d : ℕ} {U : List K} {p : ℕ} {a : K}, Dom Us xs → InBox (actBox ps) J → Us[d]? = some U →
      ps[d]? = some (p + 1) → xs[d]? = some a → SortedKnots U → ShortSpan U a →
      dprod (codeFns Us ps xs) (List.zipWith (· + ·) J (offs Us ps xs)) = 0 := by
  induction h with
  | nil => intro xs J d U p a _ _ hU; simp at hU
  | @cons U p Us ps h _ ih =>
    intro xs J d V q b hx hJ hU hp ha hs hsh
    cases hx with
    | @cons _ a _ as hx hxs =>
      cases J with
      | nil => simp at hJ
      | cons j J =>
        simp only [actBox, List.map_cons, inBox_cons] at hJ
        simp only [codeFns, offs, List.zipWith_cons_cons, dprod]
        cases d with
        | succ d => rw [ih hxs hJ.2 hU hp ha hs hsh, mul_zero]
        | zero =>
          simp only [List.getElem?_cons_zero, Option.some.injEq] at hU hp ha
          subst hU hp ha
          obtain ⟨h1, h3, h4⟩ := h.span hx.1 hx.2
          obtain ⟨⟨k, hk, a1, a2, a3⟩, a4⟩ := hsh
          rw [mkBasis_eval_short hs hk a1 a2 a3 a4 q _ (by omega), zero_mul]

theorem windowSum_short (h : WideSpl s) (hx : Dom s.ps.knots x) {d : ℕ} {U : List K} {p : ℕ} {a : K} (hU : s.ps.knots[d]? = some U)
    (hp : s.ps.degree[d]? = some (p + 1)) (ha : x[d]? = some a) (hs : SortedKnots U) (hsh : ShortSpan U a) (F : List ℕ → K) :
    windowSum s x F = 0 := by
  unfold windowSum
  rw [msum_congr (g := fun _ => 0) fun J hJ => by rw [dprod_short h.knots hx hJ hU hp ha hs hsh, zero_mul], msum_zero]

/-- **C88**, where the code is wrong, B-splines: in a direction of positive degree the parameter lies in a span that is shorter than
`kEpsilon` (and not near the end of the range). Then `Evaluate` returns zero for every coordinate, wherever the control points are. -/
theorem C88_bspline_short_span (h : HoldsData s knots degree points none) (hv : ValidBSplineData knots degree points) (hne : points ≠ [])
    (hr : NoShortRange knots) (hx : InDomain s x) {d : ℕ} {U : List K} {p : ℕ} {a : K} (hU : knots[d]? = some U)
    (hp : degree[d]? = some (p + 1)) (ha : x[d]? = some a) (hs : SortedKnots U) (hsh : ShortSpan U a) (dims : List ℕ)
    (hd : ∀ c ∈ dims, c < s.ph.dim) : s.evaluate x (zl dims) = .ok (dims.map fun _ => 0) := by
  have hws := wideSpl_of h hv hne (by simp) hr hx
  rw [hws.evaluate_bspline hx h.weights_eq dims hd]
  congr 1
  exact List.map_congr_left fun c _ =>
    windowSum_short hws hx (by rw [h.knots_eq]; exact hU) (by rw [h.degree_eq]; exact hp) ha hs hsh _

/-- **C88**, where the code is wrong, NURBS: under the same conditions `Evaluate` divides by zero, whatever the weights are. -/
theorem C88_nurbs_short_span {weights : List K} (h : HoldsData s knots degree points (some weights))
    (hv : ValidBSplineData knots degree points) (hne : points ≠ []) (hw : weights.length = points.length) (hr : NoShortRange knots)
    (hx : InDomain s x) {d : ℕ} {U : List K} {p : ℕ} {a : K} (hU : knots[d]? = some U)
    (hp : degree[d]? = some (p + 1)) (ha : x[d]? = some a) (hs : SortedKnots U) (hsh : ShortSpan U a) (c : ℕ) (dims : List ℕ)
    (hd : c < s.ph.dim) : s.evaluate x (zl (c :: dims)) = .error .nonfinite := by
  have hws := wideSpl_of h hv hne (by rintro w ⟨⟩; exact hw) hr hx
  exact hws.evaluate_nurbs_zero hx ⟨_, h.weights_eq⟩
    (windowSum_short hws hx (by rw [h.knots_eq]; exact hU) (by rw [h.degree_eq]; exact hp) ha hs hsh _) c dims hd

end

/-- The double `0.3`. -/
def three : ℚ := 5404319552844595 / 2 ^ 54

/-- The double `0.1 + 0.2`. -/
def three' : ℚ := 5404319552844596 / 2 ^ 54

/-- A knot vector that contains both. -/
def noisyKnots : List ℚ := [0, 0, three, three', 1, 1]

/-- **C88** fails: the constructor accepts a constant curve with the two knots `0.3` and `0.1 + 0.2`. Its value is 5 everywhere, but
`Evaluate` at `0.3` returns 0. -/
theorem C88_counterexample : ∃ s : Spl ℚ, Spl.newBSpline [noisyKnots] [1] [[5], [5], [5], [5]] = .ok s ∧ SortedKnots noisyKnots ∧
    InDomain s [three] ∧ bsplineValue s [three] 0 = 5 ∧ s.evaluate [three] [0] = .ok [0] :=
  ⟨⟨⟨[noisyKnots], [1], mkTable [noisyKnots] [1]⟩, ⟨1, [4], [5, 5, 5, 5], none⟩⟩, by decide +kernel, by decide +kernel,
    .cons (by decide +kernel) .nil, by decide +kernel, by decide +kernel⟩

/-- The same for a NURBS: the result is not a number. -/
theorem C88_nurbs_counterexample : ∃ s : Spl ℚ, Spl.newNurbs [noisyKnots] [1] [[5], [5], [5], [5]] [1, 1, 1, 1] = .ok s ∧
    InDomain s [three] ∧ nurbsValue s [three] 0 = 5 ∧ s.evaluate [three] [0] = .error .nonfinite :=
  ⟨⟨⟨[noisyKnots], [1], mkTable [noisyKnots] [1]⟩, ⟨1, [4], [5, 5, 5, 5], some [1, 1, 1, 1]⟩⟩, by decide +kernel,
    .cons (by decide +kernel) .nil, by decide +kernel, by decide +kernel⟩

/-- A well-formed curve through the points 5, 5 and 5 with the knot `0.3`. -/
def tenths : Spl ℚ := ⟨⟨[[0, 0, three, 1, 1]], [1], mkTable [[0, 0, three, 1, 1]] [1]⟩, ⟨1, [3], [5, 5, 5], none⟩⟩

/-- Knot insertion reaches this state: `InsertKnot` at `0.1 + 0.2` turns a well-formed curve with the knot `0.3`, whose value is 5
everywhere, into one that evaluates to 0 at `0.3`. -/
theorem C88_insert_counterexample : WFKnots ([0, 0, three, 1, 1] : List ℚ) 1 ∧
    Spl.newBSpline [[0, 0, three, 1, 1]] [1] [[5], [5], [5]] = .ok tenths ∧ tenths.evaluate [three] [0] = .ok [5] ∧
    (do let s ← tenths.insertKnot three' 0
        s.evaluate [three] [0]) = .ok [0] :=
  ⟨(wfKnots_iff _ _).2 (by decide +kernel), by decide +kernel, by decide +kernel, by decide +kernel⟩

/-- Both kinds of spans occur in these knots. -/
example : LongSpan noisyKnots (1/10) ∧ LongSpan noisyKnots 1 ∧ LongSpan noisyKnots three' ∧ ShortSpan noisyKnots three :=
  ⟨⟨1, by decide +kernel, by decide +kernel, by decide +kernel⟩, ⟨3, by decide +kernel, by decide +kernel, by decide +kernel⟩,
    ⟨3, by decide +kernel, by decide +kernel, by decide +kernel⟩,
    ⟨2, by decide +kernel, by decide +kernel, by decide +kernel, by decide +kernel⟩, by decide +kernel⟩

end SplineLib
