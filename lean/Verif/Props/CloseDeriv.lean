import Verif.Core.CloseDeriv
import Verif.Props.CloseKnots

/-!
# Property C95 (derivatives of splines with knots closer than `kEpsilon`)
-/

namespace SplineLib
set_option linter.unusedSectionVars false

section
variable {K : Type} [Field K] [LinearOrder K] [IsStrictOrderedRing K]

/-- A long span lies between the repeated end knots. -/
theorem WideKnots.long_inner {U : List K} {p : ℕ} (h : WideKnots U p) {k : ℕ} (hk : k + 1 < U.length)
    (hlt : knot U k < knot U (k + 1)) : p ≤ k ∧ k + p + 1 < U.length := by
  constructor
  · by_contra hc
    rw [h.first k (by omega), h.first (k + 1) (by omega)] at hlt
    exact lt_irrefl _ hlt
  · by_contra hc
    have h1 := h.last (U.length - 1 - k) (by omega)
    have h2 := h.last (U.length - 1 - (k + 1)) (by omega)
    rw [show U.length - 1 - (U.length - 1 - k) = k by omega] at h1
    rw [show U.length - 1 - (U.length - 1 - (k + 1)) = k + 1 by omega] at h2
    rw [h1, h2] at hlt; exact lt_irrefl _ hlt

/-- On the active functions the objects of the code have the derivatives of the Cox-de Boor functions. -/
theorem dprod_deriv_long {Us : List (List K)} {ps : List ℕ} (h : List.Forall₂ WideKnots Us ps) (hs : ∀ U ∈ Us, SortedKnots U) :
    ∀ {xs : List K} {ks J : List ℕ}, List.Forall₂ LongSpan Us xs → ks.length = Us.length → InBox (actBox ps) J →
      dprod (codeDerivFns Us ps xs ks) (List.zipWith (· + ·) J (offs Us ps xs)) =
        dprod (basisDerivFns Us ps xs ks) (List.zipWith (· + ·) J (offs Us ps xs)) := by
  induction h with
  | nil => intro xs ks J hx; cases hx; simp [codeDerivFns, basisDerivFns]
  | @cons U p Us ps h _ ih =>
    intro xs ks J hx hk hJ
    cases hx with
    | @cons _ a _ as hx hxs =>
      match ks, J, hk, hJ with
      | k :: ks, [], hk, hJ => simp [actBox] at hJ
      | k :: ks, j :: J, hk, hJ =>
        simp only [actBox, List.map_cons, inBox_cons] at hJ
        obtain ⟨l, hl', hin, hl⟩ := hx
        have hsU := hs U (by simp)
        have hix := spanIx_local hsU hl' hin hl
        have hlt := inSpan_lt hin
        obtain ⟨hk1, hk2⟩ := h.long_inner hl' hlt
        simp only [codeDerivFns, basisDerivFns, offs, List.zipWith_cons_cons, dprod, hix]
        rw [ih (fun V hV => hs V (by simp [hV])) hxs (by simpa using hk) hJ.2,
          mkBasis_evalDeriv_local hsU hl' hin hl p k _ (by omega)]
        rintro rfl
        rw [show j + (l - 0) = l by omega]
        exact hlt

/-- A sum over all control points whose terms vanish with the basis function derivatives is a sum over the active box. -/
theorem msum_active_long {Us : List (List K)} {ps : List ℕ} (h : List.Forall₂ WideKnots Us ps) (hs : ∀ U ∈ Us, SortedKnots U) :
    ∀ {xs : List K} (F : List ℕ → K), List.Forall₂ LongSpan Us xs →
      (∀ I, InBox (List.zipWith (fun U p => U.length - p - 1) Us ps) I →
        (∀ ks : List ℕ, ks.length = Us.length → dprod (basisDerivFns Us ps xs ks) I = 0) → F I = 0) →
      msum (actBox ps) (fun J => F (List.zipWith (· + ·) J (offs Us ps xs))) =
        msum (List.zipWith (fun U p => U.length - p - 1) Us ps) F := by
  induction h with
  | nil => intro xs F hx hF; cases hx; simp [msum]
  | @cons U p Us ps h _ ih =>
    intro xs F hx hF
    cases hx with
    | @cons _ a _ as hx hxs =>
      obtain ⟨l, hl', hin, hl⟩ := hx
      have hsU := hs U (by simp)
      have hix := spanIx_local hsU hl' hin hl
      obtain ⟨hk1, hk2⟩ := h.long_inner hl' (inSpan_lt hin)
      simp only [actBox, List.map_cons, List.zipWith_cons_cons, offs, msum, hix]
      rw [sum_window (n := U.length - p - 1) (o := l - p) (w := p + 1) (by omega) ?_]
      · apply Finset.sum_congr rfl
        intro j hj
        refine ih (fun V hV => hs V (by simp [hV])) (xs := as) (fun I => F ((j + (l - p)) :: I)) hxs ?_
        intro I hI hz
        apply hF
        · simp only [List.zipWith_cons_cons, inBox_cons]
          exact ⟨by have := Finset.mem_range.1 hj; omega, hI⟩
        · intro ks hk
          cases ks with
          | nil => simp at hk
          | cons k ks => simp only [basisDerivFns, dprod]; rw [hz ks (by simpa using hk), mul_zero]
      · intro i hi hio
        have : ∀ I, InBox (List.zipWith (fun U p => U.length - p - 1) Us ps) I → F (i :: I) = 0 := by
          intro I hI
          apply hF
          · simp only [List.zipWith_cons_cons, inBox_cons]; exact ⟨hi, hI⟩
          · intro ks hk
            cases ks with
            | nil => simp at hk
            | cons k ks =>
              simp only [basisDerivFns, dprod]
              rw [coxDeriv_zero, zero_mul]
              intro j h1 h2 h3
              have := InSpan.unique hsU (by omega) hl' h3 hin
              omega
        rw [msum_congr this, msum_zero]

variable {s : Spl K} {knots : List (List K)} {degree : List ℕ} {points : List (List K)} {weights : Option (List K)} {x : List K}
  {k : List ℕ}

theorem windowDerivSum_long (hw : WideSpl s) (hs : ∀ U ∈ s.ps.knots, SortedKnots U) (hx : List.Forall₂ LongSpan s.ps.knots x)
    (hk : k.length = s.ps.knots.length) (F : List ℕ → K) : windowDerivSum s x k F = tensorDerivSum s x k F := by
  unfold windowDerivSum tensorDerivSum npts
  rw [← msum_active_long hw.knots hs _ hx fun I _ hz => by rw [hz k hk, zero_mul]]
  refine msum_congr fun J hJ => ?_
  rw [dprod_deriv_long hw.knots hs hx hk hJ]

/-- **C95** for B-splines, where the code is right: the data are accepted by the constructor and the knots are sorted, but knots may be
arbitrarily close. At every parameter whose knot spans are at least `kEpsilon` long, `EvaluateDerivative` returns the sum of the control
points with the derivatives of the Cox-de Boor functions. -/
theorem C95_bspline_formula_partial (h : HoldsData s knots degree points none) (hv : ValidBSplineData knots degree points)
    (hne : points ≠ []) (hs : ∀ U ∈ knots, SortedKnots U) (hx : List.Forall₂ LongSpan knots x) (hk : k.length = knots.length)
    (dims : List ℕ) (hd : ∀ c ∈ dims, c < s.ph.dim) :
    s.evaluateDerivative x (zl dims) (zl k) = .ok (dims.map fun c => tensorDerivSum s x k fun I => cpt s I c) := by
  obtain ⟨hws, hx', _⟩ := windowSum_long h hv hne (by simp) hs hx
  rw [← h.knots_eq] at hs hx hk
  rw [hws.evaluateDerivative_bspline hx' h.weights_eq hk dims hd]
  congr 1
  exact List.map_congr_left fun c _ => windowDerivSum_long hws hs hx hk _

/-- **C95** for NURBS, where the code is right; the weights may have any sign, as long as the weight function is not zero at the
parameter. -/
theorem C95_nurbs_formula_partial {weights : List K} (h : HoldsData s knots degree points (some weights))
    (hv : ValidBSplineData knots degree points) (hne : points ≠ []) (hw : weights.length = points.length)
    (hs : ∀ U ∈ knots, SortedKnots U) (hx : List.Forall₂ LongSpan knots x) (hn : weightValue s x ≠ 0) (hk : k.length = knots.length)
    (dims : List ℕ) (hd : ∀ c ∈ dims, c < s.ph.dim) :
    s.evaluateDerivative x (zl dims) (zl k) = .ok (dims.map fun c => msum (npts s) fun I => ratBasis s x k I * cpt s I c) := by
  obtain ⟨hws, hx', hF⟩ := windowSum_long h hv hne (by rintro w ⟨⟩; exact hw) hs hx
  rw [← h.knots_eq] at hs hx hk
  rw [hws.evaluateDerivative_nurbs hx' ⟨_, h.weights_eq⟩ (by rw [hF]; exact hn) hk dims hd]
  congr 1
  refine List.map_congr_left fun c _ => ?_
  unfold npts
  rw [← msum_active_long hws.knots hs _ hx fun I _ hz => by
    rw [ratBasis, ratR_zero_of (D := s.ps.knots.length) (fun k hk => by rw [hz k hk, zero_mul]) _ k hk (le_refl _), zero_mul]]
  refine msum_congr fun J hJ => ?_
  congr 1
  exact ratR_congr (D := s.ps.knots.length) (fun k hk => by rw [dprod_deriv_long hws.knots hs hx hk hJ])
    (fun k hk => windowDerivSum_long hws hs hx hk _) _ k hk (le_refl _)

/-- A short span in a direction of positive degree makes all products of derivatives zero. -/
theorem dprod_deriv_short {Us : List (List K)} {ps : List ℕ} (h : List.Forall₂ WideKnots Us ps) :
    ∀ {xs : List K} {J ks : List ℕ} {d : ℕ} {U : List K} {p : ℕ} {a : K}, Dom Us xs → InBox (actBox ps) J → ks.length = Us.length →
      Us[d]? = some U → ps[d]? = some (p + 1) → xs[d]? = some a → SortedKnots U → ShortSpan U a →
      dprod (codeDerivFns Us ps xs ks) (List.zipWith (· + ·) J (offs Us ps xs)) = 0 := by
  induction h with
  | nil => intro xs J ks d U p a _ _ _ hU; simp at hU
  | @cons U p Us ps h _ ih =>
    intro xs J ks d V q b hx hJ hk hU hp ha hs hsh
    cases hx with
    | @cons _ a _ as hx hxs =>
      match ks, J, hk, hJ with
      | k :: ks, [], hk, hJ => simp [actBox] at hJ
      | k :: ks, j :: J, hk, hJ =>
        simp only [actBox, List.map_cons, inBox_cons] at hJ
        simp only [codeDerivFns, offs, List.zipWith_cons_cons, dprod]
        cases d with
        | succ d => rw [ih hxs hJ.2 (by simpa using hk) hU hp ha hs hsh, mul_zero]
        | zero =>
          simp only [List.getElem?_cons_zero, Option.some.injEq] at hU hp ha
          subst hU hp ha
          obtain ⟨h1, h3, h4⟩ := h.span hx.1 hx.2
          obtain ⟨⟨l, hl', a1, a2, a3⟩, a4⟩ := hsh
          rw [mkBasis_evalDeriv_short hs hl' a1 a2 a3 a4 q _ _ (by omega), zero_mul]

/-- **C95**, where the code is wrong, B-splines: in a direction of positive degree the parameter lies in a span that is shorter than
`kEpsilon` (and not near the end of the range). Then `EvaluateDerivative` returns zero for every order and every coordinate. -/
theorem C95_bspline_short_span (h : HoldsData s knots degree points none) (hv : ValidBSplineData knots degree points) (hne : points ≠ [])
    (hr : NoShortRange knots) (hx : InDomain s x) (hk : k.length = knots.length) {d : ℕ} {U : List K} {p : ℕ} {a : K}
    (hU : knots[d]? = some U) (hp : degree[d]? = some (p + 1)) (ha : x[d]? = some a) (hs : SortedKnots U) (hsh : ShortSpan U a)
    (dims : List ℕ) (hd : ∀ c ∈ dims, c < s.ph.dim) : s.evaluateDerivative x (zl dims) (zl k) = .ok (dims.map fun _ => 0) := by
  have hws := wideSpl_of h hv hne (by simp) hr hx
  rw [← h.knots_eq] at hU hk
  rw [← h.degree_eq] at hp
  rw [hws.evaluateDerivative_bspline hx h.weights_eq hk dims hd]
  congr 1
  refine List.map_congr_left fun c _ => ?_
  unfold windowDerivSum
  rw [msum_congr (g := fun _ => 0) fun J hJ => by rw [dprod_deriv_short hws.knots hx hJ hk hU hp ha hs hsh, zero_mul], msum_zero]

/-- **C95**, where the code is wrong, NURBS: under the same conditions `EvaluateDerivative` divides by zero, whatever the weights are. -/
theorem C95_nurbs_short_span {weights : List K} (h : HoldsData s knots degree points (some weights))
    (hv : ValidBSplineData knots degree points) (hne : points ≠ []) (hw : weights.length = points.length) (hr : NoShortRange knots)
    (hx : InDomain s x) (hk : k.length = knots.length) {d : ℕ} {U : List K} {p : ℕ} {a : K} (hU : knots[d]? = some U)
    (hp : degree[d]? = some (p + 1)) (ha : x[d]? = some a) (hs : SortedKnots U) (hsh : ShortSpan U a) (c : ℕ) (dims : List ℕ) :
    s.evaluateDerivative x (zl (c :: dims)) (zl k) = .error .nonfinite := by
  have hws := wideSpl_of h hv hne (by rintro w ⟨⟩; exact hw) hr hx
  exact hws.evaluateDerivative_nurbs_zero hx ⟨_, h.weights_eq⟩
    (windowSum_short hws hx (by rw [h.knots_eq]; exact hU) (by rw [h.degree_eq]; exact hp) ha hs hsh _)
    (by rw [h.knots_eq]; exact hk) c dims

end

/-! ### The formulas are derivatives -/

theorem spanDeriv_of_inSpan {U : List ℝ} (hs : SortedKnots U) {l : ℕ} (hl : l + 1 < U.length) {x : ℝ} (h2 : InSpan U l x)
    {f g : ℝ → ℝ} {f' : ℝ} (hg : HasDerivAt g f' x) (hf : ∀ y, InSpan U l y → f y = g y) : SpanDeriv U f f' x := by
  have hfx := hf x h2
  constructor
  · intro j hj hj1 hj2
    obtain rfl : j = l := InSpan.unique hs (by omega) hl (Or.inl ⟨hj1.le, hj2⟩) h2
    apply hg.congr_of_eventuallyEq
    filter_upwards [Ioo_mem_nhds hj1 hj2] with y hy
    exact hf y (Or.inl ⟨hy.1.le, hy.2⟩)
  · intro hlt
    rcases h2 with ⟨a, b⟩ | ⟨_, _, c⟩
    · apply (hg.hasDerivWithinAt (s := Set.Ici x)).congr_of_eventuallyEq _ hfx
      filter_upwards [inter_mem_nhdsWithin (Set.Ici x) (Iio_mem_nhds b)] with y hy
      exact hf y (Or.inl ⟨le_trans a hy.1, hy.2⟩)
    · exact absurd hlt (by rw [c]; exact lt_irrefl _)
  · intro hlt
    rcases h2 with ⟨a, b⟩ | ⟨a, b, c⟩
    · exact absurd b (not_lt.2 (le_trans (hs.le_last hl) hlt.ge))
    · apply (hg.hasDerivWithinAt (s := Set.Iic x)).congr_of_eventuallyEq _ hfx
      filter_upwards [inter_mem_nhdsWithin (Set.Iic x) (Ioi_mem_nhds a)] with y hy
      have hy1 : y ≤ x := hy.1
      have hy2 : knot U l < y := hy.2
      rcases lt_or_eq_of_le hy1 with h | h
      · exact hf y (Or.inl ⟨hy2.le, by rw [← b]; exact h⟩)
      · rw [h]; exact hf x (Or.inr ⟨a, b, c⟩)

theorem dprod_hasDeriv_long {Us : List (List ℝ)} : ∀ {ps : List ℕ} {xs : List ℝ} {ks I : List ℕ} {d : ℕ}
    {S : Set ℝ}, ps.length = Us.length → (∀ U ∈ Us, SortedKnots U) → List.Forall₂ LongSpan Us xs → ks.length = Us.length →
    InBox (List.zipWith (fun U p => U.length - p - 1) Us ps) I → d < Us.length → DSet (Us.getD d []) (xs.getD d 0) S →
    HasDerivWithinAt (fun t => dprod (basisDerivFns Us ps (xs.set d t) ks) I)
      (dprod (basisDerivFns Us ps xs (ks.modify d (· + 1))) I) S (xs.getD d 0) := by
  induction Us with
  | nil => intro ps xs ks I d S _ _ _ _ _ hd; simp at hd
  | cons U Us ih =>
    intro ps xs ks I d S hp hs hx hk hI hd hS
    cases hx with
    | @cons _ a _ as hx hxs =>
      match ps, ks, I, hp, hk, hI with
      | p :: ps, k :: ks, [], hp, hk, hI => simp at hI
      | p :: ps, k :: ks, i :: I, hp, hk, hI =>
        simp only [List.zipWith_cons_cons, inBox_cons] at hI
        cases d with
        | zero =>
          simp only [List.set_cons_zero, List.modify_zero_cons, basisDerivFns, dprod, List.getD_cons_zero] at hS ⊢
          obtain ⟨l, hl', hin, _⟩ := hx
          have hsU := hs U (by simp)
          have hsd : SpanDeriv U (fun y => coxDeBoorDeriv U p k i y) (coxDeBoorDeriv U p (k + 1) i a) a := by
            rw [coxDeriv_eq_DNb hsU hl' hin _ _ _ (by omega)]
            exact spanDeriv_of_inSpan hsU hl' hin (DNb_hasDerivAt (ku_mono hsU) (delta l) a k p i)
              fun y hy => coxDeriv_eq_DNb hsU hl' hy _ _ _ (by omega)
          exact (spanDeriv_iff.1 hsd S hS).mul_const _
        | succ d =>
          simp only [List.set_cons_succ, List.modify_succ_cons, basisDerivFns, dprod, List.getD_cons_succ] at hS ⊢
          exact (ih (by simpa using hp) (fun V hV => hs V (by simp [hV])) hxs (by simpa using hk) hI.2 (by simpa using hd) hS).const_mul _

section
variable {s : Spl ℝ} {knots : List (List ℝ)} {degree : List ℕ} {points : List (List ℝ)}

/-- **C95** for B-splines, where the code is right, in terms of derivatives: at the parameters whose knot spans are at least `kEpsilon`
long, the values `G c k x` that `EvaluateDerivative` returns are the mixed partial derivatives of `Evaluate`. Order zero is `Evaluate`, and
raising the order in direction `d` by one differentiates in direction `d` (two-sided inside the knot span, right-sided before the last knot,
left-sided at the last knot). -/
theorem C95_bspline_partial (h : HoldsData s knots degree points none) (hv : ValidBSplineData knots degree points)
    (hne : points ≠ []) (hs : ∀ U ∈ knots, SortedKnots U) :
    ∃ G : ℕ → List ℕ → List ℝ → ℝ,
      (∀ x k (dims : List ℕ), List.Forall₂ LongSpan knots x → k.length = knots.length → (∀ c ∈ dims, c < s.ph.dim) →
        s.evaluateDerivative x (zl dims) (zl k) = .ok (dims.map fun c => G c k x)) ∧
      (∀ x (dims : List ℕ), List.Forall₂ LongSpan knots x → (∀ c ∈ dims, c < s.ph.dim) →
        s.evaluate x (zl dims) = .ok (dims.map fun c => G c (knots.map fun _ => 0) x)) ∧
      (∀ x k c d U, List.Forall₂ LongSpan knots x → k.length = knots.length → knots[d]? = some U →
        SpanDeriv U (fun t => G c k (x.set d t)) (G c (k.modify d (· + 1)) x) (x.getD d 0)) := by
  refine ⟨fun c k x => tensorDerivSum s x k fun I => cpt s I c, ?_, ?_, ?_⟩
  · intro x k dims hx hk hd
    exact C95_bspline_formula_partial h hv hne hs hx hk dims hd
  · intro x dims hx hd
    rw [C88_bspline_partial h hv hne hs hx dims hd, ← h.knots_eq]
    simp only [tensorDerivSum, basisDerivFns_zero]
    rfl
  · intro x k c d U hx hk hU
    have hdl : d < knots.length := by
      by_contra hc; rw [List.getElem?_eq_none (by omega)] at hU; simp at hU
    rw [spanDeriv_iff]
    intro S hS
    unfold tensorDerivSum npts
    have hwd := (windowSum_long h hv hne (by simp) hs hx).1.knots.length_eq
    rw [h.knots_eq] at hwd ⊢
    exact msum_hasDeriv fun I hI => (dprod_hasDeriv_long hwd.symm hs hx hk hI hdl
      (by rw [List.getD_eq_getElem?_getD, hU]; exact hS)).mul_const _

/-- **C95** for NURBS, where the code is right, in terms of derivatives. -/
theorem C95_nurbs_partial {weights : List ℝ} (h : HoldsData s knots degree points (some weights))
    (hv : ValidBSplineData knots degree points) (hne : points ≠ []) (hw : weights.length = points.length)
    (hs : ∀ U ∈ knots, SortedKnots U) :
    ∃ G : ℕ → List ℕ → List ℝ → ℝ,
      (∀ x k (dims : List ℕ), List.Forall₂ LongSpan knots x → weightValue s x ≠ 0 → k.length = knots.length →
        (∀ c ∈ dims, c < s.ph.dim) → s.evaluateDerivative x (zl dims) (zl k) = .ok (dims.map fun c => G c k x)) ∧
      (∀ x (dims : List ℕ), List.Forall₂ LongSpan knots x → weightValue s x ≠ 0 → (∀ c ∈ dims, c < s.ph.dim) →
        s.evaluate x (zl dims) = .ok (dims.map fun c => G c (knots.map fun _ => 0) x)) ∧
      (∀ x k c d U, List.Forall₂ LongSpan knots x → weightValue s x ≠ 0 → k.length = knots.length → knots[d]? = some U →
        SpanDeriv U (fun t => G c k (x.set d t)) (G c (k.modify d (· + 1)) x) (x.getD d 0)) := by
  refine ⟨fun c k x => msum (npts s) fun I => ratBasis s x k I * cpt s I c, ?_, ?_, ?_⟩
  · intro x k dims hx hn hk hd
    exact C95_nurbs_formula_partial h hv hne hw hs hx hn hk dims hd
  · intro x dims hx hn hd
    rw [C88_nurbs_partial h hv hne hw hs hx hn dims hd, ← h.knots_eq]
    congr 1
    exact List.map_congr_left fun c _ => (msum_ratBasis_zero c).symm
  · intro x k c d U hx hn hk hU
    have hdl : d < knots.length := by
      by_contra hc; rw [List.getElem?_eq_none (by omega)] at hU; simp at hU
    have hwd := (windowSum_long h hv hne (by rintro w ⟨⟩; exact hw) hs hx).1.knots.length_eq
    rw [spanDeriv_iff]
    intro S hS
    rw [← h.knots_eq] at hx hk hU hdl hs
    have hS' : DSet (s.ps.knots.getD d []) (x.getD d 0) S := by rw [List.getD_eq_getElem?_getD, hU]; exact hS
    have hself : x.set d (x.getD d 0) = x := by
      have : d < x.length := by rw [← hx.length_eq]; exact hdl
      rw [List.getD_eq_getElem?_getD, List.getElem?_eq_getElem this]; simp
    refine msum_hasDeriv fun I hI => HasDerivWithinAt.mul_const ?_ _
    have := ratR_hasDeriv (A := fun k t => dprod (basisDerivFns s.ps.knots s.ps.degree (x.set d t) k) I * wgt s I)
      (W := fun k t => tensorDerivSum s (x.set d t) k fun I => wgt s I) (D := s.ps.knots.length) hdl (S := S) (x := x.getD d 0)
      (fun k hk _ => by
        simp only [hself]
        exact (dprod_hasDeriv_long hwd.symm hs hx hk hI hdl hS').mul_const _)
      (fun k hk _ => by
        simp only [hself]
        unfold tensorDerivSum
        exact msum_hasDeriv fun I hI => (dprod_hasDeriv_long hwd.symm hs hx hk hI hdl hS').mul_const _)
      (by
        simp only [hself]
        have := weightDeriv_zero (s := s) (x := x) (k := List.replicate s.ps.knots.length 0) (by simp)
        simp only [List.map_replicate] at this
        rw [this]
        exact hn) k.sum k hk (le_refl _) (le_refl _)
    simp only [hself] at this
    exact this

end

/-- **C95** fails: the constructor accepts the piecewise linear curve through 0, 3, 4 and 10 with the two knots `0.3` and `0.1 + 0.2`.
At `0.3` its value is 3 and its right-sided derivative is `2 ^ 54`, but `EvaluateDerivative` returns 0 for both orders. -/
theorem C95_counterexample : ∃ s : Spl ℚ, Spl.newBSpline [noisyKnots] [1] [[0], [3], [4], [10]] = .ok s ∧ SortedKnots noisyKnots ∧
    InDomain s [three] ∧ (tensorDerivSum s [three] [1] fun I => cpt s I 0) = 2 ^ 54 ∧ s.evaluateDerivative [three] [0] [1] = .ok [0] ∧
    (tensorDerivSum s [three] [0] fun I => cpt s I 0) = 3 ∧ s.evaluateDerivative [three] [0] [0] = .ok [0] :=
  ⟨⟨⟨[noisyKnots], [1], mkTable [noisyKnots] [1]⟩, ⟨1, [4], [0, 3, 4, 10], none⟩⟩, by decide +kernel, by decide +kernel,
    .cons (by decide +kernel) .nil, by decide +kernel, by decide +kernel, by decide +kernel, by decide +kernel⟩

/-- The same for a NURBS: the result is not a number. -/
theorem C95_nurbs_counterexample : ∃ s : Spl ℚ, Spl.newNurbs [noisyKnots] [1] [[5], [5], [5], [5]] [1, 1, 1, 1] = .ok s ∧
    InDomain s [three] ∧ s.evaluateDerivative [three] [0] [1] = .error .nonfinite :=
  ⟨⟨⟨[noisyKnots], [1], mkTable [noisyKnots] [1]⟩, ⟨1, [4], [5, 5, 5, 5], some [1, 1, 1, 1]⟩⟩, by decide +kernel,
    .cons (by decide +kernel) .nil, by decide +kernel⟩

/-- In the long spans of the same knots the derivative is right. -/
example : (do let s ← Spl.newBSpline [noisyKnots] [1] [[0], [3], [4], [10]]
              s.evaluateDerivative [three'] [0] [1]) = .ok [6 / (1 - three')] := by decide +kernel

/-- The curve has the data that the theorems ask for. -/
example : HoldsData (⟨⟨[noisyKnots], [1], mkTable [noisyKnots] [1]⟩, ⟨1, [4], [0, 3, 4, 10], none⟩⟩ : Spl ℚ) [noisyKnots] [1]
    [[0], [3], [4], [10]] none ∧ ValidBSplineData [noisyKnots] [1] [[0], [3], [4], [(10 : ℚ)]] ∧
    List.Forall₂ LongSpan [noisyKnots] [three'] :=
  ⟨⟨rfl, rfl, by decide +kernel, by decide +kernel, by decide +kernel, by decide +kernel, rfl⟩,
    ⟨.cons ⟨by decide +kernel, by decide +kernel, by decide +kernel⟩ .nil, by decide +kernel, ⟨1, by decide +kernel⟩⟩,
    .cons ⟨3, by decide +kernel, by decide +kernel, by decide +kernel⟩ .nil⟩

end SplineLib
