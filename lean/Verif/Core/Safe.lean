import Verif.Core.TensorDeriv
import Verif.Core.Construct
import Verif.Core.Elevate

/-!
# Evaluation without well-formed knots (helper lemmas)
-/

namespace SplineLib
set_option linter.unusedSectionVars false

/-- A value, or a division by zero; neither undefined behaviour nor an exception nor an endless loop. -/
def Safe {α : Type} (r : M α) : Prop := (∃ a, r = .ok a) ∨ r = .error .nonfinite

theorem Safe.ok {α : Type} (a : α) : Safe (.ok a : M α) := Or.inl ⟨a, rfl⟩

theorem Safe.bind {α β : Type} {m : M α} {f : α → M β} (hm : Safe m) (hf : ∀ a, m = .ok a → Safe (f a)) : Safe (m >>= f) := by
  rcases hm with ⟨a, rfl⟩ | rfl
  · exact hf a rfl
  · exact Or.inr rfl

theorem Safe.fdiv {K : Type} [Field K] [DecidableEq K] (a b : K) : Safe (fdiv a b) := by
  unfold SplineLib.fdiv
  split
  · exact Or.inr rfl
  · exact Or.inl ⟨_, rfl⟩

theorem upLoop_safe {σ : Type} {ns : List ℕ} (hpos : ∀ n ∈ ns, 0 < n) {body : MIH → σ → M σ}
    (h : ∀ k, 0 < k → k < ns.prod → ∀ s, Safe (body ⟨zl ns, zl (unlin ns k)⟩ s)) : ∀ (m k : ℕ), 0 < k → k + m ≤ ns.prod → ∀ s,
    Safe (upLoop body m ⟨zl ns, zl (unlin ns k)⟩ s) := by
  intro m
  induction m with
  | zero => intro k _ _ s; exact Safe.ok _
  | succ m ih =>
    intro k h0 hk s
    refine Safe.bind (h k h0 (by omega) s) fun s' _ => ?_
    rw [incr_zl hpos]
    exact ih (k + 1) (by omega) (by omega) s'

theorem upLoop_safe0 {σ : Type} {ns : List ℕ} (hpos : ∀ n ∈ ns, 0 < n) {body : MIH → σ → M σ}
    (h : ∀ J, InBox ns J → ∀ s, Safe (body ⟨zl ns, zl J⟩ s)) (s : σ) :
    Safe (upLoop body (MIH.mk' (zl ns)).length1D.toNat (MIH.mk' (zl ns)) s) := by
  rw [mk'_zl, length1D_zl, Int.toNat_natCast]
  obtain ⟨m, hm⟩ : ∃ m, ns.prod = m + 1 := ⟨ns.prod - 1, by have := prod_pos_of hpos; omega⟩
  rw [hm]
  have h0 := h (unlin ns 0) (unlin_inBox hpos 0) s
  have e0 : (ns.map fun _ => 0) = unlin ns 0 := by
    clear h hm h0
    induction ns with
    | nil => simp [unlin]
    | cons n ns ih => simp [unlin, ← ih fun a ha => hpos a (by simp [ha])]
  simp only [upLoop]
  first
  | (refine Safe.bind (by simpa [e0] using h0) fun s' _ => ?_)
  have := upLoop_safe hpos (body := body) (fun k _ _ => h _ (unlin_inBox hpos k)) m 1 (by omega) (by omega) s'
  rw [← show 0 + 1 = 1 from rfl, ← incr_zl hpos] at this
  simpa [e0] using this

section
variable {K : Type} [Field K] [LinearOrder K] [IsStrictOrderedRing K]

/-- What the bisection guarantees without any order: the result is an end of the interval, or separates two elements. -/
theorem bisect_weak (f : K → Bool) (l : List K) : ∀ len first, first + len ≤ l.length →
    first ≤ bisect f l first len ∧ bisect f l first len ≤ first + len ∧
    (bisect f l first len < first + len → ∀ h : bisect f l first len < l.length, f l[bisect f l first len] = false) ∧
    (first < bisect f l first len → ∀ h : bisect f l first len - 1 < l.length, f l[bisect f l first len - 1] = true) := by
  intro len
  induction len using Nat.strong_induction_on with
  | _ len ih =>
    intro first hle
    rw [bisect]
    split
    · rename_i h0
      subst h0
      exact ⟨le_refl _, by omega, fun h => by omega, fun h => by omega⟩
    · rename_i h0
      have hm : first + len / 2 < l.length := by omega
      simp only [List.getElem?_eq_getElem hm]
      split
      · rename_i hf
        obtain ⟨a, b, c, d⟩ := ih (len - len / 2 - 1) (by omega) (first + len / 2 + 1) (by omega)
        refine ⟨by omega, by omega, fun h => c (by omega), fun h h' => ?_⟩
        by_cases he : first + len / 2 + 1 < bisect f l (first + len / 2 + 1) (len - len / 2 - 1)
        · exact d he h'
        · have e : bisect f l (first + len / 2 + 1) (len - len / 2 - 1) - 1 = first + len / 2 := by omega
          simp only [e, hf]
      · rename_i hf
        obtain ⟨a, b, c, d⟩ := ih (len / 2) (by omega) first (by omega)
        refine ⟨a, by omega, fun h h' => ?_, d⟩
        by_cases he : bisect f l first (len / 2) < first + len / 2
        · exact c he h'
        · have e : bisect f l first (len / 2) = first + len / 2 := by omega
          simp only [e]
          simpa using hf

theorem lowerBound_weak (U : List K) (x : K) : lowerBound U x ≤ U.length ∧
    (lowerBound U x < U.length → ¬ knot U (lowerBound U x) < x) ∧ (0 < lowerBound U x → knot U (lowerBound U x - 1) < x) := by
  obtain ⟨_, b, c, d⟩ := bisect_weak (fun a => decide (a < x)) U U.length 0 (by omega)
  unfold lowerBound
  generalize bisect (fun a => decide (a < x)) U 0 U.length = r at *
  refine ⟨by omega, fun h => ?_, fun h => ?_⟩
  · rw [knot_eq h]; exact of_decide_eq_false (c (by omega) h)
  · rw [knot_eq (by omega)]; exact of_decide_eq_true (d h (by omega))

theorem upperBound_weak (U : List K) (x : K) : upperBound U x ≤ U.length ∧
    (upperBound U x < U.length → x < knot U (upperBound U x)) ∧ (0 < upperBound U x → ¬ x < knot U (upperBound U x - 1)) := by
  obtain ⟨_, b, c, d⟩ := bisect_weak (fun a => !decide (x < a)) U U.length 0 (by omega)
  unfold upperBound
  generalize bisect (fun a => !decide (x < a)) U 0 U.length = r at *
  refine ⟨by omega, fun h => ?_, fun h => ?_⟩
  · rw [knot_eq h]; have := c (by omega) h; simpa using this
  · rw [knot_eq (by omega)]; have := d h (by omega); simpa using this

/-- Clamped knots whose range is at least `kEpsilon`; the knots need not be sorted. -/
structure WideKnots (U : List K) (p : ℕ) : Prop where
  size : 2 * p + 2 ≤ U.length
  first : ∀ j ≤ p, knot U j = knot U 0
  last : ∀ j ≤ p, knot U (U.length - 1 - j) = lastKnot U
  wide : knot U 0 + kEps K ≤ lastKnot U

theorem WideKnots.ne_nil {U : List K} {p : ℕ} (h : WideKnots U p) : U ≠ [] := by
  rintro rfl; have := h.size; simp at this

theorem WideKnots.span {U : List K} {p : ℕ} (h : WideKnots U p) {x : K} (h0 : knot U 0 ≤ x) (h1 : x ≤ lastKnot U) :
    kvSpan U x = .ok (spanIx U x : ℤ) ∧ p ≤ spanIx U x ∧ spanIx U x + p + 1 < U.length := by
  have hs := h.size
  have hlast : ∀ i, i < U.length → U.length ≤ i + p + 1 → knot U i = lastKnot U := by
    intro i hi hi'
    have := h.last (U.length - 1 - i) (by omega)
    rwa [show U.length - 1 - (U.length - 1 - i) = i by omega] at this
  rw [kvSpan_eq h.ne_nil]
  unfold spanIx
  by_cases hl : |x - lastKnot U| < kEps K
  · simp only [hl, if_true]
    obtain ⟨b, c, d⟩ := lowerBound_weak U x
    generalize lowerBound U x = r at *
    have hx0 : knot U 0 < x := by
      rw [abs_lt] at hl
      have := h.wide
      linarith [hl.1]
    have hp : p < r := by
      by_contra hc
      have := c (by omega)
      rw [h.first _ (by omega)] at this
      exact this hx0
    have hq : r + p + 1 ≤ U.length := by
      by_contra hc
      have := d (by omega)
      rw [hlast _ (by omega) (by omega)] at this
      exact absurd this (not_lt.2 h1)
    refine ⟨?_, by omega, by omega⟩
    congr 1
    omega
  · simp only [hl, if_false]
    obtain ⟨b, c, d⟩ := upperBound_weak U x
    generalize upperBound U x = r at *
    have hx1 : x < lastKnot U := by
      refine lt_of_le_of_ne h1 ?_
      intro e
      exact hl (by rw [e, sub_self, abs_zero]; exact kEps_pos)
    have hp : p < r := by
      by_contra hc
      have := c (by omega)
      rw [h.first _ (by omega)] at this
      exact absurd this (not_lt.2 h0)
    have hq : r + p + 1 ≤ U.length := by
      by_contra hc
      have := d (by omega)
      rw [hlast _ (by omega) (by omega)] at this
      exact this hx1
    refine ⟨?_, by omega, by omega⟩
    congr 1
    omega

theorem throwIfOutside_wide {Us : List (List K)} (h : ∀ U ∈ Us, U ≠ []) : ∀ {xs : List K}, xs.length = Us.length →
    (Dom Us xs → PS.throwIfOutside Us xs = .ok ()) ∧ (¬ Dom Us xs → PS.throwIfOutside Us xs = .error (.thrown .rangeError)) := by
  induction Us with
  | nil => intro xs hl; cases xs <;> simp_all [Dom, PS.throwIfOutside]
  | cons U Us ih =>
    intro xs hl
    cases xs with
    | nil => simp at hl
    | cons a xs =>
      obtain ⟨i1, i2⟩ := ih (fun V hV => h V (by simp [hV])) (xs := xs) (by simpa using hl)
      simp only [PS.throwIfOutside, kvInRange_eq (h U (by simp)), ok_bind, Dom, List.forall₂_cons]
      constructor
      · rintro ⟨⟨a1, a2⟩, hd⟩
        simp only [a1, a2, and_self, decide_true, if_true]
        exact i1 hd
      · intro hn
        by_cases hc : knot U 0 ≤ a ∧ a ≤ lastKnot U
        · simp only [hc, and_self, decide_true, if_true]
          exact i2 fun hd => hn ⟨hc, hd⟩
        · simp [hc]

theorem firstNonZero_wide {Us : List (List K)} {ps : List ℕ} (h : List.Forall₂ WideKnots Us ps) :
    ∀ {xs : List K}, Dom Us xs → PS.firstNonZero Us ps xs = .ok (zl (offs Us ps xs)) := by
  induction h with
  | nil => intro xs hx; cases hx; rfl
  | cons h _ ih =>
    intro xs hx
    cases hx with
    | cons hx hxs =>
      obtain ⟨h1, h3, h4⟩ := h.span hx.1 hx.2
      simp only [PS.firstNonZero, h1, ih hxs, ok_bind, pure_ok, offs, List.map_cons]
      congr 2; omega

theorem act_inBox_wide {Us : List (List K)} {ps : List ℕ} (h : List.Forall₂ WideKnots Us ps) :
    ∀ {xs : List K} {J : List ℕ}, Dom Us xs → InBox (actBox ps) J →
      InBox (List.zipWith (fun U p => U.length - p - 1) Us ps) (List.zipWith (· + ·) J (offs Us ps xs)) := by
  induction h with
  | nil => intro xs J hx hJ; cases hx; cases J <;> simp_all [offs]
  | cons h _ ih =>
    intro xs J hx hJ
    cases hx with
    | cons hx hxs =>
      cases J with
      | nil => simp at hJ
      | cons j J =>
        simp only [actBox, List.map_cons, inBox_cons] at hJ
        obtain ⟨h1, h3, h4⟩ := h.span hx.1 hx.2
        simp only [List.zipWith_cons_cons, offs, inBox_cons]
        exact ⟨by omega, ih hxs hJ.2⟩

theorem basisProd_wide {Us : List (List K)} {ps : List ℕ} (h : List.Forall₂ WideKnots Us ps) :
    ∀ {xs : List K} {J : List ℕ} (v : K), Dom Us xs → InBox (actBox ps) J →
      ∃ r, PS.basisProd (mkTable Us ps) (zl (List.zipWith (· + ·) J (offs Us ps xs))) xs v = .ok r := by
  induction h with
  | nil => intro xs J v hx hJ; cases hx; exact ⟨v, by simp [offs, PS.basisProd, mkTable]⟩
  | @cons U p Us ps h _ ih =>
    intro xs J v hx hJ
    cases hx with
    | @cons _ a _ as hx hxs =>
      cases J with
      | nil => simp at hJ
      | cons j J =>
        simp only [actBox, List.map_cons, inBox_cons] at hJ
        obtain ⟨h1, h3, h4⟩ := h.span hx.1 hx.2
        simp only [mkTable, List.zipWith_cons_cons, offs, List.map_cons, PS.basisProd]
        rw [getI_row (by omega)]
        exact ih _ hxs hJ.2

theorem basisDerivProd_wide {Us : List (List K)} {ps : List ℕ} (h : List.Forall₂ WideKnots Us ps) :
    ∀ {xs : List K} {J : List ℕ} (ks : List ℤ) (v : K), Dom Us xs → InBox (actBox ps) J →
      ∃ r, PS.basisDerivProd (mkTable Us ps) (zl (List.zipWith (· + ·) J (offs Us ps xs))) xs ks v = .ok r := by
  induction h with
  | nil => intro xs J ks v hx hJ; cases hx; exact ⟨v, by simp [offs, PS.basisDerivProd, mkTable]⟩
  | @cons U p Us ps h _ ih =>
    intro xs J ks v hx hJ
    cases hx with
    | @cons _ a _ as hx hxs =>
      cases J with
      | nil => simp at hJ
      | cons j J =>
        cases ks with
        | nil => exact ⟨v, by simp [mkTable, offs, PS.basisDerivProd]⟩
        | cons k ks =>
          simp only [actBox, List.map_cons, inBox_cons] at hJ
          obtain ⟨h1, h3, h4⟩ := h.span hx.1 hx.2
          simp only [mkTable, List.zipWith_cons_cons, offs, List.map_cons, PS.basisDerivProd]
          rw [getI_row (by omega)]
          exact ih _ _ hxs hJ.2

/-- A spline object that the constructors build from clamped knots with a wide range; the weights may have any sign. -/
structure WideSpl (s : Spl K) : Prop where
  knots : List.Forall₂ WideKnots s.ps.knots s.ps.degree
  basis : s.ps.basis = mkTable s.ps.knots s.ps.degree
  num : s.ph.num = zl (npts s)
  cps : s.ph.cps.length = s.ph.dim * (npts s).prod
  weights : ∀ w, s.ph.weights = some w → w.length = (npts s).prod

variable {s : Spl K}

theorem WideSpl.controlPoint (h : WideSpl s) {I : List ℕ} (hI : InBox (npts s) I) {c : ℕ} (hc : c < s.ph.dim) :
    s.controlPoint (zl I) (c : ℤ) = .ok (cpt s I c) := by
  simp only [Spl.controlPoint, getCP_eq h.num h.cps hI, ok_bind, getI_map_range hc, cpt]

theorem WideSpl.getWeight (h : WideSpl s) {I : List ℕ} (hI : InBox (npts s) I) : s.ph.getWeight (zl I) = .ok (wgt s I) := by
  unfold Phys.getWeight wgt
  cases hw : s.ph.weights with
  | none => rfl
  | some w =>
    simp only
    rw [h.num, oneD_zl, getI_getD (by rw [h.weights w hw]; exact lin_lt hI) 0]

theorem WideSpl.getHomCP (h : WideSpl s) {I : List ℕ} (hI : InBox (npts s) I) (hd : 0 < s.ph.dim) {w : List K} (hw : s.ph.weights = some w) :
    s.ph.getHomCP (zl I) = .ok ((List.range s.ph.dim).map (fun c => cpt s I c * wgt s I) ++ [wgt s I]) := by
  have hg : getI w (MIH.oneD s.ph.num (zl I)) = .ok (wgt s I) := by
    have := h.getWeight hI
    simpa only [Phys.getWeight, hw] using this
  simp only [Phys.getHomCP, Phys.theWeights, hw, ok_bind, hg]
  rw [buildList_eq (g := fun c => cpt s I c * wgt s I)]
  · rfl
  · intro c hc
    have hd : ((s.ph.dim : ℤ) * MIH.oneD s.ph.num (zl I)).tdiv s.ph.dim = MIH.oneD s.ph.num (zl I) :=
      Int.mul_tdiv_cancel_left _ (by omega)
    rw [hd, hg]
    have : getI s.ph.cps ((s.ph.dim : ℤ) * MIH.oneD s.ph.num (zl I) + (c : ℤ)) = .ok (cpt s I c) := by
      rw [h.num, oneD_zl]
      rw [show ((s.ph.dim : ℤ) * (lin (npts s) I : ℤ) + (c : ℤ)) = ((s.ph.dim * lin (npts s) I + c : ℕ) : ℤ) by push_cast; rfl]
      exact getI_getD (by rw [h.cps]; exact mul_add_lt (lin_lt hI) hc) 0
    simp only [this, ok_bind, pure_ok]

variable {x : List K}

theorem WideSpl.basisFunctions (h : WideSpl s) (hx : Dom s.ps.knots x) {J : List ℕ} (hJ : InBox (actBox s.ps.degree) J) :
    ∃ r, s.ps.getBasisFunctions (zl (List.zipWith (· + ·) J (offs s.ps.knots s.ps.degree x))) x = .ok r := by
  simp only [PS.getBasisFunctions, h.basis]
  exact basisProd_wide h.knots 1 hx hJ

theorem WideSpl.basisDerivs (h : WideSpl s) (hx : Dom s.ps.knots x) {J : List ℕ} (hJ : InBox (actBox s.ps.degree) J) (k : List ℤ) :
    ∃ r, s.ps.getBasisFunctionDerivatives (zl (List.zipWith (· + ·) J (offs s.ps.knots s.ps.degree x))) x k = .ok r := by
  simp only [PS.getBasisFunctionDerivatives, h.basis]
  exact basisDerivProd_wide h.knots k 1 hx hJ

theorem WideSpl.weightSumWith (h : WideSpl s) (hx : Dom s.ps.knots x) {f : List ℤ → M K}
    (hf : ∀ J, InBox (actBox s.ps.degree) J → Safe (f (zl (List.zipWith (· + ·) J (offs s.ps.knots s.ps.degree x))))) :
    Safe (s.weightSumWith x f) := by
  simp only [Spl.weightSumWith, firstNonZero_wide h.knots hx, ok_bind, numBasis_eq]
  refine upLoop_safe0 (by simp [actBox]) (fun J hJ v => ?_) _
  simp only [zipWith_zl]
  exact Safe.bind (hf J hJ) fun a _ => Safe.ok _

theorem WideSpl.evaluatedWeightSum (h : WideSpl s) (hx : Dom s.ps.knots x) : Safe (s.evaluatedWeightSum x) := by
  refine h.weightSumWith hx fun J hJ => ?_
  have hI : InBox (npts s) _ := act_inBox_wide h.knots hx hJ
  obtain ⟨r, hr⟩ := h.basisFunctions hx hJ
  simp only [Spl.evaluatedWeight, hr, h.getWeight hI, ok_bind, pure_ok]
  exact Safe.ok _

theorem WideSpl.evaluatedDerivWeight (h : WideSpl s) (hx : Dom s.ps.knots x) (k : List ℤ) {J : List ℕ}
    (hJ : InBox (actBox s.ps.degree) J) :
    Safe (s.evaluatedDerivWeight x k (zl (List.zipWith (· + ·) J (offs s.ps.knots s.ps.degree x)))) := by
  have hI : InBox (npts s) _ := act_inBox_wide h.knots hx hJ
  obtain ⟨r, hr⟩ := h.basisDerivs hx hJ k
  simp only [Spl.evaluatedDerivWeight, hr, h.getWeight hI, ok_bind, pure_ok]
  exact Safe.ok _

theorem WideSpl.evaluatedDerivWeightSum (h : WideSpl s) (hx : Dom s.ps.knots x) (k : List ℤ) : Safe (s.evaluatedDerivWeightSum x k) :=
  h.weightSumWith hx fun _ hJ => h.evaluatedDerivWeight hx k hJ

theorem WideSpl.rationalDeriv (h : WideSpl s) (hx : Dom s.ps.knots x) {J : List ℕ} (hJ : InBox (actBox s.ps.degree) J) :
    ∀ (fuel : ℕ) (k : List ℕ), k.sum ≤ fuel →
      Safe (s.rationalDeriv x (zl (List.zipWith (· + ·) J (offs s.ps.knots s.ps.degree x))) fuel (zl k)) := by
  have hI : InBox (npts s) _ := act_inBox_wide h.knots hx hJ
  have hzero : ∀ (fuel : ℕ) (k : List ℕ), k.all (fun a => decide (a = 0)) = true →
      Safe (s.rationalDeriv x (zl (List.zipWith (· + ·) J (offs s.ps.knots s.ps.degree x))) fuel (zl k)) := by
    intro fuel k hz
    rw [Spl.rationalDeriv.eq_def]
    dsimp only
    rw [zl_all_zero, if_pos hz]
    obtain ⟨r, hr⟩ := h.basisFunctions hx hJ
    simp only [hr, h.getWeight hI, ok_bind]
    exact Safe.bind (h.evaluatedWeightSum hx) fun a _ => Safe.fdiv _ _
  intro fuel
  induction fuel with
  | zero =>
    intro k hs
    refine hzero 0 k ?_
    rw [List.all_eq_true]; intro a ha
    have := List.single_le_sum (l := k) (by simp) a ha
    simp; omega
  | succ fuel ih =>
    intro k hs
    by_cases hz : k.all (fun a => decide (a = 0)) = true
    · exact hzero _ k hz
    · rw [Spl.rationalDeriv, zl_all_zero, if_neg hz]
      have e1 : (zl k).map (· + 1) = zl (k.map (· + 1)) := by simp [zl]
      have hP := mem_actBox_pos (k := k)
      simp only [e1]
      refine Safe.bind (h.evaluatedDerivWeight hx _ hJ) fun dw _ => ?_
      rw [mk'_zl, incr_zl hP, length1D_zl]
      have hPP := prod_pos_of hP
      refine Safe.bind (upLoop_safe hP (fun m hm1 hm2 v => ?_) _ _ (by omega) (by omega) _) fun sum _ =>
        Safe.bind (h.evaluatedWeightSum hx) fun a _ => Safe.fdiv _ _
      have hb := unlin_inBox hP m
      have hlt := msub_sum_lt hb (by
        have := unlin_ne_zero (ns := k.map (· + 1)) (m := m) (by omega) (by omega)
        rwa [show (List.map (fun _ => 0) (unlin (k.map (· + 1)) m)) = (k.map (· + 1)).map fun _ => 0 by
          simp only [List.map_const', unlin_length]])
      simp only [binomialCoefficients_eq hb, differenceIndices_zl hb, ok_bind]
      exact Safe.bind (ih _ (by omega)) fun r _ => Safe.bind (h.evaluatedDerivWeightSum hx _) fun ws _ => Safe.ok _

theorem addEach_safe {f : ℤ → M K} : ∀ {dims : List ℤ} (as : List K), (∀ c ∈ dims, Safe (f c)) → Safe (Spl.addEach f dims as) := by
  intro dims
  induction dims with
  | nil => intro as _; exact Safe.ok _
  | cons c cs ih =>
    intro as h
    cases as with
    | nil => exact Safe.ok _
    | cons a as =>
      exact Safe.bind (h c (by simp)) fun v _ => Safe.bind (ih as fun c hc => h c (by simp [hc])) fun r _ => Safe.ok _

theorem WideSpl.evalWith (h : WideSpl s) (hx : Dom s.ps.knots x) {dims : List ℤ} {f : List ℤ → ℤ → M K}
    (hf : ∀ J, InBox (actBox s.ps.degree) J → ∀ c ∈ dims, Safe (f (zl (List.zipWith (· + ·) J (offs s.ps.knots s.ps.degree x))) c)) :
    Safe (s.evalWith x dims f) := by
  have hne : ∀ U ∈ s.ps.knots, U ≠ [] := by
    intro U hU
    obtain ⟨i, hi, rfl⟩ := List.getElem_of_mem hU
    have h2 := (List.forall₂_iff_get.1 h.knots).2 i hi (by rw [← h.knots.length_eq]; exact hi)
    exact h2.ne_nil
  simp only [Spl.evalWith, (throwIfOutside_wide hne hx.length_eq.symm).1 hx, firstNonZero_wide h.knots hx, ok_bind, numBasis_eq]
  refine upLoop_safe0 (by simp [actBox]) (fun J hJ v => ?_) _
  simp only [zipWith_zl]
  exact addEach_safe _ fun c hc => hf J hJ c hc

theorem addEach_length {f : ℤ → M K} : ∀ {dims : List ℤ} {as r : List K}, Spl.addEach f dims as = .ok r → r.length = as.length := by
  intro dims
  induction dims with
  | nil => rintro as r ⟨⟩; rfl
  | cons c cs ih =>
    intro as r h
    cases as with
    | nil => cases h; rfl
    | cons a as =>
      simp only [Spl.addEach] at h
      obtain ⟨v, _, h⟩ := bind_eq_ok.1 h
      obtain ⟨r', h', h⟩ := bind_eq_ok.1 h
      cases h
      simp [ih h']

theorem upLoop_length {body : MIH → List K → M (List K)} (hb : ∀ h v r, body h v = .ok r → r.length = v.length) :
    ∀ {n : ℕ} {h : MIH} {v r : List K}, upLoop body n h v = .ok r → r.length = v.length := by
  intro n
  induction n with
  | zero => rintro h v r ⟨⟩; rfl
  | succ n ih =>
    intro h v r e
    simp only [upLoop] at e
    obtain ⟨v', e', e⟩ := bind_eq_ok.1 e
    rw [ih e, hb _ _ _ e']

theorem evalWith_length {s : Spl K} {x : List K} {dims : List ℤ} {f : List ℤ → ℤ → M K} {r : List K} (h : s.evalWith x dims f = .ok r) :
    r.length = dims.length := by
  unfold Spl.evalWith at h
  obtain ⟨_, _, h⟩ := bind_eq_ok.1 h
  obtain ⟨_, _, h⟩ := bind_eq_ok.1 h
  simpa using upLoop_length (fun _ _ _ => addEach_length) h

/-- B-splines: no division takes place. -/
theorem WideSpl.evalWith_ok (h : WideSpl s) (hx : Dom s.ps.knots x) {dims : List ℤ} {f : List ℤ → ℤ → M K}
    (hf : ∀ J, InBox (actBox s.ps.degree) J → ∀ c ∈ dims, ∃ v, f (zl (List.zipWith (· + ·) J (offs s.ps.knots s.ps.degree x))) c = .ok v) :
    ∃ v, s.evalWith x dims f = .ok v ∧ v.length = dims.length := by
  have hne : ∀ U ∈ s.ps.knots, U ≠ [] := by
    intro U hU
    obtain ⟨i, hi, rfl⟩ := List.getElem_of_mem hU
    have h2 := (List.forall₂_iff_get.1 h.knots).2 i hi (by rw [← h.knots.length_eq]; exact hi)
    exact h2.ne_nil
  have hpos : ∀ n ∈ actBox s.ps.degree, 0 < n := by simp [actBox]
  simp only [Spl.evalWith, (throwIfOutside_wide hne hx.length_eq.symm).1 hx, firstNonZero_wide h.knots hx, ok_bind, numBasis_eq]
  refine upLoop_inv (ns := actBox s.ps.degree) (fun _ (v : List K) => v.length = dims.length) (by simp) ?_
  intro k hk v hv
  have hJ := unlin_inBox hpos k
  simp only [zipWith_zl]
  have hf' := hf _ hJ
  generalize f (zl (List.zipWith (· + ·) (unlin (actBox s.ps.degree) k) (offs s.ps.knots s.ps.degree x))) = g at hf'
  clear hf
  induction dims generalizing v with
  | nil => exact ⟨v, rfl, hv⟩
  | cons c cs ih =>
    cases v with
    | nil => simp at hv
    | cons a v =>
      obtain ⟨r, hr, hl⟩ := ih v (by simpa using hv) fun c hc => hf' c (by simp [hc])
      obtain ⟨u, hu⟩ := hf' c (by simp)
      exact ⟨(a + u) :: r, by simp [Spl.addEach, hu, hr], by simp [hl]⟩

end
end SplineLib
