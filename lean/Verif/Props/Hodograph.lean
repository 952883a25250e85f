import Verif.Props.EndInsert
import Verif.Props.Derivatives
import Verif.Props.Evaluation
import Verif.Spec.Examples
import Verif.Core.ChangeDir
import Verif.Core.ReduceWhole

/-!
# The derivative of a B-spline is a B-spline

NURBS book, section 3.3: the first derivative of a B-spline in one direction is the B-spline of degree `p - 1` in this direction over the knots
without the first and the last one, whose control points are the scaled differences of neighbouring control points. The property links
`EvaluateDerivative` of one object (`/repo/src/spl/spline.h:67-84`) with `Evaluate` of another one (`/repo/src/spl/spline.h:49-65`).
-/

namespace SplineLib
set_option linter.unusedSectionVars false
open Finset

section
variable {K : Type} [Field K] [LinearOrder K] [IsStrictOrderedRing K]

/-- `r` is the B-spline whose control points are the scaled differences of the control points of `s` in direction `d`, over the knots of `s` without
the first and the last one of this direction, where `s` has the knot vector `U` and degree `p`. (Control points that belong to an empty knot range,
which exist only if an interior knot occurs more than `p` times, are arbitrary.) -/
structure DifferenceSpline (s r : Spl K) (d : ℕ) (U : List K) (p : ℕ) : Prop where
  wf : WFSpl r
  bspline : IsBSpline r
  knots : r.ps.knots = s.ps.knots.set d U.tail.dropLast
  degree : r.ps.degree = s.ps.degree.set d (p - 1)
  dim : r.ph.dim = s.ph.dim
  cpt : ∀ I, InBox (npts r) I → knot U (ixd I d + 1) < knot U (ixd I d + p + 1) → ∀ c < s.ph.dim, cpt r I c =
    p * (cpt s (I.set d (ixd I d + 1)) c - cpt s I c) / (knot U (ixd I d + p + 1) - knot U (ixd I d + 1))

theorem knot_inner {U : List K} {i : ℕ} (h : i + 2 < U.length) : knot U.tail.dropLast i = knot U (i + 1) := by
  simp only [knot, List.getD_eq_getElem?_getD]
  rw [List.getElem?_dropLast, if_pos (by simp; omega), List.getElem?_tail]

theorem inner_length (U : List K) : U.tail.dropLast.length = U.length - 2 := by simp; omega

theorem inner_last {U : List K} {p : ℕ} (h : WFKnots U (p + 1)) : lastKnot U.tail.dropLast = lastKnot U := by
  have hs := h.size
  unfold lastKnot
  rw [inner_length, knot_inner (by omega), show U.length - 2 - 1 + 1 = U.length - 1 - 1 by omega]
  exact h.last 1 (by omega)

theorem inner_first {U : List K} {p : ℕ} (h : WFKnots U (p + 1)) : knot U.tail.dropLast 0 = knot U 0 := by
  have hs := h.size
  rw [knot_inner (by omega)]
  exact h.first 1 (by omega)

theorem inner_wf {U : List K} {p : ℕ} (h : WFKnots U (p + 1)) : WFKnots U.tail.dropLast p := by
  have hs := h.size
  have hsub : U.tail.dropLast.Sublist U := (List.dropLast_sublist _).trans (List.tail_sublist _)
  refine ⟨h.sorted.sublist hsub, by rw [inner_length]; omega, fun j hj => ?_, fun j hj => ?_, ?_, fun a ha b hb => h.sep a (hsub.subset ha) b (hsub.subset hb)⟩
  · rw [inner_first h, knot_inner (by omega)]; exact h.first _ (by omega)
  · rw [inner_last h, inner_length, knot_inner (by omega), show U.length - 2 - 1 - j + 1 = U.length - 1 - (j + 1) by omega]
    exact h.last _ (by omega)
  · rw [inner_first h, inner_last h]; exact h.range

theorem cox_inner {U : List K} (hl : lastKnot U.tail.dropLast = lastKnot U) (x : K) : ∀ (q i : ℕ), i + q + 3 < U.length →
    coxDeBoor U.tail.dropLast q i x = coxDeBoor U q (i + 1) x := by
  intro q
  induction q with
  | zero =>
    intro i hi
    have e : InSpan U.tail.dropLast i x ↔ InSpan U (i + 1) x := by
      unfold InSpan
      rw [knot_inner (by omega), knot_inner (by omega), hl]
    simp only [coxDeBoor, e]
  | succ q ih =>
    intro i hi
    simp only [coxDeBoor]
    rw [ih i (by omega), ih (i + 1) (by omega), knot_inner (by omega), knot_inner (by omega), knot_inner (by omega), knot_inner (by omega)]
    rw [show i + q + 1 + 1 = i + 1 + q + 1 by omega, show i + 1 + q + 1 + 1 = i + 1 + q + 2 by omega]

theorem coxDeriv_inner {U : List K} (hl : lastKnot U.tail.dropLast = lastKnot U) (x : K) : ∀ (q k i : ℕ), i + q + 3 < U.length →
    coxDeBoorDeriv U.tail.dropLast q k i x = coxDeBoorDeriv U q k (i + 1) x := by
  intro q
  induction q with
  | zero =>
    intro k i hi
    cases k with
    | zero => simpa only [coxDeBoorDeriv] using cox_inner hl x 0 i hi
    | succ k => rfl
  | succ q ih =>
    intro k i hi
    cases k with
    | zero => simpa only [coxDeBoorDeriv] using cox_inner hl x (q + 1) i hi
    | succ k =>
      simp only [coxDeBoorDeriv]
      rw [ih k i (by omega), ih k (i + 1) (by omega), knot_inner (by omega), knot_inner (by omega), knot_inner (by omega), knot_inner (by omega)]
      rw [show i + q + 1 + 1 = i + 1 + q + 1 by omega, show i + 1 + q + 1 + 1 = i + 1 + q + 2 by omega]

theorem cox_empty {U : List K} (hU : SortedKnots U) (x : K) : ∀ (q i : ℕ), i + q + 1 < U.length → knot U i = knot U (i + q + 1) → coxDeBoor U q i x = 0 := by
  intro q
  induction q with
  | zero =>
    intro i hi he
    have : ¬ InSpan U i x := by
      rintro (⟨h1, h2⟩ | ⟨h1, h2, _⟩)
      · rw [← show knot U i = knot U (i + 1) from he] at h2; exact absurd h1 (not_le.2 h2)
      · rw [← show knot U i = knot U (i + 1) from he] at h2; exact absurd h2 h1.ne'
    simp only [coxDeBoor, if_neg this]
  | succ q ih =>
    intro i hi he
    have h1 := hU.mono (show i ≤ i + 1 by omega) (by omega)
    have h2 := hU.mono (show i + 1 ≤ i + q + 1 by omega) (by omega)
    have h3 := hU.mono (show i + q + 1 ≤ i + (q + 1) + 1 by omega) (by omega)
    simp only [coxDeBoor]
    rw [ih i (by omega) (le_antisymm (h1.trans h2) (h3.trans he.ge)), ih (i + 1) (by omega) (by
      rw [show i + 1 + q + 1 = i + (q + 1) + 1 by omega]
      exact le_antisymm (h2.trans h3) (he.ge.trans h1))]
    ring

theorem coxDeriv_empty {U : List K} (hU : SortedKnots U) (x : K) : ∀ (q k i : ℕ), i + q + 1 < U.length → knot U i = knot U (i + q + 1) →
    coxDeBoorDeriv U q k i x = 0 := by
  intro q
  induction q with
  | zero =>
    intro k i hi he
    cases k with
    | zero => simpa only [coxDeBoorDeriv] using cox_empty hU x 0 i hi he
    | succ k => rfl
  | succ q ih =>
    intro k i hi he
    cases k with
    | zero => simpa only [coxDeBoorDeriv] using cox_empty hU x (q + 1) i hi he
    | succ k =>
      have h1 := hU.mono (show i ≤ i + 1 by omega) (by omega)
      have h2 := hU.mono (show i + 1 ≤ i + q + 1 by omega) (by omega)
      have h3 := hU.mono (show i + q + 1 ≤ i + (q + 1) + 1 by omega) (by omega)
      simp only [coxDeBoorDeriv]
      rw [ih k i (by omega) (le_antisymm (h1.trans h2) (h3.trans he.ge)), ih k (i + 1) (by omega) (by
        rw [show i + 1 + q + 1 = i + (q + 1) + 1 by omega]
        exact le_antisymm (h2.trans h3) (he.ge.trans h1))]
      simp

/-- Summation by parts. -/
theorem sum_by_parts (f a : ℕ → K) : ∀ n, f 0 = 0 → ∑ i ∈ range (n + 1), (f i - f (i + 1)) * a i = ∑ i ∈ range n, f (i + 1) * (a (i + 1) - a i) - f (n + 1) * a n := by
  intro n h0
  induction n with
  | zero => simp [h0]
  | succ n ih => rw [sum_range_succ, ih, sum_range_succ]; ring

/-- The derivative of a univariate sum is the sum with the differences of the coefficients. -/
theorem cox_difference {U : List K} {q : ℕ} (h : WFKnots U (q + 1)) (x : K) (k : ℕ) (a : ℕ → K) :
    ∑ i ∈ range (U.length - (q + 1) - 1), coxDeBoorDeriv U (q + 1) (k + 1) i x * a i =
      ∑ i ∈ range (U.tail.dropLast.length - q - 1), coxDeBoorDeriv U.tail.dropLast q k i x *
        ((q + 1 : ℕ) * (a (i + 1) - a i) / (knot U (i + (q + 1) + 1) - knot U (i + 1))) := by
  have hs := h.size
  obtain ⟨n, hn⟩ : ∃ n, U.length = n + q + 3 := ⟨U.length - q - 3, by omega⟩
  rw [inner_length, hn, show n + q + 3 - (q + 1) - 1 = n + 1 by omega, show n + q + 3 - 2 - q - 1 = n by omega]
  have e0 : knot U (0 + q + 1) - knot U 0 = 0 := by rw [sub_eq_zero]; exact h.first _ (by omega)
  have en : knot U (n + 1 + q + 1) - knot U (n + 1) = 0 := by
    rw [sub_eq_zero]
    have h1 := h.last 0 (by omega)
    have h2 := h.last (q + 1) (by omega)
    rw [hn] at h1 h2
    rw [show n + 1 + q + 1 = n + q + 3 - 1 - 0 by omega, h1, show n + 1 = n + q + 3 - 1 - (q + 1) by omega, h2]
  have key := sum_by_parts (fun i => (q + 1 : K) * (coxDeBoorDeriv U q k i x / (knot U (i + q + 1) - knot U i))) a n (by
    simp only [e0, div_zero, mul_zero])
  simp only [en, div_zero, mul_zero, zero_mul, sub_zero] at key
  calc _ = _ := sum_congr rfl fun i _ => ?_
    _ = _ := key
    _ = _ := sum_congr rfl fun i hi => ?_
  · simp only [coxDeBoorDeriv]
    rw [show i + 1 + q + 1 = i + q + 2 by omega]
    push_cast
    ring
  · have := mem_range.1 hi
    rw [coxDeriv_inner (inner_last h) x q k i (by omega), show i + (q + 1) + 1 = i + 1 + q + 1 by omega]
    push_cast
    ring

theorem basisDerivFns_set_all : ∀ {Us : List (List K)} {ps : List ℕ} {xs : List K} {ks : List ℕ} {d : ℕ} {x : K} (V : List K) (q l : ℕ),
    Us.length = ps.length → Us.length = ks.length → xs[d]? = some x → d < Us.length →
    basisDerivFns (Us.set d V) (ps.set d q) xs (ks.set d l) = (basisDerivFns Us ps xs ks).set d fun i => coxDeBoorDeriv V q l i x := by
  intro Us
  induction Us with
  | nil => intro ps xs ks d x V q l _ _ _ h; simp at h
  | cons U0 Us ih =>
    intro ps xs ks d x V q l h1 h2 h3 h4
    cases ps with
    | nil => simp at h1
    | cons p0 ps =>
      cases xs with
      | nil => simp at h3
      | cons x0 xs =>
        cases ks with
        | nil => simp at h2
        | cons k0 ks =>
          cases d with
          | zero => simp_all [basisDerivFns]
          | succ d =>
            simp only [List.getElem?_cons_succ] at *
            simp only [List.set_cons_succ, basisDerivFns]
            rw [ih V q l (by simpa using h1) (by simpa using h2) h3 (by simpa using h4)]

theorem tensor_difference {s r : Spl K} (h : WFSpl s) {d : ℕ} {U : List K} {p : ℕ} (hU : s.ps.knots[d]? = some U) (hp : s.ps.degree[d]? = some p)
    (hp1 : 1 ≤ p) (hr : DifferenceSpline s r d U p) {x : List K} (hx : InDomain s x) {k : List ℕ} (hk : k.length = s.ps.knots.length) {c : ℕ}
    (hc : c < s.ph.dim) : tensorDerivSum s x (k.modify d (· + 1)) (fun I => cpt s I c) = tensorDerivSum r x k fun I => cpt r I c := by
  obtain ⟨q, rfl⟩ : ∃ q, p = q + 1 := ⟨p - 1, by omega⟩
  have hw := forall₂_get h.knots hU hp
  have hdU : d < s.ps.knots.length := lt_of_some hU
  have hxs := List.getElem?_eq_getElem (show d < x.length by rw [← hx.length_eq]; exact hdU)
  have hks := List.getElem?_eq_getElem (show d < k.length by rw [hk]; exact hdU)
  have hnr : npts r = (npts s).set d (U.tail.dropLast.length - q - 1) := by
    rw [npts_eq, hr.knots, hr.degree, nptsOf_set_both]; rfl
  have hd := lt_of_some (nptsOf_get hU hp)
  unfold tensorDerivSum
  rw [hnr]
  apply msum_change_dir _ d hd
  intro I hI
  have hdI : d < I.length := by rw [hI.length]; simpa using hd
  have e1 : (nptsOf s.ps.knots s.ps.degree).getD d 0 = U.length - (q + 1) - 1 := nptsOf_ixd hU hp
  rw [e1]
  dsimp only
  have hkm : (k.modify d (· + 1))[d]? = some (k[d]'(lt_of_some hks) + 1) := by simp [hks]
  have hb := basisDerivFns_get hU hp hxs hkm
  have hset : basisDerivFns r.ps.knots r.ps.degree x k =
      (basisDerivFns s.ps.knots s.ps.degree x (k.modify d (· + 1))).set d fun i => coxDeBoorDeriv U.tail.dropLast q (k[d]'(lt_of_some hks)) i
        (x[d]'(lt_of_some hxs)) := by
    rw [hr.knots, hr.degree, ← basisDerivFns_set_all _ q _ h.knots.length_eq (by rw [List.length_modify, hk]) hxs hdU]
    congr 1
    rw [List.modify_eq_set_getElem?, hks]
    simp
  rw [hset]
  obtain ⟨B, hB⟩ : ∃ B, B = basisDerivFns s.ps.knots s.ps.degree x (k.modify d (· + 1)) := ⟨_, rfl⟩
  rw [← hB] at hb ⊢
  have hb' : (B.set d fun i => coxDeBoorDeriv U.tail.dropLast q (k[d]'(lt_of_some hks)) i (x[d]'(lt_of_some hxs)))[d]? =
      some fun i => coxDeBoorDeriv U.tail.dropLast q (k[d]'(lt_of_some hks)) i (x[d]'(lt_of_some hxs)) := by
    rw [List.getElem?_set]; simp [lt_of_some hb]
  simp only [dprod_set _ hb hdI, dprod_set _ hb' hdI, List.set_set]
  have key := cox_difference hw (x[d]'(lt_of_some hxs)) (k[d]'(lt_of_some hks)) fun i => cpt s (I.set d i) c
  have := congrArg (fun a => dprod (B.set d fun _ => 1) I * a) key
  simp only [mul_sum] at this
  rw [sum_congr rfl (g := fun i => dprod (B.set d fun _ => 1) I *
    (coxDeBoorDeriv U (q + 1) (k[d]'(lt_of_some hks) + 1) i (x[d]'(lt_of_some hxs)) * cpt s (I.set d i) c)) (fun i _ => by ring), this]
  refine sum_congr rfl fun i hi => ?_
  have hi := mem_range.1 hi
  have hil : i + q + 3 < U.length := by rw [inner_length] at hi; omega
  have hIr : InBox (npts r) (I.set d i) := by
    rw [hnr]
    have := inBox_set (d := d) (n := U.tail.dropLast.length - q - 1) (i := i) hI hi
    rwa [List.set_set] at this
  by_cases hne : knot U (i + 1) < knot U (i + (q + 1) + 1)
  · have e := hr.cpt (I.set d i) hIr (by rw [ixd_set_self hdI]; exact hne) c hc
    rw [ixd_set_self hdI, List.set_set] at e
    rw [e]; ring
  · have e0 : coxDeBoorDeriv U.tail.dropLast q (k[d]'(lt_of_some hks)) i (x[d]'(lt_of_some hxs)) = 0 := by
      rw [coxDeriv_inner (inner_last hw) _ q _ i hil]
      apply coxDeriv_empty hw.sorted _ q _ _ (by omega)
      apply le_antisymm (hw.sorted.mono (by omega) (by omega))
      rw [show i + 1 + q + 1 = i + (q + 1) + 1 by omega]
      exact not_lt.1 hne
    rw [e0]; ring

theorem difference_domain {s r : Spl K} (h : WFSpl s) {d : ℕ} {U : List K} {p : ℕ} (hU : s.ps.knots[d]? = some U) (hp : s.ps.degree[d]? = some p)
    (hp1 : 1 ≤ p) (hr : DifferenceSpline s r d U p) {x : List K} (hx : InDomain s x) : InDomain r x := by
  obtain ⟨q, rfl⟩ : ∃ q, p = q + 1 := ⟨p - 1, by omega⟩
  have hw := forall₂_get h.knots hU hp
  unfold InDomain
  rw [hr.knots]
  have hxs := List.getElem?_eq_getElem (show d < x.length by rw [← hx.length_eq]; exact lt_of_some hU)
  have hb := forall₂_get hx hU hxs
  apply forall₂_set hx hxs
  rw [inner_first hw, inner_last hw]
  exact hb

/-- **C99** The derivative of a B-spline is a B-spline: `EvaluateDerivative` of order one more in direction `d` gives what `EvaluateDerivative` gives
on the B-spline of degree `p - 1` whose control points are the scaled differences of the control points. -/
theorem C99_derivative {s r : Spl K} (h : WFSpl s) (hb : IsBSpline s) {d : ℕ} {U : List K} {p : ℕ} (hU : s.ps.knots[d]? = some U)
    (hp : s.ps.degree[d]? = some p) (hp1 : 1 ≤ p) (hr : DifferenceSpline s r d U p) {x : List K} (hx : InDomain s x) (dims : List ℕ)
    (hd : ∀ c ∈ dims, c < s.ph.dim) {k : List ℕ} (hk : k.length = s.ps.knots.length) :
    s.evaluateDerivative x (zl dims) (zl (k.modify d (· + 1))) = r.evaluateDerivative x (zl dims) (zl k) := by
  rw [evaluateDerivative_bspline h hb hx dims hd (by rw [List.length_modify, hk]),
    evaluateDerivative_bspline hr.wf hr.bspline (difference_domain h hU hp hp1 hr hx) dims (by rw [hr.dim]; exact hd) (by
      rw [hr.knots, List.length_set, hk])]
  congr 1
  exact List.map_congr_left fun c hc => tensor_difference h hU hp hp1 hr hx hk (hd c hc)

/-- **C99** In particular the first derivative in direction `d` is a point of the B-spline of the differences. -/
theorem C99_first {s r : Spl K} (h : WFSpl s) (hb : IsBSpline s) {d : ℕ} {U : List K} {p : ℕ} (hU : s.ps.knots[d]? = some U)
    (hp : s.ps.degree[d]? = some p) (hp1 : 1 ≤ p) (hr : DifferenceSpline s r d U p) {x : List K} (hx : InDomain s x) (dims : List ℕ)
    (hd : ∀ c ∈ dims, c < s.ph.dim) :
    s.evaluateDerivative x (zl dims) (zl ((List.replicate s.ps.knots.length 0).set d 1)) = r.evaluate x (zl dims) := by
  have hx' := difference_domain h hU hp hp1 hr hx
  have e : (List.replicate s.ps.knots.length 0).set d 1 = (List.replicate s.ps.knots.length 0).modify d (· + 1) := by
    rw [List.modify_eq_set_getElem?, List.getElem?_replicate, if_pos (lt_of_some hU)]; rfl
  rw [e, C99_derivative h hb hU hp hp1 hr hx dims hd (by simp), evaluate_bspline hr.wf hr.bspline hx' dims (by rw [hr.dim]; exact hd),
    evaluateDerivative_bspline hr.wf hr.bspline hx' dims (by rw [hr.dim]; exact hd) (by rw [hr.knots]; simp)]
  congr 1
  refine List.map_congr_left fun c _ => ?_
  unfold tensorDerivSum bsplineValue tensorSum
  rw [show s.ps.knots.length = r.ps.knots.length by rw [hr.knots, List.length_set], ← List.map_const', basisDerivFns_zero]

theorem difference_exists {s : Spl K} (h : WFSpl s) {d : ℕ} {U : List K} {p : ℕ} (hU : s.ps.knots[d]? = some U)
    (hp : s.ps.degree[d]? = some p) (hp1 : 1 ≤ p) (v : K) : ∃ r, DifferenceSpline s r d U p ∧
      ∀ I, InBox (npts r) I → ¬ knot U (ixd I d + 1) < knot U (ixd I d + p + 1) → ∀ c < s.ph.dim, cpt r I c = v := by
  obtain ⟨q, rfl⟩ : ∃ q, p = q + 1 := ⟨p - 1, by omega⟩
  have hw := forall₂_get h.knots hU hp
  have hW : List.Forall₂ WFKnots (s.ps.knots.set d U.tail.dropLast) (s.ps.degree.set d q) := forall₂_set_both h.knots (inner_wf hw)
  let ns := nptsOf (s.ps.knots.set d U.tail.dropLast) (s.ps.degree.set d q)
  let g : List ℕ → ℕ → K := fun I c => if ¬ knot U (ixd I d + 1) < knot U (ixd I d + (q + 1) + 1) then v else
    (q + 1 : ℕ) * (cpt s (I.set d (ixd I d + 1)) c - cpt s I c) / (knot U (ixd I d + (q + 1) + 1) - knot U (ixd I d + 1))
  let r : Spl K := ⟨⟨s.ps.knots.set d U.tail.dropLast, s.ps.degree.set d q, mkTable (s.ps.knots.set d U.tail.dropLast) (s.ps.degree.set d q)⟩,
    ⟨s.ph.dim, zl ns, (List.range (s.ph.dim * ns.prod)).map fun a => g (unlin ns (a / s.ph.dim)) (a % s.ph.dim), none⟩⟩
  have hn : npts r = ns := rfl
  have hg : ∀ I, InBox (npts r) I → ∀ c < s.ph.dim, cpt r I c = g I c := by
    intro I hI c hc
    rw [hn] at hI
    have h1 := lin_lt hI
    have h2 := unlin_lin hI
    unfold cpt
    rw [hn]
    have h3 : s.ph.dim * lin ns I + c < s.ph.dim * ns.prod := mul_add_lt h1 hc
    have h4 : (s.ph.dim * lin ns I + c) / s.ph.dim = lin ns I := by
      rw [Nat.mul_add_div h.dim, Nat.div_eq_of_lt hc, add_zero]
    have h5 : (s.ph.dim * lin ns I + c) % s.ph.dim = c := by
      rw [Nat.mul_add_mod, Nat.mod_eq_of_lt hc]
    simp only [r, List.getD_eq_getElem?_getD, List.getElem?_map, List.getElem?_range h3, Option.map_some, Option.getD_some, h4, h5, h2]
  refine ⟨r, ⟨⟨hW, basisTable_eq (forall₂_size hW), by rw [hn], h.dim, by rw [hn]; simp [r], by intro w hw; simp [r] at hw⟩, rfl, rfl, rfl, rfl, ?_⟩, ?_⟩
  · intro I hI hne c hc
    rw [hg I hI c hc]
    simp only [g, not_not.2 hne, if_false]
  · intro I hI hne c hc
    rw [hg I hI c hc]
    simp only [g, hne, not_false_eq_true, if_true]

/-- **C99** The B-spline of the differences exists for every B-spline with a positive degree in direction `d`. -/
theorem C99_exists {s : Spl K} (h : WFSpl s) {d : ℕ} {U : List K} {p : ℕ} (hU : s.ps.knots[d]? = some U)
    (hp : s.ps.degree[d]? = some p) (hp1 : 1 ≤ p) : ∃ r, DifferenceSpline s r d U p := by
  obtain ⟨r, hr, _⟩ := difference_exists h hU hp hp1 0
  exact ⟨r, hr⟩

/-- **C99** The first derivative in direction `d` is bounded by the scaled differences of neighbouring control points. -/
theorem C99_bounds {s : Spl K} (h : WFSpl s) (hb : IsBSpline s) {d : ℕ} {U : List K} {p : ℕ} (hU : s.ps.knots[d]? = some U)
    (hp : s.ps.degree[d]? = some p) (hp1 : 1 ≤ p) {x : List K} (hx : InDomain s x) {c : ℕ} (hc : c < s.ph.dim) {lo hi : K} (hlh : lo ≤ hi)
    (hdiff : ∀ I, InBox (npts s) (I.set d (ixd I d + 1)) → InBox (npts s) I → knot U (ixd I d + 1) < knot U (ixd I d + p + 1) →
      lo * (knot U (ixd I d + p + 1) - knot U (ixd I d + 1)) ≤ p * (cpt s (I.set d (ixd I d + 1)) c - cpt s I c) ∧
      p * (cpt s (I.set d (ixd I d + 1)) c - cpt s I c) ≤ hi * (knot U (ixd I d + p + 1) - knot U (ixd I d + 1))) :
    ∃ v, s.evaluateDerivative x [(c : ℤ)] (zl ((List.replicate s.ps.knots.length 0).set d 1)) = .ok [v] ∧ lo ≤ v ∧ v ≤ hi := by
  obtain ⟨r, hr, hv⟩ := difference_exists h hU hp hp1 lo
  have hx' := difference_domain h hU hp hp1 hr hx
  have hnr : npts r = (npts s).set d (U.tail.dropLast.length - (p - 1) - 1) := by
    rw [npts_eq, hr.knots, hr.degree, nptsOf_set_both]; rfl
  have hw := forall₂_get h.knots hU hp
  have hs := hw.size
  have hix : ixd (npts s) d = U.length - p - 1 := nptsOf_ixd hU hp
  have hd : d < (npts s).length := lt_of_some (nptsOf_get hU hp)
  have hcp : ∀ I, InBox (npts r) I → lo ≤ cpt r I c ∧ cpt r I c ≤ hi := by
    intro I hI
    by_cases hne : knot U (ixd I d + 1) < knot U (ixd I d + p + 1)
    · rw [hr.cpt I hI hne c hc]
      have hpos : 0 < knot U (ixd I d + p + 1) - knot U (ixd I d + 1) := sub_pos.2 hne
      rw [le_div_iff₀ hpos, div_le_iff₀ hpos]
      rw [hnr] at hI
      have hdI : d < I.length := by rw [hI.length]; simpa using hd
      have hlt : ixd I d < U.length - p - 2 := by
        have : ixd I d < ixd ((npts s).set d (U.tail.dropLast.length - (p - 1) - 1)) d := hI.getD_lt (by simpa using hd)
        rw [ixd_set_self hd, inner_length] at this
        omega
      apply hdiff I (inBox_set_of hI (by rw [hix]; omega)) _ hne
      have := inBox_set_of (i := ixd I d) hI (by rw [hix]; omega)
      rwa [set_ixd hdI] at this
    · rw [hv I hI hne c hc]; exact ⟨le_refl _, hlh⟩
  obtain ⟨v, e1, e2, e3⟩ := C05_between hr.wf hx' (c := c) (by rw [hr.dim]; exact hc) (fun I hI => (hcp I hI).1) (fun I hI => (hcp I hI).2)
  refine ⟨v, ?_, e2, e3⟩
  rw [← e1]
  exact C99_first h hb hU hp hp1 hr hx [c] (by simpa using hc)

end

/-- The surface of the differences of `exSurface` in the first direction. -/
def exDiff : Spl ℚ :=
  ⟨⟨[[0, 0, 1/2, 1, 1], [-1, -1, 3, 3]], [1, 1], mkTable [[0, 0, 1/2, 1, 1], [-1, -1, 3, 3]] [1, 1]⟩,
   ⟨1, [3, 2], [4, 4, 4, -12, 16, -8], none⟩⟩

theorem exDiff_difference : DifferenceSpline exSurface exDiff 0 [0, 0, 0, 1/2, 1, 1, 1] 2 where
  wf := {
    knots := by simp only [exDiff]; exact .cons (by decide +kernel) (.cons (by decide +kernel) .nil)
    basis := by decide +kernel
    num := by decide +kernel
    dim := by decide +kernel
    cps := by decide +kernel
    weights := by intro w h; exact absurd h (by simp [exDiff]) }
  bspline := rfl
  knots := by decide +kernel
  degree := by decide +kernel
  dim := rfl
  cpt := by
    intro I hI
    have h : ∃ i < 3, ∃ j < 2, I = [i, j] := by
      match I, hI with
      | [i, j], hI => exact ⟨i, hI.getD_lt (d := 0) (by decide), j, hI.getD_lt (d := 1) (by decide), rfl⟩
      | [], hI => exact absurd hI.length (by decide)
      | [_], hI => exact absurd hI.length (by simp [npts, exDiff])
      | _ :: _ :: _ :: _, hI => exact absurd hI.length (by simp [npts, exDiff])
    obtain ⟨i, hi, j, hj, rfl⟩ := h
    clear hI
    revert i j
    decide +kernel

example (x : List ℚ) (hx : InDomain exSurface x) : exSurface.evaluateDerivative x [0] [1, 0] = exDiff.evaluate x [0] :=
  C99_first (d := 0) exSurface_wf rfl rfl rfl (by omega) exDiff_difference hx [0] (by decide)

example : exSurface.evaluateDerivative [1/4, 1] [0] [1, 0] = .ok [3] ∧ exDiff.evaluate [1/4, 1] [0] = .ok [3] := by decide +kernel

end SplineLib
