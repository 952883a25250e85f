import Verif.Core.PolyBasis
import Verif.Core.Independence
import Verif.Core.IgaPoisson
import Mathlib.Algebra.Polynomial.Roots
import Mathlib.LinearAlgebra.Matrix.ToLinearEquiv

/-!
# Functions that vanish at the integration points (helper lemmas)
-/

namespace SplineLib
set_option linter.unusedSectionVars false
open Finset Elem
variable {K : Type} [Field K] [LinearOrder K] [IsStrictOrderedRing K]

theorem exists_inElement {Us : List (List K)} {ps : List ℕ} (h : List.Forall₂ WFKnots Us ps) : ∀ {x : List K},
    List.Forall₂ (fun U t => knot U 0 ≤ t ∧ t < lastKnot U) Us x → ∃ e, InElement (elemsOf Us) e x := by
  induction h with
  | nil => intro x hx; cases hx; exact ⟨[], trivial⟩
  | cons hU _ ih =>
    intro x hx
    cases hx with
    | cons ha hx =>
      obtain ⟨e, he⟩ := ih hx
      obtain ⟨n, ab, h1, h2, h3⟩ := exists_element hU.sorted (List.length_pos_iff.1 (lt_of_lt_of_le (by omega) hU.size)) ha.1 ha.2
      exact ⟨(n : ℤ) :: e, ⟨n, ab, rfl, h1, h2, h3⟩, he⟩

/-- A spline (or a derivative) that vanishes at a grid of more points than the degree in every direction of an element vanishes in the element. -/
theorem grid_zero {T : List K} (hT : T.Nodup) (hT1 : ∀ t ∈ T, -1 ≤ t ∧ t < 1) {Us : List (List K)} {ps : List ℕ} (h : List.Forall₂ WFKnots Us ps) :
    (∀ p ∈ ps, p < T.length) → ∀ {ks : List ℕ} {e : List ℤ} {a : List ℕ → K}, ks.length = Us.length →
    (∀ t : List K, t.length = Us.length → (∀ b ∈ t, b ∈ T) →
      msum (nptsOf Us ps) (fun I => dprod (basisDerivFns Us ps (Iga.refMap (elemsOf Us) e t) ks) I * a I) = 0) →
    ∀ x, InElement (elemsOf Us) e x → msum (nptsOf Us ps) (fun I => dprod (basisDerivFns Us ps x ks) I * a I) = 0 := by
  induction h with
  | nil =>
    intro _ ks e a _ hz x hx
    have := hz [] rfl (by simp)
    cases e <;> cases x <;> simp only [InElement, elemsOf, List.map_nil] at hx
    exact this
  | @cons U p Us ps hU h ih =>
    intro hd ks e a hk hz x hx
    obtain ⟨k, ks, rfl⟩ := List.exists_cons_of_length_eq_add_one hk
    cases e with
    | nil => simp [elemsOf, InElement] at hx
    | cons e es =>
    cases x with
    | nil => simp [elemsOf, InElement] at hx
    | cons x xs =>
    simp only [elemsOf, List.map_cons] at hx
    obtain ⟨⟨n, ab, rfl, hab, hx1, hx2⟩, hxs⟩ := hx
    have hxs : InElement (elemsOf Us) es xs := hxs
    obtain ⟨hn, hab⟩ := List.getElem?_eq_some_iff.1 hab
    have hg : ((uniq U).zip (uniq U).tail).getD n (0, 0) = ab := by rw [List.getD_eq_getElem _ _ hn, hab]
    have hlt : ab.1 < ab.2 := lt_of_le_of_lt hx1 hx2
    -- the point of the first direction
    let y : K → K := fun t => ((ab.2 - ab.1) * t + (ab.2 + ab.1)) / 2
    have hy : ∀ t ∈ T, ab.1 ≤ y t ∧ y t < ab.2 := by
      intro t ht
      obtain ⟨h1, h2⟩ := hT1 t ht
      constructor
      · show ab.1 ≤ ((ab.2 - ab.1) * t + (ab.2 + ab.1)) / 2
        nlinarith
      · show ((ab.2 - ab.1) * t + (ab.2 + ab.1)) / 2 < ab.2
        nlinarith
    have key : ∀ t ∈ T, msum (nptsOf Us ps) (fun I => dprod (basisDerivFns Us ps xs ks) I *
        ∑ i ∈ range (U.length - p - 1), coxDeBoorDeriv U p k i (y t) * a (i :: I)) = 0 := by
      intro t ht
      refine ih (fun q hq => hd q (by simp [hq])) (by simpa using hk) ?_ xs hxs
      intro ts hl hm
      have := hz (t :: ts) (by simp [hl]) (by simpa [ht] using hm)
      rw [← this]
      show _ = ∑ i ∈ range (U.length - p - 1), msum (nptsOf Us ps) _
      rw [← msum_sum_comm]
      apply msum_congr
      intro I _
      rw [mul_sum]
      refine sum_congr rfl fun i _ => ?_
      have e1 : Iga.refMap (elemsOf (U :: Us)) ((n : ℤ) :: es) (t :: ts) = y t :: Iga.refMap (elemsOf Us) es ts := by
        simp only [elemsOf, List.map_cons, Iga.refMap, Int.toNat_natCast, hg]
        rfl
      rw [e1]
      simp only [basisDerivFns, dprod]
      ring
    have hq : ∀ i, ∃ q : Polynomial K, q.natDegree ≤ p ∧ (i < U.length - p - 1 → ∀ x, ab.1 ≤ x → x < ab.2 → coxDeBoorDeriv U p k i x = q.eval x) := by
      intro i
      by_cases hi : i < U.length - p - 1
      · obtain ⟨q, h1, h2⟩ := coxDeriv_poly_elem hU hn (k := k) hi
        rw [hg] at h2
        exact ⟨q, h1.trans (Nat.sub_le _ _), fun _ => h2⟩
      · exact ⟨0, by simp, fun h => absurd h hi⟩
    choose q hq1 hq2 using hq
    let c : ℕ → K := fun i => msum (nptsOf Us ps) fun I => dprod (basisDerivFns Us ps xs ks) I * a (i :: I)
    have hpoly : ∀ x, ab.1 ≤ x → x < ab.2 → (∑ i ∈ range (U.length - p - 1), Polynomial.C (c i) * q i).eval x =
        msum (nptsOf Us ps) (fun I => dprod (basisDerivFns Us ps xs ks) I * ∑ i ∈ range (U.length - p - 1), coxDeBoorDeriv U p k i x * a (i :: I)) := by
      intro x h1 h2
      rw [Polynomial.eval_finsetSum]
      have : ∀ I, dprod (basisDerivFns Us ps xs ks) I * ∑ i ∈ range (U.length - p - 1), coxDeBoorDeriv U p k i x * a (i :: I) =
          ∑ i ∈ range (U.length - p - 1), (q i).eval x * (dprod (basisDerivFns Us ps xs ks) I * a (i :: I)) := by
        intro I
        rw [mul_sum]
        refine sum_congr rfl fun i hi => ?_
        rw [hq2 i (mem_range.1 hi) x h1 h2]
        ring
      simp only [this]
      rw [msum_sum_comm]
      refine sum_congr rfl fun i _ => ?_
      rw [Polynomial.eval_mul, Polynomial.eval_C, msum_mul_left, mul_comm]
    have hzero : (∑ i ∈ range (U.length - p - 1), Polynomial.C (c i) * q i) = 0 := by
      refine Polynomial.eq_zero_of_natDegree_lt_card_of_eval_eq_zero _ (ι := Fin T.length) (f := fun i => y T[i]) ?_ ?_ ?_
      · intro i j hij
        have h3 : (ab.2 - ab.1) * T[i] = (ab.2 - ab.1) * T[j] := by
          have : ((ab.2 - ab.1) * T[i] + (ab.2 + ab.1)) / 2 = ((ab.2 - ab.1) * T[j] + (ab.2 + ab.1)) / 2 := hij
          linarith
        have h4 := mul_left_cancel₀ (sub_ne_zero.2 hlt.ne') h3
        exact Fin.ext ((hT.getElem_inj_iff (hi := i.2) (hj := j.2)).1 h4)
      · intro i
        have hm : T[i] ∈ T := List.getElem_mem _
        rw [hpoly _ (hy _ hm).1 (hy _ hm).2]
        exact key _ hm
      · rw [Fintype.card_fin]
        refine lt_of_le_of_lt ?_ (hd p (by simp))
        exact Polynomial.natDegree_sum_le_of_forall_le _ _ fun i _ => (Polynomial.natDegree_C_mul_le _ _).trans (hq1 i)
    have := hpoly x hx1 hx2
    rw [hzero, Polynomial.eval_zero] at this
    rw [this]
    show ∑ i ∈ range (U.length - p - 1), msum (nptsOf Us ps) _ = _
    rw [← msum_sum_comm]
    apply msum_congr
    intro I _
    rw [mul_sum]
    refine sum_congr rfl fun i _ => ?_
    simp only [basisDerivFns, dprod]
    ring

/-- The interior knots have at most the multiplicity `p`: the spline functions are continuous. -/
def InnerMult (U : List K) (p : ℕ) : Prop := ∀ i, 1 ≤ i → i + p + 1 < U.length → knot U i < knot U (i + p)

theorem InnerMult.nonDegenerate {U : List K} {p : ℕ} (h : WFKnots U p) (hm : InnerMult U p) : NonDegenerate U p := by
  intro i hi
  rcases Nat.eq_zero_or_pos i with rfl | h0
  · have hs := h.size
    rcases Nat.lt_or_ge (p + 2) U.length with h1 | h1
    · exact lt_of_le_of_lt (h.sorted.mono (by omega) (by omega)) (lt_of_lt_of_le (hm 1 le_rfl (by omega)) (by rw [show 0 + p + 1 = 1 + p by ring]))
    · have : 0 + p + 1 = U.length - 1 := by omega
      rw [this]
      exact h.range
  · exact lt_of_lt_of_le (hm i h0 hi) (h.sorted.mono (by omega) (by omega))

theorem forall₂_inner {Us : List (List K)} {ps : List ℕ} (h : List.Forall₂ WFKnots Us ps) (hm : List.Forall₂ InnerMult Us ps) :
    List.Forall₂ NonDegenerate Us ps := by
  induction h with
  | nil => exact .nil
  | cons h _ ih => cases hm with | cons hm hms => exact .cons (hm.nonDegenerate h) (ih hms)

/-- The knot vector without its first and its last knot. -/
def innerKnots (U : List K) : List K := (U.drop 1).take (U.length - 2)

theorem innerKnots_length (U : List K) : (innerKnots U).length = U.length - 2 := by simp [innerKnots]; omega

theorem knot_innerKnots {U : List K} {j : ℕ} (hj : j < U.length - 2) : knot (innerKnots U) j = knot U (j + 1) := by
  unfold knot innerKnots
  rw [List.getD_eq_getElem _ _ (by simp; omega), List.getD_eq_getElem _ _ (by omega), List.getElem_take, List.getElem_drop]
  congr 1
  omega

theorem cox_innerKnots {U : List K} {p : ℕ} (h : WFKnots U (p + 1)) {j : ℕ} (hj : j + p + 1 < U.length - 2) (x : K) :
    coxDeBoor (innerKnots U) p j x = coxDeBoor U p (j + 1) x := by
  have hs := h.size
  have hl : lastKnot (innerKnots U) = lastKnot U := by
    unfold lastKnot
    rw [innerKnots_length, knot_innerKnots (by omega)]
    have := h.last 1 (by omega)
    unfold lastKnot at this
    rw [← this]
    congr 1
    omega
  rw [cox_eq_Nb_ind, cox_eq_Nb_ind, ← Nb_shift]
  apply Nb_congr
  · intro i _ hi
    exact knot_innerKnots (by omega)
  · intro i _ hi
    have : InSpan (innerKnots U) i x ↔ InSpan U (i + 1) x := by
      unfold InSpan
      rw [knot_innerKnots (by omega), knot_innerKnots (by omega), hl]
    simp only [this]

/-- A spline function of one variable with the derivative zero has equal coefficients. -/
theorem coxDeriv_const {U : List K} {p : ℕ} (h : WFKnots U p) (hm : InnerMult U p) {c : ℕ → K}
    (hz : ∀ x, knot U 0 ≤ x → x < lastKnot U → ∑ j ∈ range (U.length - p - 1), coxDeBoorDeriv U p 1 j x * c j = 0) :
    ∀ i < U.length - p - 1, c i = c 0 := by
  have hs := h.size
  cases p with
  | zero =>
    intro i hi
    have : i = 0 := by
      by_contra hc
      have := hm 1 le_rfl (by omega)
      simp at this
    rw [this]
  | succ q =>
    obtain ⟨m, hmn⟩ : ∃ m, U.length - (q + 1) - 1 = m + 1 := ⟨U.length - q - 3, by omega⟩
    rw [hmn] at hz ⊢
    have hlast : lastKnot (innerKnots U) = lastKnot U := by
      unfold lastKnot
      rw [innerKnots_length, knot_innerKnots (by omega)]
      have := h.last 1 (by omega)
      unfold lastKnot at this
      rw [← this]
      congr 1
      omega
    have hstep : ∀ j < m, (c (j + 1) - c j) / (knot U (j + q + 2) - knot U (j + 1)) = 0 := by
      have hn : NonDegenerate (innerKnots U) q := by
        intro i hi
        rw [innerKnots_length] at hi
        rw [knot_innerKnots (by omega), knot_innerKnots (by omega)]
        have := hm (i + 1) (by omega) (by omega)
        rwa [show i + 1 + (q + 1) = i + q + 1 + 1 by ring] at this
      have hsorted : SortedKnots (innerKnots U) :=
        List.Pairwise.sublist ((List.take_sublist _ _).trans (List.drop_sublist _ _)) h.sorted
      have hlen : (innerKnots U).length - q - 1 = m := by rw [innerKnots_length]; omega
      have := cox_independent (c := fun j => (c (j + 1) - c j) / (knot U (j + q + 2) - knot U (j + 1))) hsorted hn ?_
      · rw [hlen] at this
        exact this
      · intro x h0 h1
        rw [hlen]
        rw [knot_innerKnots (by omega), h.first 1 (by omega)] at h0
        rw [hlast] at h1
        have key := hz x h0 h1
        let g : ℕ → K := fun j => coxDeBoor U q j x / (knot U (j + q + 1) - knot U j)
        have g0 : g 0 = 0 := by
          show coxDeBoor U q 0 x / (knot U (0 + q + 1) - knot U 0) = 0
          rw [zero_add, h.first (q + 1) le_rfl, sub_self, div_zero]
        have gm : g (m + 1) = 0 := by
          show coxDeBoor U q (m + 1) x / (knot U (m + 1 + q + 1) - knot U (m + 1)) = 0
          have e1 := h.last 0 (by omega)
          have e2 := h.last (q + 1) le_rfl
          rw [show m + 1 + q + 1 = U.length - 1 - 0 by omega, show m + 1 = U.length - 1 - (q + 1) by omega, e1, e2, sub_self, div_zero]
        have e : ∀ j, coxDeBoorDeriv U (q + 1) 1 j x * c j = (q + 1) * (g j * c j - g (j + 1) * c j) := by
          intro j
          simp only [coxDeBoorDeriv, g]
          rw [show j + 1 + q + 1 = j + q + 2 by ring]
          ring
        simp only [e] at key
        rw [← mul_sum, sum_sub_distrib, sum_range_succ', sum_range_succ (fun j => g (j + 1) * c j), g0, gm, zero_mul, zero_mul, add_zero, add_zero,
          ← sum_sub_distrib] at key
        have hq : ((q : K) + 1) ≠ 0 := by positivity
        rw [mul_eq_zero, or_iff_right hq] at key
        rw [← key]
        refine sum_congr rfl fun j hj => ?_
        have := mem_range.1 hj
        rw [cox_innerKnots h (by omega)]
        simp only [g]
        rw [show j + 1 + q + 1 = j + q + 2 by ring]
        ring
    intro i
    induction i with
    | zero => intro _; rfl
    | succ i ih =>
      intro hi
      have h1 := hstep i (by omega)
      have h2 := hm (i + 1) (by omega) (by omega)
      rw [show i + 1 + (q + 1) = i + q + 2 by ring] at h2
      rw [div_eq_zero_iff, or_iff_left (sub_ne_zero.2 h2.ne')] at h1
      rw [← ih (by omega)]
      exact sub_eq_zero.1 h1

/-- A tensor product spline whose derivative in the first direction is zero has coefficients that do not depend on the first index. -/
theorem tensor_deriv_const {U : List K} {Us : List (List K)} {p : ℕ} {ps : List ℕ} (h : WFKnots U p) (hs : List.Forall₂ WFKnots Us ps)
    (hm : InnerMult U p) (hn : List.Forall₂ NonDegenerate Us ps) {a : List ℕ → K}
    (hz : ∀ x, List.Forall₂ (fun U t => knot U 0 ≤ t ∧ t < lastKnot U) (U :: Us) x →
      msum (nptsOf (U :: Us) (p :: ps)) (fun I => dprod (basisDerivFns (U :: Us) (p :: ps) x (1 :: List.replicate Us.length 0)) I * a I) = 0)
    {i : ℕ} (hi : i < U.length - p - 1) {t : List ℕ} (ht : InBox (nptsOf Us ps) t) : a (i :: t) = a (0 :: t) := by
  have key := tensor_independent hs hn (a := fun t => a (i :: t) - a (0 :: t)) ?_ t ht
  · exact sub_eq_zero.1 key
  · intro x hx
    have := coxDeriv_const h hm (c := fun j => msum (nptsOf Us ps) fun t => dprod (basisFns Us ps x) t * a (j :: t)) ?_ i hi
    · have e : (msum (nptsOf Us ps) fun I => dprod (basisFns Us ps x) I * (a (i :: I) - a (0 :: I))) =
          (msum (nptsOf Us ps) fun t => dprod (basisFns Us ps x) t * a (i :: t)) +
            msum (nptsOf Us ps) fun t => -1 * (dprod (basisFns Us ps x) t * a (0 :: t)) := by
        rw [← msum_add]
        exact msum_congr fun I _ => by ring
      rw [e, this, msum_mul_left]
      ring
    · intro y h0 h1
      rw [← hz (y :: x) (List.Forall₂.cons ⟨h0, h1⟩ hx)]
      show _ = ∑ i ∈ range _, _
      refine sum_congr rfl fun j _ => ?_
      rw [← msum_mul_left]
      refine msum_congr fun t _ => ?_
      simp only [basisDerivFns, dprod]
      rw [← basisDerivFns_zero Us ps x, List.map_const']
      ring

end SplineLib
