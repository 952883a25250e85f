import Verif.Core.Redescribe

/-!
# Changing one direction (helper lemmas)
-/

namespace SplineLib
set_option linter.unusedSectionVars false
open Finset

section
variable {K : Type} [Field K] [LinearOrder K] [IsStrictOrderedRing K]

/-! ### Scaled knots -/

theorem knot_map {f : K → K} {U : List K} {i : ℕ} (hi : i < U.length) : knot (U.map f) i = f (knot U i) := by
  simp [knot, List.getD_eq_getElem?_getD, List.getElem?_eq_getElem hi]

theorem lastKnot_eq {U : List K} : lastKnot U = knot U (U.length - 1) := by
  rfl

theorem inSpan_affine {U : List K} {r m : K} (hr : 0 < r) {i : ℕ} (hi : i + 1 < U.length) (x : K) :
    InSpan (U.map fun u => r * u + m) i (r * x + m) ↔ InSpan U i x := by
  have e : lastKnot (U.map fun u => r * u + m) = r * lastKnot U + m := by
    rw [lastKnot_eq, lastKnot_eq, List.length_map, knot_map (by omega)]
  unfold InSpan
  rw [e, knot_map (by omega), knot_map hi]
  simp only [add_le_add_iff_right, add_lt_add_iff_right, mul_le_mul_iff_right₀ hr, mul_lt_mul_iff_right₀ hr, add_left_inj, mul_right_inj' hr.ne']

theorem cox_affine {U : List K} {r m : K} (hr : 0 < r) (x : K) : ∀ (p i : ℕ), i + p + 1 < U.length →
    coxDeBoor (U.map fun u => r * u + m) p i (r * x + m) = coxDeBoor U p i x
  | 0, i, hi => by simp only [coxDeBoor, inSpan_affine hr hi]
  | p + 1, i, hi => by
    have hq : ∀ a b c d : K, (r * a + m - (r * b + m)) / (r * c + m - (r * d + m)) = (a - b) / (c - d) := by
      intro a b c d
      rw [show r * a + m - (r * b + m) = r * (a - b) by ring, show r * c + m - (r * d + m) = r * (c - d) by ring, mul_div_mul_left _ _ hr.ne']
    simp only [coxDeBoor]
    rw [cox_affine hr x p i (by omega), cox_affine hr x p (i + 1) (by omega), knot_map (by omega), knot_map (by omega), knot_map (by omega),
      knot_map (by omega), hq, hq]

theorem coxDeriv_affine {U : List K} {r m : K} (hr : 0 < r) (x : K) : ∀ (p k i : ℕ), i + p + 1 < U.length →
    coxDeBoorDeriv (U.map fun u => r * u + m) p k i (r * x + m) = r⁻¹ ^ k * coxDeBoorDeriv U p k i x
  | p, 0, i, hi => by simp only [coxDeBoorDeriv]; rw [cox_affine hr x p i hi]; simp
  | 0, k + 1, i, hi => by simp [coxDeBoorDeriv]
  | p + 1, k + 1, i, hi => by
    have hq : ∀ z a b : K, r⁻¹ ^ k * z / (r * a + m - (r * b + m)) = r⁻¹ ^ (k + 1) * (z / (a - b)) := by
      intro z a b
      rw [show r * a + m - (r * b + m) = r * (a - b) by ring, pow_succ]
      by_cases h : a - b = 0
      · rw [h]; simp
      · field_simp
    simp only [coxDeBoorDeriv]
    rw [coxDeriv_affine hr x p k i (by omega), coxDeriv_affine hr x p k (i + 1) (by omega), knot_map (by omega), knot_map (by omega),
      knot_map (by omega), knot_map (by omega), hq, hq]
    ring

/-! ### Recursion from any start -/

/-- The recursion of the basis functions from given functions of degree 0. -/
def coxFrom (N : ℕ → K) (U : List K) (x : K) : ℕ → ℕ → K
  | 0, i => N i
  | p + 1, i =>
    (x - knot U i) / (knot U (i + p + 1) - knot U i) * coxFrom N U x p i +
    (knot U (i + p + 2) - x) / (knot U (i + p + 2) - knot U (i + 1)) * coxFrom N U x p (i + 1)

/-- The recursion of the derivatives. -/
def derivFrom (N : ℕ → K) (U : List K) (x : K) : ℕ → ℕ → ℕ → K
  | p, 0, i => coxFrom N U x p i
  | 0, _ + 1, _ => 0
  | p + 1, k + 1, i =>
    (p + 1) * (derivFrom N U x p k i / (knot U (i + p + 1) - knot U i) - derivFrom N U x p k (i + 1) / (knot U (i + p + 2) - knot U (i + 1)))

theorem cox_from (U : List K) (x : K) : ∀ (p i : ℕ), coxDeBoor U p i x = coxFrom (fun i => if InSpan U i x then 1 else 0) U x p i
  | 0, i => rfl
  | p + 1, i => by simp only [coxDeBoor, coxFrom, cox_from U x p]

theorem deriv_from (U : List K) (x : K) : ∀ (p k i : ℕ), coxDeBoorDeriv U p k i x = derivFrom (fun i => if InSpan U i x then 1 else 0) U x p k i
  | p, 0, i => by simp only [coxDeBoorDeriv, derivFrom, cox_from]
  | 0, k + 1, i => by simp only [coxDeBoorDeriv, derivFrom]
  | p + 1, k + 1, i => by simp only [coxDeBoorDeriv, derivFrom, deriv_from U x p k]

theorem coxFrom_sub (N M : ℕ → K) (U : List K) (x : K) : ∀ (p i : ℕ), coxFrom (fun i => N i - M i) U x p i = coxFrom N U x p i - coxFrom M U x p i
  | 0, i => rfl
  | p + 1, i => by simp only [coxFrom, coxFrom_sub N M U x p]; ring

theorem derivFrom_sub (N M : ℕ → K) (U : List K) (x : K) : ∀ (p k i : ℕ),
    derivFrom (fun i => N i - M i) U x p k i = derivFrom N U x p k i - derivFrom M U x p k i
  | p, 0, i => by simp only [derivFrom, coxFrom_sub]
  | 0, k + 1, i => by simp only [derivFrom]; ring
  | p + 1, k + 1, i => by simp only [derivFrom, derivFrom_sub N M U x p k]; ring

theorem coxFrom_zero {N : ℕ → K} {U : List K} {x : K} {m : ℕ} (h : ∀ i, i + m + 1 < U.length → coxFrom N U x m i = 0) :
    ∀ p, m ≤ p → ∀ i, i + p + 1 < U.length → coxFrom N U x p i = 0 := by
  intro p hp
  induction p, hp using Nat.le_induction with
  | base => exact h
  | succ p _ ih => intro i hi; simp only [coxFrom]; rw [ih i (by omega), ih (i + 1) (by omega)]; ring

theorem derivFrom_zero {N : ℕ → K} {U : List K} {x : K} {m : ℕ} (h : ∀ i, i + m + 1 < U.length → coxFrom N U x m i = 0) :
    ∀ (p k : ℕ), m + k ≤ p → ∀ i, i + p + 1 < U.length → derivFrom N U x p k i = 0
  | p, 0, hp, i, hi => by simp only [derivFrom]; exact coxFrom_zero h p (by omega) i hi
  | 0, k + 1, _, i, _ => by simp only [derivFrom]
  | p + 1, k + 1, hp, i, hi => by
    simp only [derivFrom]; rw [derivFrom_zero h p k (by omega) i (by omega), derivFrom_zero h p k (by omega) (i + 1) (by omega)]; simp

theorem derivFrom_congr {N M : ℕ → K} {U : List K} {x : K} (h : ∀ i, i + 1 < U.length → N i = M i) :
    ∀ (p k i : ℕ), i + p + 1 < U.length → derivFrom N U x p k i = derivFrom M U x p k i := by
  intro p k i hi
  have := derivFrom_zero (N := fun i => N i - M i) (U := U) (x := x) (m := 0) (fun i hi => by simp only [coxFrom]; rw [h i hi, sub_self])
  by_cases hk : k ≤ p
  · have := this p k (by omega) i hi
    rw [derivFrom_sub] at this
    linarith
  · have hz : ∀ (N : ℕ → K) (p k i : ℕ), p < k → derivFrom N U x p k i = 0 := by
      intro N p
      induction p with
      | zero => intro k i hk; cases k with
        | zero => omega
        | succ k => simp only [derivFrom]
      | succ p ih => intro k i hk; cases k with
        | zero => omega
        | succ k => simp only [derivFrom]; rw [ih k i (by omega), ih k (i + 1) (by omega)]; simp
    rw [hz N p k i (by omega), hz M p k i (by omega)]

/-! ### Left and right spans -/

/-- `x` lies in `(u_i, u_{i+1}]`; the first non-empty span is closed on the left. -/
def InSpanL (U : List K) (i : ℕ) (x : K) : Prop :=
  (knot U i < x ∧ x ≤ knot U (i + 1)) ∨ (knot U i = x ∧ x < knot U (i + 1) ∧ x = knot U 0)

instance (U : List K) (i : ℕ) (x : K) : Decidable (InSpanL U i x) := by unfold InSpanL; infer_instance

/-- The indicators of the two kinds of spans. -/
def indR (U : List K) (x : K) (i : ℕ) : K := if InSpan U i x then 1 else 0
def indL (U : List K) (x : K) (i : ℕ) : K := if InSpanL U i x then 1 else 0

/-- The knots around an interior parameter: `u_j < x = u_{j+1} = … = u_k < u_{k+1}`. -/
theorem around {U : List K} (hs : SortedKnots U) {x : K} (h0 : knot U 0 < x) (h1 : x < lastKnot U) :
    ∃ j k, j ≤ k ∧ k + 1 < U.length ∧ knot U j < x ∧ x ≤ knot U (j + 1) ∧ knot U k ≤ x ∧ x < knot U (k + 1) := by
  rw [lastKnot_eq] at h1
  have ex1 : ∃ j, x ≤ knot U j ∧ j < U.length := ⟨U.length - 1, h1.le, by
    rcases Nat.eq_zero_or_pos U.length with hz | hz
    · rw [List.length_eq_zero_iff.1 hz] at h0 h1; simp [knot] at h0 h1; exact absurd (h0.trans h1) (lt_irrefl _)
    · omega⟩
  have ex2 : ∃ k, x < knot U k ∧ k < U.length := by
    obtain ⟨_, _, hl⟩ := ex1
    exact ⟨U.length - 1, h1, by omega⟩
  classical
  have f1 := Nat.find_spec ex1
  have f2 := Nat.find_spec ex2
  have p1 : Nat.find ex1 ≠ 0 := fun h => by rw [h] at f1; exact absurd f1.1 (not_le.2 h0)
  have p2 : Nat.find ex2 ≠ 0 := fun h => by rw [h] at f2; exact absurd f2.1 (not_lt.2 h0.le)
  have m1 := Nat.find_min ex1 (show Nat.find ex1 - 1 < Nat.find ex1 by omega)
  have m2 := Nat.find_min ex2 (show Nat.find ex2 - 1 < Nat.find ex2 by omega)
  have a1 : knot U (Nat.find ex1 - 1) < x := by
    by_contra hc; exact m1 ⟨not_lt.1 hc, by omega⟩
  have a2 : knot U (Nat.find ex2 - 1) ≤ x := by
    by_contra hc; exact m2 ⟨not_le.1 hc, by omega⟩
  refine ⟨Nat.find ex1 - 1, Nat.find ex2 - 1, ?_, by omega, a1, ?_, a2, ?_⟩
  · by_contra hc
    have := hs.mono (show Nat.find ex2 - 1 + 1 ≤ Nat.find ex1 - 1 by omega) (by omega)
    rw [Nat.sub_add_cancel (by omega)] at this
    exact absurd (f2.1.trans_le this) (not_lt.2 a1.le)
  · rw [Nat.sub_add_cancel (by omega)]; exact f1.1
  · rw [Nat.sub_add_cancel (by omega)]; exact f2.1

/-- The difference of the two indicators disappears in degree `k - j`. -/
theorem ind_diff {U : List K} (hs : SortedKnots U) {x : K} (h0 : knot U 0 < x) (h1 : x < lastKnot U) {j k : ℕ} (hjk : j ≤ k) (hk : k + 1 < U.length)
    (a1 : knot U j < x) (a2 : x ≤ knot U (j + 1)) (a3 : knot U k ≤ x) (a4 : x < knot U (k + 1)) :
    ∀ q ≤ k - j, ∀ i, i + q + 1 < U.length → coxFrom (fun i => indL U x i - indR U x i) U x q i = (if i = j then 1 else 0) - if i + q = k then 1 else 0 := by
  have eqx : ∀ i, j < i → i ≤ k → knot U i = x := fun i h2 h3 =>
    le_antisymm ((hs.mono h3 (by omega)).trans a3) (a2.trans (hs.mono (show j + 1 ≤ i by omega) (by omega)))
  intro q
  induction q with
  | zero =>
    intro _ i hi
    simp only [coxFrom, indL, indR, Nat.add_zero]
    have e1 : InSpanL U i x ↔ i = j := by
      unfold InSpanL
      constructor
      · rintro (⟨b1, b2⟩ | ⟨_, _, b3⟩)
        · by_contra hne
          rcases Nat.lt_or_gt_of_ne hne with hlt | hlt
          · exact absurd (b2.trans (hs.mono (show i + 1 ≤ j by omega) (by omega))) (not_le.2 a1)
          · exact absurd (a2.trans (hs.mono (show j + 1 ≤ i by omega) (by omega))) (not_le.2 b1)
        · exact absurd b3 h0.ne'
      · rintro rfl; exact Or.inl ⟨a1, a2⟩
    have e2 : InSpan U i x ↔ i = k := by
      unfold InSpan
      constructor
      · rintro (⟨b1, b2⟩ | ⟨_, _, b3⟩)
        · by_contra hne
          rcases Nat.lt_or_gt_of_ne hne with hlt | hlt
          · exact absurd ((hs.mono (show i + 1 ≤ k by omega) (by omega)).trans a3) (not_le.2 b2)
          · exact absurd ((hs.mono (show k + 1 ≤ i by omega) (by omega)).trans b1) (not_le.2 a4)
        · exact absurd b3 h1.ne
      · rintro rfl; exact Or.inl ⟨a3, a4⟩
    simp only [e1, e2]
  | succ q ih =>
    intro hq i hi
    have e1 := ih (by omega) i (by omega)
    have e2 := ih (by omega) (i + 1) (by omega)
    simp only [coxFrom, e1, e2]
    -- factors
    by_cases c1 : i = j
    · subst c1
      have g1 : knot U (i + q + 1) = x := eqx _ (by omega) (by omega)
      rw [if_pos rfl, if_neg (show ¬ i + q = k by omega), if_neg (show ¬ i + 1 = i by omega), g1, div_self (by linarith)]
      by_cases c2 : i + 1 + q = k
      · rw [if_pos c2, if_pos (show i + (q + 1) = k by omega)]
        have g2 : knot U (i + 1) = x := eqx _ (by omega) (by omega)
        have g3 : x < knot U (i + q + 2) := by rw [show i + q + 2 = k + 1 by omega]; exact a4
        rw [g2, div_self (by linarith)]; ring
      · rw [if_neg c2, if_neg (show ¬ i + (q + 1) = k by omega)]; ring
    rw [if_neg c1]
    by_cases c3 : i + 1 = j
    · subst c3
      have g1 : knot U (i + q + 2) = x := eqx _ (by omega) (by omega)
      rw [if_pos rfl, if_neg (show ¬ i + q = k by omega), if_neg (show ¬ i + 1 + q = k by omega), if_neg (show ¬ i + (q + 1) = k by omega), g1]
      simp
    rw [if_neg c3]
    by_cases c4 : i + q = k
    · have g1 : knot U i = x := eqx _ (by omega) (by omega)
      rw [if_pos c4, if_neg (show ¬ i + 1 + q = k by omega), if_neg (show ¬ i + (q + 1) = k by omega), g1]
      simp
    rw [if_neg c4]
    by_cases c5 : i + 1 + q = k
    · have g1 : knot U (i + 1) = x := eqx _ (by omega) (by omega)
      have g3 : x < knot U (i + q + 2) := by rw [show i + q + 2 = k + 1 by omega]; exact a4
      rw [if_pos c5, if_pos (show i + (q + 1) = k by omega), g1, div_self (by linarith)]; ring
    rw [if_neg c5, if_neg (show ¬ i + (q + 1) = k by omega)]
    ring

/-- Where the interior multiplicity is small, spans closed on the left and spans closed on the right give the same functions. -/
theorem left_eq_right {U : List K} (hs : SortedKnots U) {x : K} (hL : 0 < U.length) (hx0 : knot U 0 ≤ x) (hx1 : x ≤ lastKnot U) {p k : ℕ}
    (hc : x = knot U 0 ∨ x = lastKnot U ∨ U.count x + k ≤ p ∨ p < k) (hr : knot U 0 < lastKnot U) {i : ℕ} (hi : i + p + 1 < U.length) :
    derivFrom (indL U x) U x p k i = coxDeBoorDeriv U p k i x := by
  rw [deriv_from]
  change _ = derivFrom (indR U x) U x p k i
  by_cases hend : x = knot U 0 ∨ x = lastKnot U
  · refine derivFrom_congr (fun i hi => ?_) p k i hi
    unfold indL indR
    have hl := hs.le_last (i := i + 1) hi
    have hf := hs.first_le (i := i) (by omega)
    congr 1
    unfold InSpanL InSpan
    apply propext
    rcases hend with rfl | rfl
    · constructor
      · rintro (⟨b1, _⟩ | ⟨b1, b2, _⟩)
        · exact absurd b1 (not_lt.2 hf)
        · exact Or.inl ⟨b1.le, b2⟩
      · rintro (⟨b1, b2⟩ | ⟨b1, _, _⟩)
        · exact Or.inr ⟨le_antisymm b1 hf, b2, rfl⟩
        · exact absurd b1 (not_lt.2 hf)
    · constructor
      · rintro (⟨b1, b2⟩ | ⟨_, b2, _⟩)
        · exact Or.inr ⟨b1, le_antisymm b2 hl, rfl⟩
        · exact absurd b2 (not_lt.2 hl)
      · rintro (⟨_, b2⟩ | ⟨b1, b2, _⟩)
        · exact absurd b2 (not_lt.2 hl)
        · exact Or.inl ⟨b1, b2.le⟩
  · push Not at hend
    have h0 : knot U 0 < x := lt_of_le_of_ne hx0 (Ne.symm hend.1)
    have h1 : x < lastKnot U := lt_of_le_of_ne hx1 hend.2
    obtain ⟨j, l, hjl, hl, a1, a2, a3, a4⟩ := around hs h0 h1
    have hd := ind_diff hs h0 h1 hjl hl a1 a2 a3 a4
    by_cases hk : p < k
    · have hz : ∀ (N : ℕ → K) (p k i : ℕ), p < k → derivFrom N U x p k i = 0 := by
        intro N p
        induction p with
        | zero => intro k i hk; cases k with
          | zero => omega
          | succ k => simp only [derivFrom]
        | succ p ih => intro k i hk; cases k with
          | zero => omega
          | succ k => simp only [derivFrom]; rw [ih k i (by omega), ih k (i + 1) (by omega)]; simp
      rw [hz _ p k i hk, hz _ p k i hk]
    have hc : U.count x + k ≤ p := by
      rcases hc with hc | hc | hc | hc
      · exact absurd hc hend.1
      · exact absurd hc hend.2
      · exact hc
      · exact absurd hc hk
    have hm : l - j ≤ U.count x := by
      have hsub : (List.replicate (l - j) x).Sublist U := by
        have e : ((U.drop (j + 1)).take (l - j)) = List.replicate (l - j) x := by
          refine List.ext_getElem (by simp; omega) fun n hn1 hn2 => ?_
          simp only [List.length_replicate] at hn2
          rw [List.getElem_replicate, List.getElem_take, List.getElem_drop]
          have hlt : j + 1 + n < U.length := by omega
          have : knot U (j + 1 + n) = x := le_antisymm ((hs.mono (show j + 1 + n ≤ l by omega) (by omega)).trans a3)
            (a2.trans (hs.mono (show j + 1 ≤ j + 1 + n by omega) hlt))
          rw [← this]
          simp [knot, List.getD_eq_getElem?_getD, List.getElem?_eq_getElem hlt]
        rw [← e]
        exact (List.take_sublist _ _).trans (List.drop_sublist _ _)
      have := hsub.count_le x
      simpa using this
    have := derivFrom_zero (N := fun i => indL U x i - indR U x i) (U := U) (x := x) (m := l - j) (fun i hi => by
      rw [hd (l - j) (le_refl _) i hi]
      by_cases c : i = j
      · rw [if_pos c, if_pos (by omega), sub_self]
      · rw [if_neg c, if_neg (by omega), sub_self]) p k (by omega) i hi
    rw [derivFrom_sub] at this
    linarith

/-! ### Reversed knots -/

/-- The knot vector of the reversed direction. -/
def revKnots (U : List K) : List K := (U.map fun u => knot U 0 + lastKnot U - u).reverse

theorem revKnots_length (U : List K) : (revKnots U).length = U.length := by simp [revKnots]

theorem revKnots_knot {U : List K} {i : ℕ} (hi : i < U.length) : knot (revKnots U) i = knot U 0 + lastKnot U - knot U (U.length - 1 - i) := by
  have h2 : U.length - 1 - i < U.length := by omega
  simp [knot, revKnots, List.getD_eq_getElem?_getD, List.getElem?_reverse, hi, List.getElem?_eq_getElem h2]

theorem revKnots_first {U : List K} (hL : 0 < U.length) : knot (revKnots U) 0 = knot U 0 := by
  rw [revKnots_knot hL, Nat.sub_zero, ← lastKnot_eq]; ring

theorem revKnots_last {U : List K} (hL : 0 < U.length) : lastKnot (revKnots U) = lastKnot U := by
  rw [lastKnot_eq, revKnots_length, revKnots_knot (by omega), show U.length - 1 - (U.length - 1) = 0 by omega]; ring

theorem inSpan_rev {U : List K} {i : ℕ} (hi : i + 1 < U.length) (x : K) :
    InSpan (revKnots U) i (knot U 0 + lastKnot U - x) ↔ InSpanL U (U.length - 2 - i) x := by
  unfold InSpan InSpanL
  rw [revKnots_last (by omega), revKnots_knot (by omega), revKnots_knot hi, show U.length - 1 - i = U.length - 2 - i + 1 by omega,
    show U.length - 1 - (i + 1) = U.length - 2 - i by omega]
  constructor
  · rintro (⟨h1, h2⟩ | ⟨h1, h2, h3⟩)
    · exact Or.inl ⟨by linarith, by linarith⟩
    · exact Or.inr ⟨by linarith, by linarith, by linarith⟩
  · rintro (⟨h1, h2⟩ | ⟨h1, h2, h3⟩)
    · exact Or.inl ⟨by linarith, by linarith⟩
    · exact Or.inr ⟨by linarith, by linarith, by linarith⟩

theorem cox_rev {U : List K} (x : K) : ∀ (p i : ℕ), i + p + 1 < U.length →
    coxDeBoor (revKnots U) p i (knot U 0 + lastKnot U - x) = coxFrom (indL U x) U x p (U.length - 2 - p - i)
  | 0, i, hi => by
    simp only [coxDeBoor, coxFrom, indL]
    rw [show U.length - 2 - 0 - i = U.length - 2 - i by omega]
    simp only [inSpan_rev (show i + 1 < U.length by omega)]
  | p + 1, i, hi => by
    simp only [coxDeBoor]
    rw [cox_rev x p i (by omega), cox_rev x p (i + 1) (by omega), revKnots_knot (by omega), revKnots_knot (by omega), revKnots_knot (by omega),
      revKnots_knot (by omega)]
    obtain ⟨j, hj⟩ : ∃ j, U.length = j + p + 3 + i := ⟨U.length - (p + 3 + i), by omega⟩
    rw [hj, show j + p + 3 + i - 2 - p - i = j + 1 by omega, show j + p + 3 + i - 2 - p - (i + 1) = j by omega,
      show j + p + 3 + i - 2 - (p + 1) - i = j by omega, show j + p + 3 + i - 1 - i = j + p + 2 by omega,
      show j + p + 3 + i - 1 - (i + p + 1) = j + 1 by omega, show j + p + 3 + i - 1 - (i + p + 2) = j by omega,
      show j + p + 3 + i - 1 - (i + 1) = j + p + 1 by omega]
    simp only [coxFrom]
    have q1 : ∀ c a b d : K, (c - x - (c - a)) / (c - b - (c - d)) = (a - x) / (d - b) := fun c a b d => by congr 1 <;> ring
    have q2 : ∀ c a b d : K, (c - a - (c - x)) / (c - b - (c - d)) = (x - a) / (d - b) := fun c a b d => by congr 1 <;> ring
    rw [q1, q2]; ring

theorem coxDeriv_rev {U : List K} (x : K) : ∀ (p k i : ℕ), i + p + 1 < U.length →
    coxDeBoorDeriv (revKnots U) p k i (knot U 0 + lastKnot U - x) = (-1) ^ k * derivFrom (indL U x) U x p k (U.length - 2 - p - i)
  | p, 0, i, hi => by simp only [coxDeBoorDeriv, derivFrom]; rw [cox_rev x p i hi]; simp
  | 0, k + 1, i, hi => by simp [coxDeBoorDeriv, derivFrom]
  | p + 1, k + 1, i, hi => by
    simp only [coxDeBoorDeriv]
    rw [coxDeriv_rev x p k i (by omega), coxDeriv_rev x p k (i + 1) (by omega), revKnots_knot (by omega), revKnots_knot (by omega),
      revKnots_knot (by omega), revKnots_knot (by omega)]
    obtain ⟨j, hj⟩ : ∃ j, U.length = j + p + 3 + i := ⟨U.length - (p + 3 + i), by omega⟩
    rw [hj, show j + p + 3 + i - 2 - p - i = j + 1 by omega, show j + p + 3 + i - 2 - p - (i + 1) = j by omega,
      show j + p + 3 + i - 2 - (p + 1) - i = j by omega, show j + p + 3 + i - 1 - i = j + p + 2 by omega,
      show j + p + 3 + i - 1 - (i + p + 1) = j + 1 by omega, show j + p + 3 + i - 1 - (i + p + 2) = j by omega,
      show j + p + 3 + i - 1 - (i + 1) = j + p + 1 by omega]
    simp only [derivFrom]
    have q : ∀ c a b : K, c - a - (c - b) = b - a := fun c a b => by ring
    rw [q, q, pow_succ]; ring

end
end SplineLib
