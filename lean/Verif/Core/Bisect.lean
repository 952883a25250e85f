import Verif.Model.KnotVector
import Verif.Spec.Knots

/-!
# Correctness of the bisection, knot vector helper lemmas
-/

namespace SplineLib
set_option linter.unusedSectionVars false
section
variable {K : Type}

theorem bisect_spec (f : K → Bool) (l : List K)
    (hmono : ∀ i j (hj : j < l.length) (hij : i ≤ j), f l[j] = true → f l[i] = true) :
    ∀ len first, first + len ≤ l.length →
      (∀ i (hi : i < l.length), i < first → f l[i] = true) →
      (∀ i (hi : i < l.length), first + len ≤ i → f l[i] = false) →
      bisect f l first len ≤ l.length ∧
      (∀ i (hi : i < l.length), i < bisect f l first len → f l[i] = true) ∧
      (∀ i (hi : i < l.length), bisect f l first len ≤ i → f l[i] = false) := by
  intro len
  induction len using Nat.strong_induction_on with
  | _ len ih =>
    intro first hle hlo hhi
    rw [bisect]
    split
    · rename_i h0
      subst h0
      exact ⟨by omega, hlo, fun i hi h => hhi i hi (by omega)⟩
    · rename_i h0
      have hm : first + len / 2 < l.length := by omega
      simp only [List.getElem?_eq_getElem hm]
      split
      · rename_i hf
        apply ih _ (by omega) _ (by omega)
        · intro i hi h
          by_cases h' : i < first
          · exact hlo i hi h'
          · exact hmono i (first + len / 2) hm (by omega) hf
        · intro i hi h
          exact hhi i hi (by omega)
      · rename_i hf
        apply ih _ (by omega) _ (by omega) hlo
        intro i hi h
        by_contra hc
        have := hmono (first + len / 2) i hi h (by simpa using hc)
        exact hf this

end

section
variable {K : Type} [Field K] [LinearOrder K]

omit [LinearOrder K] in
theorem knot_eq {U : List K} {i : ℕ} (h : i < U.length) : knot U i = U[i] := by
  simp [knot, List.getD_eq_getElem?_getD, h]

theorem SortedKnots.mono {U : List K} (h : SortedKnots U) {i j : ℕ} (hij : i ≤ j) (hj : j < U.length) :
    knot U i ≤ knot U j := by
  rw [knot_eq hj, knot_eq (by omega)]
  rcases Nat.lt_or_eq_of_le hij with h1 | h1
  · exact List.pairwise_iff_getElem.1 h i j (by omega) hj h1
  · subst h1; exact le_refl _

theorem sortedKnots_iff {U : List K} : SortedKnots U ↔ ∀ i j, i ≤ j → j < U.length → knot U i ≤ knot U j := by
  refine ⟨fun h i j hij hj => h.mono hij hj, fun h => ?_⟩
  rw [SortedKnots, List.pairwise_iff_getElem]
  intro i j hi hj hij
  have := h i j hij.le hj
  rwa [knot_eq hi, knot_eq hj] at this

theorem lowerBound_spec {U : List K} (h : SortedKnots U) (x : K) :
    lowerBound U x ≤ U.length ∧ (∀ i < U.length, i < lowerBound U x → knot U i < x) ∧
      (∀ i < U.length, lowerBound U x ≤ i → x ≤ knot U i) := by
  have := bisect_spec (fun a => decide (a < x)) U (by
    intro i j hj hij hf
    have := h.mono hij hj
    rw [knot_eq hj, knot_eq (by omega)] at this
    simp only [decide_eq_true_eq] at *
    exact lt_of_le_of_lt this hf) U.length 0 (by omega) (by intros; omega) (by intros; omega)
  refine ⟨this.1, ?_, ?_⟩
  · intro i hi hl
    have := this.2.1 i hi hl
    rw [knot_eq hi]; simpa using this
  · intro i hi hl
    have := this.2.2 i hi hl
    rw [knot_eq hi]; simpa using this

theorem upperBound_spec {U : List K} (h : SortedKnots U) (x : K) :
    upperBound U x ≤ U.length ∧ (∀ i < U.length, i < upperBound U x → knot U i ≤ x) ∧
      (∀ i < U.length, upperBound U x ≤ i → x < knot U i) := by
  have := bisect_spec (fun a => !decide (x < a)) U (by
    intro i j hj hij hf
    have := h.mono hij hj
    rw [knot_eq hj, knot_eq (by omega)] at this
    simp only [Bool.not_eq_true', decide_eq_false_iff_not, not_lt] at *
    exact le_trans this hf) U.length 0 (by omega) (by intros; omega) (by intros; omega)
  refine ⟨this.1, ?_, ?_⟩
  · intro i hi hl
    have := this.2.1 i hi hl
    rw [knot_eq hi]; simpa using this
  · intro i hi hl
    have := this.2.2 i hi hl
    rw [knot_eq hi]; simpa using this

theorem kvLast_eq {U : List K} (h : U ≠ []) : kvLast U = .ok (lastKnot U) := by
  have hl : 0 < U.length := List.length_pos_iff.2 h
  simp only [kvLast, lastKnot]
  rw [knot_eq (by omega), List.getLast?_eq_getElem?, List.getElem?_eq_getElem (by omega)]

theorem kvIsLast_eq {U : List K} (h : U ≠ []) (x : K) :
    kvIsLast U x = .ok (decide (|x - lastKnot U| < kEps K)) := by
  simp only [kvIsLast, kvLast_eq h, areEqual]; rfl

theorem getN_eq {U : List K} {i : ℕ} (h : i < U.length) : getN U i = .ok (knot U i) := by
  simp [getN, knot_eq h, h]

theorem kvGet_eq {U : List K} {i : ℕ} (h : i < U.length) : kvGet U i = .ok (knot U i) := getN_eq h

theorem kvInRange_eq {U : List K} (h : U ≠ []) (x : K) :
    kvInRange U x = .ok (decide (knot U 0 ≤ x ∧ x ≤ lastKnot U)) := by
  have hl : 0 < U.length := List.length_pos_iff.2 h
  simp [kvInRange, kvLast_eq h, getN_eq hl, bind, Except.bind, pure, Except.pure]

theorem kvSpan_eq {U : List K} (h : U ≠ []) (x : K) :
    kvSpan U x = .ok (if |x - lastKnot U| < kEps K then (lowerBound U x : ℤ) - 1 else (upperBound U x : ℤ) - 1) := by
  simp only [kvSpan, kvIsLast_eq h, bind, Except.bind, pure, Except.pure]
  split <;> simp_all

end
end SplineLib
