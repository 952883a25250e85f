import Verif.Core.Adjust
import Verif.Core.Unity

/-!
# Knot insertion does not change the sum over basis functions (helper lemmas)
-/

namespace SplineLib
set_option linter.unusedSectionVars false
open Finset

section
variable {K : Type} [Field K] [LinearOrder K] [IsStrictOrderedRing K]

/-- The knot `t` can be inserted behind position `k`. -/
structure InsAt (U : List K) (p k : ℕ) (t : K) : Prop where
  wf : WFKnots U p
  lo : p ≤ k
  hi : k + p + 1 < U.length
  le : knot U k ≤ t
  ge : t ≤ knot U (k + 1)
  sep : Separated (t :: U)

variable {U : List K} {p k : ℕ} {t : K}

theorem InsAt.knot (h : InsAt U p k t) (i : ℕ) : knot (U.insertIdx (k + 1) t) i =
    if i ≤ k then SplineLib.knot U i else if i = k + 1 then t else SplineLib.knot U (i - 1) := by
  rw [knot_insertIdx U (k + 1) (by have := h.hi; omega)]
  by_cases h1 : i ≤ k
  · rw [if_pos (by omega), if_pos h1]
  · rw [if_neg (by omega), if_neg h1]

theorem InsAt.length (h : InsAt U p k t) : (U.insertIdx (k + 1) t).length = U.length + 1 :=
  List.length_insertIdx_of_le_length (by have := h.hi; omega) t

theorem InsAt.lastKnot (h : InsAt U p k t) : lastKnot (U.insertIdx (k + 1) t) = SplineLib.lastKnot U := by
  have := h.hi
  unfold SplineLib.lastKnot
  rw [h.length, h.knot, if_neg (by omega)]
  by_cases h1 : U.length + 1 - 1 = k + 1
  · omega
  · rw [if_neg h1]; rfl

theorem InsAt.firstKnot (h : InsAt U p k t) : SplineLib.knot (U.insertIdx (k + 1) t) 0 = SplineLib.knot U 0 := by
  rw [h.knot, if_pos (by omega)]

theorem InsAt.mem (h : InsAt U p k t) {a : K} : a ∈ U.insertIdx (k + 1) t ↔ a = t ∨ a ∈ U := by
  rw [List.mem_insertIdx (by have := h.hi; omega)]

theorem InsAt.wf' (h : InsAt U p k t) : WFKnots (U.insertIdx (k + 1) t) p := by
  have hh := h.hi
  have hl := h.lo
  refine ⟨?_, ?_, ?_, ?_, ?_, ?_⟩
  · apply sorted_insertIdx h.wf.sorted (by omega)
    · intro i hi
      exact le_trans (h.wf.sorted.mono (show i ≤ k by omega) (by omega)) h.le
    · intro i hi hk
      exact le_trans h.ge (h.wf.sorted.mono hk hi)
  · rw [h.length]; have := h.wf.size; omega
  · intro j hj
    rw [h.knot, h.firstKnot, if_pos (by omega)]
    exact h.wf.first j hj
  · intro j hj
    rw [h.lastKnot, h.length, h.knot, if_neg (by omega), if_neg (by omega)]
    rw [show U.length + 1 - 1 - j - 1 = U.length - 1 - j by omega]
    exact h.wf.last j hj
  · rw [h.lastKnot, h.firstKnot]; exact h.wf.range
  · intro a ha b hb hab
    exact h.sep a (by simpa using h.mem.1 ha) b (by simpa using h.mem.1 hb) hab

/-- The span of `x` after and before the insertion. -/
theorem InsAt.span (h : InsAt U p k t) {x : K} (h0 : SplineLib.knot U 0 ≤ x) (h1 : x ≤ SplineLib.lastKnot U) :
    spanIx U x = if spanIx (U.insertIdx (k + 1) t) x ≤ k then spanIx (U.insertIdx (k + 1) t) x
      else spanIx (U.insertIdx (k + 1) t) x - 1 := by
  obtain ⟨_, h2, h3, h4⟩ := h.wf'.span (x := x) (by rw [h.firstKnot]; exact h0) (by rw [h.lastKnot]; exact h1)
  have hh := h.hi
  rw [h.length] at h4
  generalize spanIx (U.insertIdx (k + 1) t) x = q at *
  apply spanIx_unique h.wf h0 h1
  · split_ifs <;> omega
  · unfold InSpan at h2 ⊢
    rw [h.lastKnot, h.knot, h.knot] at h2
    rcases Nat.lt_trichotomy q k with hq | hq | hq
    · rw [if_pos (by omega), if_pos (by omega)] at h2
      rw [if_pos (by omega)]; exact h2
    · subst hq
      rw [if_pos (by omega), if_neg (by omega), if_pos rfl] at h2
      rw [if_pos (by omega)]
      have hg := h.ge
      rcases h2 with h2 | h2
      · exact Or.inl ⟨h2.1, lt_of_lt_of_le h2.2 hg⟩
      · refine Or.inr ⟨h2.1, ?_, h2.2.2⟩
        apply le_antisymm
        · rw [h2.2.1]; exact hg
        · rw [h2.2.2]; exact h.wf.sorted.le_last (by omega)
    · rw [if_neg (by omega : ¬ q ≤ k), if_neg (by omega : ¬ q + 1 ≤ k), if_neg (by omega : ¬ q + 1 = k + 1)] at h2
      rw [if_neg (by omega)]
      by_cases hq1 : q = k + 1
      · subst hq1
        rw [if_pos rfl] at h2
        have hle := h.le
        simp only [Nat.add_sub_cancel] at h2 ⊢
        rcases h2 with h2 | h2
        · exact Or.inl ⟨le_trans hle h2.1, h2.2⟩
        · exact Or.inr ⟨lt_of_le_of_lt hle h2.1, h2.2⟩
      · rw [if_neg hq1] at h2
        rw [Nat.sub_add_cancel (by omega)]
        simpa using h2

/-- The basis functions before the insertion in terms of those after. -/
theorem InsAt.boehm (h : InsAt U p k t) {x : K} (h0 : SplineLib.knot U 0 ≤ x) (h1 : x ≤ SplineLib.lastKnot U) {i : ℕ}
    (hi : i + p + 1 < U.length) :
    (i + p < k → coxDeBoor U p i x = coxDeBoor (U.insertIdx (k + 1) t) p i x) ∧
    (k < i → coxDeBoor U p i x = coxDeBoor (U.insertIdx (k + 1) t) p (i + 1) x) ∧
    (i ≤ k → k ≤ i + p → coxDeBoor U p i x =
      (t - SplineLib.knot (U.insertIdx (k + 1) t) i) /
          (SplineLib.knot (U.insertIdx (k + 1) t) (i + p + 1) - SplineLib.knot (U.insertIdx (k + 1) t) i) *
        coxDeBoor (U.insertIdx (k + 1) t) p i x +
      (SplineLib.knot (U.insertIdx (k + 1) t) (i + p + 2) - t) /
          (SplineLib.knot (U.insertIdx (k + 1) t) (i + p + 2) - SplineLib.knot (U.insertIdx (k + 1) t) (i + 1)) *
        coxDeBoor (U.insertIdx (k + 1) t) p (i + 1) x) := by
  have hh := h.hi
  have hlen := h.length
  have g0 : SplineLib.knot (U.insertIdx (k + 1) t) 0 ≤ x := by rw [h.firstKnot]; exact h0
  have g1 : x ≤ SplineLib.lastKnot (U.insertIdx (k + 1) t) := by rw [h.lastKnot]; exact h1
  obtain ⟨_, q2, q3, q4⟩ := h.wf'.span g0 g1
  have hsp := h.span h0 h1
  rw [cox_active h.wf h0 h1 hi, cox_active h.wf' g0 g1 (by omega), cox_active h.wf' g0 g1 (by omega)]
  rw [← ku_eq (U := U.insertIdx (k + 1) t) (i := i) (by omega), ← ku_eq (U := U.insertIdx (k + 1) t) (i := i + p + 1) (by omega),
    ← ku_eq (U := U.insertIdx (k + 1) t) (i := i + p + 2) (by omega), ← ku_eq (U := U.insertIdx (k + 1) t) (i := i + 1) (by omega)]
  refine Nb_boehm (ku_mono h.wf'.sorted) ?_ ?_ ?_ ?_ ?_ ?_ ?_ p i
  · intro j hj
    rw [ku_eq (by omega), ku_eq (by omega), h.knot, if_pos hj]
  · rw [ku_eq (by omega), h.knot, if_neg (by omega), if_pos rfl]
  · intro j hj
    unfold ku
    rw [h.knot, if_neg (by omega), if_neg (by omega)]
    congr 1; omega
  · intro j hj
    apply delta_ne
    rintro rfl
    have := inSpan_lt q2
    rw [ku_eq (by omega), ku_eq (by omega)] at hj
    exact absurd hj (ne_of_lt this)
  · intro j hj
    rw [hsp]; simp only [delta]; congr 1
    split_ifs <;> simp only [eq_iff_iff] <;> omega
  · rw [hsp]; simp only [delta]
    split_ifs <;> first | omega | simp
  · intro j hj
    rw [hsp]; simp only [delta]; congr 1
    split_ifs <;> simp only [eq_iff_iff] <;> omega

/-- One coefficient of the changed control points, in one direction. -/
def blend1 (first last : ℕ) (α : ℕ → K) (f : ℕ → K) (j : ℕ) : K :=
  if last < j then f (j - 1) else if first ≤ j then α j * f j + (1 - α j) * f (j - 1) else f j

/-- The sum over the basis functions does not change. `last` is the last index with a knot smaller than `t`. -/
theorem InsAt.sum (h : InsAt U p k t) {x : K} (h0 : SplineLib.knot U 0 ≤ x) (h1 : x ≤ SplineLib.lastKnot U) {last : ℕ}
    (hl : last ≤ k) (hl1 : SplineLib.knot U last < t) (hl2 : ∀ j, last < j → j ≤ k → SplineLib.knot U j = t) {α : ℕ → K}
    (hα : ∀ j, k + 1 - p ≤ j → j ≤ last → α j = (t - SplineLib.knot U j) / (SplineLib.knot U (j + p) - SplineLib.knot U j))
    (f : ℕ → K) :
    ∑ i ∈ range (U.length - p - 1), coxDeBoor U p i x * f i =
      ∑ j ∈ range (U.length - p - 1 + 1), coxDeBoor (U.insertIdx (k + 1) t) p j x * blend1 (k + 1 - p) last α f j := by
  have hh := h.hi
  have hlo := h.lo
  have hlen := h.length
  have g0 : SplineLib.knot (U.insertIdx (k + 1) t) 0 ≤ x := by rw [h.firstKnot]; exact h0
  have g1 : x ≤ SplineLib.lastKnot (U.insertIdx (k + 1) t) := by rw [h.lastKnot]; exact h1
  obtain ⟨_, q2, q3, q4⟩ := h.wf'.span g0 g1
  -- degenerate functions vanish
  have hdeg : ∀ j, j + p + 1 < U.length + 1 → SplineLib.knot (U.insertIdx (k + 1) t) (j + p + 1) =
      SplineLib.knot (U.insertIdx (k + 1) t) j → coxDeBoor (U.insertIdx (k + 1) t) p j x = 0 := by
    intro j hj he
    rw [cox_active h.wf' g0 g1 (by omega)]
    apply Nb_degenerate (ku_mono h.wf'.sorted)
    · intro j hj
      apply delta_ne
      rintro rfl
      have := inSpan_lt q2
      rw [ku_eq (by omega), ku_eq (by omega)] at hj
      exact absurd hj (ne_of_lt this)
    · rw [ku_eq (by omega), ku_eq (by omega)]; exact he
  obtain ⟨v, hv⟩ : ∃ v, v = SplineLib.knot (U.insertIdx (k + 1) t) := ⟨_, rfl⟩
  obtain ⟨N, hN⟩ : ∃ N, N = fun j => coxDeBoor (U.insertIdx (k + 1) t) p j x := ⟨_, rfl⟩
  have hNj : ∀ j, coxDeBoor (U.insertIdx (k + 1) t) p j x = N j := fun j => by rw [hN]
  have hvt : ∀ j, last < j → j ≤ k + 1 → v j = t := by
    intro j ha hb
    rw [hv, h.knot]
    by_cases hc : j ≤ k
    · rw [if_pos hc]; exact hl2 j ha hc
    · rw [if_neg hc, if_pos (by omega)]
  -- coefficients
  let a : ℕ → K := fun i => if i + p < k then 1 else if k < i then 0 else (t - v i) / (v (i + p + 1) - v i)
  let b : ℕ → K := fun i => if i + p < k then 0 else if k < i then 1 else (v (i + p + 2) - t) / (v (i + p + 2) - v (i + 1))
  have hrep : ∀ i ∈ range (U.length - p - 1), coxDeBoor U p i x * f i = N i * (a i * f i) + N (i + 1) * (b i * f i) := by
    intro i hi
    obtain ⟨b1, b2, b3⟩ := h.boehm h0 h1 (i := i) (by have := mem_range.1 hi; omega)
    rw [hNj, hNj] at b3
    rw [hNj] at b1 b2
    by_cases c1 : i + p < k
    · rw [b1 c1]; simp only [a, b, if_pos c1]; ring
    · by_cases c2 : k < i
      · rw [b2 c2]; simp only [a, b, if_neg c1, if_pos c2]; ring
      · rw [b3 (by omega) (by omega)]; simp only [a, b, if_neg c1, if_neg c2, hv]; ring
  simp only [hNj] at hdeg ⊢
  rw [← hv] at hdeg
  rw [sum_congr rfl hrep, sum_add_distrib]
  have e1 : ∑ i ∈ range (U.length - p - 1), N i * (a i * f i) = ∑ j ∈ range (U.length - p - 1 + 1), N j * (a j * f j) := by
    rw [sum_range_succ]
    simp only [a]
    rw [if_neg (by omega : ¬ U.length - p - 1 + p < k), if_pos (by omega : k < U.length - p - 1)]; ring
  have e2 : ∑ i ∈ range (U.length - p - 1), N (i + 1) * (b i * f i) =
      ∑ j ∈ range (U.length - p - 1 + 1), N j * (if j = 0 then 0 else b (j - 1) * f (j - 1)) := by
    rw [sum_range_succ']; simp
  rw [e1, e2, ← sum_add_distrib]
  apply sum_congr rfl
  intro j hj
  have hj' := mem_range.1 hj
  rw [← mul_add]
  by_cases hz : v (j + p + 1) = v j
  · rw [hdeg j (by omega) hz]; ring
  have hz' : v (j + p + 1) - v j ≠ 0 := sub_ne_zero.2 hz
  congr 1
  unfold blend1
  by_cases c1 : last < j
  · rw [if_pos c1, if_neg (by omega)]
    by_cases c2 : k + 1 < j
    · simp only [a, b]
      rw [if_neg (by omega), if_pos (by omega), if_neg (by omega), if_pos (by omega)]; ring
    · have hvj := hvt j c1 (by omega)
      have c3 : k ≤ j - 1 + p := by
        by_contra hc
        apply hz
        rw [hvj, hvt (j + p + 1) (by omega) (by omega)]
      have ea : a j = 0 := by
        simp only [a]
        rw [if_neg (by omega)]
        split_ifs
        · rfl
        · rw [hvj]; simp
      have eb : b (j - 1) = 1 := by
        simp only [b]
        rw [if_neg (by omega), if_neg (by omega), show j - 1 + p + 2 = j + p + 1 by omega, show j - 1 + 1 = j by omega, hvj]
        rw [hvj] at hz'
        exact div_self hz'
      rw [ea, eb]; ring
  · rw [if_neg c1]
    by_cases c2 : k + 1 - p ≤ j
    · rw [if_pos c2, if_neg (by omega)]
      have ev : v j = SplineLib.knot U j := by rw [hv, h.knot, if_pos (by omega)]
      have ev2 : v (j + p + 1) = SplineLib.knot U (j + p) := by
        rw [hv, h.knot, if_neg (by omega), if_neg (by omega)]; rfl
      have ea : a j = α j := by
        simp only [a]
        rw [if_neg (by omega), if_neg (by omega), hα j c2 (by omega), ev, ev2]
      have eb : b (j - 1) = 1 - α j := by
        simp only [b]
        rw [if_neg (by omega), if_neg (by omega), show j - 1 + p + 2 = j + p + 1 by omega, show j - 1 + 1 = j by omega,
          hα j c2 (by omega), ← ev, ← ev2]
        field_simp
        ring
      rw [ea, eb]
    · rw [if_neg c2]
      have eb : (if j = 0 then 0 else b (j - 1) * f (j - 1)) = 0 := by
        by_cases hj0 : j = 0
        · rw [if_pos hj0]
        · rw [if_neg hj0]; simp only [b]; rw [if_pos (by omega)]; ring
      rw [eb, add_zero]
      have ea : a j = 1 := by
        simp only [a]
        by_cases c3 : j + p < k
        · rw [if_pos c3]
        · rw [if_neg c3, if_neg (by omega)]
          have : v (j + p + 1) = t := hvt _ (by omega) (by omega)
          rw [this] at hz' ⊢
          exact div_self hz'
      rw [ea, one_mul]

end
end SplineLib
