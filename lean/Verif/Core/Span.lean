import Verif.Core.Bisect
import Verif.Spec.CoxDeBoor
import Mathlib.Data.List.Perm.Basic
import Mathlib.Data.List.InsertIdx
import Mathlib.Tactic.Ring
import Mathlib.Tactic.FieldSimp
import Mathlib.Tactic.Positivity

/-!
# Knot spans (helper lemmas)
-/

namespace SplineLib
set_option linter.unusedSectionVars false
variable {K : Type} [Field K] [LinearOrder K] [IsStrictOrderedRing K]

theorem kEps_pos : 0 < kEps K := by unfold kEps; positivity

theorem knot_mem {U : List K} {i : ℕ} (h : i < U.length) : knot U i ∈ U := by
  rw [knot_eq h]; exact List.getElem_mem h

theorem mem_iff_knot {U : List K} {x : K} : x ∈ U ↔ ∃ i < U.length, knot U i = x := by
  constructor
  · intro h
    obtain ⟨i, hi, rfl⟩ := List.getElem_of_mem h
    exact ⟨i, hi, knot_eq hi⟩
  · rintro ⟨i, hi, rfl⟩; exact knot_mem hi

theorem lastKnot_mem {U : List K} (h : U ≠ []) : lastKnot U ∈ U :=
  knot_mem (by have := List.length_pos_iff.2 h; omega)

theorem SortedKnots.le_last {U : List K} (h : SortedKnots U) {i : ℕ} (hi : i < U.length) : knot U i ≤ lastKnot U :=
  h.mono (by omega) (by omega)

theorem SortedKnots.first_le {U : List K} (h : SortedKnots U) {i : ℕ} (hi : i < U.length) : knot U 0 ≤ knot U i :=
  h.mono (by omega) hi

theorem InSpan.unique {U : List K} (h : SortedKnots U) {i j : ℕ} (hi : i + 1 < U.length) (hj : j + 1 < U.length)
    {x : K} (h1 : InSpan U i x) (h2 : InSpan U j x) : i = j := by
  have key : ∀ i j, i + 1 < U.length → j + 1 < U.length → InSpan U i x → InSpan U j x → ¬ i < j := by
    intro i j hi hj h1 h2 hlt
    have h3 : knot U (i + 1) ≤ knot U j := h.mono hlt (by omega)
    have h4 := h.le_last hj
    have h5 := h.le_last hi
    rcases h1 with ⟨a1, a2⟩ | ⟨a1, a2, a3⟩ <;> rcases h2 with ⟨b1, b2⟩ | ⟨b1, b2, b3⟩ <;> linarith
  rcases lt_trichotomy i j with h' | h' | h'
  · exact absurd h' (key i j hi hj h1 h2)
  · exact h'
  · exact absurd h' (key j i hj hi h2 h1)

/-- The span index as a natural number. -/
def spanIx (U : List K) (x : K) : ℕ :=
  if |x - lastKnot U| < kEps K then lowerBound U x - 1 else upperBound U x - 1

theorem span_correct {U : List K} (hs : SortedKnots U) (hsep : Separated U) (hr : knot U 0 < lastKnot U) {x : K}
    (hx0 : knot U 0 ≤ x) (hx1 : x ≤ lastKnot U) :
    kvSpan U x = .ok (spanIx U x : ℤ) ∧ spanIx U x + 1 < U.length ∧ InSpan U (spanIx U x) x := by
  have hne : U ≠ [] := by rintro rfl; simp [lastKnot, knot] at hr
  have hlen : 0 < U.length := List.length_pos_iff.2 hne
  rw [kvSpan_eq hne]
  unfold spanIx
  by_cases hl : |x - lastKnot U| < kEps K
  · simp only [hl, if_true]
    obtain ⟨l1, l2, l3⟩ := lowerBound_spec hs x
    rw [abs_lt] at hl
    have hlt0 : knot U 0 < x := by
      have := hsep _ (knot_mem hlen) _ (lastKnot_mem hne) hr
      linarith [hl.1]
    have hpos : 0 < lowerBound U x := by
      by_contra hc
      have := l3 0 hlen (by omega)
      linarith
    have hub : lowerBound U x < U.length := by
      by_contra hc
      have := l2 (U.length - 1) (by omega) (by omega)
      unfold lastKnot at hx1; linarith
    obtain ⟨n, hn⟩ : ∃ n, lowerBound U x = n + 1 := ⟨lowerBound U x - 1, by omega⟩
    rw [hn] at l1 l2 l3 hpos hub ⊢
    refine ⟨by simp, by simpa using hub, ?_⟩
    have a1 := l2 n (by omega) (by omega)
    have a2 := l3 (n + 1) (by omega) (by omega)
    simp only [Nat.add_sub_cancel, InSpan]
    rcases lt_or_eq_of_le a2 with a3 | a3
    · exact Or.inl ⟨a1.le, a3⟩
    · refine Or.inr ⟨a1, a3, ?_⟩
      rcases lt_or_eq_of_le hx1 with h4 | h4
      · have := hsep x (by rw [a3]; exact knot_mem hub) _ (lastKnot_mem hne) h4
        linarith [hl.1]
      · exact h4
  · simp only [hl, if_false]
    obtain ⟨l1, l2, l3⟩ := upperBound_spec hs x
    have hlt : x < lastKnot U := by
      rcases lt_or_eq_of_le hx1 with h4 | h4
      · exact h4
      · exfalso; apply hl; rw [h4]; simpa using kEps_pos
    have hpos : 0 < upperBound U x := by
      by_contra hc
      have := l3 0 hlen (by omega)
      linarith
    have hub : upperBound U x < U.length := by
      by_contra hc
      have := l2 (U.length - 1) (by omega) (by omega)
      unfold lastKnot at hlt; linarith
    obtain ⟨n, hn⟩ : ∃ n, upperBound U x = n + 1 := ⟨upperBound U x - 1, by omega⟩
    rw [hn] at l1 l2 l3 hpos hub ⊢
    refine ⟨by simp, by simpa using hub, ?_⟩
    exact Or.inl ⟨by simpa using l2 n (by omega) (by omega), by simpa using l3 (n + 1) (by omega) (by omega)⟩

theorem knot_insertIdx (U : List K) (k : ℕ) (hk : k ≤ U.length) (x : K) (i : ℕ) :
    knot (U.insertIdx k x) i = if i < k then knot U i else if i = k then x else knot U (i - 1) := by
  simp only [knot, List.getD_eq_getElem?_getD, List.getElem?_insertIdx]
  split_ifs <;> first | rfl | omega

theorem knot_eraseIdx (U : List K) (k : ℕ) (i : ℕ) :
    knot (U.eraseIdx k) i = if i < k then knot U i else knot U (i + 1) := by
  simp only [knot, List.getD_eq_getElem?_getD, List.getElem?_eraseIdx]
  split <;> rfl

theorem sorted_insertIdx {U : List K} (hs : SortedKnots U) {k : ℕ} (hk : k ≤ U.length) {x : K}
    (h1 : ∀ i < k, knot U i ≤ x) (h2 : ∀ i < U.length, k ≤ i → x ≤ knot U i) : SortedKnots (U.insertIdx k x) := by
  rw [sortedKnots_iff]
  have hl : (U.insertIdx k x).length = U.length + 1 := List.length_insertIdx_of_le_length hk x
  intro i j hij hj
  rw [hl] at hj
  rw [knot_insertIdx U k hk, knot_insertIdx U k hk]
  split
  · split
    · exact hs.mono hij (by omega)
    · split
      · exact h1 i (by omega)
      · exact hs.mono (by omega) (by omega)
  · split
    · split
      · omega
      · split
        · exact le_refl _
        · exact h2 _ (by omega) (by omega)
    · split
      · omega
      · split
        · omega
        · exact hs.mono (by omega) (by omega)

theorem sorted_eraseIdx {U : List K} (hs : SortedKnots U) (k : ℕ) : SortedKnots (U.eraseIdx k) :=
  List.Pairwise.sublist (List.eraseIdx_sublist U k) hs

theorem count_insertIdx {U : List K} {k : ℕ} (hk : k ≤ U.length) (x y : K) :
    (U.insertIdx k x).count y = U.count y + if y = x then 1 else 0 := by
  rw [(List.perm_insertIdx x U hk).count_eq, List.count_cons]
  by_cases h : y = x
  · subst h; simp
  · simp [h, Ne.symm h]

theorem count_eraseIdx {U : List K} {k : ℕ} (hk : k < U.length) (y : K) :
    (U.eraseIdx k).count y + (if y = knot U k then 1 else 0) = U.count y := by
  have h := (List.getElem_cons_eraseIdx_perm hk).count_eq y
  rw [← h, knot_eq hk, List.count_cons]
  by_cases h : y = U[k]
  · subst h; simp
  · simp [h, Ne.symm h]

end SplineLib
