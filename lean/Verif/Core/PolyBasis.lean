import Verif.Core.BasisEval
import Verif.Core.Elements
import Mathlib.Algebra.Polynomial.Eval.Degree
import Mathlib.Algebra.Polynomial.Degree.Lemmas
import Mathlib.Data.List.GetD

/-!
# The basis functions and their derivatives are polynomials in every element (helper lemmas)
-/

namespace SplineLib
set_option linter.unusedSectionVars false
open Finset Elem
variable {K : Type} [Field K] [LinearOrder K] [IsStrictOrderedRing K]

theorem zip_tail_getD' {d : List K} {i : ℕ} (h : i + 1 < d.length) : (d.zip d.tail).getD i (0, 0) = (d.getD i 0, d.getD (i + 1) 0) := by
  have h1 : i < (d.zip d.tail).length := by simp; omega
  rw [List.getD_eq_getElem _ _ h1, List.getElem_zip, List.getElem_tail, List.getD_eq_getElem _ _ (by omega), List.getD_eq_getElem _ _ h]

theorem Nb_poly (u : ℕ → K) (c : ℕ → K) : ∀ p i, ∃ q : Polynomial K, q.natDegree ≤ p ∧ ∀ x, Nb u x c p i = q.eval x
  | 0, i => ⟨Polynomial.C (c i), by simp, fun x => by simp [Nb]⟩
  | p + 1, i => by
    obtain ⟨q, h1, h2⟩ := Nb_poly u c p i
    obtain ⟨r, h3, h4⟩ := Nb_poly u c p (i + 1)
    refine ⟨Polynomial.C (1 / (u (i + p + 1) - u i)) * (Polynomial.X - Polynomial.C (u i)) * q +
      Polynomial.C (1 / (u (i + p + 2) - u (i + 1))) * (Polynomial.C (u (i + p + 2)) - Polynomial.X) * r, ?_, fun x => ?_⟩
    · refine (Polynomial.natDegree_add_le _ _).trans (max_le ?_ ?_)
      · refine Polynomial.natDegree_mul_le.trans ?_
        have : (Polynomial.C (1 / (u (i + p + 1) - u i)) * (Polynomial.X - Polynomial.C (u i))).natDegree ≤ 1 :=
          (Polynomial.natDegree_C_mul_le _ _).trans (by rw [Polynomial.natDegree_X_sub_C])
        omega
      · refine Polynomial.natDegree_mul_le.trans ?_
        have : (Polynomial.C (1 / (u (i + p + 2) - u (i + 1))) * (Polynomial.C (u (i + p + 2)) - Polynomial.X)).natDegree ≤ 1 :=
          (Polynomial.natDegree_C_mul_le _ _).trans ((Polynomial.natDegree_sub_le _ _).trans (by simp))
        omega
    · simp only [Nb, h2, h4, Polynomial.eval_add, Polynomial.eval_mul, Polynomial.eval_C, Polynomial.eval_sub, Polynomial.eval_X]
      ring

/-- In an element the derivatives of the basis functions are polynomials. -/
theorem coxDeriv_poly {U : List K} (hs : SortedKnots U) {j : ℕ} (hj : j + 1 < U.length) : ∀ (k p i : ℕ), i + p + 1 < U.length →
    ∃ q : Polynomial K, q.natDegree ≤ p - k ∧ ∀ x, knot U j ≤ x → x < knot U (j + 1) → coxDeBoorDeriv U p k i x = q.eval x
  | 0, p, i, hi => by
    obtain ⟨q, h1, h2⟩ := Nb_poly (ku U) (delta j) p i
    refine ⟨q, h1, fun x hx1 hx2 => ?_⟩
    rw [coxDeBoorDeriv, cox_eq_Nb hs hj (Or.inl ⟨hx1, hx2⟩) hi, h2]
  | k + 1, 0, i, hi => ⟨0, by simp, fun x _ _ => by simp [coxDeBoorDeriv]⟩
  | k + 1, p + 1, i, hi => by
    obtain ⟨q, h1, h2⟩ := coxDeriv_poly hs hj k p i (by omega)
    obtain ⟨r, h3, h4⟩ := coxDeriv_poly hs hj k p (i + 1) (by omega)
    refine ⟨Polynomial.C ((p + 1 : K) / (knot U (i + p + 1) - knot U i)) * q - Polynomial.C ((p + 1 : K) / (knot U (i + p + 2) - knot U (i + 1))) * r,
      ?_, fun x hx1 hx2 => ?_⟩
    · refine (Polynomial.natDegree_sub_le _ _).trans (max_le ?_ ?_)
      · exact (Polynomial.natDegree_C_mul_le _ _).trans (by omega)
      · exact (Polynomial.natDegree_C_mul_le _ _).trans (by omega)
    · rw [coxDeBoorDeriv, h2 x hx1 hx2, h4 x hx1 hx2]
      simp only [Polynomial.eval_mul, Polynomial.eval_C, Polynomial.eval_sub]
      ring

theorem coxDeriv_poly_elem {U : List K} {p : ℕ} (h : WFKnots U p) {e : ℕ} (he : e < ((uniq U).zip (uniq U).tail).length) {i k : ℕ}
    (hi : i < U.length - p - 1) : ∃ q : Polynomial K, q.natDegree ≤ p - k ∧ ∀ x, (((uniq U).zip (uniq U).tail).getD e (0, 0)).1 ≤ x →
      x < (((uniq U).zip (uniq U).tail).getD e (0, 0)).2 → coxDeBoorDeriv U p k i x = q.eval x := by
  have he' : e + 1 < (uniq U).length := by simp at he; omega
  obtain ⟨j, hj, h1, h2⟩ := element_span h.sorted he'
  rw [zip_tail_getD' he', List.getD_eq_getElem _ _ (by omega), List.getD_eq_getElem _ _ he', ← h1, ← h2]
  exact coxDeriv_poly h.sorted hj k p i (by omega)

theorem uniq_first {U : List K} (hs : SortedKnots U) (hne : U ≠ []) : (uniq U).getD 0 0 = knot U 0 := by
  have h1 := List.length_pos_iff.2 (uniq_ne_nil hne)
  have h2 := List.length_pos_iff.2 hne
  rw [List.getD_eq_getElem _ _ h1]
  apply le_antisymm
  · obtain ⟨m, hm, hme⟩ := List.mem_iff_getElem.1 (mem_uniq.2 (knot_mem h2))
    rw [← hme]
    rcases Nat.eq_zero_or_pos m with rfl | h
    · exact le_refl _
    · exact (uniq_getElem_lt hs h hm).le
  · obtain ⟨i, hi, hie⟩ := mem_iff_knot.1 (mem_uniq.1 (List.getElem_mem h1))
    rw [← hie]
    exact hs.mono (Nat.zero_le _) hi

theorem uniq_last {U : List K} (hs : SortedKnots U) (hne : U ≠ []) : (uniq U).getD ((uniq U).length - 1) 0 = lastKnot U := by
  have h1 := List.length_pos_iff.2 (uniq_ne_nil hne)
  have h2 := List.length_pos_iff.2 hne
  have h3 : (uniq U).length - 1 < (uniq U).length := by omega
  rw [List.getD_eq_getElem _ _ h3]
  have hm : lastKnot U ∈ U := knot_mem (show U.length - 1 < U.length by omega)
  apply le_antisymm
  · obtain ⟨i, hi, hie⟩ := mem_iff_knot.1 (mem_uniq.1 (List.getElem_mem h3))
    rw [← hie]
    exact hs.le_last hi
  · obtain ⟨m, hm, hme⟩ := List.mem_iff_getElem.1 (mem_uniq.2 hm)
    rw [← hme]
    rcases Nat.lt_or_ge m ((uniq U).length - 1) with h | h
    · exact (uniq_getElem_lt hs h h3).le
    · have : m = (uniq U).length - 1 := by omega
      subst this
      exact le_refl _

/-- Every parameter below the last knot lies in an element. -/
theorem exists_element {U : List K} (hs : SortedKnots U) (hne : U ≠ []) {x : K} (h0 : knot U 0 ≤ x) (h1 : x < lastKnot U) :
    ∃ (n : ℕ) (ab : K × K), ((uniq U).zip (uniq U).tail)[n]? = some ab ∧ ab.1 ≤ x ∧ x < ab.2 := by
  have hl := List.length_pos_iff.2 (uniq_ne_nil hne)
  have hex : ∃ m, m < (uniq U).length ∧ x < (uniq U).getD m 0 := ⟨(uniq U).length - 1, by omega, by rw [uniq_last hs hne]; exact h1⟩
  obtain ⟨hm, hx⟩ := Nat.find_spec hex
  have hmin := fun j (hj : j < Nat.find hex) => Nat.find_min hex hj
  set m := Nat.find hex
  have hm0 : m ≠ 0 := by
    intro h
    rw [h, uniq_first hs hne] at hx
    exact absurd hx (not_lt.2 h0)
  obtain ⟨n, hn⟩ : ∃ n, m = n + 1 := ⟨m - 1, by omega⟩
  rw [hn] at hm hx
  have hz : n < ((uniq U).zip (uniq U).tail).length := by simp; omega
  refine ⟨n, _, List.getElem?_eq_getElem hz, ?_, ?_⟩
  · have h2 : ¬ (n < (uniq U).length ∧ x < (uniq U).getD n 0) := hmin n (by omega)
    rw [← List.getD_eq_getElem _ (0, 0) hz, zip_tail_getD' hm]
    by_contra hc
    exact h2 ⟨by omega, not_le.1 hc⟩
  · rw [← List.getD_eq_getElem _ (0, 0) hz, zip_tail_getD' hm]
    exact hx

end SplineLib
