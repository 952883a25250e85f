import Verif.Core.Eval

/-!
# Partition of unity, non-negativity, end point values (helper lemmas)
-/

namespace SplineLib
set_option linter.unusedSectionVars false
open Finset

section
variable {K : Type} [Field K] [LinearOrder K] [IsStrictOrderedRing K]

theorem cox_active {U : List K} {p : ℕ} (h : WFKnots U p) {x : K} (h0 : knot U 0 ≤ x) (h1 : x ≤ lastKnot U) {i : ℕ}
    (hi : i + p + 1 < U.length) : coxDeBoor U p i x = Nb (ku U) x (delta (spanIx U x)) p i := by
  obtain ⟨_, h2, h3, h4⟩ := h.span h0 h1
  exact cox_eq_Nb h.sorted (by omega) h2 hi

theorem cox_window_sum {U : List K} {p : ℕ} (h : WFKnots U p) {x : K} (h0 : knot U 0 ≤ x) (h1 : x ≤ lastKnot U) :
    ∑ j ∈ range (p + 1), coxDeBoor U p (j + (spanIx U x - p)) x = 1 := by
  obtain ⟨_, h2, h3, h4⟩ := h.span h0 h1
  have hlt := inSpan_lt h2
  rw [← ku_eq (by omega), ← ku_eq (by omega)] at hlt
  rw [← Nb_sum (ku_mono h.sorted) hlt (x := x) p (spanIx U x - p) (by omega)]
  apply sum_congr rfl
  intro j hj
  have := mem_range.1 hj
  rw [cox_active h h0 h1 (by omega), add_comm]

theorem cox_sum {U : List K} {p : ℕ} (h : WFKnots U p) {x : K} (h0 : knot U 0 ≤ x) (h1 : x ≤ lastKnot U) :
    ∑ i ∈ range (U.length - p - 1), coxDeBoor U p i x = 1 := by
  obtain ⟨_, h2, h3, h4⟩ := h.span h0 h1
  rw [sum_window (n := U.length - p - 1) (o := spanIx U x - p) (w := p + 1) (by omega), cox_window_sum h h0 h1]
  intro i hi hio
  exact coxDeBoor_zero_of h h0 h1 (by omega) (by omega)

theorem cox_nonneg {U : List K} {p : ℕ} (h : WFKnots U p) {x : K} (h0 : knot U 0 ≤ x) (h1 : x ≤ lastKnot U) {i : ℕ}
    (hi : i + p + 1 < U.length) : 0 ≤ coxDeBoor U p i x := by
  obtain ⟨_, h2, h3, h4⟩ := h.span h0 h1
  rw [cox_active h h0 h1 hi]
  apply Nb_nonneg (ku_mono h.sorted)
  · rw [ku_eq (by omega)]; rcases h2 with h2 | h2
    · exact h2.1
    · exact h2.1.le
  · rw [ku_eq (by omega)]; rcases h2 with h2 | h2
    · exact h2.2.le
    · exact h2.2.1.le

/-- At the left end of a span preceded by equal knots only one function is non-zero. -/
theorem Nb_left {u : ℕ → K} {k : ℕ} {x : K} (hlt : x < u (k + 1)) : ∀ (p a : ℕ), k = a + p →
    (∀ j, a < j → j ≤ k → u j = x) → ∀ i, Nb u x (delta k) p i = if i = a then 1 else 0 := by
  intro p
  induction p with
  | zero => intro a h _ i; simp only [Nb, delta]; congr 1; simp [h]
  | succ p ih =>
    intro a h hu i
    have ih' := ih (a + 1) (by omega) (fun j h1 h2 => hu j (by omega) h2)
    simp only [Nb, ih']
    by_cases h1 : i = a + 1
    · subst h1
      rw [hu (a + 1) (by omega) (by omega)]
      simp
    · by_cases h2 : i = a
      · subst h2
        have e1 : i + p + 2 = k + 1 := by omega
        rw [e1, hu (i + 1) (by omega) (by omega)]
        have : u (k + 1) - x ≠ 0 := (sub_pos.2 hlt).ne'
        simp [this]
      · simp [h1, h2]

/-- At the right end of a span followed by equal knots only one function is non-zero. -/
theorem Nb_right {u : ℕ → K} {k : ℕ} {x : K} (hlt : u k < x) : ∀ (p : ℕ),
    (∀ j, k < j → j ≤ k + p → u j = x) → ∀ i, Nb u x (delta k) p i = if i = k then 1 else 0 := by
  intro p
  induction p with
  | zero => intro _ i; simp only [Nb, delta]
  | succ p ih =>
    intro hu i
    have ih' := ih (fun j h1 h2 => hu j h1 (by omega))
    simp only [Nb, ih']
    by_cases h1 : i = k
    · subst h1
      rw [hu (i + p + 1) (by omega) (by omega)]
      have : x - u i ≠ 0 := (sub_pos.2 hlt).ne'
      simp [this]
    · by_cases h2 : i + 1 = k
      · rw [hu (i + p + 2) (by omega) (by omega)]
        simp [h1]
      · simp [h1, h2]

theorem spanIx_unique {U : List K} {p : ℕ} (h : WFKnots U p) {x : K} (h0 : knot U 0 ≤ x) (h1 : x ≤ lastKnot U) {k : ℕ}
    (hk : k + 1 < U.length) (hx : InSpan U k x) : spanIx U x = k := by
  obtain ⟨_, h2, h3, h4⟩ := h.span h0 h1
  exact InSpan.unique h.sorted (by omega) hk h2 hx

theorem cox_first {U : List K} {p : ℕ} (h : WFKnots U p) (hm : knot U p < knot U (p + 1)) {i : ℕ} (hi : i + p + 1 < U.length) :
    coxDeBoor U p i (knot U 0) = if i = 0 then 1 else 0 := by
  have hs := h.size
  have e := h.first p (le_refl _)
  have hsp : InSpan U p (knot U 0) := Or.inl ⟨e.le, by rw [← e]; exact hm⟩
  rw [cox_eq_Nb h.sorted (by omega) hsp hi]
  apply Nb_left _ p 0 (by omega)
  · intro j h1 h2; rw [ku_eq (by omega)]; exact h.first j h2
  · rw [ku_eq (by omega), ← e]; exact hm

theorem cox_last {U : List K} {p : ℕ} (h : WFKnots U p) (hm : knot U (U.length - p - 2) < lastKnot U) {i : ℕ}
    (hi : i + p + 1 < U.length) :
    coxDeBoor U p i (lastKnot U) = if i = U.length - p - 2 then 1 else 0 := by
  have hs := h.size
  have e : ∀ j, U.length - p - 2 < j → j < U.length → knot U j = lastKnot U := by
    intro j h1 h2
    have := h.last (U.length - 1 - j) (by omega)
    rwa [show U.length - 1 - (U.length - 1 - j) = j by omega] at this
  have e1 := e (U.length - p - 2 + 1) (by omega) (by omega)
  have hsp : InSpan U (U.length - p - 2) (lastKnot U) := Or.inr ⟨hm, e1.symm, rfl⟩
  rw [cox_eq_Nb h.sorted (by omega) hsp hi]
  apply Nb_right _ p
  · intro j h1 h2; rw [ku_eq (by omega)]; exact e j h1 (by omega)
  · rw [ku_eq (by omega)]; exact hm

/-! ### Tensor products -/

theorem basisFns_length {Us : List (List K)} {ps : List ℕ} (h : List.Forall₂ WFKnots Us ps) :
    ∀ {xs : List K}, Dom Us xs → (basisFns Us ps xs).length = Us.length := by
  induction h with
  | nil => intro xs hx; cases hx; rfl
  | cons h _ ih =>
    intro xs hx
    cases hx with
    | cons hx hxs => simp [basisFns, ih hxs]

theorem tensor_unity {Us : List (List K)} {ps : List ℕ} (h : List.Forall₂ WFKnots Us ps) :
    ∀ {xs : List K}, Dom Us xs →
      msum (List.zipWith (fun U p => U.length - p - 1) Us ps) (dprod (basisFns Us ps xs)) = 1 := by
  induction h with
  | nil => intro xs hx; cases hx; simp [msum, dprod]
  | @cons U p Us ps h _ ih =>
    intro xs hx
    cases hx with
    | @cons _ a _ as hx hxs =>
      simp only [List.zipWith_cons_cons, basisFns, msum, dprod, msum_mul_left, ih hxs, mul_one]
      exact cox_sum h hx.1 hx.2

theorem tensor_nonneg {Us : List (List K)} {ps : List ℕ} (h : List.Forall₂ WFKnots Us ps) :
    ∀ {xs : List K} {I : List ℕ}, Dom Us xs → InBox (List.zipWith (fun U p => U.length - p - 1) Us ps) I →
      0 ≤ dprod (basisFns Us ps xs) I := by
  induction h with
  | nil => intro xs I hx hI; cases hx; simp [basisFns, dprod]
  | @cons U p Us ps h _ ih =>
    intro xs I hx hI
    cases hx with
    | @cons _ a _ as hx hxs =>
      cases I with
      | nil => simp at hI
      | cons i I =>
        simp only [List.zipWith_cons_cons, inBox_cons] at hI
        simp only [basisFns, dprod]
        exact mul_nonneg (cox_nonneg h hx.1 hx.2 (by omega)) (ih hxs hI.2)

theorem msum_nonneg {ns : List ℕ} {f : List ℕ → K} (h : ∀ I, InBox ns I → 0 ≤ f I) : 0 ≤ msum ns f := by
  induction ns generalizing f with
  | nil => exact h [] inBox_nil
  | cons n ns ih =>
    exact sum_nonneg fun i hi => ih fun I hI => h _ (inBox_cons.2 ⟨mem_range.1 hi, hI⟩)

theorem msum_le {ns : List ℕ} {f g : List ℕ → K} (h : ∀ I, InBox ns I → f I ≤ g I) : msum ns f ≤ msum ns g := by
  induction ns generalizing f g with
  | nil => exact h [] inBox_nil
  | cons n ns ih =>
    exact sum_le_sum fun i hi => ih fun I hI => h _ (inBox_cons.2 ⟨mem_range.1 hi, hI⟩)

theorem msum_sub (ns : List ℕ) (f g : List ℕ → K) : msum ns (fun I => f I - g I) = msum ns f - msum ns g := by
  have := msum_add ns (fun I => f I - g I) g
  simp only [sub_add_cancel] at this
  rw [this]; ring

theorem msum_finset_sum {ι : Type*} (t : Finset ι) (ns : List ℕ) (f : ι → List ℕ → K) :
    msum ns (fun I => ∑ j ∈ t, f j I) = ∑ j ∈ t, msum ns (f j) := msum_sum_comm t ns f

/-- If all terms are non-negative, the sum is zero only if every term is. -/
theorem msum_eq_zero_imp {ns : List ℕ} {f : List ℕ → K} (h : ∀ I, InBox ns I → 0 ≤ f I) (h0 : msum ns f = 0) :
    ∀ I, InBox ns I → f I = 0 := by
  induction ns generalizing f with
  | nil => intro I hI; rw [inBox_nil_iff] at hI; subst hI; exact h0
  | cons n ns ih =>
    intro I hI
    cases I with
    | nil => simp at hI
    | cons i I =>
      simp only [inBox_cons] at hI
      simp only [msum] at h0
      have := (sum_eq_zero_iff_of_nonneg (fun i hi => msum_nonneg fun J hJ => h _ (inBox_cons.2 ⟨mem_range.1 hi, hJ⟩))).1 h0 i
        (mem_range.2 hI.1)
      exact ih (f := fun t => f (i :: t)) (fun J hJ => h _ (inBox_cons.2 ⟨hI.1, hJ⟩)) this I hI.2

theorem wgt_pos {s : Spl K} (h : WFSpl s) {I : List ℕ} (hI : InBox (npts s) I) : 0 < wgt s I := by
  unfold wgt
  cases hw : s.ph.weights with
  | none => exact one_pos
  | some w =>
    obtain ⟨h1, h2⟩ := h.weights w hw
    have hlt : lin (npts s) I < w.length := by rw [h1]; exact lin_lt hI
    apply h2
    simp only [List.getD_eq_getElem?_getD, List.getElem?_eq_getElem hlt, Option.getD_some]
    exact List.getElem_mem hlt

theorem weightValue_pos {s : Spl K} (h : WFSpl s) {x : List K} (hx : Dom s.ps.knots x) : 0 < weightValue s x := by
  have hnn : ∀ I, InBox (npts s) I → 0 ≤ dprod (basisFns s.ps.knots s.ps.degree x) I * wgt s I := fun I hI =>
    mul_nonneg (tensor_nonneg h.knots hx hI) (wgt_pos h hI).le
  rcases lt_or_eq_of_le (show 0 ≤ weightValue s x from msum_nonneg hnn) with h' | h'
  · exact h'
  · exfalso
    have hz := msum_eq_zero_imp hnn h'.symm
    have h1 := tensor_unity h.knots hx
    have : msum (npts s) (dprod (basisFns s.ps.knots s.ps.degree x)) = msum (npts s) fun _ => (0 : K) :=
      msum_congr fun I hI => by
        have := hz I hI
        rcases mul_eq_zero.1 this with h | h2
        · exact h
        · exact absurd h2 (wgt_pos h hI).ne'
    rw [msum_zero] at this
    have h2 : msum (npts s) (dprod (basisFns s.ps.knots s.ps.degree x)) = 1 := h1
    rw [h2] at this
    exact one_ne_zero this

end
end SplineLib
