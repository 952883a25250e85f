import Verif.Core.Span
import Mathlib.Algebra.BigOperators.Intervals
import Mathlib.Algebra.Order.BigOperators.Group.Finset

/-!
# Properties C28, C29, C30 (knot vectors), C45
-/

namespace SplineLib
set_option linter.unusedSectionVars false
variable {K : Type} [Field K] [LinearOrder K] [IsStrictOrderedRing K]

/-! ### C28: span search -/

/-- C28: for `x` in the range `GetKnotSpan` returns a valid span index `k` with `u_k ≤ x < u_{k+1}`, or, for the last
knot, the last non-empty span `u_k < x = u_{k+1}`; no other index has this property. -/
theorem C28_knotSpan (U : List K) (hs : SortedKnots U) (hsep : Separated U) (hr : knot U 0 < lastKnot U) (x : K)
    (hx : knot U 0 ≤ x ∧ x ≤ lastKnot U) :
    ∃ k : ℕ, kvSpan U x = .ok (k : ℤ) ∧ k + 1 < U.length ∧
      (x < lastKnot U → knot U k ≤ x ∧ x < knot U (k + 1)) ∧
      (x = lastKnot U → knot U k < x ∧ x = knot U (k + 1)) ∧
      ∀ j, j + 1 < U.length → (knot U j ≤ x ∧ x < knot U (j + 1) ∨ x = lastKnot U ∧ knot U j < x ∧ x = knot U (j + 1)) →
        j = k := by
  obtain ⟨h1, h2, h3⟩ := span_correct hs hsep hr hx.1 hx.2
  refine ⟨spanIx U x, h1, h2, ?_, ?_, ?_⟩
  · intro hlt
    rcases h3 with h3 | h3
    · exact h3
    · exact absurd h3.2.2 (ne_of_lt hlt)
  · intro he
    rcases h3 with h3 | h3
    · exfalso; have := hs.le_last h2; linarith [h3.2]
    · exact ⟨h3.1, h3.2.1⟩
  · intro j hj hin
    refine InSpan.unique hs hj h2 ?_ h3
    rcases hin with hin | hin
    · exact Or.inl hin
    · exact Or.inr ⟨hin.2.1, hin.2.2, hin.1⟩

/-- C28, the separation hypothesis is needed: with an interior knot closer than `kEpsilon` to the last knot, the span
returned for that interior knot does not contain it. -/
theorem C28_needs_separation :
    ∃ (U : List ℚ) (x : ℚ), SortedKnots U ∧ knot U 0 ≤ x ∧ x < lastKnot U ∧
      kvSpan U x = .ok 1 ∧ ¬ (knot U 1 ≤ x ∧ x < knot U 2) := by
  refine ⟨[0, 0, 1 - 1 / 2 ^ 52, 1, 1], 1 - 1 / 2 ^ 52, by decide +kernel, by decide +kernel, by decide +kernel, ?_,
    by decide +kernel⟩
  rw [kvSpan_eq (by simp)]
  have h : lowerBound ([0, 0, 1 - 1 / 2 ^ 52, 1, 1] : List ℚ) (1 - 1 / 2 ^ 52) = 2 := by
    obtain ⟨a1, a2, a3⟩ := lowerBound_spec (U := ([0, 0, 1 - 1 / 2 ^ 52, 1, 1] : List ℚ)) (by decide +kernel) (1 - 1 / 2 ^ 52)
    generalize lowerBound ([0, 0, 1 - 1 / 2 ^ 52, 1, 1] : List ℚ) (1 - 1 / 2 ^ 52) = n at *
    rcases Nat.lt_trichotomy n 2 with h | h | h
    · have h1 := a3 1 (by simp) (by omega)
      exact absurd h1 (by decide +kernel)
    · exact h
    · have h1 := a2 2 (by simp) (by omega)
      exact absurd h1 (by decide +kernel)
  rw [h]
  decide +kernel

/-! ### C29: insertion and removal of knots -/

/-- C29: `InsertKnot` of any value into any non-empty sorted vector keeps it sorted, adds one knot, and raises the
multiplicity of exactly that value by one. -/
theorem C29_insert (U : List K) (hne : U ≠ []) (hs : SortedKnots U) (x : K) :
    ∃ V, kvInsert U x = .ok V ∧ SortedKnots V ∧ V.length = U.length + 1 ∧
      ∀ y, kvMult V y = kvMult U y + if y = x then 1 else 0 := by
  obtain ⟨p, hp, hspan, h1, h2⟩ : ∃ p ≤ U.length, kvSpan U x = .ok ((p : ℤ) - 1) ∧
      (∀ i < p, knot U i ≤ x) ∧ (∀ i < U.length, p ≤ i → x ≤ knot U i) := by
    rw [kvSpan_eq hne]
    split
    · obtain ⟨a1, a2, a3⟩ := lowerBound_spec hs x
      exact ⟨_, a1, rfl, fun i hi => (a2 i (by omega) hi).le, a3⟩
    · obtain ⟨a1, a2, a3⟩ := upperBound_spec hs x
      exact ⟨_, a1, rfl, fun i hi => a2 i (by omega) hi, fun i hi h => (a3 i hi h).le⟩
  refine ⟨U.insertIdx p x, ?_, sorted_insertIdx hs hp h1 h2, List.length_insertIdx_of_le_length hp x,
    fun y => count_insertIdx hp x y⟩
  simp [kvInsert, hspan, bind, Except.bind, pure, Except.pure, hp]

/-- C29: `RemoveKnot` of a present value removes exactly one copy of it. -/
theorem C29_remove_present (U : List K) (hs : SortedKnots U) (hsep : Separated U) (x : K) (hx : x ∈ U) :
    ∃ V, kvRemove U x = .ok V ∧ SortedKnots V ∧ V.length + 1 = U.length ∧
      ∀ y, kvMult V y + (if y = x then 1 else 0) = kvMult U y := by
  have hne : U ≠ [] := by rintro rfl; simp at hx
  have hlen : 0 < U.length := List.length_pos_iff.2 hne
  have hle : x ≤ lastKnot U := by
    obtain ⟨i, hi, rfl⟩ := mem_iff_knot.1 hx
    exact hs.le_last hi
  by_cases hl : |x - lastKnot U| < kEps K
  · have he : x = lastKnot U := by
      rcases lt_or_eq_of_le hle with h | h
      · have := hsep _ hx _ (lastKnot_mem hne) h
        rw [abs_lt] at hl; linarith [hl.1]
      · exact h
    refine ⟨U.eraseIdx (U.length - 1), ?_, sorted_eraseIdx hs _, ?_, ?_⟩
    · simp [kvRemove, kvSpan_eq hne, kvIsLast_eq hne, bind, Except.bind, pure, Except.pure, hl]
    · rw [List.length_eraseIdx_of_lt (by omega)]; omega
    · intro y
      have := count_eraseIdx (U := U) (k := U.length - 1) (by omega) y
      rw [he]; exact this
  · obtain ⟨a1, a2, a3⟩ := upperBound_spec hs x
    obtain ⟨i, hi, hix⟩ := mem_iff_knot.1 hx
    have hpos : i < upperBound U x := by
      by_contra hc
      have := a3 i hi (by omega)
      rw [hix] at this; exact lt_irrefl _ this
    have hk : knot U (upperBound U x - 1) = x := by
      apply le_antisymm (a2 _ (by omega) (by omega))
      have := hs.mono (show i ≤ upperBound U x - 1 by omega) (by omega)
      rwa [hix] at this
    refine ⟨U.eraseIdx (upperBound U x - 1), ?_, sorted_eraseIdx hs _, ?_, ?_⟩
    · have h3 : ((upperBound U x : ℤ) - 1).toNat = upperBound U x - 1 := by omega
      have h4 : (1 : ℤ) ≤ upperBound U x ∧ (upperBound U x : ℤ) - 1 < U.length := by omega
      simp [kvRemove, kvSpan_eq hne, kvIsLast_eq hne, bind, Except.bind, pure, Except.pure, hl, h3, h4]
    · rw [List.length_eraseIdx_of_lt (by omega)]; omega
    · intro y
      have := count_eraseIdx (U := U) (k := upperBound U x - 1) (by omega) y
      rw [hk] at this; exact this

/-- C29: "RemoveKnot of an absent value changes nothing" is false of the code. For an absent value strictly inside the
range (further than `kEpsilon` from the last knot) the largest knot below the value is erased; for a value below the
first knot the erased position is `begin() - 1` (undefined behaviour). -/
theorem C29_remove_absent_counterexample (U : List K) (hs : SortedKnots U) (hne : U ≠ []) (x : K) (hx : x ∉ U)
    (hl : x ≤ lastKnot U - kEps K) :
    (knot U 0 < x → ∃ V, kvRemove U x = .ok V ∧ V.length + 1 = U.length ∧
      ∃ y ∈ U, y < x ∧ (∀ z ∈ U, z < x → z ≤ y) ∧ kvMult V y + 1 = kvMult U y) ∧
    (x < knot U 0 → kvRemove U x = .error .ub) := by
  have hnl : ¬ |x - lastKnot U| < kEps K := by rw [abs_lt]; intro h; linarith [h.1]
  have hlen : 0 < U.length := List.length_pos_iff.2 hne
  obtain ⟨a1, a2, a3⟩ := upperBound_spec hs x
  refine ⟨?_, ?_⟩
  · intro h0
    have hpos : 0 < upperBound U x := by
      by_contra hc
      have := a3 0 hlen (by omega)
      exact lt_asymm h0 this
    have h3 : ((upperBound U x : ℤ) - 1).toNat = upperBound U x - 1 := by omega
    have h4 : (1 : ℤ) ≤ upperBound U x ∧ (upperBound U x : ℤ) - 1 < U.length := by omega
    refine ⟨U.eraseIdx (upperBound U x - 1), ?_, ?_, knot U (upperBound U x - 1), knot_mem (by omega), ?_, ?_, ?_⟩
    · simp [kvRemove, kvSpan_eq hne, kvIsLast_eq hne, bind, Except.bind, pure, Except.pure, hnl, h3, h4]
    · rw [List.length_eraseIdx_of_lt (by omega)]; omega
    · refine lt_of_le_of_ne (a2 _ (by omega) (by omega)) ?_
      intro h; exact hx (h ▸ knot_mem (by omega))
    · intro z hz hzx
      obtain ⟨j, hj, rfl⟩ := mem_iff_knot.1 hz
      have : j < upperBound U x := by
        by_contra hc
        have := a3 j hj (by omega)
        exact lt_asymm this hzx
      exact hs.mono (by omega) (by omega)
    · have := count_eraseIdx (U := U) (k := upperBound U x - 1) (by omega) (knot U (upperBound U x - 1))
      simpa [kvMult] using this
  · intro h0
    have hz : upperBound U x = 0 := by
      by_contra hc
      have := a2 0 hlen (by omega)
      exact lt_irrefl _ (lt_of_lt_of_le h0 this)
    simp [kvRemove, kvSpan_eq hne, kvIsLast_eq hne, bind, Except.bind, hnl, hz]

/-- The hypotheses of `C29_remove_absent_counterexample` are satisfiable: removing `1/4` from `{0,0,1/2,1,1}`. -/
example : ∃ (U : List ℚ) (x : ℚ), SortedKnots U ∧ U ≠ [] ∧ x ∉ U ∧ x ≤ lastKnot U - kEps ℚ ∧ knot U 0 < x :=
  ⟨[0, 0, 1/2, 1, 1], 1/4, by decide +kernel, by decide +kernel, by decide +kernel, by decide +kernel, by decide +kernel⟩

/-! ### C30 for knot vectors -/

/-- Specification of closeness: same number of knots, pairwise closer than the tolerance. -/
def Close (tol : K) (U V : List K) : Prop :=
  U.length = V.length ∧ ∀ i < U.length, |knot U i - knot V i| < tol

/-- C30: `AreEqual(rhs, tol)` decides closeness. -/
theorem C30_knotVector_areEqual_iff (U V : List K) (tol : K) : kvAreEqual U V tol = true ↔ Close tol U V := by
  unfold kvAreEqual
  induction U generalizing V with
  | nil => cases V <;> simp [listClose, Close]
  | cons a U ih =>
    cases V with
    | nil => simp [listClose, Close]
    | cons b V =>
      simp only [listClose, Bool.and_eq_true, ih, areEqual, decide_eq_true_eq, Close, List.length_cons, Nat.add_right_cancel_iff]
      constructor
      · rintro ⟨h1, h2, h3⟩
        refine ⟨h2, ?_⟩
        intro i hi
        cases i with
        | zero => simpa [knot] using h1
        | succ i => simpa [knot] using h3 i (by omega)
      · rintro ⟨h2, h3⟩
        refine ⟨by simpa [knot] using h3 0 (by omega), h2, ?_⟩
        intro i hi
        simpa [knot] using h3 (i + 1) (by omega)

/-- C30: `AreEqual` is reflexive for every positive tolerance and symmetric. -/
theorem C30_knotVector_areEqual_refl_symm (U V : List K) (tol : K) :
    (0 < tol → kvAreEqual U U tol = true) ∧ (kvAreEqual U V tol = kvAreEqual V U tol) := by
  refine ⟨fun h => (C30_knotVector_areEqual_iff U U tol).2 ⟨rfl, by simp [h]⟩, ?_⟩
  rw [Bool.eq_iff_iff, C30_knotVector_areEqual_iff, C30_knotVector_areEqual_iff]
  constructor <;> rintro ⟨h1, h2⟩ <;> refine ⟨h1.symm, fun i hi => ?_⟩ <;> rw [abs_sub_comm] <;> exact h2 i (by omega)

/-- C30: `operator==` holds exactly for vectors of the same length whose knots are pairwise closer than `kEpsilon`; it is reflexive and
symmetric. -/
theorem C30_knotVector_eq_iff_refl_symm (U V : List K) :
    (kvEq U V = true ↔ Close (kEps K) U V) ∧ kvEq U U = true ∧ kvEq U V = kvEq V U :=
  ⟨C30_knotVector_areEqual_iff U V (kEps K), (C30_knotVector_areEqual_refl_symm U U (kEps K)).1 kEps_pos,
    (C30_knotVector_areEqual_refl_symm U V (kEps K)).2⟩

/-- C30: contrary to the claim, `operator==` is not transitive. -/
theorem C30_knotVector_eq_not_transitive :
    ∃ U V W : List ℚ, kvEq U V = true ∧ kvEq V W = true ∧ kvEq U W = false :=
  ⟨[0, 1], [0, 1 + 6 / 2 ^ 52], [0, 1 + 12 / 2 ^ 52], by decide +kernel, by decide +kernel, by decide +kernel⟩

/-- C30: what remains of transitivity: tolerances add up. -/
theorem C30_knotVector_areEqual_trans_partial (U V W : List K) (s t : K) :
    kvAreEqual U V s = true → kvAreEqual V W t = true → kvAreEqual U W (s + t) = true := by
  simp only [C30_knotVector_areEqual_iff]
  rintro ⟨h1, h2⟩ ⟨h3, h4⟩
  refine ⟨h1.trans h3, fun i hi => ?_⟩
  have e : knot U i - knot W i = (knot U i - knot V i) + (knot V i - knot W i) := by ring
  rw [e]
  exact lt_of_le_of_lt (abs_add_le _ _) (add_lt_add (h2 i hi) (h4 i (by omega)))

/-! ### C77: differences of knot vectors -/

/-- C77: the difference has the differences of the knots, one for every knot of the left operand; further knots of the right operand are
ignored. -/
theorem C77_difference (U V : List K) (h : U.length ≤ V.length) :
    ∃ D, kvSub U V = .ok D ∧ D.length = U.length ∧ ∀ i < U.length, knot D i = knot U i - knot V i := by
  refine ⟨_, if_pos h, by simpa using h, fun i hi => ?_⟩
  have hv : i < V.length := by omega
  simp [knot, List.getElem?_eq_getElem hi, List.getElem?_eq_getElem hv, List.getElem?_zipWith]

/-- C77: a right operand with fewer knots is read behind its end. -/
theorem C77_shorter_is_undefined (U V : List K) (h : V.length < U.length) : kvSub U V = .error .ub := if_neg (by omega)

/-- C77: the difference of two knot vectors of the same length is small in every knot iff `AreEqual` calls them equal. Without the
condition on the lengths this is false (`C77_lengths_matter`). -/
theorem C77_difference_small_iff (U V : List K) (hl : U.length = V.length) (tol : K) :
    (∃ D, kvSub U V = .ok D ∧ ∀ x ∈ D, |x| < tol) ↔ kvAreEqual U V tol = true := by
  rw [C30_knotVector_areEqual_iff]
  obtain ⟨D, hD, hn, hk⟩ := C77_difference U V hl.le
  constructor
  · rintro ⟨D', hD', h⟩
    obtain rfl : D = D' := Except.ok.inj (hD.symm.trans hD')
    refine ⟨hl, fun i hi => ?_⟩
    rw [← hk i hi]
    have hi' : i < D.length := by omega
    have := h D[i] (List.getElem_mem hi')
    simpa [knot, List.getElem?_eq_getElem hi'] using this
  · rintro ⟨-, h⟩
    refine ⟨D, hD, fun x hx => ?_⟩
    obtain ⟨i, hi, rfl⟩ := List.getElem_of_mem hx
    have := h i (by omega)
    rw [← hk i (by omega)] at this
    simpa [knot, List.getElem?_eq_getElem hi] using this

/-- C77: the difference of a knot vector and a longer one can be zero although they are different. -/
theorem C77_lengths_matter : ∃ U V : List ℚ, kvSub U V = .ok [0, 0] ∧ kvEq U V = false :=
  ⟨[0, 1], [0, 1, 2], by decide +kernel, by decide +kernel⟩

example : kvSub [0, 0, 1/2, 1, 1] [0, 0, 1/4, 1, 2] = .ok ([0, 0, 1/4, 0, -1] : List ℚ) := by decide +kernel
example : kvSub [0, 0, 1] [0, (0 : ℚ)] = .error .ub := by decide +kernel

/-! ### C45: averaged knot vectors -/

open Finset in
theorem sumFrom_eq (c : List K) (i : ℕ) : ∀ n, i + n ≤ c.length → sumFrom c i n = .ok (∑ j ∈ range n, knot c (i + j)) := by
  intro n
  induction n with
  | zero => intro _; simp [sumFrom]
  | succ n ih =>
    intro h
    simp [sumFrom, ih (by omega), getN_eq (show i + n < c.length by omega), bind, Except.bind, pure, Except.pure,
      sum_range_succ]

/-- Specification: the average of `p` consecutive parameters starting at index `i` (NURBS book eq. 9.8). -/
def windowAverage (c : List K) (p i : ℕ) : K := (∑ j ∈ Finset.range p, knot c (i + j)) / p

theorem averagedKnots_eq (c : List K) (p : ℕ) (hp : 0 < p) : ∀ n, n + p ≤ c.length →
    averagedKnots c p n = .ok ((List.range n).map fun i => windowAverage c p (i + 1)) := by
  intro n
  induction n with
  | zero => intro _; simp [averagedKnots]
  | succ n ih =>
    intro h
    have hp' : (p : K) ≠ 0 := by positivity
    simp [averagedKnots, ih (by omega), sumFrom_eq c (n + 1) p (by omega), fdiv, hp', bind, Except.bind, pure, Except.pure,
      List.range_succ, windowAverage]

theorem windowAverage_le {c : List K} {p i : ℕ} (hp : 0 < p) {b : K}
    (hb : ∀ j < p, knot c (i + j) ≤ b) : windowAverage c p i ≤ b := by
  have hp' : (0 : K) < p := by positivity
  rw [windowAverage, div_le_iff₀ hp']
  calc ∑ j ∈ Finset.range p, knot c (i + j) ≤ ∑ _j ∈ Finset.range p, b :=
        Finset.sum_le_sum fun j hj => hb j (Finset.mem_range.1 hj)
    _ = b * p := by rw [Finset.sum_const, Finset.card_range, nsmul_eq_mul, mul_comm]

theorem le_windowAverage {c : List K} {p i : ℕ} (hp : 0 < p) {b : K}
    (hb : ∀ j < p, b ≤ knot c (i + j)) : b ≤ windowAverage c p i := by
  have hp' : (0 : K) < p := by positivity
  rw [windowAverage, le_div_iff₀ hp']
  calc b * p = ∑ _j ∈ Finset.range p, b := by rw [Finset.sum_const, Finset.card_range, nsmul_eq_mul, mul_comm]
    _ ≤ ∑ j ∈ Finset.range p, knot c (i + j) := Finset.sum_le_sum fun j hj => hb j (Finset.mem_range.1 hj)

/-- C45: for increasing parameters starting at 0 (at least as many as control points), degree `p ≥ 1` and `nb > p` control
points, the averaging constructor yields exactly the knots `p+1` zeros, the averages, `p+1` copies of the last parameter;
this is a sorted knot vector with `nb + p + 1` knots. -/
theorem C45_averaged (c : List K) (p nb : ℕ) (hp : 1 ≤ p) (hnb : p + 1 ≤ nb) (hc : nb ≤ c.length)
    (hs : SortedKnots c) (h0 : knot c 0 = 0) :
    kvAveraged c p nb = .ok (List.replicate (p + 1) 0 ++ ((List.range (nb - 1 - p)).map fun i => windowAverage c p (i + 1)) ++
      List.replicate (p + 1) (lastKnot c)) ∧
    ∀ U, kvAveraged c p nb = .ok U →
      SortedKnots U ∧ U.length = nb + p + 1 ∧ (∀ j ≤ p, knot U j = 0) ∧
      (∀ j ≤ p, knot U (U.length - 1 - j) = lastKnot c) := by
  have hne : c ≠ [] := by rintro rfl; simp at hc; omega
  have hn : ((nb : ℤ) - 1 - p).toNat = nb - 1 - p := by omega
  have heq : kvAveraged c p nb = .ok (List.replicate (p + 1) 0 ++ ((List.range (nb - 1 - p)).map fun i => windowAverage c p (i + 1)) ++
      List.replicate (p + 1) (lastKnot c)) := by
    simp only [kvAveraged, hn, averagedKnots_eq c p (by omega) (nb - 1 - p) (by omega), kvLast_eq hne, bind, Except.bind,
      pure, Except.pure]
  refine ⟨heq, ?_⟩
  intro U hU
  rw [heq] at hU
  obtain rfl := Except.ok.inj hU
  have hnn : ∀ i < c.length, 0 ≤ knot c i := fun i hi => h0 ▸ hs.first_le hi
  have hlast : 0 ≤ lastKnot c := hnn _ (by omega)
  have hw : ∀ i < nb - 1 - p, 0 ≤ windowAverage c p (i + 1) ∧ windowAverage c p (i + 1) ≤ lastKnot c := by
    intro i hi
    exact ⟨le_windowAverage (by omega) fun j hj => hnn _ (by omega),
      windowAverage_le (by omega) fun j hj => hs.le_last (by omega)⟩
  refine ⟨?_, ?_, ?_, ?_⟩
  · unfold SortedKnots
    rw [List.pairwise_append, List.pairwise_append]
    refine ⟨⟨?_, ?_, ?_⟩, ?_, ?_⟩
    · simp [List.pairwise_replicate]
    · rw [List.pairwise_iff_getElem]
      intro i j hi hj hij
      simp at hi hj
      simp only [List.getElem_map, List.getElem_range, windowAverage]
      apply div_le_div_of_nonneg_right _ (by positivity)
      apply Finset.sum_le_sum
      intro k hk
      have := Finset.mem_range.1 hk
      exact hs.mono (by omega) (by omega)
    · intro a ha b hb
      simp at ha hb
      obtain ⟨i, hi, rfl⟩ := hb
      rw [ha]; exact (hw i hi).1
    · simp [List.pairwise_replicate]
    · intro a ha b hb
      simp at ha hb
      rw [hb]
      rcases ha with ha | ⟨i, hi, rfl⟩
      · rw [ha]; exact hlast
      · exact (hw i hi).2
  · simp; omega
  · intro j hj
    simp only [knot, List.getD_eq_getElem?_getD]
    rw [List.append_assoc, List.getElem?_append_left (by simp; omega)]
    rw [List.getElem?_replicate, if_pos (by omega)]; rfl
  · intro j hj
    simp only [knot, List.getD_eq_getElem?_getD]
    rw [List.getElem?_append_right (by simp; omega)]
    rw [List.getElem?_replicate, if_pos (by simp; omega)]
    rfl

example : ∃ (c : List ℚ), SortedKnots c ∧ knot c 0 = 0 ∧ kvAveraged c 2 4 = .ok [0, 0, 0, 3/8, 1, 1, 1] :=
  ⟨[0, 1/4, 1/2, 1], by decide +kernel, by decide +kernel, by decide +kernel⟩

/-! ### The hypotheses are satisfiable -/

example : SortedKnots ([0, 0, 1/2, 1, 1] : List ℚ) ∧ Separated ([0, 0, 1/2, 1, 1] : List ℚ) ∧
    knot ([0, 0, 1/2, 1, 1] : List ℚ) 0 < lastKnot ([0, 0, 1/2, 1, 1] : List ℚ) := by decide +kernel

end SplineLib
