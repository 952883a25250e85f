import Verif.Core.Variation
import Mathlib.LinearAlgebra.FiniteDimensional.Basic
import Mathlib.LinearAlgebra.Pi
import Mathlib.LinearAlgebra.FiniteDimensional.Lemmas
import Mathlib.Order.Interval.Finset.Fin

/-!
# Interpolation by splines

If every interpolation parameter lies inside the support of the basis function with the same index, the interpolation problem has exactly one solution
(the theorem of Schoenberg and Whitney). A spline with `r + 1` zeros, none of them a place where all coefficients vanish, has at least `r + 2` non-zero
coefficients: after insertion of knots between the zeros, the coefficients that belong to one zero have both signs.
-/

namespace SplineLib
set_option linter.unusedSectionVars false
open Finset
variable {K : Type} [Field K] [LinearOrder K] [IsStrictOrderedRing K]

theorem Nb_pos {u : ℕ → K} (hu : Monotone u) {k : ℕ} {x : K} (h1 : u k ≤ x) (h2 : x < u (k + 1)) : ∀ p i, u i ≤ x → x < u (i + p + 1) →
    (u i < x ∨ u (i + p) ≤ x) → 0 < Nb u x (delta k) p i := by
  intro p
  induction p with
  | zero =>
    intro i h3 h4 _
    have : i = k := by
      rcases lt_trichotomy i k with h | h | h
      · have := hu (show i + 0 + 1 ≤ k by omega); linarith
      · exact h
      · have := hu (show k + 1 ≤ i by omega); linarith
    subst this
    simp [Nb]
  | succ p ih =>
    intro i h3 h4 h5
    simp only [Nb]
    have n1 : 0 ≤ Nb u x (delta k) p i := Nb_nonneg hu h1 h2.le _ _
    have n2 : 0 ≤ Nb u x (delta k) p (i + 1) := Nb_nonneg hu h1 h2.le _ _
    have m1 := hu (show i ≤ i + p + 1 by omega)
    have m2 := hu (show i + 1 ≤ i + p + 2 by omega)
    have m3 := hu (show i + 1 ≤ i + p + 1 by omega)
    rw [show i + (p + 1) + 1 = i + p + 2 by ring] at h4
    rw [show i + (p + 1) = i + p + 1 by ring] at h5
    rcases lt_or_ge x (u (i + p + 1)) with h6 | h6
    · have h7 : u i < x := by
        rcases h5 with h | h
        · exact h
        · linarith
      refine add_pos_of_pos_of_nonneg (mul_pos (div_pos (by linarith) (by linarith)) (ih i h3 h6 (Or.inl h7))) ?_
      exact mul_nonneg (div_nonneg (by linarith) (by linarith)) n2
    · refine add_pos_of_nonneg_of_pos (mul_nonneg (div_nonneg (by linarith) (by linarith)) n1) ?_
      refine mul_pos (div_pos (by linarith) (by linarith)) (ih (i + 1) (by linarith) ?_ (Or.inr ?_))
      · rw [show i + 1 + p + 1 = i + p + 2 by ring]; exact h4
      · rw [show i + 1 + p = i + p + 1 by ring]; exact h6

theorem cox_pos {U : List K} {p : ℕ} (h : WFKnots U p) {x : K} {i : ℕ} (hi : i + p + 1 < U.length) (h1 : knot U i < x) (h2 : x < knot U (i + p + 1)) :
    0 < coxDeBoor U p i x := by
  have h0 : knot U 0 ≤ x := (h.sorted.mono (Nat.zero_le i) (by omega)).trans h1.le
  have hl : x < lastKnot U := h2.trans_le (h.sorted.le_last hi)
  obtain ⟨_, h3, h4, h5⟩ := h.span h0 hl.le
  rw [cox_active h h0 hl.le hi]
  have hin : knot U (spanIx U x) ≤ x ∧ x < knot U (spanIx U x + 1) := by
    rcases h3 with h3 | h3
    · exact h3
    · exact absurd h3.2.2 hl.ne
  refine Nb_pos (ku_mono h.sorted) ?_ ?_ p i ?_ ?_ (Or.inl ?_)
  · rw [ku_eq (by omega)]; exact hin.1
  · rw [ku_eq (by omega)]; exact hin.2
  · rw [ku_eq (by omega)]; exact h1.le
  · rw [ku_eq (by omega)]; exact h2
  · rw [ku_eq (by omega)]; exact h1

/-- Outside of its support a basis function vanishes. -/
theorem cox_outside {U : List K} {p : ℕ} (h : WFKnots U p) {x : K} {i : ℕ} (hi : i + p + 1 < U.length)
    (ho : x < knot U i ∨ knot U (i + p + 1) < x) : coxDeBoor U p i x = 0 := by
  apply cox_zero
  intro j h1 h2 hc
  have a1 : knot U i ≤ knot U j := h.sorted.mono h1 (by omega)
  have a2 : knot U (j + 1) ≤ knot U (i + p + 1) := h.sorted.mono (by omega) hi
  rcases hc with ⟨b1, b2⟩ | ⟨b1, b2, -⟩ <;> rcases ho with ho | ho <;> linarith

/-- At a zero some coefficients are positive and others negative, unless all vanish. -/
theorem live_signs {U : List K} {p : ℕ} (h : WFKnots U p) {c : ℕ → K} {x : K} (h0 : knot U 0 < x) (h1 : x < lastKnot U) (hz : coxSum U p c x = 0)
    (hl : Live U p c x) : ∃ a b, (a < U.length - p - 1 ∧ spanIx U x - p ≤ a ∧ a ≤ spanIx U x ∧ 0 < c a) ∧
      (b < U.length - p - 1 ∧ spanIx U x - p ≤ b ∧ b ≤ spanIx U x ∧ c b < 0) := by
  obtain ⟨i, hi, hc, h2, h3⟩ := hl
  have hpos := cox_pos h (i := i) (by omega) h2 h3
  have hnn : ∀ j ∈ range (U.length - p - 1), 0 ≤ coxDeBoor U p j x := fun j hj => cox_nonneg h h0.le h1.le (by have := mem_range.1 hj; omega)
  have win : ∀ j < U.length - p - 1, coxDeBoor U p j x ≠ 0 → spanIx U x - p ≤ j ∧ j ≤ spanIx U x := by
    intro j hj hne
    by_contra hcon
    exact hne (coxDeBoor_zero_of h h0.le h1.le (by omega) (by omega))
  have ex : ∀ c' : ℕ → K, coxSum U p c' x = 0 → c' i ≠ 0 → ∃ a, a < U.length - p - 1 ∧ spanIx U x - p ≤ a ∧ a ≤ spanIx U x ∧ 0 < c' a := by
    intro c' hz' hne
    by_contra hcon
    have hle : ∀ j ∈ range (U.length - p - 1), coxDeBoor U p j x * c' j ≤ 0 := by
      intro j hj
      by_cases e : coxDeBoor U p j x = 0
      · rw [e, zero_mul]
      · have hw := win j (mem_range.1 hj) e
        refine mul_nonpos_of_nonneg_of_nonpos (hnn j hj) (not_lt.1 fun hp => hcon ⟨j, mem_range.1 hj, hw.1, hw.2, hp⟩)
    have := (sum_eq_zero_iff_of_nonpos hle).1 hz' i (mem_range.2 hi)
    rcases mul_eq_zero.1 this with e | e
    · exact hpos.ne' e
    · exact hne e
  obtain ⟨a, ha⟩ := ex c hz hc
  obtain ⟨b, hb1, hb2, hb3, hb4⟩ := ex (fun j => -c j) (by
    unfold coxSum at hz ⊢
    simp only [mul_neg, sum_neg_distrib, hz, neg_zero]) (neg_ne_zero.2 hc)
  exact ⟨a, b, ha, hb1, hb2, hb3, neg_pos.1 hb4⟩

/-- Zeros separated by `p`-fold knots have windows with at most one common index. -/
theorem span_gap {V : List K} {p : ℕ} (h : WFKnots V p) {x y z : K} (h0 : knot V 0 < x) (hxy : x < y) (hyz : y < z) (h1 : z < lastKnot V)
    (hc : p ≤ V.count y) : spanIx V x + p ≤ spanIx V z := by
  have hy : spanIx V y ≤ spanIx V z := spanIx_mono h (h0.trans hxy).le hyz.le h1.le
  rcases Nat.eq_zero_or_pos p with hp | hp
  · have := spanIx_mono h h0.le hxy.le (hyz.trans h1).le
    omega
  have hmem : y ∈ V := List.count_pos_iff.1 (by omega)
  have ha : Admissible V y := ⟨h0.trans hxy, hyz.trans h1, fun a ha b hb hab => by
    refine h.sep a ?_ b ?_ hab
    · rcases List.mem_cons.1 ha with rfl | ha
      · exact hmem
      · exact ha
    · rcases List.mem_cons.1 hb with rfl | hb
      · exact hmem
      · exact hb⟩
  obtain ⟨hi, _, hm, _, g⟩ := ha.pos h
  have hh := hi.hi
  have hlo := hi.lo
  have e := g (spanIx V y - p + 1) (by unfold kvMult; omega) (by omega)
  obtain ⟨_, h3, h4, h5⟩ := h.span h0.le (hxy.trans (hyz.trans h1)).le
  by_contra hcon
  have : knot V (spanIx V y - p + 1) ≤ knot V (spanIx V x) := h.sorted.mono (by omega) (by omega)
  have hle : knot V (spanIx V x) ≤ x := by
    rcases h3 with h3 | h3
    · exact h3.1
    · exact h3.1.le
  linarith

/-- Windows that have both signs and follow each other give an alternating sequence. -/
theorem alternate {c : ℕ → K} {n r : ℕ} {lo hi : ℕ → ℕ} (hw : ∀ j ≤ r, ∃ a b, (a < n ∧ lo j ≤ a ∧ a ≤ hi j ∧ 0 < c a) ∧ (b < n ∧ lo j ≤ b ∧ b ≤ hi j ∧ c b < 0))
    (hs : ∀ j < r, hi j ≤ lo (j + 1)) : ∀ m ≤ r, ∃ i : ℕ → ℕ, (∀ l < m + 1, i l < i (l + 1) ∧ c (i l) * c (i (l + 1)) < 0) ∧ (∀ l ≤ m + 1, i l < n) ∧
      i (m + 1) ≤ hi m
  | 0, h0 => by
    obtain ⟨a, b, ⟨a1, a2, a3, a4⟩, b1, b2, b3, b4⟩ := hw 0 h0
    have hne : a ≠ b := by rintro rfl; linarith
    rcases lt_or_gt_of_ne hne with h | h
    · refine ⟨fun l => if l = 0 then a else b, fun l hl => ?_, fun l _ => ?_, by simpa using b3⟩
      · obtain rfl : l = 0 := by omega
        simp only [if_pos, Nat.zero_add, one_ne_zero, if_false]
        exact ⟨h, mul_neg_of_pos_of_neg a4 b4⟩
      · dsimp only; split <;> assumption
    · refine ⟨fun l => if l = 0 then b else a, fun l hl => ?_, fun l _ => ?_, by simpa using a3⟩
      · obtain rfl : l = 0 := by omega
        simp only [if_pos, Nat.zero_add, one_ne_zero, if_false]
        exact ⟨h, mul_neg_of_neg_of_pos b4 a4⟩
      · dsimp only; split <;> assumption
  | m + 1, hm => by
    obtain ⟨i, h1, h2, h3⟩ := alternate hw hs m (by omega)
    obtain ⟨a, b, ⟨a1, a2, a3, a4⟩, b1, b2, b3, b4⟩ := hw (m + 1) hm
    have hgap := hs m (by omega)
    obtain ⟨e, e1, e2, e3, e4⟩ : ∃ e, e < n ∧ lo (m + 1) ≤ e ∧ e ≤ hi (m + 1) ∧ c (i (m + 1)) * c e < 0 := by
      have hne : c (i (m + 1)) ≠ 0 := by
        intro hz
        have := (h1 m (by omega)).2
        rw [hz, mul_zero] at this
        exact lt_irrefl _ this
      rcases lt_or_gt_of_ne hne with h | h
      · exact ⟨a, a1, a2, a3, mul_neg_of_neg_of_pos h a4⟩
      · exact ⟨b, b1, b2, b3, mul_neg_of_pos_of_neg h b4⟩
    have hlt : i (m + 1) < e := by
      refine lt_of_le_of_ne (by omega) fun he => ?_
      rw [he] at e4
      exact absurd e4 (not_lt.2 (mul_self_nonneg _))
    refine ⟨fun l => if l = m + 2 then e else i l, fun l hl => ?_, fun l hl => ?_, ?_⟩
    · by_cases hlm : l = m + 1
      · subst hlm
        simp only [if_neg (show m + 1 ≠ m + 2 by omega)]
        exact ⟨hlt, e4⟩
      · simp only [if_neg (show l ≠ m + 2 by omega), if_neg (show l + 1 ≠ m + 2 by omega)]
        exact h1 l (by omega)
    · dsimp only
      split
      · exact e1
      · exact h2 l (by omega)
    · simp only
      exact e3

theorem live_scale {U : List K} {p : ℕ} {c : ℕ → K} {x r : K} (hr : 0 < r) (h : Live U p c x) : Live (U.map (r * ·)) p c (r * x) := by
  obtain ⟨i, h1, h2, h3, h4⟩ := h
  exact ⟨i, by rw [List.length_map]; exact h1, h2, by rw [knot_scale]; exact mul_lt_mul_of_pos_left h3 hr,
    by rw [knot_scale]; exact mul_lt_mul_of_pos_left h4 hr⟩

/-- A spline with `r + 1` zeros has at least `r + 2` non-zero coefficients, unless all coefficients at one of them vanish. -/
theorem zeros_le {U : List K} {p : ℕ} (h : WFKnots U p) {c : ℕ → K} {r : ℕ} {x : ℕ → K} (hx : ∀ j < r, x j < x (j + 1))
    (hd : ∀ j ≤ r, knot U 0 < x j ∧ x j < lastKnot U) (hz : ∀ j ≤ r, coxSum U p c (x j) = 0) (hl : ∀ j ≤ r, Live U p c (x j)) :
    ∃ i : ℕ → ℕ, (∀ j < r + 1, i j < i (j + 1)) ∧ ∀ j ≤ r + 1, i j < U.length - p - 1 ∧ c (i j) ≠ 0 := by
  -- first for separated parameters
  have sep : ∀ {U : List K} (_ : WFKnots U p) {x : ℕ → K} (_ : ∀ j < r, x j < x (j + 1)) (_ : ∀ j ≤ r, knot U 0 < x j ∧ x j < lastKnot U)
      (_ : ∀ j ≤ r, coxSum U p c (x j) = 0) (_ : ∀ j ≤ r, Live U p c (x j))
      (_ : Separated ((List.range r).map (fun j => (x j + x (j + 1)) / 2) ++ U)),
      ∃ i : ℕ → ℕ, (∀ j < r + 1, i j < i (j + 1)) ∧ ∀ j ≤ r + 1, i j < U.length - p - 1 ∧ c (i j) ≠ 0 := by
    intro U h x hx hd hz hl hs
    have hmono : ∀ d a, a + d ≤ r → x a ≤ x (a + d) := by
      intro d
      induction d with
      | zero => intro a _; exact le_rfl
      | succ d ih => intro a ha; exact (ih a (by omega)).trans (hx (a + d) (by omega)).le
    obtain ⟨V, c', hf, h1, -, h3⟩ := Finer.insertAll (c := c) ((List.range r).map fun j => (x j + x (j + 1)) / 2) h hs fun t ht => by
      obtain ⟨j, hj, rfl⟩ := List.mem_map.1 ht
      have hj := List.mem_range.1 hj
      have a := hd j hj.le
      have b := hd (j + 1) hj
      constructor <;> linarith [a.1, a.2, b.1, b.2]
    have hnot : ∀ j ≤ r, x j ∉ (List.range r).map fun j => (x j + x (j + 1)) / 2 := by
      intro j hj hm
      obtain ⟨l, hl, e⟩ := List.mem_map.1 hm
      have hl := List.mem_range.1 hl
      have := hx l hl
      rcases Nat.lt_or_ge l j with g | g
      · have := hmono (j - (l + 1)) (l + 1) (by omega)
        rw [show l + 1 + (j - (l + 1)) = j by omega] at this
        linarith
      · have := hmono (l - j) j (by omega)
        rw [show j + (l - j) = l by omega] at this
        linarith
    have hd' : ∀ j ≤ r, knot V 0 < x j ∧ x j < lastKnot V := fun j hj => by rw [hf.first, hf.last]; exact hd j hj
    obtain ⟨i, i1, i2, -⟩ := alternate (c := c') (n := V.length - p - 1) (r := r) (lo := fun j => spanIx V (x j) - p) (hi := fun j => spanIx V (x j))
      (fun j hj => live_signs hf.wf (hd' j hj).1 (hd' j hj).2 ((hf.sum _ (hd j hj).1.le (hd j hj).2.le).trans (hz j hj))
        (hf.live _ (h3 _ (hnot j hj)) (hl j hj)))
      (fun j hj => by
        have hlt := hx j hj
        have a := hd' j hj.le
        have b := hd' (j + 1) hj
        have hm : (x j + x (j + 1)) / 2 ∈ (List.range r).map fun j => (x j + x (j + 1)) / 2 := List.mem_map.2 ⟨j, List.mem_range.2 hj, rfl⟩
        have hc : p ≤ V.count ((x j + x (j + 1)) / 2) := by
          rcases h1 _ hm with e | e | e
          · linarith [a.1, b.1]
          · linarith [a.2, b.2]
          · exact e
        have := span_gap hf.wf a.1 (y := (x j + x (j + 1)) / 2) (by linarith) (z := x (j + 1)) (by linarith) b.2 hc
        omega) r le_rfl
    obtain ⟨l, l1, l2⟩ := hf.signs (r + 1) (fun j => c' (i j)) (fun j hj => (i1 j hj).2) ⟨i, fun j hj => (i1 j hj).1, fun j hj => ⟨i2 j hj, by
      refine mul_self_pos.2 fun e => ?_
      have e : c' (i j) = 0 := e
      rcases Nat.eq_zero_or_pos j with g | g
      · have := (i1 0 (by omega)).2
        rw [← g, e, zero_mul] at this
        exact lt_irrefl _ this
      · have := (i1 (j - 1) (by omega)).2
        rw [Nat.sub_add_cancel g, e, mul_zero] at this
        exact lt_irrefl _ this⟩⟩
    refine ⟨l, l1, fun j hj => ⟨(l2 j hj).1, fun e => ?_⟩⟩
    have := (l2 j hj).2
    rw [e, mul_zero] at this
    exact lt_irrefl _ this
  obtain ⟨q, hq1, hs⟩ := exists_separated ((List.range r).map (fun j => (x j + x (j + 1)) / 2) ++ U)
  have hq0 : 0 < q := lt_of_lt_of_le one_pos hq1
  have := sep (h.scale hq1) (x := fun j => q * x j) (fun j hj => mul_lt_mul_of_pos_left (hx j hj) hq0)
    (fun j hj => by
      rw [knot_scale, lastKnot_scale]
      exact ⟨mul_lt_mul_of_pos_left (hd j hj).1 hq0, mul_lt_mul_of_pos_left (hd j hj).2 hq0⟩)
    (fun j hj => by
      rw [← hz j hj]
      unfold coxSum
      rw [List.length_map]
      exact sum_congr rfl fun i _ => by rw [cox_scale U hq0])
    (fun j hj => live_scale hq0 (hl j hj))
    (by
      rw [List.map_append, List.map_map] at hs
      convert hs using 3
      funext j
      simp only [Function.comp]
      ring)
  simpa only [List.length_map] using this

/-! ### Uniqueness -/

theorem indices_le {m n a : ℕ} {i : ℕ → ℕ} (h : ∀ j < m, i j < i (j + 1)) (h1 : ∀ j ≤ m, a ≤ i j ∧ i j < n) : a + m + 1 ≤ n := by
  have : ∀ j ≤ m, a + j ≤ i j := by
    intro j
    induction j with
    | zero => intro _; exact (h1 0 (by omega)).1
    | succ j ih => intro hj; have := ih (by omega); have := h j (by omega); omega
  have := this m le_rfl
  have := (h1 m le_rfl).2
  omega

theorem coxSum_split {U : List K} {p : ℕ} {c c1 c2 : ℕ → K} (hc : ∀ i, c i = c1 i + c2 i) (x : K) :
    coxSum U p c x = coxSum U p c1 x + coxSum U p c2 x := by
  unfold coxSum
  rw [← sum_add_distrib]
  exact sum_congr rfl fun i _ => by rw [hc, mul_add]

/-- At the first knot of its support a function vanishes, unless that knot is so often repeated that the function jumps. -/
theorem Nb_zero_left {u : ℕ → K} (hu : Monotone u) {k : ℕ} {x : K} (h1 : u k ≤ x) : ∀ p i, x ≤ u i → x < u (i + p) →
    Nb u x (delta k) p i = 0 := by
  intro p
  induction p with
  | zero =>
    intro i _ h3
    refine Nb_delta_zero (Or.inl ?_)
    by_contra hc
    have := hu (not_lt.1 hc)
    simp only [Nat.add_zero] at h3
    linarith
  | succ p ih =>
    intro i h2 h3
    simp only [Nb]
    rw [ih (i + 1) (h2.trans (hu (Nat.le_succ i))) (by rwa [show i + 1 + p = i + (p + 1) by ring]), mul_zero, add_zero]
    rcases h2.lt_or_eq with h | h
    · rw [Nb_delta_zero (Or.inl ?_), mul_zero]
      by_contra hc
      have := hu (not_lt.1 hc)
      linarith
    · rw [h, sub_self, zero_div, zero_mul]

/-- A function that does not vanish at `x` has `x` in the interior of its support, or it is the only function that does not vanish. -/
theorem cox_boundary {U : List K} {p : ℕ} (h : WFKnots U p) {x : K} (h0 : knot U 0 ≤ x) (h1 : x ≤ lastKnot U) {i : ℕ} (hi : i + p + 1 < U.length)
    (hne : coxDeBoor U p i x ≠ 0) : (knot U i < x ∧ x < knot U (i + p + 1)) ∨
      ((∀ l < U.length - p - 1, coxDeBoor U p l x = if l = i then 1 else 0) ∧ (∀ l, i < l → l < U.length → x ≤ knot U l) ∧
        ∀ l < i, knot U (l + p + 1) ≤ x) := by
  obtain ⟨_, h2, h3, h4⟩ := h.span h0 h1
  have hw : spanIx U x - p ≤ i ∧ i ≤ spanIx U x := by
    by_contra hcon
    exact hne (coxDeBoor_zero_of h h0 h1 hi (by omega))
  have hlt := inSpan_lt h2
  rcases h1.lt_or_eq with hl | hl
  · have hin : knot U (spanIx U x) ≤ x ∧ x < knot U (spanIx U x + 1) := by
      rcases h2 with h2 | h2
      · exact h2
      · exact absurd h2.2.2 hl.ne
    have hup : x < knot U (i + p + 1) := hin.2.trans_le (h.sorted.mono (by omega) hi)
    rcases lt_or_ge (knot U i) x with g | g
    · exact Or.inl ⟨g, hup⟩
    · right
      rw [cox_active h h0 h1 hi] at hne
      have g1 : knot U (i + p) ≤ x := by
        by_contra hc
        exact hne (Nb_zero_left (ku_mono h.sorted) (by rw [ku_eq (by omega)]; exact hin.1) p i (by rw [ku_eq (by omega)]; exact g)
          (by rw [ku_eq (by omega)]; exact not_le.1 hc))
      have e : i = spanIx U x - p := by
        by_contra hc
        have := h.sorted.mono (i := spanIx U x + 1) (j := i + p) (by omega) (by omega)
        linarith
      have hall : ∀ j, i ≤ j → j ≤ i + p → knot U j = x := fun j a b =>
        le_antisymm ((h.sorted.mono b (by omega)).trans g1) (g.trans (h.sorted.mono a (by omega)))
      refine ⟨fun l hl => ?_, fun l a b => g.trans (h.sorted.mono a.le b), fun l a => (h.sorted.mono (by omega) (by omega)).trans g1⟩
      rw [cox_active h h0 h1 (by omega), e]
      refine Nb_left (by rw [ku_eq (by omega)]; exact hin.2) p _ (by omega) (fun j a b => ?_) l
      rw [ku_eq (by omega)]
      exact hall j (by omega) (by omega)
  · right
    have hin : knot U (spanIx U x) < x ∧ x = knot U (spanIx U x + 1) := by
      rcases h2 with h2 | h2
      · have := h.sorted.le_last (i := spanIx U x + 1) (by omega)
        linarith [h2.2]
      · exact ⟨h2.1, h2.2.1⟩
    have hall : ∀ j, spanIx U x < j → j < U.length → knot U j = x := fun j a b =>
      le_antisymm (hl ▸ h.sorted.le_last b) (by rw [hin.2]; exact h.sorted.mono a b)
    have key : ∀ l, l + p + 1 < U.length → coxDeBoor U p l x = if l = spanIx U x then 1 else 0 := by
      intro l hl
      rw [cox_active h h0 h1 hl]
      refine Nb_right (by rw [ku_eq (by omega)]; exact hin.1) p (fun j a b => ?_) l
      rw [ku_eq (by omega)]
      exact hall j a (by omega)
    have e : i = spanIx U x := by
      by_contra hc
      exact hne (by rw [key i hi, if_neg hc])
    subst e
    exact ⟨fun l hl => key l (by omega), fun l a b => (hall l a b).ge, fun l a => hl ▸ h.sorted.le_last (by omega)⟩

/-- A spline whose coefficients outside of `[a, a + m)` vanish and that is zero at the parameters with these indices is zero. -/
theorem interpolation_zero {U : List K} {p : ℕ} (h : WFKnots U p) {t : ℕ → K} : ∀ (m a : ℕ) (c : ℕ → K), a + m ≤ U.length - p - 1 →
    (∀ j, a ≤ j → j + 1 < a + m → t j < t (j + 1)) → (∀ j, a ≤ j → j < a + m → knot U 0 ≤ t j ∧ t j ≤ lastKnot U) →
    (∀ j, a ≤ j → j < a + m → coxDeBoor U p j (t j) ≠ 0) →
    (∀ j, j < a ∨ a + m ≤ j → c j = 0) → (∀ j, a ≤ j → j < a + m → coxSum U p c (t j) = 0) → ∀ j, c j = 0 := by
  intro m
  induction m using Nat.strong_induction_on with
  | _ m ih =>
    intro a c hn ht hdom hsw hc hz
    rcases Nat.eq_zero_or_pos m with rfl | hm
    · exact fun j => hc j (by omega)
    by_cases hlive : ∀ j, a ≤ j → j < a + m → (knot U j < t j ∧ t j < knot U (j + p + 1)) ∧ Live U p c (t j)
    · obtain ⟨i, i1, i2⟩ := zeros_le h (c := c) (r := m - 1) (x := fun j => t (a + j)) (fun j hj => ht (a + j) (by omega) (by omega))
        (fun j hj => by
          obtain ⟨⟨g1, g2⟩, -⟩ := hlive (a + j) (by omega) (by omega)
          exact ⟨lt_of_le_of_lt (h.sorted.mono (Nat.zero_le _) (by omega)) g1, lt_of_lt_of_le g2 (h.sorted.le_last (by omega))⟩)
        (fun j hj => hz _ (by omega) (by omega)) (fun j hj => (hlive _ (by omega) (by omega)).2)
      have := indices_le (a := a) (n := a + m) i1 fun j hj => by
        by_contra hcon
        exact (i2 j hj).2 (hc _ (by omega))
      omega
    · obtain ⟨e, e1, e2, hce, hR, hL⟩ : ∃ e, a ≤ e ∧ e < a + m ∧ c e = 0 ∧ (∀ i < U.length - p - 1, e < i → c i ≠ 0 → t e ≤ knot U i) ∧
          ∀ i, i < e → c i ≠ 0 → knot U (i + p + 1) ≤ t e := by
        push Not at hlive
        obtain ⟨e, e1, e2, e3⟩ := hlive
        refine ⟨e, e1, e2, ?_⟩
        rcases cox_boundary h (hdom e e1 e2).1 (hdom e e1 e2).2 (by omega) (hsw e e1 e2) with g | ⟨g1, g2, g3⟩
        · have hdead : ∀ i < U.length - p - 1, knot U i < t e → t e < knot U (i + p + 1) → c i = 0 := by
            intro i hi q1 q2
            by_contra hne
            exact e3 g ⟨i, hi, hne, q1, q2⟩
          refine ⟨hdead e (by omega) g.1 g.2, fun i hi hei hci => not_lt.1 fun q => ?_, fun i hie hci => not_lt.1 fun q => ?_⟩
          · exact hci (hdead i hi q (lt_of_lt_of_le g.2 (h.sorted.mono (by omega) (by omega))))
          · exact hci (hdead i (by omega) (lt_of_le_of_lt (h.sorted.mono (by omega) (by omega)) g.1) q)
        · refine ⟨?_, fun i hi hei _ => g2 i hei (by omega), fun i hie _ => g3 i hie⟩
          rw [← hz e e1 e2]
          unfold coxSum
          rw [sum_eq_single e]
          · rw [g1 e (by omega), if_pos rfl, one_mul]
          · intro i hi hne
            rw [g1 i (mem_range.1 hi), if_neg hne, zero_mul]
          · intro hn'
            exact absurd (mem_range.2 (by omega)) hn'
      have hmono : ∀ d i, a ≤ i → i + d + 1 < a + m → t i < t (i + d + 1) := by
        intro d
        induction d with
        | zero => intro i h1 h2; exact ht i h1 h2
        | succ d ihd => intro i h1 h2; exact (ihd i h1 (by omega)).trans (ht (i + d + 1) (by omega) (by omega))
      set c1 : ℕ → K := fun j => if j < e then c j else 0 with hc1
      set c2 : ℕ → K := fun j => if e < j then c j else 0 with hc2
      have hsum : ∀ j, c j = c1 j + c2 j := by
        intro j
        rcases lt_trichotomy j e with g | g | g
        · simp [hc1, hc2, g, not_lt.2 g.le]
        · simp [hc1, hc2, g, hce]
        · simp [hc1, hc2, g, not_lt.2 g.le]
      have z2 : ∀ j, a ≤ j → j < e → coxSum U p c2 (t j) = 0 := by
        intro j g1 g2
        refine sum_eq_zero fun i hi => ?_
        have hi := mem_range.1 hi
        by_cases hie : e < i
        · by_cases hci : c i = 0
          · simp [hc2, hci]
          · have hlt := hmono (e - j - 1) j g1 (by omega)
            rw [show j + (e - j - 1) + 1 = e by omega] at hlt
            have := hR i hi hie hci
            rw [cox_outside h (by omega) (Or.inl (by linarith)), zero_mul]
        · simp [hc2, hie]
      have z1 : ∀ j, e < j → j < a + m → coxSum U p c1 (t j) = 0 := by
        intro j g1 g2
        refine sum_eq_zero fun i hi => ?_
        have hi := mem_range.1 hi
        by_cases hie : i < e
        · by_cases hci : c i = 0
          · simp [hc1, hci]
          · have hlt := hmono (j - e - 1) e e1 (by omega)
            rw [show e + (j - e - 1) + 1 = j by omega] at hlt
            have := hL i hie hci
            rw [cox_outside h (by omega) (Or.inr (by linarith)), zero_mul]
        · simp [hc1, hie]
      have r1 := ih (e - a) (by omega) a c1 (by omega) (fun j g1 g2 => ht j g1 (by omega)) (fun j g1 g2 => hdom j g1 (by omega))
        (fun j g1 g2 => hsw j g1 (by omega))
        (fun j g => by
          by_cases g' : j < e
          · simp only [hc1, if_pos g']; exact hc j (by omega)
          · simp [hc1, g'])
        (fun j g1 g2 => by
          have := hz j g1 (by omega)
          rw [coxSum_split hsum, z2 j g1 (by omega), add_zero] at this
          exact this)
      have r2 := ih (a + m - (e + 1)) (by omega) (e + 1) c2 (by omega) (fun j g1 g2 => ht j (by omega) (by omega))
        (fun j g1 g2 => hdom j (by omega) (by omega)) (fun j g1 g2 => hsw j (by omega) (by omega))
        (fun j g => by
          by_cases g' : e < j
          · simp only [hc2, if_pos g']; exact hc j (by omega)
          · simp [hc2, g'])
        (fun j g1 g2 => by
          have := hz j (by omega) (by omega)
          rw [coxSum_split hsum, z1 j (by omega) (by omega), zero_add] at this
          exact this)
      intro j
      rw [hsum, r1, r2, add_zero]

/-! ### The interpolation problem -/

/-- Values of the basis functions at the parameters, as a linear map from coefficients to values. -/
def collocation (U : List K) (p : ℕ) (t : ℕ → K) : (Fin (U.length - p - 1) → K) →ₗ[K] (Fin (U.length - p - 1) → K) :=
  LinearMap.pi fun j => ∑ i : Fin (U.length - p - 1), coxDeBoor U p i (t j) • LinearMap.proj i

theorem collocation_apply (U : List K) (p : ℕ) (t : ℕ → K) (c : Fin (U.length - p - 1) → K) (j : Fin (U.length - p - 1)) :
    collocation U p t c j = ∑ i : Fin (U.length - p - 1), coxDeBoor U p i (t j) * c i := by
  simp [collocation]

theorem collocation_eq_coxSum (U : List K) (p : ℕ) (t : ℕ → K) (c : Fin (U.length - p - 1) → K) (j : Fin (U.length - p - 1)) :
    collocation U p t c j = coxSum U p (fun i => if hi : i < U.length - p - 1 then c ⟨i, hi⟩ else 0) (t j) := by
  rw [collocation_apply, coxSum, ← Fin.sum_univ_eq_sum_range (fun i => coxDeBoor U p i (t j) * if hi : i < U.length - p - 1 then c ⟨i, hi⟩ else 0)]
  simp

theorem collocation_injective {U : List K} {p : ℕ} (h : WFKnots U p) {t : ℕ → K} (ht : ∀ j, j + 1 < U.length - p - 1 → t j < t (j + 1))
    (hdom : ∀ j < U.length - p - 1, knot U 0 ≤ t j ∧ t j ≤ lastKnot U) (hsw : ∀ j < U.length - p - 1, coxDeBoor U p j (t j) ≠ 0) :
    Function.Injective (collocation U p t) := by
  rw [← LinearMap.ker_eq_bot, LinearMap.ker_eq_bot']
  intro c hc
  funext i
  have := interpolation_zero h (U.length - p - 1) 0 (fun i => if hi : i < U.length - p - 1 then c ⟨i, hi⟩ else 0) (by omega)
    (fun j _ hj => ht j (by omega)) (fun j _ hj => hdom j (by omega)) (fun j _ hj => hsw j (by omega))
    (fun j hj => by rw [dif_neg (by omega)])
    (fun j _ hj => by
      have e := congrFun hc ⟨j, by omega⟩
      rw [collocation_eq_coxSum] at e
      exact e) i
  simpa using this

theorem collocation_bijective {U : List K} {p : ℕ} (h : WFKnots U p) {t : ℕ → K} (ht : ∀ j, j + 1 < U.length - p - 1 → t j < t (j + 1))
    (hdom : ∀ j < U.length - p - 1, knot U 0 ≤ t j ∧ t j ≤ lastKnot U) (hsw : ∀ j < U.length - p - 1, coxDeBoor U p j (t j) ≠ 0) :
    Function.Bijective (collocation U p t) :=
  ⟨collocation_injective h ht hdom hsw, LinearMap.injective_iff_surjective.1 (collocation_injective h ht hdom hsw)⟩

/-- If a function vanishes at `x`, then the later functions vanish at `x` and before or the earlier ones at `x` and later. -/
theorem cox_blocked {U : List K} {p : ℕ} (h : WFKnots U p) {x : K} (h0 : knot U 0 ≤ x) (h1 : x ≤ lastKnot U) {i : ℕ} (hi : i + p + 1 < U.length)
    (hz : coxDeBoor U p i x = 0) :
    (∀ l, i ≤ l → l < U.length - p - 1 → ∀ y, knot U 0 ≤ y → y ≤ x → coxDeBoor U p l y = 0) ∨
      ∀ l, l ≤ i → ∀ y, x ≤ y → y ≤ lastKnot U → coxDeBoor U p l y = 0 := by
  obtain ⟨_, h2, h3, h4⟩ := h.span h0 h1
  rcases lt_or_ge (spanIx U x) i with g | g
  · left
    intro l a b y c d
    have := spanIx_mono h c d h1
    exact coxDeBoor_zero_of h c (d.trans h1) (by omega) (Or.inr (by omega))
  rcases lt_or_ge i (spanIx U x - p) with g' | g'
  · right
    intro l a y c d
    have := spanIx_mono h h0 c d
    exact coxDeBoor_zero_of h (h0.trans c) d (by omega) (Or.inl (by omega))
  rcases h1.lt_or_eq with hl | hl
  · have hin : knot U (spanIx U x) ≤ x ∧ x < knot U (spanIx U x + 1) := by
      rcases h2 with h2 | h2
      · exact h2
      · exact absurd h2.2.2 hl.ne
    have hup : x < knot U (i + p + 1) := hin.2.trans_le (h.sorted.mono (by omega) hi)
    have hge : x ≤ knot U i := not_lt.1 fun q => (cox_pos h hi q hup).ne' hz
    have hip : x < knot U (i + p) := by
      by_contra hc
      rw [cox_active h h0 h1 hi] at hz
      refine (Nb_pos (ku_mono h.sorted) (k := spanIx U x) (x := x) ?_ ?_ p i ?_ ?_ (Or.inr ?_)).ne' hz
      · rw [ku_eq (by omega)]; exact hin.1
      · rw [ku_eq (by omega)]; exact hin.2
      · rw [ku_eq (by omega)]; exact (h.sorted.mono g (by omega)).trans hin.1
      · rw [ku_eq (by omega)]; exact hup
      · rw [ku_eq (by omega)]; exact not_lt.1 hc
    left
    intro l a b y c d
    rcases d.lt_or_eq with d | rfl
    · exact cox_outside h (by omega) (Or.inl (lt_of_lt_of_le d (hge.trans (h.sorted.mono a (by omega)))))
    · rw [cox_active h h0 h1 (by omega)]
      refine Nb_zero_left (ku_mono h.sorted) ?_ p l ?_ ?_
      · rw [ku_eq (by omega)]; exact hin.1
      · rw [ku_eq (by omega)]; exact hge.trans (h.sorted.mono a (by omega))
      · rw [ku_eq (by omega)]; exact lt_of_lt_of_le hip (h.sorted.mono (by omega) (by omega))
  · right
    intro l a y c d
    obtain rfl : y = x := le_antisymm (by rw [hl]; exact d) c
    have key : ∀ l, l + p + 1 < U.length → coxDeBoor U p l y ≠ 0 → l = spanIx U y := by
      intro l hl' hne
      by_contra hlk
      rcases cox_boundary h h0 h1 hl' hne with q | ⟨q1, q2, q3⟩
      · have := h.sorted.le_last (i := l + p + 1) hl'
        linarith [q.2]
      · have := q1 (spanIx U y) (by omega)
        rw [if_neg (by omega)] at this
        have hw := cox_sum h h0 h1
        have hin : knot U (spanIx U y) < y := by
          rcases h2 with h2 | h2
          · have := h.sorted.le_last (i := spanIx U y + 1) (by omega)
            linarith [h2.2]
          · exact h2.1
        rcases lt_or_ge l (spanIx U y) with w | w
        · have := q2 (spanIx U y) w (by omega)
          linarith
        · have hne' := coxDeBoor_zero_of h h0 h1 hl' (Or.inr (by omega))
          exact hne hne'
    by_contra hne
    have e := key l (by omega) hne
    have : i = spanIx U y := by omega
    subst this
    have : l = spanIx U y := e
    exact hne (by rw [this]; exact hz)

theorem not_surjective_of_blocked {n : ℕ} {A : Fin n → Fin n → K} {s : Finset (Fin n)} {r : Finset (Fin n)} (hcard : s.card < r.card)
    (hA : ∀ j ∈ r, ∀ i, i ∉ s → A j i = 0) : ¬ ∀ d : Fin n → K, ∃ c : Fin n → K, ∀ j, ∑ i, A j i * c i = d j := by
  intro hs
  let f : (s → K) →ₗ[K] (r → K) := LinearMap.pi fun j => ∑ i : s, A j i • LinearMap.proj i
  have hf : Function.Surjective f := by
    intro d
    obtain ⟨c, hc⟩ := hs fun j => if hj : j ∈ r then d ⟨j, hj⟩ else 0
    refine ⟨fun i => c i, funext fun j => ?_⟩
    have := hc j
    rw [dif_pos j.2] at this
    rw [← this]
    simp only [f, LinearMap.pi_apply, LinearMap.sum_apply, LinearMap.smul_apply, LinearMap.proj_apply, smul_eq_mul]
    rw [Finset.sum_coe_sort s fun i => A j i * c i]
    exact sum_subset (subset_univ _) fun i _ hi => by rw [hA j j.2 i hi, zero_mul]
  have := LinearMap.finrank_le_finrank_of_surjective hf
  simp only [Module.finrank_fintype_fun_eq_card, Fintype.card_coe] at this
  omega

/-- The condition on the parameters is necessary. -/
theorem collocation_necessary {U : List K} {p : ℕ} (h : WFKnots U p) {t : ℕ → K} (ht : ∀ j, j + 1 < U.length - p - 1 → t j < t (j + 1))
    (hdom : ∀ j < U.length - p - 1, knot U 0 ≤ t j ∧ t j ≤ lastKnot U) (hs : Function.Surjective (collocation U p t)) :
    ∀ j < U.length - p - 1, coxDeBoor U p j (t j) ≠ 0 := by
  intro e he hz
  have hmono : ∀ d a, a + d < U.length - p - 1 → t a ≤ t (a + d) := by
    intro d
    induction d with
    | zero => intro a _; exact le_rfl
    | succ d ih => intro a ha; exact (ih a (by omega)).trans (ht (a + d) (by omega)).le
  have hex : ∀ d : Fin (U.length - p - 1) → K, ∃ c : Fin (U.length - p - 1) → K,
      ∀ j : Fin (U.length - p - 1), ∑ i : Fin (U.length - p - 1), coxDeBoor U p i (t j) * c i = d j := by
    intro d
    obtain ⟨c, hc⟩ := hs d
    exact ⟨c, fun j => by rw [← hc, collocation_apply]⟩
  rcases cox_blocked h (hdom e he).1 (hdom e he).2 (by omega) hz with g | g
  · refine not_surjective_of_blocked (A := fun j i : Fin (U.length - p - 1) => coxDeBoor U p i (t j)) (s := Finset.Iio ⟨e, he⟩) (r := Finset.Iic ⟨e, he⟩) (by simp) ?_ hex
    intro j hj i hi
    rw [Finset.mem_Iic] at hj
    rw [Finset.mem_Iio, not_lt] at hi
    refine g i hi i.2 _ (hdom j j.2).1 ?_
    have := hmono (e - j) j (by have : (j : ℕ) ≤ e := hj; omega)
    rwa [show (j : ℕ) + (e - j) = e by have : (j : ℕ) ≤ e := hj; omega] at this
  · refine not_surjective_of_blocked (A := fun j i : Fin (U.length - p - 1) => coxDeBoor U p i (t j)) (s := Finset.Ioi ⟨e, he⟩) (r := Finset.Ici ⟨e, he⟩) (by simp; omega) ?_ hex
    intro j hj i hi
    rw [Finset.mem_Ici] at hj
    rw [Finset.mem_Ioi, not_lt] at hi
    refine g i hi _ ?_ (hdom j j.2).2
    have := hmono (j - e) e (by have : e ≤ (j : ℕ) := hj; omega)
    rwa [show e + ((j : ℕ) - e) = j by have : e ≤ (j : ℕ) := hj; omega] at this

end SplineLib
