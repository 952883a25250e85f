import Verif.Core.TensorDeriv
import Verif.Core.Insert

/-!
# Smoothness at knots (helper lemmas)
-/

namespace SplineLib
set_option linter.unusedSectionVars false
open Finset Filter Topology

section field
variable {K : Type} [Field K] [LinearOrder K] [IsStrictOrderedRing K]

/-- At the right end of a span, which is a knot of multiplicity `m`, only one polynomial of degree up to `m` does not vanish. -/
theorem Nb_from_left {u : ℕ → K} {k m : ℕ} {t : K} (h0 : u k < t) (hm : ∀ j, k < j → j ≤ k + m → u j = t) :
    ∀ p ≤ m, ∀ i, Nb u t (delta k) p i = (delta k i : K) := by
  intro p
  induction p with
  | zero => intro _ i; rfl
  | succ p ih =>
    intro hp i
    simp only [Nb]
    rw [ih (by omega), ih (by omega)]
    by_cases hi : i = k
    · subst hi
      rw [delta_self, delta_ne (by omega), hm (i + p + 1) (by omega) (by omega), div_self (by linarith [h0] : t - u i ≠ 0)]
      ring
    · rw [delta_ne hi]
      by_cases hi' : i + 1 = k
      · rw [hm (i + p + 2) (by omega) (by omega)]; ring
      · rw [delta_ne hi']; ring

/-- The same for the left end of a span. -/
theorem Nb_from_right {u : ℕ → K} {k m : ℕ} {t : K} (h0 : t < u (k + m + 1)) (hm : ∀ j, k < j → j ≤ k + m → u j = t) :
    ∀ p ≤ m, ∀ i, Nb u t (delta (k + m)) p i = (delta (k + m) (i + p) : K) := by
  intro p
  induction p with
  | zero => intro _ i; rfl
  | succ p ih =>
    intro hp i
    simp only [Nb]
    rw [ih (by omega), ih (by omega)]
    by_cases hi : i + p + 1 = k + m
    · have e : (delta (k + m) (i + 1 + p) : K) = 1 := by rw [show i + 1 + p = k + m by omega, delta_self]
      have e' : (delta (k + m) (i + (p + 1)) : K) = 1 := by rw [show i + (p + 1) = k + m by omega, delta_self]
      rw [e, e', delta_ne (by omega), hm (i + 1) (by omega) (by omega), show i + p + 2 = k + m + 1 by omega,
        div_self (by linarith [h0] : u (k + m + 1) - t ≠ 0)]
      ring
    · rw [delta_ne (j := i + (p + 1)) (by omega), delta_ne (j := i + 1 + p) (by omega)]
      by_cases hi' : i + p = k + m
      · by_cases hz : i ≤ k
        · omega
        · rw [hm i (by omega) (by omega)]; ring
      · rw [delta_ne hi']; ring

/-- The polynomials on both sides of a knot of multiplicity `m` have the same value there, if the degree is at least `m`. -/
theorem Nb_agree {u : ℕ → K} {k m : ℕ} {t : K} (h0 : u k < t) (h1 : t < u (k + m + 1)) (hm : ∀ j, k < j → j ≤ k + m → u j = t) :
    ∀ p, m ≤ p → ∀ i, Nb u t (delta k) p i = Nb u t (delta (k + m)) p i := by
  intro p hp
  induction p, hp using Nat.le_induction with
  | base =>
    intro i
    rw [Nb_from_left h0 hm m le_rfl, Nb_from_right h1 hm m le_rfl]
    simp [delta]
  | succ p hp ih => intro i; simp only [Nb]; rw [ih, ih]

theorem DNb_agree {u : ℕ → K} {k m : ℕ} {t : K} (h0 : u k < t) (h1 : t < u (k + m + 1)) (hm : ∀ j, k < j → j ≤ k + m → u j = t) :
    ∀ e p, e + m ≤ p → ∀ i, DNb u t (delta k) p e i = DNb u t (delta (k + m)) p e i := by
  intro e
  induction e with
  | zero => intro p hp i; cases p <;> exact Nb_agree h0 h1 hm _ (by omega) i
  | succ e ih =>
    intro p hp i
    cases p with
    | zero => rfl
    | succ p => simp only [DNb]; rw [ih p (by omega), ih p (by omega)]

theorem pred_knots {U : List K} (hs : SortedKnots U) {t : K} {e : ℕ} (he : e < U.length) (h0 : knot U 0 < t) (h1 : knot U e ≤ t)
    (h2 : ∀ j < U.length, e < j → t < knot U j) :
    ∃ k, k + U.count t = e ∧ knot U k < t ∧ ∀ j, k < j → j ≤ e → knot U j = t := by
  set k := Nat.findGreatest (fun j => knot U j < t) e with hk
  have hk1 : knot U k < t := Nat.findGreatest_spec (P := fun j => knot U j < t) (Nat.zero_le e) h0
  have hke : k ≤ e := Nat.findGreatest_le e
  have hmid : ∀ j, k < j → j ≤ e → knot U j = t := by
    intro j hj hje
    have h3 : ¬ knot U j < t := Nat.findGreatest_is_greatest (P := fun j => knot U j < t) hj hje
    exact le_antisymm ((hs.mono hje he).trans h1) (not_lt.1 h3)
  refine ⟨k, ?_, hk1, hmid⟩
  have := count_window (U := U) (a := k + 1) (b := e + 1) (t := t) (by omega) (by omega)
    (fun i hi => ((hs.mono (show i ≤ k by omega) (by omega)).trans_lt hk1).ne) (fun i h1 h2 => hmid i (by omega) (by omega))
    (fun i hi h3 => (h2 i hi (by omega)).ne')
  omega

end field

/-- What is known at a parameter strictly inside the range: the span, and the knots to the left of it. -/
theorem interior_span {U : List ℝ} {p : ℕ} (hw : WFKnots U p) {t : ℝ} (h0 : knot U 0 < t) (h1 : t < lastKnot U) :
    ∃ k, k + U.count t = spanIx U t ∧ spanIx U t + p + 1 < U.length ∧ InSpan U (spanIx U t) t ∧ ku U k < t ∧ t < ku U (k + U.count t + 1) ∧
      ∀ j, k < j → j ≤ k + U.count t → ku U j = t := by
  obtain ⟨_, h2, h3, h4⟩ := hw.span h0.le h1.le
  have h5 : t < knot U (spanIx U t + 1) := by
    rcases h2 with ⟨_, b⟩ | ⟨_, _, c⟩
    · exact b
    · exact absurd h1 (by rw [c]; exact lt_irrefl _)
  have h6 : knot U (spanIx U t) ≤ t := by
    rcases h2 with ⟨a, _⟩ | ⟨a, _⟩
    · exact a
    · exact a.le
  obtain ⟨k, hk, hk1, hk2⟩ := pred_knots hw.sorted (e := spanIx U t) (by omega) h0 h6
    (fun j hj he => h5.trans_le (hw.sorted.mono he hj))
  refine ⟨k, hk, h4, h2, ?_, ?_, ?_⟩
  · rw [ku_eq (by omega)]; exact hk1
  · rw [hk, ku_eq (by omega)]; exact h5
  · intro j j1 j2
    rw [ku_eq (by omega)]
    exact hk2 j j1 (by omega)

/-- To the left of `t` a basis function is the polynomial of the span before `t`. -/
theorem cox_left {U : List ℝ} {p : ℕ} (hw : WFKnots U p) {k : ℕ} {t : ℝ} (hk : k + 1 < U.length) (h1 : ku U k < t) (h2 : t ≤ ku U (k + 1))
    {i e : ℕ} (hi : i + p + 1 < U.length) : ∀ᶠ y in 𝓝[<] t, coxDeBoorDeriv U p e i y = DNb (ku U) y (delta k) p e i := by
  filter_upwards [Ioo_mem_nhdsLT h1] with y hy
  apply coxDeriv_eq_DNb hw.sorted hk (Or.inl ⟨?_, ?_⟩) _ _ _ hi
  · have := hy.1.le
    rwa [ku_eq (by omega)] at this
  · have := hy.2.trans_le h2
    rwa [ku_eq (by omega)] at this

theorem cox_eventually {U : List ℝ} {p : ℕ} (hw : WFKnots U p) {t : ℝ} (h0 : knot U 0 < t) (h1 : t < lastKnot U) {i e : ℕ}
    (hi : i + p + 1 < U.length) (hm : e + U.count t ≤ p) : ∃ k, k + U.count t = spanIx U t ∧
      (∀ᶠ y in 𝓝[≤] t, coxDeBoorDeriv U p e i y = DNb (ku U) y (delta k) p e i) ∧
      ∀ e', e' + U.count t ≤ p → coxDeBoorDeriv U p e' i t = DNb (ku U) t (delta k) p e' i := by
  obtain ⟨k, hk, hl, hspan, a1, a2, a3⟩ := interior_span hw h0 h1
  have hv : ∀ e', e' + U.count t ≤ p → coxDeBoorDeriv U p e' i t = DNb (ku U) t (delta k) p e' i := by
    intro e' he'
    rw [coxDeriv_eq_DNb hw.sorted (by omega) hspan _ _ _ hi, DNb_agree a1 a2 a3 _ _ he', hk]
  have h2 : t ≤ ku U (k + 1) := by
    by_cases hc : U.count t = 0
    · rw [hc] at a2; exact a2.le
    · rw [a3 (k + 1) (by omega) (by omega)]
  refine ⟨k, hk, ?_, hv⟩
  have h3 := cox_left hw (by omega) a1 h2 (e := e) hi
  rw [eventually_nhdsWithin_iff] at h3 ⊢
  filter_upwards [h3] with y hy hyt
  rcases lt_or_eq_of_le (show y ≤ t from hyt) with h | h
  · exact hy h
  · rw [h]; exact hv e hm

/-- Two-sided derivative at an interior knot of small multiplicity. -/
theorem cox_hasDerivAt {U : List ℝ} {p : ℕ} (hw : WFKnots U p) {t : ℝ} (h0 : knot U 0 < t) (h1 : t < lastKnot U) {i e : ℕ}
    (hi : i + p + 1 < U.length) (hm : e + 1 + U.count t ≤ p) :
    HasDerivAt (fun y => coxDeBoorDeriv U p e i y) (coxDeBoorDeriv U p (e + 1) i t) t := by
  have hr := (cox_spanDeriv hw h0.le h1.le (k := e) hi).right h1
  obtain ⟨k, hk, hl, hv⟩ := cox_eventually hw h0 h1 hi (e := e) (by omega)
  have hL : HasDerivWithinAt (fun y => coxDeBoorDeriv U p e i y) (coxDeBoorDeriv U p (e + 1) i t) (Set.Iic t) t := by
    have h2 := (DNb_hasDerivAt (ku_mono hw.sorted) (delta k) t e p i).hasDerivWithinAt (s := Set.Iic t)
    rw [← hv (e + 1) hm] at h2
    exact h2.congr_of_eventuallyEq hl (hv e (by omega))
  have := hL.union hr
  rw [Set.Iic_union_Ici] at this
  exact hasDerivWithinAt_univ.1 this

theorem cox_continuousAt {U : List ℝ} {p : ℕ} (hw : WFKnots U p) {t : ℝ} (h0 : knot U 0 < t) (h1 : t < lastKnot U) {i e : ℕ}
    (hi : i + p + 1 < U.length) (hm : e + U.count t ≤ p) : ContinuousAt (fun y => coxDeBoorDeriv U p e i y) t := by
  have hr := ((cox_spanDeriv hw h0.le h1.le (k := e) hi).right h1).continuousWithinAt
  obtain ⟨k, hk, hl, hv⟩ := cox_eventually hw h0 h1 hi hm
  have hL : ContinuousWithinAt (fun y => coxDeBoorDeriv U p e i y) (Set.Iic t) t := by
    have h2 := (DNb_hasDerivAt (ku_mono hw.sorted) (delta k) t e p i).continuousAt.continuousWithinAt (s := Set.Iic t)
    exact h2.congr_of_eventuallyEq hl (hv e hm)
  have := hL.union hr
  rw [Set.Iic_union_Ici] at this
  exact this.continuousAt univ_mem

theorem inner_span {U : List ℝ} {p : ℕ} (hw : WFKnots U p) {t : ℝ} (h0 : knot U 0 < t) (h1 : t < lastKnot U) (hn : t ∉ U) :
    ∃ j, j + 1 < U.length ∧ knot U j < t ∧ t < knot U (j + 1) := by
  obtain ⟨_, h2, _, h4⟩ := hw.span h0.le h1.le
  rcases h2 with ⟨a, b⟩ | ⟨_, _, c⟩
  · exact ⟨_, by omega, lt_of_le_of_ne a fun h => hn (h ▸ knot_mem (by omega)), b⟩
  · exact absurd h1 (by rw [c]; exact lt_irrefl _)

theorem cox_hasDerivAt_of {U : List ℝ} {p : ℕ} (hw : WFKnots U p) {t : ℝ} (h0 : knot U 0 < t) (h1 : t < lastKnot U) {i e : ℕ}
    (hi : i + p + 1 < U.length) (hm : t ∈ U → e + 1 + U.count t ≤ p) :
    HasDerivAt (fun y => coxDeBoorDeriv U p e i y) (coxDeBoorDeriv U p (e + 1) i t) t := by
  by_cases hn : t ∈ U
  · exact cox_hasDerivAt hw h0 h1 hi (hm hn)
  · obtain ⟨j, hj, a, b⟩ := inner_span hw h0 h1 hn
    exact (cox_spanDeriv hw h0.le h1.le hi).inner j hj a b

/-- Derivatives of order `e` of functions of degree `p` are continuous at all interior knots. -/
def SmoothAt (U : List ℝ) (p e : ℕ) : Prop := ∀ t ∈ U, knot U 0 < t → t < lastKnot U → e + U.count t ≤ p

theorem SmoothAt.mono {U : List ℝ} {p e e' : ℕ} (h : SmoothAt U p e) (he : e' ≤ e) : SmoothAt U p e' :=
  fun t ht h0 h1 => by have := h t ht h0 h1; omega

theorem cox_continuousOn {U : List ℝ} {p : ℕ} (hw : WFKnots U p) {i e : ℕ} (hi : i + p + 1 < U.length) (hm : SmoothAt U p e) :
    ContinuousOn (fun y => coxDeBoorDeriv U p e i y) (Set.Icc (knot U 0) (lastKnot U)) := by
  intro t ht
  rcases lt_or_eq_of_le ht.1 with h0 | h0
  · rcases lt_or_eq_of_le ht.2 with h1 | h1
    · by_cases hn : t ∈ U
      · exact (cox_continuousAt hw h0 h1 hi (hm t hn h0 h1)).continuousWithinAt
      · obtain ⟨j, hj, a, b⟩ := inner_span hw h0 h1 hn
        exact ((cox_spanDeriv hw h0.le h1.le (k := e) hi).inner j hj a b).continuousAt.continuousWithinAt
    · have := ((cox_spanDeriv hw ht.1 ht.2 (k := e) hi).left h1).continuousWithinAt
      exact this.mono fun y hy => by rw [h1]; exact hy.2
  · have := ((cox_spanDeriv hw ht.1 ht.2 (k := e) hi).right (by rw [← h0]; exact hw.range)).continuousWithinAt
    exact this.mono fun y hy => by rw [← h0]; exact hy.1

/-! ### Tensor products -/

theorem dprod_hasDerivAt {Us : List (List ℝ)} {ps : List ℕ} (h : List.Forall₂ WFKnots Us ps) : ∀ {xs : List ℝ} {ks I : List ℕ} {d : ℕ},
    Dom Us xs → ks.length = Us.length → InBox (List.zipWith (fun U p => U.length - p - 1) Us ps) I → d < Us.length →
    knot (Us.getD d []) 0 < xs.getD d 0 → xs.getD d 0 < lastKnot (Us.getD d []) →
    (xs.getD d 0 ∈ Us.getD d [] → ks.getD d 0 + 1 + (Us.getD d []).count (xs.getD d 0) ≤ ps.getD d 0) →
    HasDerivAt (fun t => dprod (basisDerivFns Us ps (xs.set d t) ks) I)
      (dprod (basisDerivFns Us ps xs (ks.modify d (· + 1))) I) (xs.getD d 0) := by
  induction h with
  | nil => intro xs ks I d _ _ _ hd; simp at hd
  | @cons U p Us ps hU hr ih =>
    intro xs ks I d hx hk hI hd h0 h1 hm
    cases hx with
    | @cons _ a _ as hx hxs =>
      match ks, I, hk, hI with
      | k :: ks, [], hk, hI => simp at hI
      | k :: ks, i :: I, hk, hI =>
        simp only [List.zipWith_cons_cons, inBox_cons] at hI
        cases d with
        | zero =>
          simp only [List.set_cons_zero, List.modify_zero_cons, basisDerivFns, dprod, List.getD_cons_zero] at h0 h1 hm ⊢
          exact (cox_hasDerivAt_of hU h0 h1 (by omega) hm).mul_const _
        | succ d =>
          simp only [List.set_cons_succ, List.modify_succ_cons, basisDerivFns, dprod, List.getD_cons_succ] at h0 h1 hm ⊢
          exact (ih hxs (by simpa using hk) hI.2 (by simpa using hd) h0 h1 hm).const_mul _

variable {X : Type} [TopologicalSpace X]

theorem dprod_continuous {Us : List (List ℝ)} {ps : List ℕ} (h : List.Forall₂ WFKnots Us ps) : ∀ {γ : List (X → ℝ)} {ks I : List ℕ},
    (∀ g ∈ γ, Continuous g) → (∀ v, Dom Us (γ.map fun g => g v)) → ks.length = Us.length →
    InBox (List.zipWith (fun U p => U.length - p - 1) Us ps) I →
    (∀ d U p, Us[d]? = some U → ps[d]? = some p → SmoothAt U p (ks.getD d 0)) →
    Continuous fun v => dprod (basisDerivFns Us ps (γ.map fun g => g v) ks) I := by
  induction h with
  | nil =>
    intro γ ks I _ _ _ hI _
    simp only [basisDerivFns]
    exact continuous_const
  | @cons U p Us ps hU hr ih =>
    intro γ ks I hc hx hk hI hm
    match γ, ks, I, hk, hI with
    | [], k :: ks, I, hk, hI => simp only [List.map_nil, basisDerivFns]; exact continuous_const
    | g :: γ, k :: ks, [], hk, hI => simp at hI
    | g :: γ, k :: ks, i :: I, hk, hI =>
      simp only [List.zipWith_cons_cons, inBox_cons] at hI
      simp only [List.map_cons, basisDerivFns, dprod]
      have hd : ∀ v, (knot U 0 ≤ g v ∧ g v ≤ lastKnot U) ∧ Dom Us (γ.map fun g => g v) := by
        intro v
        have := hx v
        rw [List.map_cons] at this
        cases this with
        | cons a b => exact ⟨a, b⟩
      refine Continuous.mul ?_ (ih (fun g hg => hc g (by simp [hg])) (fun v => (hd v).2) (by simpa using hk) hI.2 fun d U' p' h1 h2 => ?_)
      · have := cox_continuousOn hU (i := i) (e := k) (by omega) (by simpa using hm 0 U p rfl rfl)
        exact this.comp_continuous (hc g (by simp)) fun v => (hd v).1
      · simpa using hm (d + 1) U' p' (by simpa using h1) (by simpa using h2)

theorem msum_continuous : ∀ {ns : List ℕ} {f : List ℕ → X → ℝ}, (∀ I, InBox ns I → Continuous (f I)) → Continuous fun t => msum ns fun I => f I t
  | [], f, h => h [] inBox_nil
  | n :: ns, f, h => by
    simp only [msum]
    exact continuous_finset_sum _ fun i hi => msum_continuous fun I hI => h _ (inBox_cons.2 ⟨mem_range.1 hi, hI⟩)

theorem ratR_continuous {A W : List ℕ → X → ℝ} {D : ℕ} {b : List ℕ}
    (hA : ∀ k, k.length = D → (∀ d, k.getD d 0 ≤ b.getD d 0) → Continuous (A k))
    (hW : ∀ k, k.length = D → (∀ d, k.getD d 0 ≤ b.getD d 0) → Continuous (W k)) (h0 : ∀ v, W (List.replicate D 0) v ≠ 0) :
    ∀ (n : ℕ) (k : List ℕ), k.length = D → (∀ d, k.getD d 0 ≤ b.getD d 0) → k.sum ≤ n →
      Continuous fun v => ratR (fun k => A k v) (fun k => W k v) k := by
  intro n
  induction n using Nat.strong_induction_on with
  | _ n ih =>
    intro k hk hkb hn
    have hz : (k.map fun _ => 0) = List.replicate D 0 := by simp [hk]
    simp only [ratR_rec _ _ k, hz]
    refine Continuous.div ((hA k hk hkb).sub (continuous_finset_sum _ fun m hm => ?_)) (hW _ (by simp) fun d => ?_) h0
    · have hm' := mem_range.1 hm
      have hb := unlin_inBox (mem_actBox_pos (k := k)) (m + 1)
      have hlt := msub_sum_lt hb (by
        have := unlin_ne_zero (ns := k.map (· + 1)) (m := m + 1) (by omega) (by omega)
        rwa [show (List.map (fun _ => 0) (unlin (k.map (· + 1)) (m + 1))) = (k.map (· + 1)).map fun _ => 0 by
          simp only [List.map_const', unlin_length]])
      refine ((continuous_const.mul (ih _ (by omega) _ (by rw [msub_length (by simp), hk])
        (fun d => (msub_getD_le k _ d).trans (hkb d)) le_rfl)).mul (hW _ (by simp [hk]) fun d => (inBox_getD_le hb d).trans (hkb d)))
    · rw [List.getD_eq_getElem?_getD, List.getElem?_replicate]; split <;> simp

end SplineLib
