import Verif.Core.Unity
import Verif.Core.InsertMany

/-!
# Slopes of control nets (helper lemmas)
-/

namespace SplineLib
set_option linter.unusedSectionVars false
open Finset

section
variable {K : Type} [Field K] [LinearOrder K] [IsStrictOrderedRing K]

/-! ### One direction -/

/-- The factor of the new coefficient in front of the old one with the same index. -/
def insβ (U : List K) (p k : ℕ) (t : K) (j : ℕ) : K := if j + p ≤ k then 1 else if j ≤ k then insα U p t j else 0

/-- Differences of neighbouring coefficients, relative to the knots. -/
def RowSlope (U : List K) (p : ℕ) (L : K) (f : ℕ → K) : Prop :=
  ∀ i, i + 1 < U.length - p - 1 → |f (i + 1) - f i| ≤ L * (knot U (i + 1 + p) - knot U (i + 1))

theorem insβ_bounds {U : List K} {p k : ℕ} {t : K} (h : InsAt U p k t) (j : ℕ) (hj : j ≤ k) :
    0 ≤ insβ U p k t j ∧ insβ U p k t j ≤ 1 ∧
    insβ U p k t j * (knot U (j + p) - knot U j) = (if j + p ≤ k then knot U (j + p) else t) - knot U j ∧
    (1 - insβ U p k t j) * (knot U (j + p) - knot U j) = knot U (j + p) - (if j + p ≤ k then knot U (j + p) else t) := by
  unfold insβ
  by_cases h1 : j + p ≤ k
  · simp only [h1, if_true]
    exact ⟨zero_le_one, le_refl _, by ring, by ring⟩
  · simp only [h1, if_false, hj, if_true]
    have hh := h.hi
    have a1 : knot U j ≤ t := (h.wf.sorted.mono hj (by omega)).trans h.le
    have a2 : t ≤ knot U (j + p) := h.ge.trans (h.wf.sorted.mono (show k + 1 ≤ j + p by omega) (by omega))
    unfold insα
    rcases lt_or_eq_of_le (a1.trans a2) with hlt | heq
    · have hpos : 0 < knot U (j + p) - knot U j := by linarith
      refine ⟨div_nonneg (by linarith) hpos.le, by rw [div_le_one hpos]; linarith, by field_simp, ?_⟩
      rw [sub_mul, div_mul_cancel₀ _ hpos.ne']; ring
    · have hz : knot U (j + p) - knot U j = 0 := by rw [heq]; ring
      have ht : t = knot U j := le_antisymm (by rw [heq]; exact a2) a1
      have ht' : t = knot U (j + p) := by rw [← heq]; exact ht
      rw [hz]
      refine ⟨by simp, by simp, by rw [ht]; simp, by rw [ht']; simp⟩

theorem blend1_eq {U : List K} {p k : ℕ} {t : K} (h : InsAt U p k t) (hp : 0 < p) {last : ℕ} (hl : last ≤ k) (hl2 : ∀ j, last < j → j ≤ k → knot U j = t)
    {L : K} {f : ℕ → K} (hf : RowSlope U p L f) (j : ℕ) :
    blend1 (k + 1 - p) last (insα U p t) f j = f (j - 1) + insβ U p k t j * (f j - f (j - 1)) := by
  have hh := h.hi
  have hlo := h.lo
  unfold blend1 insβ
  by_cases h1 : last < j
  · simp only [h1, if_true]
    by_cases h2 : j ≤ k
    · have ht := hl2 j h1 h2
      by_cases h3 : j + p ≤ k
      · have := hf (j - 1) (by omega)
        rw [show j - 1 + 1 = j by omega, ht, hl2 (j + p) (by omega) h3, sub_self, mul_zero] at this
        have := abs_eq_zero.1 (le_antisymm this (abs_nonneg _))
        rw [this]; simp
      · simp only [h3, if_false, h2, if_true, insα, ht, sub_self, zero_div, zero_mul, add_zero]
    · rw [if_neg (by omega), if_neg h2]; simp
  · simp only [h1, if_false]
    by_cases h2 : k + 1 - p ≤ j
    · rw [if_pos h2, if_neg (by omega), if_pos (by omega)]; ring
    · rw [if_neg h2, if_pos (by omega)]; ring

/-- Knot insertion keeps the slopes. -/
theorem blend_slope {U : List K} {p k : ℕ} {t : K} (h : InsAt U p k t) {last : ℕ} (hl : last ≤ k) (hl2 : ∀ j, last < j → j ≤ k → knot U j = t)
    {L : K} {f : ℕ → K} (hf : RowSlope U p L f) :
    RowSlope (U.insertIdx (k + 1) t) p L (blend1 (k + 1 - p) last (insα U p t) f) := by
  have hh := h.hi
  have hlo := h.lo
  intro i hi
  rw [h.length] at hi
  rcases Nat.eq_zero_or_pos p with rfl | hp
  · -- constant coefficients
    have hc : ∀ i, i < U.length - 0 - 1 → f i = f 0 := by
      intro i
      induction i with
      | zero => intro _; rfl
      | succ i ih =>
        intro hi
        have := hf i hi
        rw [Nat.add_zero, sub_self, mul_zero] at this
        have := abs_eq_zero.1 (le_antisymm this (abs_nonneg _))
        rw [← ih (by omega)]; linarith
    have hb : ∀ j, j < U.length - 0 - 1 + 1 → blend1 (k + 1 - 0) last (insα U 0 t) f j = f 0 := by
      intro j hj
      unfold blend1
      split
      · exact hc _ (by omega)
      · rw [if_neg (by omega)]
        exact hc _ (by omega)
    rw [hb _ (by omega), hb _ (by omega)]
    simp
  rw [blend1_eq h hp hl hl2 hf, blend1_eq h hp hl hl2 hf]
  have e : f (i + 1 - 1) + insβ U p k t (i + 1) * (f (i + 1) - f (i + 1 - 1)) - (f (i - 1) + insβ U p k t i * (f i - f (i - 1))) =
      insβ U p k t (i + 1) * (f (i + 1) - f i) + (1 - insβ U p k t i) * (f i - f (i - 1)) := by
    rw [Nat.add_sub_cancel]; ring
  rw [e, h.knot, h.knot]
  -- the two parts
  have h1 : |insβ U p k t (i + 1) * (f (i + 1) - f i)| ≤
      L * (if i + 1 ≤ k then (if i + 1 + p ≤ k then knot U (i + 1 + p) else t) - knot U (i + 1) else 0) := by
    by_cases hik : i + 1 ≤ k
    · obtain ⟨b0, b1, b2, b3⟩ := insβ_bounds h (i + 1) hik
      rw [if_pos hik, ← b2, abs_mul, abs_of_nonneg b0]
      calc insβ U p k t (i + 1) * |f (i + 1) - f i| ≤ insβ U p k t (i + 1) * (L * (knot U (i + 1 + p) - knot U (i + 1))) :=
            mul_le_mul_of_nonneg_left (hf i (by omega)) b0
        _ = _ := by ring
    · have : insβ U p k t (i + 1) = 0 := by unfold insβ; rw [if_neg (by omega), if_neg hik]
      rw [this, if_neg hik]; simp
  have h2 : |(1 - insβ U p k t i) * (f i - f (i - 1))| ≤
      L * (knot U (i + p) - (if i ≤ k then (if i + p ≤ k then knot U (i + p) else t) else knot U i)) := by
    rcases Nat.eq_zero_or_pos i with rfl | hi0
    · have : insβ U p k t 0 = 1 := by unfold insβ; rw [if_pos (by omega)]
      rw [this, if_pos (by omega), if_pos (by omega)]; simp
    · have hs := hf (i - 1) (by omega)
      rw [show i - 1 + 1 = i by omega] at hs
      by_cases hik : i ≤ k
      · obtain ⟨b0, b1, b2, b3⟩ := insβ_bounds h i hik
        rw [if_pos hik, ← b3, abs_mul, abs_of_nonneg (by linarith)]
        calc (1 - insβ U p k t i) * |f i - f (i - 1)| ≤ (1 - insβ U p k t i) * (L * (knot U (i + p) - knot U i)) :=
              mul_le_mul_of_nonneg_left hs (by linarith)
          _ = _ := by ring
      · have : insβ U p k t i = 0 := by unfold insβ; rw [if_neg (by omega), if_neg hik]
        rw [this, if_neg hik, sub_zero, one_mul]; exact hs
  refine (abs_add_le _ _).trans ((add_le_add h1 h2).trans (le_of_eq ?_))
  rw [← mul_add]
  congr 1
  by_cases c1 : i + 1 + p ≤ k
  · rw [if_pos (show i + 1 ≤ k by omega), if_pos c1, if_pos (show i ≤ k by omega), if_pos (show i + p ≤ k by omega), if_pos c1,
      if_pos (show i + 1 ≤ k by omega)]; ring
  by_cases c2 : i + 1 + p = k + 1
  · rw [if_pos (show i + 1 ≤ k by omega), if_neg c1, if_pos (show i ≤ k by omega), if_pos (show i + p ≤ k by omega), if_neg c1,
      if_pos c2, if_pos (show i + 1 ≤ k by omega)]; ring
  rw [if_neg c1, if_neg c1, if_neg c2, show i + 1 + p - 1 = i + p by omega]
  by_cases c3 : i + 1 ≤ k
  · rw [if_pos c3, if_pos (show i ≤ k by omega), if_neg (show ¬ i + p ≤ k by omega), if_pos c3]; ring
  by_cases c4 : i = k
  · subst c4
    rw [if_neg c3, if_pos (le_refl _), if_neg (show ¬ i + p ≤ i by omega), if_neg c3, if_pos rfl]; ring
  · rw [if_neg c3, if_neg (show ¬ i ≤ k by omega), if_neg c3, if_neg (show ¬ i + 1 = k + 1 by omega), Nat.add_sub_cancel]; ring

/-- `p` times the average of `p` knots. -/
def knotSum (U : List K) (p i : ℕ) : K := ∑ r ∈ range p, knot U (i + 1 + r)

theorem knotSum_succ (U : List K) (p i : ℕ) : knotSum U p (i + 1) - knotSum U p i = knot U (i + 1 + p) - knot U (i + 1) := by
  unfold knotSum
  have h1 := sum_range_succ (fun r => knot U (i + 1 + r)) p
  have h2 := sum_range_succ' (fun r => knot U (i + 1 + r)) p
  rw [h1] at h2
  have h3 : ∑ r ∈ range p, knot U (i + 1 + 1 + r) = ∑ r ∈ range p, knot U (i + 1 + (r + 1)) :=
    sum_congr rfl fun r _ => by congr 1; omega
  rw [h3]
  simp only [Nat.add_zero] at h2
  linarith

theorem slope_sum {U : List K} {p : ℕ} {L : K} {f : ℕ → K} (hf : RowSlope U p L f) {a : ℕ} : ∀ {b : ℕ}, a ≤ b → b < U.length - p - 1 →
    |f b - f a| ≤ L * (knotSum U p b - knotSum U p a) := by
  intro b hab
  induction b, hab using Nat.le_induction with
  | base => intro _; simp
  | succ b hab ih =>
    intro hb
    have h1 := ih (by omega)
    have h2 := hf b hb
    rw [← knotSum_succ] at h2
    calc |f (b + 1) - f a| = |(f (b + 1) - f b) + (f b - f a)| := by congr 1; ring
      _ ≤ |f (b + 1) - f b| + |f b - f a| := abs_add_le _ _
      _ ≤ _ := by rw [show L * (knotSum U p (b + 1) - knotSum U p a) =
            L * (knotSum U p (b + 1) - knotSum U p b) + L * (knotSum U p b - knotSum U p a) by ring]; exact add_le_add h2 h1

theorem knotSum_le {U : List K} (hs : SortedKnots U) {p a b : ℕ} (hb : b + p < U.length) (ha : a + 1 < U.length) (hab : a ≤ b) :
    knotSum U p b - knotSum U p a ≤ p * (knot U (b + p) - knot U (a + 1)) := by
  unfold knotSum
  rw [← sum_sub_distrib]
  refine (sum_le_sum (g := fun _ => knot U (b + p) - knot U (a + 1)) fun r hr => ?_).trans (by rw [sum_const, card_range, nsmul_eq_mul])
  have hr := mem_range.1 hr
  have h1 := hs.mono (show b + 1 + r ≤ b + p by omega) hb
  have h2 := hs.mono (show a + 1 ≤ a + 1 + r by omega) (by omega)
  linarith

/-- Gaps of at most `h` add up. -/
theorem mesh_le {U : List K} {h : K} (hm : ∀ i, i + 1 < U.length → knot U (i + 1) - knot U i ≤ h) (i : ℕ) : ∀ m, i + m < U.length →
    knot U (i + m) ≤ knot U i + m * h := by
  intro m
  induction m with
  | zero => intro _; simp
  | succ m ih =>
    intro hl
    have h1 := ih (by omega)
    have h2 := hm (i + m) (by omega)
    push_cast
    rw [← Nat.add_assoc]
    linarith

/-- A control coefficient and those of the basis functions that are active near it. -/
theorem row_dist {U : List K} {p : ℕ} (hw : WFKnots U p) {h : K} (hm : ∀ i, i + 1 < U.length → knot U (i + 1) - knot U i ≤ h) {L : K} (hL : 0 ≤ L)
    {f : ℕ → K} (hf : RowSlope U p L f) {i j : ℕ} (hi : i < U.length - p - 1) (hj : j < U.length - p - 1) {x : K}
    (h0 : knot U (i + 1) ≤ x) (h1 : x ≤ knot U (i + p)) (hx : coxDeBoor U p j x ≠ 0) : |f i - f j| ≤ L * ((2 * p ^ 2) * h) := by
  obtain ⟨k, hk1, hk2, hk⟩ : ∃ k, j ≤ k ∧ k ≤ j + p ∧ InSpan U k x := by
    by_contra hc
    push Not at hc
    exact hx (cox_zero hc)
  have hxk : knot U k ≤ x ∧ x ≤ knot U (k + 1) := by
    rcases hk with ⟨a, b⟩ | ⟨a, b, _⟩
    · exact ⟨a, b.le⟩
    · exact ⟨a.le, b.le⟩
  have hs := hw.sorted
  have hpp : (0 : K) ≤ p := Nat.cast_nonneg p
  have hh : 0 ≤ h := by
    have := hm 0 (by omega)
    have := hs.mono (show 0 ≤ 0 + 1 by omega) (show 0 + 1 < U.length by omega)
    linarith
  have g1 : knot U (i + p) ≤ knot U (i + 1) + p * h := by
    have h2 := mesh_le hm i p (by omega)
    have h3 := hs.mono (show i ≤ i + 1 by omega) (by omega)
    linarith
  rcases Nat.le_total i j with hij | hij
  · have h2 := slope_sum hf hij hj
    have h3 := knotSum_le hs (p := p) (a := i) (b := j) (by omega) (by omega) hij
    have h4 := mesh_le hm j p (by omega)
    have h5 := hs.mono hk1 (show k < U.length by omega)
    rw [abs_sub_comm]
    refine h2.trans (mul_le_mul_of_nonneg_left (h3.trans ?_) hL)
    have : knot U (j + p) - knot U (i + 1) ≤ 2 * p * h := by linarith [hxk.1]
    calc (p : K) * (knot U (j + p) - knot U (i + 1)) ≤ p * (2 * p * h) := mul_le_mul_of_nonneg_left this hpp
      _ = 2 * p ^ 2 * h := by ring
  · have h2 := slope_sum hf hij hi
    have h3 := knotSum_le hs (p := p) (a := j) (b := i) (by omega) (by omega) hij
    have h4 := mesh_le hm (j + 1) p (by omega)
    have h5 := hs.mono (show k + 1 ≤ j + 1 + p by omega) (by omega)
    refine h2.trans (mul_le_mul_of_nonneg_left (h3.trans ?_) hL)
    have : knot U (i + p) - knot U (j + 1) ≤ 2 * p * h := by linarith [hxk.2]
    calc (p : K) * (knot U (i + p) - knot U (j + 1)) ≤ p * (2 * p * h) := mul_le_mul_of_nonneg_left this hpp
      _ = 2 * p ^ 2 * h := by ring

/-! ### All directions -/

/-- Slopes of a net of coefficients. -/
def NetSlope (Us : List (List K)) (ps : List ℕ) (L : K) (F : List ℕ → K) : Prop :=
  ∀ (d : ℕ) (U : List K) (p : ℕ), Us[d]? = some U → ps[d]? = some p → ∀ I, InBox (nptsOf Us ps) I → RowSlope U p L fun i => F (I.set d i)

/-- The parameters lie between the knots that belong to the control point. -/
def NearPoint : List (List K) → List ℕ → List ℕ → List K → Prop
  | U :: Us, p :: ps, i :: I, x :: xs => (knot U (i + 1) ≤ x ∧ x ≤ knot U (i + p)) ∧ NearPoint Us ps I xs
  | [], [], [], [] => True
  | _, _, _, _ => False

/-- `Σ 2p²`. -/
def netConst (ps : List ℕ) : K := (ps.map fun p : ℕ => 2 * (p : K) ^ 2).sum

theorem net_dist {Us : List (List K)} {ps : List ℕ} (hw : List.Forall₂ WFKnots Us ps) {h : K}
    (hm : ∀ U ∈ Us, ∀ i, i + 1 < U.length → knot U (i + 1) - knot U i ≤ h) {L : K} (hL : 0 ≤ L) :
    ∀ {F : List ℕ → K} {I J : List ℕ} {xs : List K}, NetSlope Us ps L F → InBox (nptsOf Us ps) I → InBox (nptsOf Us ps) J →
      NearPoint Us ps I xs → dprod (basisFns Us ps xs) J ≠ 0 → |F I - F J| ≤ L * (netConst ps * h) := by
  induction hw with
  | nil =>
    intro F I J xs _ hI hJ _ _
    rw [nptsOf, List.zipWith_nil_left, inBox_nil_iff] at hI hJ
    subst hI hJ
    simp [netConst]
  | @cons U p Us ps hw _ ih =>
    intro F I J xs hF hI hJ hn hd
    cases I with
    | nil => simp [nptsOf] at hI
    | cons i I =>
      cases J with
      | nil => simp [nptsOf] at hJ
      | cons j J =>
        cases xs with
        | nil => simp [NearPoint] at hn
        | cons x xs =>
          simp only [nptsOf, List.zipWith_cons_cons, inBox_cons] at hI hJ
          simp only [NearPoint] at hn
          simp only [basisFns, dprod] at hd
          have hrow := hF 0 U p rfl rfl (i :: I) (by simp only [nptsOf, List.zipWith_cons_cons, inBox_cons]; exact hI)
          simp only [List.set_cons_zero] at hrow
          have h1 := row_dist hw (hm U (by simp)) hL hrow hI.1 hJ.1 hn.1.1 hn.1.2 (left_ne_zero_of_mul hd)
          have h2 := ih (fun V hV => hm V (by simp [hV])) (F := fun I => F (j :: I)) (I := I) (J := J) (xs := xs) (by
            intro d V q hV hq I' hI'
            have := hF (d + 1) V q hV hq (j :: I') (by simp only [nptsOf, List.zipWith_cons_cons, inBox_cons]; exact ⟨hJ.1, hI'⟩)
            simpa only [List.set_cons_succ] using this) hI.2 hJ.2 hn.2 (right_ne_zero_of_mul hd)
          have e : L * (netConst (p :: ps) * h) = L * (2 * (p : K) ^ 2 * h) + L * (netConst ps * h) := by
            have : (netConst (p :: ps) : K) = 2 * (p : K) ^ 2 + netConst ps := by
              unfold netConst; rw [List.map_cons, List.sum_cons]
            rw [this]; ring
          rw [e]
          calc |F (i :: I) - F (j :: J)| = |(F (i :: I) - F (j :: I)) + (F (j :: I) - F (j :: J))| := by congr 1; ring
            _ ≤ _ := (abs_add_le _ _).trans (add_le_add h1 h2)

theorem near_dom {Us : List (List K)} {ps : List ℕ} (hw : List.Forall₂ WFKnots Us ps) : ∀ {I : List ℕ} {xs : List K},
    InBox (nptsOf Us ps) I → NearPoint Us ps I xs → Dom Us xs := by
  induction hw with
  | nil =>
    intro I xs _ hn
    cases I <;> cases xs <;> simp [NearPoint] at hn
    exact .nil
  | @cons U p Us ps hw _ ih =>
    intro I xs hI hn
    cases I with
    | nil => simp [nptsOf] at hI
    | cons i I =>
      cases xs with
      | nil => simp [NearPoint] at hn
      | cons x xs =>
        simp only [nptsOf, List.zipWith_cons_cons, inBox_cons] at hI
        simp only [NearPoint] at hn
        refine .cons ⟨?_, ?_⟩ (ih hI.2 hn.2)
        · exact (hw.sorted.first_le (by omega)).trans hn.1.1
        · exact hn.1.2.trans (hw.sorted.le_last (by omega))

/-- A coefficient is close to the tensor product sum. -/
theorem sum_dist {Us : List (List K)} {ps : List ℕ} (hw : List.Forall₂ WFKnots Us ps) {h : K}
    (hm : ∀ U ∈ Us, ∀ i, i + 1 < U.length → knot U (i + 1) - knot U i ≤ h) {L : K} (hL : 0 ≤ L) {F : List ℕ → K} (hF : NetSlope Us ps L F)
    {I : List ℕ} (hI : InBox (nptsOf Us ps) I) {xs : List K} (hn : NearPoint Us ps I xs) :
    |F I - msum (nptsOf Us ps) (fun J => dprod (basisFns Us ps xs) J * F J)| ≤ L * (netConst ps * h) := by
  have hx := near_dom hw hI hn
  have h1 : msum (nptsOf Us ps) (dprod (basisFns Us ps xs)) = 1 := tensor_unity hw hx
  have hN : ∀ J, InBox (nptsOf Us ps) J → 0 ≤ dprod (basisFns Us ps xs) J := fun J hJ => tensor_nonneg hw hx hJ
  have e : ∀ c : K, msum (nptsOf Us ps) (fun J => dprod (basisFns Us ps xs) J * c) = c := by
    intro c
    have := msum_mul_left c (nptsOf Us ps) (dprod (basisFns Us ps xs))
    rw [h1, mul_one] at this
    exact (msum_congr fun J _ => mul_comm _ _).trans this
  have key : ∀ J, InBox (nptsOf Us ps) J → dprod (basisFns Us ps xs) J * (F I - L * (netConst ps * h)) ≤ dprod (basisFns Us ps xs) J * F J ∧
      dprod (basisFns Us ps xs) J * F J ≤ dprod (basisFns Us ps xs) J * (F I + L * (netConst ps * h)) := by
    intro J hJ
    by_cases hz : dprod (basisFns Us ps xs) J = 0
    · rw [hz]; simp
    · have := abs_le.1 (net_dist hw hm hL hF hI hJ hn hz)
      exact ⟨mul_le_mul_of_nonneg_left (by linarith [this.2]) (hN J hJ), mul_le_mul_of_nonneg_left (by linarith [this.1]) (hN J hJ)⟩
  have lo := msum_le fun J hJ => (key J hJ).1
  have hi := msum_le fun J hJ => (key J hJ).2
  rw [e] at lo hi
  rw [abs_le]
  constructor <;> linarith

/-! ### Knot insertion -/

theorem NetSlope.congr {Us : List (List K)} {ps : List ℕ} {L : K} {F G : List ℕ → K} (h : NetSlope Us ps L F)
    (hFG : ∀ I, InBox (nptsOf Us ps) I → G I = F I) : NetSlope Us ps L G := by
  intro d U p hU hp I hI i hi
  have box : ∀ j < U.length - p - 1, InBox (nptsOf Us ps) (I.set d j) := fun j hj => by
    have hd := lt_of_some (nptsOf_get hU hp)
    have := inBox_set (d := d) (n := U.length - p - 1) hI hj
    rwa [← nptsOf_ixd hU hp, set_ixd hd] at this
  have := h d U p hU hp I hI i hi
  dsimp only at this ⊢
  rwa [hFG _ (box _ hi), hFG _ (box _ (by omega))]

theorem blendDir_slope {Us : List (List K)} {ps : List ℕ} {d : ℕ} {U : List K} {p : ℕ} (hU : Us[d]? = some U) (hp : ps[d]? = some p) {k : ℕ} {t : K}
    (h : InsAt U p k t) {last : ℕ} (hl : last ≤ k) (hl1 : knot U last < t) (hl2 : ∀ j, last < j → j ≤ k → knot U j = t)
    {L : K} {F : List ℕ → K} (hF : NetSlope Us ps L F) :
    NetSlope (Us.set d (U.insertIdx (k + 1) t)) ps L (blendDir d (k + 1 - p) last (insα U p t) F) := by
  have hh := h.hi
  have hlo := h.lo
  have hdn : d < (nptsOf Us ps).length := lt_of_some (nptsOf_get hU hp)
  intro e V q hV hq I hI
  rw [nptsOf_set _ hp, h.length] at hI
  have hdI : d < I.length := by rw [hI.length, List.length_set]; exact hdn
  have hIn : ixd I d < U.length - p - 1 + 1 := by
    have := hI.getD_lt (d := d) (by rw [List.length_set]; exact hdn)
    have e : ((nptsOf Us ps).set d (U.length + 1 - p - 1)).getD d 0 = U.length + 1 - p - 1 := ixd_set_self hdn
    have : ixd I d < U.length + 1 - p - 1 := by rw [← e]; exact this
    omega
  have box : ∀ j < U.length - p - 1, InBox (nptsOf Us ps) (I.set d j) := fun j hj => inBox_set_of hI (by rw [nptsOf_ixd hU hp]; exact hj)
  by_cases hed : e = d
  · subst hed
    rw [List.getElem?_set, if_pos rfl, if_pos (lt_of_some hU)] at hV
    obtain rfl := Option.some.inj hV
    obtain rfl : p = q := Option.some.inj (hp.symm.trans hq)
    have hrow := hF e U p hU hp (I.set e 0) (box 0 (by omega))
    simp only [List.set_set] at hrow
    have := blend_slope h hl hl2 hrow
    intro i hi
    have hb : ∀ i, blendDir e (k + 1 - p) last (insα U p t) F (I.set e i) = blend1 (k + 1 - p) last (insα U p t) (fun i => F (I.set e i)) i := by
      intro i
      unfold blendDir blend1
      rw [ixd_set_self hdI]
      simp only [List.set_set]
    dsimp only
    rw [hb, hb]
    exact this i hi
  · rw [List.getElem?_set, if_neg (fun h => hed h.symm)] at hV
    have hix : ∀ i, ixd (I.set e i) d = ixd I d := by
      intro i
      simp only [ixd, List.getD_eq_getElem?_getD, List.getElem?_set]
      rw [if_neg hed]
    have hcomm : ∀ i j, (I.set e i).set d j = (I.set d j).set e i := fun i j => List.set_comm _ _ hed
    have row : ∀ j < U.length - p - 1, RowSlope V q L fun i => F ((I.set e i).set d j) := by
      intro j hj
      simp only [hcomm]
      exact hF e V q hV hq _ (box j hj)
    have row' : ixd I d < U.length - p - 1 → RowSlope V q L fun i => F (I.set e i) := by
      intro hj
      have := hF e V q hV hq _ (box _ hj)
      rwa [set_ixd hdI] at this
    intro i hi
    simp only [blendDir, hix]
    by_cases c1 : last < ixd I d
    · simp only [c1, if_true]
      exact row (ixd I d - 1) (by omega) i hi
    · simp only [c1, if_false]
      by_cases c2 : k + 1 - p ≤ ixd I d
      · simp only [c2, if_true]
        have b := insα_bounds h hl hl1 c2 (by omega)
        have r1 := row' (by omega) i hi
        have r2 := row (ixd I d - 1) (by omega) i hi
        dsimp only at r1 r2
        generalize insα U p t (ixd I d) = a at *
        rw [show a * F (I.set e (i + 1)) + (1 - a) * F ((I.set e (i + 1)).set d (ixd I d - 1)) -
            (a * F (I.set e i) + (1 - a) * F ((I.set e i).set d (ixd I d - 1))) =
            a * (F (I.set e (i + 1)) - F (I.set e i)) +
              (1 - a) * (F ((I.set e (i + 1)).set d (ixd I d - 1)) - F ((I.set e i).set d (ixd I d - 1))) by ring]
        refine (abs_add_le _ _).trans ?_
        rw [abs_mul, abs_mul, abs_of_nonneg b.2.2.1, abs_of_nonneg (sub_nonneg.2 b.2.2.2)]
        have m1 := mul_le_mul_of_nonneg_left r1 b.2.2.1
        have m2 := mul_le_mul_of_nonneg_left r2 (sub_nonneg.2 b.2.2.2)
        refine (add_le_add m1 m2).trans (le_of_eq ?_)
        ring
      · simp only [c2, if_false]
        exact row' (by omega) i hi

theorem blendDir_ge {Us : List (List K)} {ps : List ℕ} {d : ℕ} {U : List K} {p : ℕ} (hU : Us[d]? = some U) (hp : ps[d]? = some p) {k : ℕ} {t : K}
    (h : InsAt U p k t) {last : ℕ} (hl : last ≤ k) (hl1 : knot U last < t) {ω : K} {F : List ℕ → K}
    (hF : ∀ I, InBox (nptsOf Us ps) I → ω ≤ F I) {I : List ℕ} (hI : InBox (nptsOf (Us.set d (U.insertIdx (k + 1) t)) ps) I) :
    ω ≤ blendDir d (k + 1 - p) last (insα U p t) F I := by
  have hh := h.hi
  have hlo := h.lo
  have hdn : d < (nptsOf Us ps).length := lt_of_some (nptsOf_get hU hp)
  rw [nptsOf_set _ hp, h.length] at hI
  have hdI : d < I.length := by rw [hI.length, List.length_set]; exact hdn
  have hIn : ixd I d < U.length - p - 1 + 1 := by
    have := hI.getD_lt (d := d) (by rw [List.length_set]; exact hdn)
    have e : ((nptsOf Us ps).set d (U.length + 1 - p - 1)).getD d 0 = U.length + 1 - p - 1 := ixd_set_self hdn
    have : ixd I d < U.length + 1 - p - 1 := by rw [← e]; exact this
    omega
  have box : ∀ j < U.length - p - 1, InBox (nptsOf Us ps) (I.set d j) := fun j hj => inBox_set_of hI (by rw [nptsOf_ixd hU hp]; exact hj)
  have box' : ixd I d < U.length - p - 1 → InBox (nptsOf Us ps) I := fun hj => by
    have := box _ hj
    rwa [set_ixd hdI] at this
  unfold blendDir
  by_cases c1 : last < ixd I d
  · simp only [c1, if_true]
    exact hF _ (box _ (by omega))
  · simp only [c1, if_false]
    by_cases c2 : k + 1 - p ≤ ixd I d
    · simp only [c2, if_true]
      have b := insα_bounds h hl hl1 c2 (by omega)
      have r1 := hF _ (box' (by omega))
      have r2 := hF _ (box (ixd I d - 1) (by omega))
      have m1 := mul_le_mul_of_nonneg_left r1 b.2.2.1
      have m2 := mul_le_mul_of_nonneg_left r2 (sub_nonneg.2 b.2.2.2)
      linarith
    · simp only [c2, if_false]
      exact hF _ (box' (by omega))

/-- What refinement keeps. -/
structure NetKept (s s' : Spl K) : Prop where
  wf : WFSpl s'
  same : SameSums s s'
  degree : s'.ps.degree = s.ps.degree
  wslope : ∀ L, NetSlope s.ps.knots s.ps.degree L (wgt s) → NetSlope s'.ps.knots s'.ps.degree L (wgt s')
  cslope : ∀ c < s.ph.dim, ∀ L, NetSlope s.ps.knots s.ps.degree L (fun I => wgt s I * cpt s I c) →
    NetSlope s'.ps.knots s'.ps.degree L (fun I => wgt s' I * cpt s' I c)
  wmin : ∀ ω, (∀ I, InBox (npts s) I → ω ≤ wgt s I) → ∀ I, InBox (npts s') I → ω ≤ wgt s' I

theorem NetKept.refl {s : Spl K} (h : WFSpl s) : NetKept s s := ⟨h, SameSums.refl s, rfl, fun _ h => h, fun _ _ _ h => h, fun _ h => h⟩

theorem NetKept.trans {s t u : Spl K} (h : NetKept s t) (g : NetKept t u) : NetKept s u :=
  ⟨g.wf, h.same.trans g.same, g.degree.trans h.degree, fun L hL => g.wslope L (h.wslope L hL),
    fun c hc L hL => g.cslope c (by rw [h.same.dim]; exact hc) L (h.cslope c hc L hL), fun ω hω => g.wmin ω (h.wmin ω hω)⟩

theorem netKept_one {s : Spl K} (h : WFSpl s) {d : ℕ} {U : List K} {p : ℕ} (hU : s.ps.knots[d]? = some U) (hp : s.ps.degree[d]? = some p) {t : K}
    (ht : Admissible U t) (hsz : U.length < 2 ^ 63) : ∃ s', s.insertKnot t d 1 = .ok s' ∧
      s'.ps.knots = s.ps.knots.set d (U.insertIdx (spanIx U t + 1) t) ∧ NetKept s s' := by
  have hw := forall₂_get h.knots hU hp
  obtain ⟨hi, hlt, hm, hl1, hl2⟩ := ht.pos hw
  obtain ⟨s', e1, w1, d1, k1, g1, b1⟩ := insertKnot_one_blend h hU hp ht hsz
  refine ⟨s', e1, k1, w1, g1, d1, ?_, ?_, ?_⟩
  · intro L hL
    have := blendDir_slope hU hp hi (Nat.sub_le _ _) hl1 hl2 hL
    rw [← k1, ← d1] at this
    exact this.congr fun I hI => (b1 I hI).1
  · intro c hc L hL
    have := blendDir_slope hU hp hi (Nat.sub_le _ _) hl1 hl2 hL
    rw [← k1, ← d1] at this
    exact this.congr fun I hI => (b1 I hI).2 c hc
  · intro ω hω I hI
    rw [(b1 I hI).1]
    refine blendDir_ge hU hp hi (Nat.sub_le _ _) hl1 hω ?_
    rw [← k1, ← d1]; exact hI

theorem netKept_many {s : Spl K} (h : WFSpl s) {d : ℕ} {U : List K} {p : ℕ} (hU : s.ps.knots[d]? = some U) (hp : s.ps.degree[d]? = some p) {t : K}
    (ht : Admissible U t) : ∀ m, U.length + m < 2 ^ 63 → ∃ s', s.insertKnot t d m = .ok s' ∧ s'.ps.knots = s.ps.knots.set d (insMany U t m) ∧ NetKept s s' := by
  have hw := forall₂_get h.knots hU hp
  intro m
  induction m with
  | zero =>
    intro hsz
    have hk : s.ps.knots.set d (insMany U t 0) = s.ps.knots := by
      refine List.ext_getElem? fun i => ?_
      rw [List.getElem?_set]
      split
      · next hi => subst hi; rw [hU, if_pos (lt_of_some hU)]; rfl
      · rfl
    obtain ⟨s', e1, w1, d1, k1, g1⟩ := insertKnot_many h hU hp ht 0 (by omega)
    have e0 : s.insertKnot t d 0 = .ok s := by
      unfold Spl.insertKnot
      rw [getN_some hU, ok_bind, getN_some hp, ok_bind, ht.span_eq hw, ok_bind]
      rfl
    exact ⟨s, e0, hk.symm, NetKept.refl h⟩
  | succ m ih =>
    intro hsz
    obtain ⟨s0, e0, k0, ih⟩ := ih (by omega)
    have hf := insMany_facts hw ht m
    have hk1 : s0.ps.knots[d]? = some (insMany U t m) := by
      rw [k0, List.getElem?_set]; simp [lt_of_some hU]
    have hd1 : s0.ps.degree[d]? = some p := by rw [ih.degree]; exact hp
    obtain ⟨s1, e1, k1, g1⟩ := netKept_one ih.wf hk1 hd1 hf.adm (by rw [hf.length]; omega)
    refine ⟨s1, by rw [insertKnot_succ hw hU hp ht (by omega) e0 hk1 hd1, e1], ?_, ih.trans g1⟩
    obtain ⟨s2, e2, w2, d2, k2, g2⟩ := insertKnot_many h hU hp ht (m + 1) hsz
    rw [insertKnot_succ hw hU hp ht (by omega) e0 hk1 hd1, e1] at e2
    obtain rfl := Except.ok.inj e2
    exact k2

end
end SplineLib
