import Verif.Core.InsertMany
import Verif.Core.RemoveBack

/-!
# Linear independence of the basis functions (helper lemmas)

Near the left end of its support, a basis function that starts with `m` equal knots vanishes of order `p + 1 - m`. The functions that
start at the same knot have different orders, so none of them is a combination of the others. Hence the control points of a spline are
determined by its values.
-/

namespace SplineLib
set_option linter.unusedSectionVars false
open Finset
variable {K : Type} [Field K] [LinearOrder K] [IsStrictOrderedRing K]

/-! ### Order of vanishing on one span -/

theorem Nb_upper {u : ℕ → K} (hu : Monotone u) {k : ℕ} (hk : u k < u (k + 1)) : ∀ (p i e : ℕ), i ≤ k → u i = u k → i + p = k + e →
    ∃ B : K, 0 ≤ B ∧ ∀ x, u k ≤ x → x ≤ u (k + 1) → Nb u x (delta k) p i ≤ B * (x - u k) ^ e
  | 0, i, e, h1, _, h3 => by
    obtain rfl : i = k := by omega
    obtain rfl : e = 0 := by omega
    exact ⟨1, zero_le_one, fun x _ _ => by simp [Nb]⟩
  | p + 1, i, e, h1, h2, h3 => by
    have t1 : ∃ B : K, 0 ≤ B ∧ ∀ x, u k ≤ x → x ≤ u (k + 1) →
        (x - u i) / (u (i + p + 1) - u i) * Nb u x (delta k) p i ≤ B * (x - u k) ^ e := by
      rcases Nat.eq_zero_or_pos e with he | he
      · refine ⟨0, le_refl _, fun x _ _ => ?_⟩
        rw [Nb_delta_zero (Or.inr (by omega)), mul_zero, zero_mul]
      · obtain ⟨e, rfl⟩ : ∃ e', e = e' + 1 := ⟨e - 1, by omega⟩
        obtain ⟨B, hB, h⟩ := Nb_upper hu hk p i e h1 h2 (by omega)
        have hD : 0 < u (i + p + 1) - u i := by
          have := hu (show k + 1 ≤ i + p + 1 by omega); rw [h2]; linarith
        refine ⟨B / (u (i + p + 1) - u i), div_nonneg hB hD.le, fun x ha hb => ?_⟩
        have hx : 0 ≤ x - u i := by rw [h2]; linarith
        calc (x - u i) / (u (i + p + 1) - u i) * Nb u x (delta k) p i
            ≤ (x - u i) / (u (i + p + 1) - u i) * (B * (x - u k) ^ e) :=
              mul_le_mul_of_nonneg_left (h x ha hb) (div_nonneg hx hD.le)
          _ = B / (u (i + p + 1) - u i) * (x - u k) ^ (e + 1) := by rw [h2]; ring
    have t2 : ∃ B : K, 0 ≤ B ∧ ∀ x, u k ≤ x → x ≤ u (k + 1) →
        (u (i + p + 2) - x) / (u (i + p + 2) - u (i + 1)) * Nb u x (delta k) p (i + 1) ≤ B * (x - u k) ^ e := by
      rcases Nat.lt_or_ge k (i + 1) with hi | hi
      · refine ⟨0, le_refl _, fun x _ _ => ?_⟩
        rw [Nb_delta_zero (Or.inl hi), mul_zero, zero_mul]
      · have h2' : u (i + 1) = u k := le_antisymm (hu hi) (h2 ▸ hu (Nat.le_succ i))
        obtain ⟨B, hB, h⟩ := Nb_upper hu hk p (i + 1) e hi h2' (by omega)
        have hle := hu (show k + 1 ≤ i + p + 2 by omega)
        have hD : 0 < u (i + p + 2) - u (i + 1) := by rw [h2']; linarith
        refine ⟨B, hB, fun x ha hb => ?_⟩
        have c0 : 0 ≤ (u (i + p + 2) - x) / (u (i + p + 2) - u (i + 1)) := div_nonneg (by linarith) hD.le
        have c1 : (u (i + p + 2) - x) / (u (i + p + 2) - u (i + 1)) ≤ 1 := (div_le_one hD).2 (by rw [h2']; linarith)
        calc _ ≤ 1 * (B * (x - u k) ^ e) :=
              mul_le_mul c1 (h x ha hb) (Nb_nonneg hu ha hb _ _) zero_le_one
          _ = _ := one_mul _
    obtain ⟨B1, p1, f1⟩ := t1
    obtain ⟨B2, p2, f2⟩ := t2
    refine ⟨B1 + B2, add_nonneg p1 p2, fun x ha hb => ?_⟩
    simp only [Nb]
    rw [add_mul]
    exact add_le_add (f1 x ha hb) (f2 x ha hb)

theorem Nb_lower {u : ℕ → K} (hu : Monotone u) {k : ℕ} (hk : u k < u (k + 1)) : ∀ (p i e : ℕ), i ≤ k → u i = u k → i + p = k + e →
    ∃ B : K, 0 < B ∧ ∀ x, u k ≤ x → x ≤ (u k + u (k + 1)) / 2 → B * (x - u k) ^ e ≤ Nb u x (delta k) p i
  | 0, i, e, h1, _, h3 => by
    obtain rfl : i = k := by omega
    obtain rfl : e = 0 := by omega
    exact ⟨1, zero_lt_one, fun x _ _ => by simp [Nb]⟩
  | p + 1, i, e, h1, h2, h3 => by
    have hmid : ∀ x, x ≤ (u k + u (k + 1)) / 2 → x ≤ u (k + 1) := fun x h => by linarith
    have n1 : ∀ x, u k ≤ x → x ≤ (u k + u (k + 1)) / 2 →
        0 ≤ (x - u i) / (u (i + p + 1) - u i) * Nb u x (delta k) p i := by
      intro x ha hb
      refine mul_nonneg (div_nonneg (by rw [h2]; linarith) ?_) (Nb_nonneg hu ha (hmid x hb) _ _)
      have := hu (show i ≤ i + p + 1 by omega); linarith
    have n2 : ∀ x, u k ≤ x → x ≤ (u k + u (k + 1)) / 2 →
        0 ≤ (u (i + p + 2) - x) / (u (i + p + 2) - u (i + 1)) * Nb u x (delta k) p (i + 1) := by
      intro x ha hb
      have a1 := hmid x hb
      have a2 := hu (show k + 1 ≤ i + p + 2 by omega)
      have a3 := hu (show i + 1 ≤ i + p + 2 by omega)
      exact mul_nonneg (div_nonneg (by linarith) (by linarith)) (Nb_nonneg hu ha a1 _ _)
    rcases Nat.eq_zero_or_pos e with he | he
    · subst he
      have hi : i + 1 ≤ k := by omega
      have h2' : u (i + 1) = u k := le_antisymm (hu hi) (h2 ▸ hu (Nat.le_succ i))
      obtain ⟨B, hB, h⟩ := Nb_lower hu hk p (i + 1) 0 hi h2' (by omega)
      refine ⟨1 / 2 * B, by linarith, fun x ha hb => ?_⟩
      have hD : 0 < u (i + p + 2) - u (i + 1) := by rw [h2', show i + p + 2 = k + 1 by omega]; linarith
      have c1 : 1 / 2 ≤ (u (i + p + 2) - x) / (u (i + p + 2) - u (i + 1)) := by
        rw [le_div_iff₀ hD, h2', show i + p + 2 = k + 1 by omega]; linarith
      have hb' := h x ha hb
      simp only [Nb]
      calc 1 / 2 * B * (x - u k) ^ 0 = 1 / 2 * (B * (x - u k) ^ 0) := by ring
        _ ≤ (u (i + p + 2) - x) / (u (i + p + 2) - u (i + 1)) * Nb u x (delta k) p (i + 1) :=
          mul_le_mul c1 hb' (by rw [pow_zero]; linarith) (le_trans (by norm_num) c1)
        _ ≤ _ := le_add_of_nonneg_left (n1 x ha hb)
    · obtain ⟨e, rfl⟩ : ∃ e', e = e' + 1 := ⟨e - 1, by omega⟩
      obtain ⟨B, hB, h⟩ := Nb_lower hu hk p i e h1 h2 (by omega)
      have hD : 0 < u (i + p + 1) - u i := by
        have := hu (show k + 1 ≤ i + p + 1 by omega); rw [h2]; linarith
      refine ⟨B / (u (i + p + 1) - u i), div_pos hB hD, fun x ha hb => ?_⟩
      have hx : 0 ≤ x - u i := by rw [h2]; linarith
      simp only [Nb]
      calc B / (u (i + p + 1) - u i) * (x - u k) ^ (e + 1) = (x - u i) / (u (i + p + 1) - u i) * (B * (x - u k) ^ e) := by rw [h2]; ring
        _ ≤ (x - u i) / (u (i + p + 1) - u i) * Nb u x (delta k) p i :=
          mul_le_mul_of_nonneg_left (h x ha hb) (div_nonneg hx hD.le)
        _ ≤ _ := le_add_of_nonneg_right (n2 x ha hb)

/-- The lowest coefficient of a vanishing combination is zero. -/
theorem Nb_first_zero {u : ℕ → K} (hu : Monotone u) {k : ℕ} (hk : u k < u (k + 1)) {p i n : ℕ} (hi : i ≤ k) (hui : u i = u k)
    (hik : k ≤ i + p) (hin : i < n) {c : ℕ → K} (hc : ∀ j < i, c j = 0)
    (h : ∀ x, u k ≤ x → x < u (k + 1) → ∑ j ∈ range n, c j * Nb u x (delta k) p j = 0) : c i = 0 := by
  by_contra hne
  obtain ⟨e, he⟩ : ∃ e, i + p = k + e := ⟨i + p - k, by omega⟩
  obtain ⟨L, hL, low⟩ := Nb_lower hu hk p i e hi hui he
  have up : ∀ j, ∃ B : K, 0 ≤ B ∧ (i < j → ∀ x, u k ≤ x → x ≤ u (k + 1) → x - u k ≤ 1 → Nb u x (delta k) p j ≤ B * (x - u k) ^ (e + 1)) := by
    intro j
    by_cases hj : i < j
    · by_cases hjk : j ≤ k
      · have huj : u j = u k := le_antisymm (hu hjk) (hui ▸ hu hj.le)
        obtain ⟨B, hB, f⟩ := Nb_upper hu hk p j (e + (j - i)) hjk huj (by omega)
        refine ⟨B, hB, fun _ x a b y => (f x a b).trans ?_⟩
        exact mul_le_mul_of_nonneg_left (pow_le_pow_of_le_one (by linarith) y (by omega)) hB
      · refine ⟨0, le_refl _, fun _ x _ _ _ => ?_⟩
        rw [Nb_delta_zero (Or.inl (by omega)), zero_mul]
    · exact ⟨0, le_refl _, fun h => absurd h hj⟩
  choose B hB f using up
  set S : K := ∑ j ∈ range n, |c j| * B j with hS
  have hS0 : 0 ≤ S := sum_nonneg fun j _ => mul_nonneg (abs_nonneg _) (hB j)
  have hci : 0 < |c i| := abs_pos.2 hne
  have main : ∀ y, 0 < y → y ≤ 1 → y ≤ (u (k + 1) - u k) / 2 → |c i| * L ≤ S * y := by
    intro y hy0 hy1 hy2
    have hx := h (u k + y) (by linarith) (by linarith)
    have hxy : u k + y - u k = y := by ring
    have b1 := low (u k + y) (by linarith) (by linarith)
    rw [hxy] at b1
    rw [← add_sum_erase _ _ (mem_range.2 hin)] at hx
    have e1 : |c i| * (L * y ^ e) ≤ S * y ^ (e + 1) := by
      calc |c i| * (L * y ^ e) ≤ |c i| * Nb u (u k + y) (delta k) p i := mul_le_mul_of_nonneg_left b1 hci.le
        _ = |c i * Nb u (u k + y) (delta k) p i| := by
          rw [abs_mul, abs_of_nonneg (a := Nb u _ _ _ _) (Nb_nonneg hu (by linarith) (by linarith) _ _)]
        _ = |∑ j ∈ (range n).erase i, c j * Nb u (u k + y) (delta k) p j| := by
          rw [show c i * Nb u (u k + y) (delta k) p i = -∑ j ∈ (range n).erase i, c j * Nb u (u k + y) (delta k) p j by linear_combination hx,
            abs_neg]
        _ ≤ ∑ j ∈ (range n).erase i, |c j * Nb u (u k + y) (delta k) p j| := abs_sum_le_sum_abs _ _
        _ ≤ ∑ j ∈ (range n).erase i, |c j| * B j * y ^ (e + 1) := by
          apply sum_le_sum
          intro j hj
          have hji := (mem_erase.1 hj).1
          rcases Nat.lt_or_ge j i with hlt | hge
          · rw [hc j hlt]; simp
          · rw [abs_mul, abs_of_nonneg (a := Nb u _ _ _ _) (Nb_nonneg hu (by linarith) (by linarith) _ _), mul_assoc]
            have := f j (by omega) (u k + y) (by linarith) (by linarith) (by linarith)
            rw [hxy] at this
            exact mul_le_mul_of_nonneg_left this (abs_nonneg _)
        _ ≤ ∑ j ∈ range n, |c j| * B j * y ^ (e + 1) :=
          sum_le_sum_of_subset_of_nonneg (erase_subset _ _) fun j _ _ =>
            mul_nonneg (mul_nonneg (abs_nonneg _) (hB j)) (pow_nonneg hy0.le _)
        _ = S * y ^ (e + 1) := by rw [hS, sum_mul]
    have hye : 0 < y ^ e := pow_pos hy0 e
    refine le_of_mul_le_mul_right ?_ hye
    calc |c i| * L * y ^ e = |c i| * (L * y ^ e) := by ring
      _ ≤ S * y ^ (e + 1) := e1
      _ = S * y * y ^ e := by ring
  have hq : 0 < |c i| * L / (S + 1) / 2 := by positivity
  set y := min (min 1 ((u (k + 1) - u k) / 2)) (|c i| * L / (S + 1) / 2) with hy
  have y0 : 0 < y := lt_min (lt_min zero_lt_one (by linarith)) hq
  have y1 : y ≤ 1 := (min_le_left _ _).trans (min_le_left _ _)
  have y2 : y ≤ (u (k + 1) - u k) / 2 := (min_le_left _ _).trans (min_le_right _ _)
  have y3 : y ≤ |c i| * L / (S + 1) / 2 := min_le_right _ _
  have h1 := main y y0 y1 y2
  have hcl : 0 < |c i| * L := mul_pos hci hL
  have h2 : (S + 1) * y ≤ |c i| * L / 2 := by
    calc (S + 1) * y ≤ (S + 1) * (|c i| * L / (S + 1) / 2) := mul_le_mul_of_nonneg_left y3 (by linarith)
      _ = _ := by field_simp
  nlinarith

/-! ### Univariate independence -/

/-- No basis function has an empty support: no knot occurs more than `p+1` times. -/
def NonDegenerate (U : List K) (p : ℕ) : Prop := ∀ i, i + p + 1 < U.length → knot U i < knot U (i + p + 1)

theorem cox_independent {U : List K} {p : ℕ} (hs : SortedKnots U) (hnd : NonDegenerate U p) {c : ℕ → K}
    (h : ∀ x, knot U 0 ≤ x → x < lastKnot U → ∑ j ∈ range (U.length - p - 1), coxDeBoor U p j x * c j = 0) :
    ∀ i < U.length - p - 1, c i = 0 := by
  intro i
  induction i using Nat.strong_induction_on with
  | _ i ih =>
    intro hi
    have hlt := hnd i (by omega)
    -- the last index with the same knot
    have hex : ∃ k, i ≤ k ∧ k ≤ i + p ∧ knot U k = knot U i ∧ knot U k < knot U (k + 1) := by
      have : ∀ m, i + m ≤ i + p + 1 → knot U (i + m) = knot U i ∨ ∃ k, i ≤ k ∧ k < i + m ∧ knot U k = knot U i ∧ knot U k < knot U (k + 1) := by
        intro m
        induction m with
        | zero => intro _; exact Or.inl rfl
        | succ m ihm =>
          intro hm
          rcases ihm (by omega) with e | ⟨k, a, b, e, l⟩
          · have hle : knot U (i + m) ≤ knot U (i + m + 1) := hs.mono (by omega) (by omega)
            rcases hle.lt_or_eq with l | l
            · exact Or.inr ⟨i + m, by omega, by omega, e, l⟩
            · exact Or.inl (l.symm.trans e)
          · exact Or.inr ⟨k, a, by omega, e, l⟩
      rcases this (p + 1) (by omega) with e | ⟨k, a, b, e, l⟩
      · rw [← add_assoc] at e; rw [e] at hlt; exact absurd hlt (lt_irrefl _)
      · exact ⟨k, a, by omega, e, l⟩
    obtain ⟨k, k1, k2, k3, k4⟩ := hex
    have hkl : k + 1 < U.length := by omega
    have e1 : ku U k = knot U k := ku_eq (by omega)
    have e2 : ku U (k + 1) = knot U (k + 1) := ku_eq hkl
    refine Nb_first_zero (ku_mono hs) (k := k) (p := p) (n := U.length - p - 1) (by rw [e1, e2]; exact k4) k1
      (by rw [ku_eq (by omega), e1, k3]) k2 hi (fun j hj => ih j hj (by omega)) ?_
    intro x hx1 hx2
    rw [e1] at hx1
    rw [e2] at hx2
    have hin : InSpan U k x := Or.inl ⟨hx1, hx2⟩
    have hd1 : knot U 0 ≤ x := (hs.mono (by omega) (by omega)).trans hx1
    have hd2 : x < lastKnot U := hx2.trans_le (hs.le_last hkl)
    rw [← h x hd1 hd2]
    apply sum_congr rfl
    intro j hj
    rw [cox_eq_Nb hs hkl hin (by have := mem_range.1 hj; omega), mul_comm]

/-! ### Tensor products -/

theorem tensor_independent : ∀ {Us : List (List K)} {ps : List ℕ}, List.Forall₂ WFKnots Us ps → List.Forall₂ NonDegenerate Us ps →
    ∀ {a : List ℕ → K}, (∀ x, List.Forall₂ (fun U t => knot U 0 ≤ t ∧ t < lastKnot U) Us x →
      msum (nptsOf Us ps) (fun I => dprod (basisFns Us ps x) I * a I) = 0) →
    ∀ I, InBox (nptsOf Us ps) I → a I = 0
  | [], [], _, _, a, h, I, hI => by
    have := h [] List.Forall₂.nil
    have hI' := inBox_nil_iff.1 hI
    subst hI'
    simpa [msum, nptsOf, dprod] using this
  | U :: Us, p :: ps, hw, hn, a, h, I, hI => by
    cases hw with
    | cons w ws =>
    cases hn with
    | cons n ns =>
    match I, hI with
    | i :: I, hI =>
      obtain ⟨h1, h2⟩ := inBox_cons.1 hI
      refine tensor_independent ws ns (a := fun t => a (i :: t)) ?_ I h2
      intro x hx
      refine cox_independent (p := p) w.sorted n (c := fun i => msum (nptsOf Us ps) fun t => dprod (basisFns Us ps x) t * a (i :: t)) ?_ i h1
      intro y hy1 hy2
      have := h (y :: x) (List.Forall₂.cons ⟨hy1, hy2⟩ hx)
      rw [← this]
      show _ = ∑ i ∈ range _, _
      apply sum_congr rfl
      intro j _
      rw [← msum_mul_left]
      apply msum_congr
      intro t _
      simp only [basisFns, dprod]
      ring

/-- Two well-formed splines with the same knot vectors and the same homogeneous values are equal. -/
theorem spl_unique {s s' : Spl K} (h : WFSpl s) (h' : WFSpl s') (hk : s'.ps.knots = s.ps.knots) (hd : s'.ps.degree = s.ps.degree)
    (hn : List.Forall₂ NonDegenerate s.ps.knots s.ps.degree) (hs : SameSums s s') : s' = s := by
  have hns : npts s' = npts s := by rw [npts_eq, npts_eq, hk, hd]
  have key : ∀ (f g : List ℕ → K), (∀ x, InDomain s x → tensorSum s' x g = tensorSum s x f) →
      ∀ I, InBox (npts s) I → g I = f I := by
    intro f g hfg I hI
    have := tensor_independent h.knots hn (a := fun I => g I - f I) ?_ I hI
    · exact sub_eq_zero.1 this
    · intro x hx
      have e := hfg x (hx.imp fun _ _ h => ⟨h.1, h.2.le⟩)
      simp only [tensorSum, hns, hk, hd] at e
      have e' : msum (npts s) (fun I => dprod (basisFns s.ps.knots s.ps.degree x) I * g I) -
          msum (npts s) (fun I => dprod (basisFns s.ps.knots s.ps.degree x) I * f I) = 0 := sub_eq_zero.2 e
      rw [← e', sub_eq_add_neg, ← neg_one_mul, ← msum_mul_left, ← msum_add]
      apply msum_congr
      intro I _
      ring
  have hw := key (wgt s) (wgt s') hs.wsum
  have hph : s'.ph = s.ph := by
    have hsh : ShapePhys s'.ph (npts s) := hns ▸ h'.phys.shape
    refine phys_ext (ns := npts s) (nptsOf_pos h.knots) h.phys hsh hs.dim hs.kind ?_ ?_
    · intro J hJ
      have := hw J hJ
      unfold wgt at this
      rw [hns] at this
      exact this
    · intro J hJ c hc
      have := key (fun I => wgt s I * cpt s I c) (fun I => wgt s' I * cpt s' I c) (fun x hx => hs.csum x hx c hc) J hJ
      unfold wgt cpt at this
      rw [hns] at this
      exact this
  have hb := h.wfps.table
  have hb' := h'.wfps.table
  obtain ⟨⟨k1, d1, b1⟩, p1⟩ := s
  obtain ⟨⟨k2, d2, b2⟩, p2⟩ := s'
  dsimp only at *
  subst hk hd hph
  rw [hb, hb']

end SplineLib
