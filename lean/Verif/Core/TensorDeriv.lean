import Verif.Core.Deriv
import Mathlib.Algebra.BigOperators.Intervals
import Mathlib.Data.Nat.Choose.Sum

/-!
# Derivatives of tensor product splines and of quotients (helper lemmas)
-/

namespace SplineLib
set_option linter.unusedSectionVars false
open Finset

section field
variable {K : Type} [Field K] [LinearOrder K] [IsStrictOrderedRing K]

theorem evaluateDerivative_bspline {s : Spl K} (h : WFSpl s) (hb : IsBSpline s) {x : List K} (hx : InDomain s x)
    (dims : List ℕ) (hd : ∀ c ∈ dims, c < s.ph.dim) {k : List ℕ} (hk : k.length = s.ps.knots.length) :
    s.evaluateDerivative x (zl dims) (zl k) = .ok (dims.map fun c => tensorDerivSum s x k fun I => cpt s I c) := by
  unfold Spl.evaluateDerivative
  rw [evalWith_eq h.knots hx (g := fun I c => dprod (basisDerivFns s.ps.knots s.ps.degree x k) I * cpt s I c.toNat)]
  · congr 1
    simp only [zl, List.map_map]
    apply List.map_congr_left
    intro c hc
    simp only [Function.comp_apply, Int.toNat_natCast]
    exact msum_active h.knots (fun I => cpt s I c) hx hk
  · intro J hJ c hc
    obtain ⟨c, hc', rfl⟩ := List.mem_map.1 hc
    have hI : InBox (npts s) _ := act_inBox h.knots hx hJ
    simp only [Spl.evaluatedDerivCP, show s.ph.weights = none from hb, getBasisFunctionDerivatives_eq h hx hJ hk,
      controlPoint_eq h hI (hd c hc'), ok_bind, pure_ok, Int.toNat_natCast]

theorem evaluatedDerivWeightSum_eq {s : Spl K} (h : WFSpl s) {x : List K} (hx : Dom s.ps.knots x) {k : List ℕ}
    (hk : k.length = s.ps.knots.length) :
    s.evaluatedDerivWeightSum x (zl k) = .ok (tensorDerivSum s x k fun I => wgt s I) := by
  unfold Spl.evaluatedDerivWeightSum
  rw [weightSumWith_eq h.knots hx (g := fun I => dprod (basisDerivFns s.ps.knots s.ps.degree x k) I * wgt s I)]
  · rw [msum_active h.knots _ hx hk]; rfl
  · intro J hJ
    have hI : InBox (npts s) _ := act_inBox h.knots hx hJ
    simp only [Spl.evaluatedDerivWeight, getBasisFunctionDerivatives_eq h hx hJ hk, getWeight_eq h hI, ok_bind, pure_ok]

theorem coxDeriv_high {U : List K} (x : K) : ∀ (p k i : ℕ), p < k → coxDeBoorDeriv U p k i x = 0 := by
  intro p
  induction p with
  | zero => intro k i h; obtain ⟨k, rfl⟩ : ∃ k', k = k' + 1 := ⟨k - 1, by omega⟩; rfl
  | succ p ih =>
    intro k i h
    obtain ⟨k, rfl⟩ : ∃ k', k = k' + 1 := ⟨k - 1, by omega⟩
    simp [coxDeBoorDeriv, ih k _ (by omega)]

theorem dprod_deriv_high : ∀ (Us : List (List K)) (ps : List ℕ) (xs : List K) (ks I : List ℕ) (d : ℕ),
    ps.length = Us.length → xs.length = Us.length → ks.length = Us.length → I.length = Us.length → d < Us.length →
    ps.getD d 0 < ks.getD d 0 → dprod (basisDerivFns Us ps xs ks) I = 0 := by
  intro Us
  induction Us with
  | nil => intro ps xs ks I d _ _ _ _ hd; simp at hd
  | cons U Us ih =>
    intro ps xs ks I d h1 h2 h3 h4 hd hlt
    match ps, xs, ks, I, h1, h2, h3, h4 with
    | p :: ps, x :: xs, k :: ks, i :: I, h1, h2, h3, h4 =>
      simp only [List.length_cons, Nat.add_right_cancel_iff] at h1 h2 h3 h4
      simp only [basisDerivFns, dprod]
      cases d with
      | zero => rw [coxDeriv_high x p k i (by simpa using hlt), zero_mul]
      | succ d => rw [ih ps xs ks I d h1 h2 h3 h4 (by simpa using hd) (by simpa using hlt), mul_zero]

/-! ### The recursion for quotients -/

/-- Product of binomial coefficients. -/
def mbinom (k j : List ℕ) : ℕ := (List.zipWith Nat.choose k j).prod

/-- Component-wise difference. -/
def msub (k j : List ℕ) : List ℕ := List.zipWith (· - ·) k j

/-- The recursion of `GetRationalBasisFunctionDerivative` on the derivatives `A`, `W` of numerator and denominator. -/
def ratD (A W : List ℕ → K) : ℕ → List ℕ → K
  | fuel, k =>
    if k.all (fun a => a = 0) then A k / W k
    else match fuel with
      | 0 => 0
      | fuel + 1 =>
        (A k - ∑ m ∈ range ((k.map (· + 1)).prod - 1), (mbinom k (unlin (k.map (· + 1)) (m + 1)) : K) *
          ratD A W fuel (msub k (unlin (k.map (· + 1)) (m + 1))) * W (unlin (k.map (· + 1)) (m + 1))) / W (k.map fun _ => 0)

theorem ratD_zero {A W : List ℕ → K} {fuel : ℕ} {k : List ℕ} (h : k.all (fun a => decide (a = 0)) = true) :
    ratD A W fuel k = A k / W k := by
  rw [ratD.eq_def]; dsimp only; rw [if_pos h]

theorem ratD_succ {A W : List ℕ → K} {fuel : ℕ} {k : List ℕ} (h : ¬ k.all (fun a => decide (a = 0)) = true) :
    ratD A W (fuel + 1) k =
      (A k - ∑ m ∈ range ((k.map (· + 1)).prod - 1), (mbinom k (unlin (k.map (· + 1)) (m + 1)) : K) *
        ratD A W fuel (msub k (unlin (k.map (· + 1)) (m + 1))) * W (unlin (k.map (· + 1)) (m + 1))) / W (k.map fun _ => 0) := by
  rw [ratD, if_neg h]

theorem binomialCoefficient_eq : ∀ {n m : ℕ}, m ≤ n → Spl.binomialCoefficient n m = .ok (Nat.choose n m) := by
  intro n
  induction n with
  | zero => intro m h; obtain rfl : m = 0 := by omega
            simp [Spl.binomialCoefficient]
  | succ n ih =>
    intro m h
    cases m with
    | zero => rfl
    | succ m =>
      simp only [Spl.binomialCoefficient]
      split
      · rename_i he; rw [he]; simp
      · rw [ih (by omega), ih (by omega)]; rfl

theorem binomialCoefficients_eq : ∀ {k j : List ℕ}, InBox (k.map (· + 1)) j →
    Spl.binomialCoefficients (zl k) (zl j) = .ok (mbinom k j) := by
  intro k
  induction k with
  | nil => intro j h; simp [inBox_nil_iff] at h; subst h; rfl
  | cons n k ih =>
    intro j h
    cases j with
    | nil => simp at h
    | cons m j =>
      simp only [List.map_cons, inBox_cons] at h
      simp only [List.map_cons, Spl.binomialCoefficients, Int.toNat_natCast, binomialCoefficient_eq (show m ≤ n by omega), ih h.2,
        ok_bind, pure_ok, mbinom, List.zipWith_cons_cons, List.prod_cons]

theorem msub_length {k j : List ℕ} (h : j.length = k.length) : (msub k j).length = k.length := by simp [msub, h]

theorem all_zero_iff {k : List ℕ} : (k.all fun a => decide (a = 0)) = true ↔ k = k.map fun _ => 0 := by
  induction k with
  | nil => simp
  | cons a k ih => simp only [List.all_cons, Bool.and_eq_true, decide_eq_true_eq, List.map_cons, List.cons.injEq, ih]

theorem zl_all_zero (k : List ℕ) : ((zl k).all fun a => decide (a = 0)) = k.all fun a => decide (a = 0) := by
  induction k with
  | nil => rfl
  | cons a k ih => simp only [List.map_cons, List.all_cons, ih]; congr 1; simp

theorem differenceIndices_zl {k j : List ℕ} (h : InBox (k.map (· + 1)) j) :
    (MIH.mk (zl (k.map (· + 1))) (zl j)).differenceIndices = zl (msub k j) := by
  induction k generalizing j with
  | nil => simp [inBox_nil_iff] at h; subst h; rfl
  | cons n k ih =>
    cases j with
    | nil => simp at h
    | cons m j =>
      simp only [List.map_cons, inBox_cons] at h
      have := ih h.2
      simp only [MIH.differenceIndices, msub] at this ⊢
      simp only [List.map_cons, List.zipWith_cons_cons, this]
      congr 1; omega

theorem upLoop_fun_from {σ : Type} {ns : List ℕ} (hpos : ∀ n ∈ ns, 0 < n) {body : MIH → σ → M σ} (st : ℕ → σ) :
    ∀ (n k : ℕ), (∀ m, k ≤ m → m < k + n → body ⟨zl ns, zl (unlin ns m)⟩ (st m) = .ok (st (m + 1))) →
    upLoop body n ⟨zl ns, zl (unlin ns k)⟩ (st k) = .ok (st (k + n)) := by
  intro n
  induction n with
  | zero => intro k _; rfl
  | succ n ih =>
    intro k h
    rw [upLoop, h k (le_refl _) (by omega), ok_bind, incr_zl hpos, ih (k + 1) (fun m h1 h2 => h m (by omega) (by omega))]
    congr 2; omega

theorem unlin_ne_zero {ns : List ℕ} {m : ℕ} (h0 : 0 < m) (h : m < ns.prod) : unlin ns m ≠ ns.map fun _ => 0 := by
  intro hc
  have := lin_unlin h
  rw [hc, ← unlin_zero ns, lin_unlin (by omega)] at this
  omega

theorem msub_sum_lt {k j : List ℕ} (h : InBox (k.map (· + 1)) j) (hj : j ≠ j.map fun _ => 0) : (msub k j).sum < k.sum := by
  induction k generalizing j with
  | nil => simp [inBox_nil_iff] at h; subst h; simp at hj
  | cons n k ih =>
    cases j with
    | nil => simp at h
    | cons m j =>
      simp only [List.map_cons, inBox_cons] at h
      simp only [msub, List.zipWith_cons_cons, List.sum_cons]
      by_cases hz : j = j.map fun _ => 0
      · have hm : m ≠ 0 := by rintro rfl; apply hj; simp only [List.map_cons]; rw [← hz]
        have hle : ∀ (k j : List ℕ), (List.zipWith (· - ·) k j).sum ≤ k.sum := by
          intro k
          induction k with
          | nil => intro j; simp
          | cons a k ih => intro j; cases j with
            | nil => simp
            | cons b j => simp only [List.zipWith_cons_cons, List.sum_cons]; have := ih j; omega
        have := hle k j
        omega
      · have := ih h.2 hz
        simp only [msub] at this
        omega

theorem mem_actBox_pos {k : List ℕ} : ∀ n ∈ k.map (· + 1), 0 < n := by simp

/-- The model's recursion computes `ratD`. -/
theorem rationalDeriv_eq {s : Spl K} (h : WFSpl s) {x : List K} (hx : Dom s.ps.knots x) {J : List ℕ}
    (hJ : InBox (actBox s.ps.degree) J) : ∀ (fuel : ℕ) (k : List ℕ), k.length = s.ps.knots.length → k.sum ≤ fuel →
    s.rationalDeriv x (zl (List.zipWith (· + ·) J (offs s.ps.knots s.ps.degree x))) fuel (zl k) =
      .ok (ratD (fun k => dprod (basisDerivFns s.ps.knots s.ps.degree x k)
          (List.zipWith (· + ·) J (offs s.ps.knots s.ps.degree x)) * wgt s (List.zipWith (· + ·) J (offs s.ps.knots s.ps.degree x)))
        (fun k => tensorDerivSum s x k fun I => wgt s I) fuel k) := by
  have hI : InBox (npts s) _ := act_inBox h.knots hx hJ
  have hpos := weightValue_pos h hx
  have hw0 : ∀ k : List ℕ, k.length = s.ps.knots.length →
      (tensorDerivSum s x (k.map fun _ => 0) fun I => wgt s I) = weightValue s x := by
    intro k hk
    have : (k.map fun _ => 0) = s.ps.knots.map fun _ => 0 := by simp only [List.map_const', hk]
    simp only [tensorDerivSum, weightValue, tensorSum, this, basisDerivFns_zero]
  intro fuel
  induction fuel with
  | zero =>
    intro k hk hs
    have hz : k.all (fun a => decide (a = 0)) = true := by
      rw [List.all_eq_true]; intro a ha
      have := List.single_le_sum (l := k) (by simp) a ha
      simp; omega
    have hkz := all_zero_iff.1 hz
    rw [Spl.rationalDeriv, zl_all_zero, if_pos hz, ratD_zero hz]
    simp only [getBasisFunctions_eq h hx hJ, getWeight_eq h hI, evaluatedWeightSum_eq h hx, ok_bind]
    rw [hkz, hw0 k hk]
    have : (k.map fun _ => 0) = s.ps.knots.map fun _ => 0 := by simp only [List.map_const', hk]
    rw [this, basisDerivFns_zero]
    simp [fdiv, hpos.ne']
  | succ fuel ih =>
    intro k hk hs
    by_cases hz : k.all (fun a => decide (a = 0)) = true
    · have hkz := all_zero_iff.1 hz
      rw [Spl.rationalDeriv, zl_all_zero, if_pos hz, ratD_zero hz]
      simp only [getBasisFunctions_eq h hx hJ, getWeight_eq h hI, evaluatedWeightSum_eq h hx, ok_bind]
      rw [hkz, hw0 k hk]
      have : (k.map fun _ => 0) = s.ps.knots.map fun _ => 0 := by simp only [List.map_const', hk]
      rw [this, basisDerivFns_zero]
      simp [fdiv, hpos.ne']
    · rw [Spl.rationalDeriv, zl_all_zero, if_neg hz, ratD_succ hz]
      have e1 : (zl k).map (· + 1) = zl (k.map (· + 1)) := by simp [zl]
      have hP := mem_actBox_pos (k := k)
      simp only [e1]
      rw [mk'_zl, incr_zl hP, length1D_zl]
      have hPP := prod_pos_of hP
      have hcnt : ((((k.map (· + 1)).prod : ℕ) : ℤ) - 1).toNat = (k.map (· + 1)).prod - 1 := by omega
      rw [hcnt]
      have hloop := upLoop_fun_from hP (body := fun h sum => do
          let c ← Spl.binomialCoefficients (zl k) h.cur
          let r ← s.rationalDeriv x (zl (List.zipWith (· + ·) J (offs s.ps.knots s.ps.degree x))) fuel h.differenceIndices
          let ws ← s.evaluatedDerivWeightSum x h.cur
          return sum + (c : K) * r * ws)
        (fun n => ∑ m ∈ range (n - 1), (mbinom k (unlin (k.map (· + 1)) (m + 1)) : K) *
          ratD (fun k => dprod (basisDerivFns s.ps.knots s.ps.degree x k)
            (List.zipWith (· + ·) J (offs s.ps.knots s.ps.degree x)) * wgt s (List.zipWith (· + ·) J (offs s.ps.knots s.ps.degree x)))
            (fun k => tensorDerivSum s x k fun I => wgt s I) fuel (msub k (unlin (k.map (· + 1)) (m + 1))) *
            (tensorDerivSum s x (unlin (k.map (· + 1)) (m + 1)) fun I => wgt s I))
        ((k.map (· + 1)).prod - 1) 1 (by
          intro m hm1 hm2
          have hb := unlin_inBox hP m
          have hl : (unlin (k.map (· + 1)) m).length = s.ps.knots.length := by simp [hk]
          have hlt := msub_sum_lt hb (by
            have := unlin_ne_zero (ns := k.map (· + 1)) (m := m) (by omega) (by omega)
            rwa [show (List.map (fun _ => 0) (unlin (k.map (· + 1)) m)) = (k.map (· + 1)).map fun _ => 0 by
              simp only [List.map_const', unlin_length]])
          simp only [binomialCoefficients_eq hb, differenceIndices_zl hb]
          rw [ih _ (by rw [msub_length (by simp)]; exact hk) (by omega)]
          rw [evaluatedDerivWeightSum_eq h hx hl]
          simp only [ok_bind, pure_ok]
          rw [show m + 1 - 1 = (m - 1) + 1 by omega, sum_range_succ, show m - 1 + 1 = m by omega])
      simp only [Nat.sub_self, range_zero, sum_empty] at hloop
      simp only [zero_add]
      rw [hloop]
      rw [show 1 + ((k.map (· + 1)).prod - 1) - 1 = (k.map (· + 1)).prod - 1 by omega]
      simp only [Spl.evaluatedDerivWeight, getBasisFunctionDerivatives_eq h hx hJ hk, getWeight_eq h hI,
        evaluatedWeightSum_eq h hx, ok_bind, pure_ok]
      rw [hw0 k hk]
      simp [fdiv, hpos.ne']

/-- `ratD` does not depend on the fuel as long as it suffices. -/
theorem ratD_fuel (A W : List ℕ → K) : ∀ (f g : ℕ) (k : List ℕ), k.sum ≤ f → k.sum ≤ g → ratD A W f k = ratD A W g k := by
  intro f
  induction f with
  | zero =>
    intro g k hf hg
    have hz : k.all (fun a => decide (a = 0)) = true := by
      rw [List.all_eq_true]; intro a ha
      have := List.single_le_sum (l := k) (by simp) a ha
      simp; omega
    rw [ratD_zero hz, ratD_zero hz]
  | succ f ih =>
    intro g k hf hg
    by_cases hz : k.all (fun a => decide (a = 0)) = true
    · rw [ratD_zero hz, ratD_zero hz]
    · have hg0 : g ≠ 0 := by
        rintro rfl
        apply hz
        rw [List.all_eq_true]; intro a ha
        have := List.single_le_sum (l := k) (by simp) a ha
        simp; omega
      obtain ⟨g, rfl⟩ : ∃ g', g = g' + 1 := ⟨g - 1, by omega⟩
      rw [ratD_succ hz, ratD_succ hz]
      congr 2
      apply sum_congr rfl
      intro m hm
      have hm' := mem_range.1 hm
      have hb := unlin_inBox (mem_actBox_pos (k := k)) (m + 1)
      have hlt := msub_sum_lt hb (by
        have := unlin_ne_zero (ns := k.map (· + 1)) (m := m + 1) (by omega) (by omega)
        rwa [show (List.map (fun _ => 0) (unlin (k.map (· + 1)) (m + 1))) = (k.map (· + 1)).map fun _ => 0 by
          simp only [List.map_const', unlin_length]])
      rw [ih g _ (by omega) (by omega)]

/-- The derivative recursion with enough fuel. -/
def ratR (A W : List ℕ → K) (k : List ℕ) : K := ratD A W k.sum k

theorem ratR_rec (A W : List ℕ → K) (k : List ℕ) : ratR A W k =
    (A k - ∑ m ∈ range ((k.map (· + 1)).prod - 1), (mbinom k (unlin (k.map (· + 1)) (m + 1)) : K) *
      ratR A W (msub k (unlin (k.map (· + 1)) (m + 1))) * W (unlin (k.map (· + 1)) (m + 1))) / W (k.map fun _ => 0) := by
  by_cases hz : k.all (fun a => decide (a = 0)) = true
  · have hkz := all_zero_iff.1 hz
    unfold ratR
    rw [ratD_zero hz]
    have : (k.map (· + 1)).prod = 1 := by
      rw [hkz, List.map_map]
      simp [Function.comp_def]
    rw [this]
    simp [← hkz]
  · have h0 : k.sum ≠ 0 := by
      intro h0
      apply hz
      rw [List.all_eq_true]; intro a ha
      have := List.single_le_sum (l := k) (by simp) a ha
      simp; omega
    conv_lhs => unfold ratR
    obtain ⟨f, hf⟩ : ∃ f, k.sum = f + 1 := ⟨k.sum - 1, by omega⟩
    rw [hf, ratD_succ hz]
    congr 2
    apply sum_congr rfl
    intro m hm
    have hm' := mem_range.1 hm
    have hb := unlin_inBox (mem_actBox_pos (k := k)) (m + 1)
    have hlt := msub_sum_lt hb (by
      have := unlin_ne_zero (ns := k.map (· + 1)) (m := m + 1) (by omega) (by omega)
      rwa [show (List.map (fun _ => 0) (unlin (k.map (· + 1)) (m + 1))) = (k.map (· + 1)).map fun _ => 0 by
        simp only [List.map_const', unlin_length]])
    rw [ratR, ratD_fuel A W f _ _ (by omega) (le_refl _)]

theorem mbinom_zero (k : List ℕ) : mbinom k (k.map fun _ => 0) = 1 := by
  induction k with
  | nil => rfl
  | cons a k ih => simp only [mbinom, List.map_cons, List.zipWith_cons_cons, Nat.choose_zero_right, List.prod_cons, one_mul] at *; exact ih

theorem msub_zero (k : List ℕ) : msub k (k.map fun _ => 0) = k := by
  induction k with
  | nil => rfl
  | cons a k ih => simp only [msub, List.map_cons, List.zipWith_cons_cons, Nat.sub_zero] at *; rw [ih]

/-- A sum over a box without the zero index. -/
theorem sum_without_zero (k : List ℕ) (f : List ℕ → K) :
    ∑ m ∈ range ((k.map (· + 1)).prod - 1), f (unlin (k.map (· + 1)) (m + 1)) =
      msum (k.map (· + 1)) f - f (k.map fun _ => 0) := by
  have hPP := prod_pos_of (mem_actBox_pos (k := k))
  rw [msum_eq_sum_unlin]
  obtain ⟨P, hP⟩ : ∃ P, (k.map (· + 1)).prod = P + 1 := ⟨(k.map (· + 1)).prod - 1, by omega⟩
  rw [hP, sum_range_succ', unlin_zero]
  simp [Function.comp_def]

/-- The Leibniz relation. -/
theorem ratR_leibniz (A W : List ℕ → K) (k : List ℕ) (h0 : W (k.map fun _ => 0) ≠ 0) :
    msum (k.map (· + 1)) (fun j => (mbinom k j : K) * ratR A W (msub k j) * W j) = A k := by
  have h := ratR_rec A W k
  rw [sum_without_zero k (fun j => (mbinom k j : K) * ratR A W (msub k j) * W j), mbinom_zero, msub_zero, eq_div_iff h0] at h
  push_cast at h
  linear_combination h

theorem msum_pascal (h : List ℕ → K) : ∀ (k : List ℕ) (d : ℕ), d < k.length →
    msum (k.map (· + 1)) (fun j => (mbinom k j : K) * h j) +
      msum (k.map (· + 1)) (fun j => (mbinom k j : K) * h (j.modify d (· + 1))) =
    msum ((k.modify d (· + 1)).map (· + 1)) (fun j => (mbinom (k.modify d (· + 1)) j : K) * h j) := by
  intro k
  induction k generalizing h with
  | nil => intro d hd; simp at hd
  | cons n k ih =>
    intro d hd
    cases d with
    | zero =>
      simp only [List.modify_zero_cons, List.map_cons, msum, mbinom, List.zipWith_cons_cons, List.prod_cons, Nat.cast_mul, mul_assoc,
        msum_mul_left]
      generalize hH : (fun i => msum (k.map (· + 1)) fun t => ((List.zipWith Nat.choose k t).prod : K) * h (i :: t)) = H
      have e : ∀ i, (msum (k.map (· + 1)) fun t => ((List.zipWith Nat.choose k t).prod : K) * h (i :: t)) = H i := by
        intro i; rw [← hH]
      simp only [e]
      rw [sum_range_succ' (fun i => ((n + 1).choose i : K) * H i) (n + 1)]
      simp only [Nat.choose_succ_succ, Nat.cast_add, add_mul, sum_add_distrib]
      rw [sum_range_succ' (fun i => (n.choose i : K) * H i) n]
      rw [sum_range_succ (fun i => (n.choose (i + 1) : K) * H (i + 1)) n]
      simp
      ring
    | succ d =>
      simp only [List.modify_succ_cons, List.map_cons, msum, mbinom, List.zipWith_cons_cons, List.prod_cons, Nat.cast_mul, mul_assoc,
        msum_mul_left, ← sum_add_distrib, ← mul_add]
      apply sum_congr rfl
      intro i _
      congr 1
      exact ih (fun t => h (i :: t)) d (by simpa using hd)

theorem msub_modify_left : ∀ {k j : List ℕ} (d : ℕ), InBox (k.map (· + 1)) j →
    msub (k.modify d (· + 1)) j = (msub k j).modify d (· + 1) := by
  intro k
  induction k with
  | nil => intro j d h; simp [inBox_nil_iff] at h; subst h; cases d <;> simp [msub]
  | cons n k ih =>
    intro j d h
    cases j with
    | nil => simp at h
    | cons m j =>
      simp only [List.map_cons, inBox_cons] at h
      cases d with
      | zero => simp only [List.modify_zero_cons, msub, List.zipWith_cons_cons]; congr 1; omega
      | succ d =>
        have := ih d h.2
        simp only [msub] at this
        simp only [List.modify_succ_cons, msub, List.zipWith_cons_cons, this]

theorem msub_modify_both : ∀ (k j : List ℕ) (d : ℕ), msub (k.modify d (· + 1)) (j.modify d (· + 1)) = msub k j := by
  intro k
  induction k with
  | nil => intro j d; cases d <;> simp [msub]
  | cons n k ih =>
    intro j d
    cases j with
    | nil => cases d <;> simp [msub]
    | cons m j =>
      cases d with
      | zero => simp [msub]
      | succ d =>
        have := ih j d
        simp only [msub] at this
        simp only [List.modify_succ_cons, msub, List.zipWith_cons_cons, this]

end field

/-! ### Derivatives over the reals -/

/-- The sets from which the derivative at `x` is taken. -/
def DSet (U : List ℝ) (x : ℝ) (S : Set ℝ) : Prop :=
  (∃ j, j + 1 < U.length ∧ knot U j < x ∧ x < knot U (j + 1) ∧ S = Set.univ) ∨
  (x < lastKnot U ∧ S = Set.Ici x) ∨ (x = lastKnot U ∧ S = Set.Iic x)

theorem spanDeriv_iff {U : List ℝ} {f : ℝ → ℝ} {f' x : ℝ} :
    SpanDeriv U f f' x ↔ ∀ S, DSet U x S → HasDerivWithinAt f f' S x := by
  constructor
  · rintro ⟨h1, h2, h3⟩ S (⟨j, hj, a, b, rfl⟩ | ⟨a, rfl⟩ | ⟨a, rfl⟩)
    · exact (h1 j hj a b).hasDerivWithinAt
    · exact h2 a
    · exact h3 a
  · intro h
    refine ⟨fun j hj a b => ?_, fun a => h _ (Or.inr (Or.inl ⟨a, rfl⟩)), fun a => h _ (Or.inr (Or.inr ⟨a, rfl⟩))⟩
    exact hasDerivWithinAt_univ.1 (h _ (Or.inl ⟨j, hj, a, b, rfl⟩))

theorem msum_hasDeriv {S : Set ℝ} {x : ℝ} : ∀ {ns : List ℕ} {f : List ℕ → ℝ → ℝ} {f' : List ℕ → ℝ},
    (∀ I, InBox ns I → HasDerivWithinAt (f I) (f' I) S x) →
    HasDerivWithinAt (fun t => msum ns fun I => f I t) (msum ns f') S x := by
  intro ns
  induction ns with
  | nil => intro f f' h; exact h [] inBox_nil
  | cons n ns ih =>
    intro f f' h
    simp only [msum]
    apply HasDerivWithinAt.fun_sum
    intro i hi
    exact ih fun I hI => h _ (inBox_cons.2 ⟨mem_range.1 hi, hI⟩)

theorem dprod_hasDeriv {Us : List (List ℝ)} {ps : List ℕ} (h : List.Forall₂ WFKnots Us ps) : ∀ {xs : List ℝ} {ks I : List ℕ} {d : ℕ}
    {S : Set ℝ}, Dom Us xs → ks.length = Us.length → InBox (List.zipWith (fun U p => U.length - p - 1) Us ps) I → d < Us.length →
    DSet (Us.getD d []) (xs.getD d 0) S →
    HasDerivWithinAt (fun t => dprod (basisDerivFns Us ps (xs.set d t) ks) I)
      (dprod (basisDerivFns Us ps xs (ks.modify d (· + 1))) I) S (xs.getD d 0) := by
  induction h with
  | nil => intro xs ks I d S _ _ _ hd; simp at hd
  | @cons U p Us ps hU hr ih =>
    intro xs ks I d S hx hk hI hd hS
    cases hx with
    | @cons _ a _ as hx hxs =>
      match ks, I, hk, hI with
      | k :: ks, [], hk, hI => simp at hI
      | k :: ks, i :: I, hk, hI =>
        simp only [List.zipWith_cons_cons, inBox_cons] at hI
        cases d with
        | zero =>
          simp only [List.set_cons_zero, List.modify_zero_cons, basisDerivFns, dprod, List.getD_cons_zero] at hS ⊢
          have := spanDeriv_iff.1 (cox_spanDeriv hU hx.1 hx.2 (k := k) (i := i) (by omega)) S hS
          exact this.mul_const _
        | succ d =>
          simp only [List.set_cons_succ, List.modify_succ_cons, basisDerivFns, dprod, List.getD_cons_succ] at hS ⊢
          exact (ih hxs (by simpa using hk) hI.2 (by simpa using hd) hS).const_mul _

theorem tensorDerivSum_hasDeriv {s : Spl ℝ} (h : WFSpl s) {x : List ℝ} {k : List ℕ} {d : ℕ} {S : Set ℝ} (hx : InDomain s x)
    (hk : k.length = s.ps.knots.length) (hd : d < s.ps.knots.length) (hS : DSet (s.ps.knots.getD d []) (x.getD d 0) S)
    (a : List ℕ → ℝ) :
    HasDerivWithinAt (fun t => tensorDerivSum s (x.set d t) k a) (tensorDerivSum s x (k.modify d (· + 1)) a) S (x.getD d 0) := by
  unfold tensorDerivSum
  exact msum_hasDeriv fun I hI => (dprod_hasDeriv h.knots hx hk hI hd hS).mul_const _

theorem msub_getD_le : ∀ (k j : List ℕ) (d : ℕ), (msub k j).getD d 0 ≤ k.getD d 0
  | [], j, d => by simp [msub]
  | a :: k, [], d => by simp [msub]
  | a :: k, b :: j, 0 => by simp [msub]
  | a :: k, b :: j, d + 1 => by simpa [msub] using msub_getD_le k j d

theorem inBox_getD_le : ∀ {k j : List ℕ}, InBox (k.map (· + 1)) j → ∀ d, j.getD d 0 ≤ k.getD d 0
  | [], j, h, d => by
    have : j = [] := by cases j with
      | nil => rfl
      | cons a j => cases h
    simp [this]
  | a :: k, [], h, d => by cases h
  | a :: k, b :: j, h, 0 => by
    rw [List.map_cons, inBox_cons] at h
    have := h.1
    simp; omega
  | a :: k, b :: j, h, d + 1 => by
    rw [List.map_cons, inBox_cons] at h
    simpa using inBox_getD_le h.2 d

/-- If `A (k + e)` and `W (k + e)` are the derivatives of `A k` and `W k` for all orders up to `b` in direction `e`, then `R (k + e)` is the derivative of `R k`. -/
theorem ratR_hasDeriv {A W : List ℕ → ℝ → ℝ} {D d b : ℕ} (hd : d < D) {S : Set ℝ} {x : ℝ}
    (hA : ∀ k, k.length = D → k.getD d 0 ≤ b → HasDerivWithinAt (A k) (A (k.modify d (· + 1)) x) S x)
    (hW : ∀ k, k.length = D → k.getD d 0 ≤ b → HasDerivWithinAt (W k) (W (k.modify d (· + 1)) x) S x)
    (h0 : W (List.replicate D 0) x ≠ 0) : ∀ (n : ℕ) (k : List ℕ), k.length = D → k.getD d 0 ≤ b → k.sum ≤ n →
    HasDerivWithinAt (fun t => ratR (fun k => A k t) (fun k => W k t) k)
      (ratR (fun k => A k x) (fun k => W k x) (k.modify d (· + 1))) S x := by
  intro n
  induction n using Nat.strong_induction_on with
  | _ n ih =>
    intro k hk hkb hn
    have hz : (k.map fun _ => 0) = List.replicate D 0 := by simp [hk]
    have hz' : ((k.modify d (· + 1)).map fun _ => 0) = List.replicate D 0 := by simp [hk]
    simp only [ratR_rec _ _ k, hz]
    set R : List ℕ → ℝ := fun k => ratR (fun k => A k x) (fun k => W k x) k with hR
    have hsum : HasDerivWithinAt (fun t => ∑ m ∈ range ((k.map (· + 1)).prod - 1),
          (mbinom k (unlin (k.map (· + 1)) (m + 1)) : ℝ) *
          ratR (fun k => A k t) (fun k => W k t) (msub k (unlin (k.map (· + 1)) (m + 1))) * W (unlin (k.map (· + 1)) (m + 1)) t)
        (∑ m ∈ range ((k.map (· + 1)).prod - 1), (fun j => (mbinom k j : ℝ) *
          (R (msub (k.modify d (· + 1)) j) * W j x + R (msub k j) * W (j.modify d (· + 1)) x)) (unlin (k.map (· + 1)) (m + 1))) S x := by
      apply HasDerivWithinAt.fun_sum
      intro m hm
      have hm' := mem_range.1 hm
      have hb := unlin_inBox (mem_actBox_pos (k := k)) (m + 1)
      have hl : (unlin (k.map (· + 1)) (m + 1)).length = D := by simp [hk]
      have hlt := msub_sum_lt hb (by
        have := unlin_ne_zero (ns := k.map (· + 1)) (m := m + 1) (by omega) (by omega)
        rwa [show (List.map (fun _ => 0) (unlin (k.map (· + 1)) (m + 1))) = (k.map (· + 1)).map fun _ => 0 by
          simp only [List.map_const', unlin_length]])
      have h1 := ih (msub k (unlin (k.map (· + 1)) (m + 1))).sum (by omega) _
        (by rw [msub_length (by simp), hk]) ((msub_getD_le k _ d).trans hkb) (le_refl _)
      have h2 := hW _ hl ((inBox_getD_le hb d).trans hkb)
      have h3 := (h1.mul h2).const_mul (mbinom k (unlin (k.map (· + 1)) (m + 1)) : ℝ)
      simp only [msub_modify_left d hb]
      refine (h3.congr_of_eventuallyEq ?_ ?_)
      · exact Filter.Eventually.of_forall fun t => by simp only [Pi.mul_apply]; ring
      · simp only [Pi.mul_apply]; ring
    have hq := ((hA k hk hkb).sub hsum).div (hW _ (show (List.replicate D 0).length = D by simp)
      (by rw [List.getD_eq_getElem?_getD, List.getElem?_replicate]; split <;> simp)) h0
    refine (hq.congr_deriv ?_).congr_of_eventuallyEq (Filter.Eventually.of_forall fun t => rfl) rfl
    -- the value
    have hrec := ratR_rec (fun k => A k x) (fun k => W k x) k
    have hleib := ratR_leibniz (fun k => A k x) (fun k => W k x) (k.modify d (· + 1)) (by simp only [hz']; exact h0)
    have hpas := msum_pascal (fun j => R (msub (k.modify d (· + 1)) j) * W j x) k d (by omega)
    simp only [msub_modify_both] at hpas
    rw [sum_without_zero k (fun j => (mbinom k j : ℝ) *
          (R (msub (k.modify d (· + 1)) j) * W j x + R (msub k j) * W (j.modify d (· + 1)) x))]
    simp only [mul_add, msum_add]
    rw [hpas]
    rw [hz, ← hz', msub_zero, hz', ← hz, mbinom_zero, msub_zero, hz]
    simp only [mul_assoc] at hleib
    have hrec' : A k x - ∑ m ∈ range ((k.map (· + 1)).prod - 1),
          (mbinom k (unlin (k.map (· + 1)) (m + 1)) : ℝ) *
          ratR (fun k => A k x) (fun k => W k x) (msub k (unlin (k.map (· + 1)) (m + 1))) * W (unlin (k.map (· + 1)) (m + 1)) x =
        R k * W (List.replicate D 0) x := by
      rw [hz] at hrec
      rw [eq_div_iff h0] at hrec
      exact hrec.symm
    have e1 : (A k - fun t => ∑ m ∈ range ((k.map (· + 1)).prod - 1),
          (mbinom k (unlin (k.map (· + 1)) (m + 1)) : ℝ) *
          ratR (fun k => A k t) (fun k => W k t) (msub k (unlin (k.map (· + 1)) (m + 1))) * W (unlin (k.map (· + 1)) (m + 1)) t) x =
        R k * W (List.replicate D 0) x := hrec'
    rw [e1, hleib]
    push_cast
    field_simp
    ring

end SplineLib
