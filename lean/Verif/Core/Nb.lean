import Mathlib.Algebra.Order.Field.Basic
import Mathlib.Algebra.BigOperators.Intervals
import Mathlib.Algebra.Order.BigOperators.Group.Finset
import Mathlib.Tactic.Ring
import Mathlib.Tactic.FieldSimp
import Mathlib.Tactic.Linarith
import Mathlib.Tactic.Positivity
import Mathlib.Tactic.LinearCombination

/-!
# The Cox-de Boor recursion with arbitrary values in degree zero (helper mathematics)

`Nb u x c p i` is the recursion over the knots `u` started from the values `c` in degree zero. For fixed `c` it is a
polynomial in `x`; with `c` the indicator of a span it is the B-spline basis function on that span.
-/

namespace SplineLib
set_option linter.unusedSectionVars false
open Finset
variable {K : Type} [Field K]

def Nb (u : ℕ → K) (x : K) (c : ℕ → K) : ℕ → ℕ → K
  | 0, i => c i
  | p + 1, i =>
    (x - u i) / (u (i + p + 1) - u i) * Nb u x c p i +
    (u (i + p + 2) - x) / (u (i + p + 2) - u (i + 1)) * Nb u x c p (i + 1)

theorem Nb_congr {u v : ℕ → K} {x : K} {c e : ℕ → K} : ∀ (p i : ℕ),
    (∀ j, i ≤ j → j ≤ i + p + 1 → u j = v j) → (∀ j, i ≤ j → j ≤ i + p → c j = e j) → Nb u x c p i = Nb v x e p i := by
  intro p
  induction p with
  | zero => intro i _ hc; exact hc i (le_refl _) (by omega)
  | succ p ih =>
    intro i hu hc
    simp only [Nb]
    rw [ih i (fun j h1 h2 => hu j h1 (by omega)) (fun j h1 h2 => hc j h1 (by omega)),
      ih (i + 1) (fun j h1 h2 => hu j (by omega) (by omega)) (fun j h1 h2 => hc j (by omega) (by omega)),
      hu i (by omega) (by omega), hu (i + p + 1) (by omega) (by omega), hu (i + p + 2) (by omega) (by omega),
      hu (i + 1) (by omega) (by omega)]

theorem Nb_zero {u : ℕ → K} {x : K} {c : ℕ → K} : ∀ (p i : ℕ), (∀ j, i ≤ j → j ≤ i + p → c j = 0) → Nb u x c p i = 0 := by
  intro p
  induction p with
  | zero => intro i hc; exact hc i (le_refl _) (by omega)
  | succ p ih =>
    intro i hc
    simp only [Nb]
    rw [ih i (fun j h1 h2 => hc j h1 (by omega)), ih (i + 1) (fun j h1 h2 => hc j (by omega) (by omega))]
    ring

theorem Nb_shift (u : ℕ → K) (x : K) (c : ℕ → K) (s : ℕ) : ∀ (p i : ℕ),
    Nb (fun j => u (j + s)) x (fun j => c (j + s)) p i = Nb u x c p (i + s) := by
  intro p
  induction p with
  | zero => intro i; rfl
  | succ p ih =>
    intro i
    simp only [Nb]
    rw [ih, ih]
    rw [show i + p + 1 + s = i + s + p + 1 by ring, show i + p + 2 + s = i + s + p + 2 by ring,
      show i + 1 + s = i + s + 1 by ring]

/-- The recursion is linear in the degree zero values. -/
theorem Nb_linear (u : ℕ → K) (x : K) (a b : K) (c e : ℕ → K) : ∀ (p i : ℕ),
    Nb u x (fun j => a * c j + b * e j) p i = a * Nb u x c p i + b * Nb u x e p i := by
  intro p
  induction p with
  | zero => intro i; rfl
  | succ p ih => intro i; simp only [Nb, ih]; ring

/-- Indicator of the index `k`. -/
def delta (k : ℕ) : ℕ → K := fun j => if j = k then 1 else 0

@[simp] theorem delta_self (k : ℕ) : (delta k k : K) = 1 := by simp [delta]
theorem delta_ne {k j : ℕ} (h : j ≠ k) : (delta k j : K) = 0 := by simp [delta, h]

theorem Nb_delta_zero {u : ℕ → K} {x : K} {k p i : ℕ} (h : k < i ∨ i + p < k) : Nb u x (delta k) p i = 0 :=
  Nb_zero p i fun _ _ _ => delta_ne (by omega)

section order
variable [LinearOrder K] [IsStrictOrderedRing K]

/-- Partition of unity on one span. -/
theorem Nb_sum {u : ℕ → K} (hu : Monotone u) {x : K} {k : ℕ} (hk : u k < u (k + 1)) :
    ∀ (p a : ℕ), k = a + p → ∑ j ∈ range (p + 1), Nb u x (delta k) p (a + j) = 1 := by
  intro p
  induction p with
  | zero => intro a h; simp [Nb, ← h]
  | succ p ih =>
    intro a h
    have hne : ∀ j, j < p + 1 → u (a + 1 + j + p + 1) - u (a + 1 + j) ≠ 0 := by
      intro j hj
      have h1 : u (a + 1 + j) ≤ u k := hu (by omega)
      have h2 : u (k + 1) ≤ u (a + 1 + j + p + 1) := hu (by omega)
      have : u (a + 1 + j) < u (a + 1 + j + p + 1) := lt_of_le_of_lt h1 (lt_of_lt_of_le hk h2)
      exact sub_ne_zero.2 (ne_of_gt this)
    simp only [Nb, sum_add_distrib]
    rw [sum_range_succ' (fun j => (x - u (a + j)) / (u (a + j + p + 1) - u (a + j)) * Nb u x (delta k) p (a + j)),
      sum_range_succ (fun j => (u (a + j + p + 2) - x) / (u (a + j + p + 2) - u (a + j + 1)) * Nb u x (delta k) p (a + j + 1))]
    rw [show a + 0 = a from rfl, Nb_delta_zero (p := p) (i := a) (Or.inr (by omega)),
      Nb_delta_zero (p := p) (i := a + (p + 1) + 1) (Or.inl (by omega)), mul_zero, mul_zero, add_zero, add_zero,
      ← sum_add_distrib, ← ih (a + 1) (by omega)]
    apply sum_congr rfl
    intro j hj
    have h3 := hne j (mem_range.1 hj)
    rw [show a + (j + 1) = a + 1 + j by ring, show a + j + p + 2 = a + 1 + j + p + 1 by ring, show a + j + 1 = a + 1 + j by ring]
    field_simp
    ring

/-- Non-negativity on one span. -/
theorem Nb_nonneg {u : ℕ → K} (hu : Monotone u) {x : K} {k : ℕ} (h1 : u k ≤ x) (h2 : x ≤ u (k + 1)) :
    ∀ (p i : ℕ), 0 ≤ Nb u x (delta k) p i := by
  intro p
  induction p with
  | zero => intro i; simp only [Nb, delta]; split <;> norm_num
  | succ p ih =>
    intro i
    by_cases h : k < i ∨ i + (p + 1) < k
    · rw [Nb_delta_zero h]
    · simp only [Nb]
      apply add_nonneg
      · by_cases h' : k < i ∨ i + p < k
        · rw [Nb_delta_zero h', mul_zero]
        · refine mul_nonneg (div_nonneg ?_ ?_) (ih i)
          · have := hu (show i ≤ k by omega); linarith
          · have := hu (show i ≤ i + p + 1 by omega); linarith
      · by_cases h' : k < i + 1 ∨ i + 1 + p < k
        · rw [Nb_delta_zero h', mul_zero]
        · refine mul_nonneg (div_nonneg ?_ ?_) (ih (i + 1))
          · have := hu (show k + 1 ≤ i + p + 2 by omega); linarith
          · have := hu (show i + 1 ≤ i + p + 2 by omega); linarith

/-- A function over a zero-length support vanishes. -/
theorem Nb_degenerate {u : ℕ → K} (hu : Monotone u) {x : K} {c : ℕ → K} (hc : ∀ j, u j = u (j + 1) → c j = 0) {p i : ℕ}
    (h : u (i + p + 1) = u i) : Nb u x c p i = 0 := by
  apply Nb_zero
  intro j h1 h2
  apply hc
  have a1 := hu h1
  have a2 := hu (show j ≤ j + 1 by omega)
  have a3 := hu (show j + 1 ≤ i + p + 1 by omega)
  apply le_antisymm a2; linarith

/-- Boehm's knot insertion identity for the basis functions. `v` is `u` with `t` inserted at position `k+1`; `c`, `e` are
matching degree-zero values. -/
theorem Nb_boehm {u v : ℕ → K} (hv : Monotone v) {k : ℕ} {t : K}
    (hv1 : ∀ i, i ≤ k → v i = u i) (hv2 : v (k + 1) = t) (hv3 : ∀ i, k < i → v (i + 1) = u i)
    {x : K} {c e : ℕ → K} (he : ∀ j, v j = v (j + 1) → e j = 0)
    (hc1 : ∀ i, i < k → c i = e i) (hc2 : c k = e k + e (k + 1)) (hc3 : ∀ i, k < i → c i = e (i + 1)) :
    ∀ (p i : ℕ),
      (i + p < k → Nb u x c p i = Nb v x e p i) ∧
      (k < i → Nb u x c p i = Nb v x e p (i + 1)) ∧
      (i ≤ k → k ≤ i + p → Nb u x c p i =
        (t - v i) / (v (i + p + 1) - v i) * Nb v x e p i +
        (v (i + p + 2) - t) / (v (i + p + 2) - v (i + 1)) * Nb v x e p (i + 1)) := by
  have hleft : ∀ p i, i + p < k → Nb u x c p i = Nb v x e p i := fun p i h =>
    Nb_congr p i (fun j _ h2 => (hv1 j (by omega)).symm) (fun j _ h2 => hc1 j (by omega))
  have hright : ∀ p i, k < i → Nb u x c p i = Nb v x e p (i + 1) := by
    intro p i h
    rw [← Nb_shift v x e 1]
    exact Nb_congr p i (fun j h1 _ => (hv3 j (by omega)).symm) (fun j h1 _ => hc3 j (by omega))
  intro p
  induction p with
  | zero =>
    intro i
    refine ⟨hleft 0 i, hright 0 i, ?_⟩
    intro h1 h2
    have hik : i = k := by omega
    subst hik
    simp only [Nb, Nat.add_zero]
    rw [hc2]
    congr 1
    · by_cases h : v (i + 1) = v i
      · rw [he i h.symm]; simp
      · rw [← hv2, div_self (sub_ne_zero.2 h), one_mul]
    · by_cases h : v (i + 2) = v (i + 1)
      · rw [he (i + 1) h.symm]; simp
      · rw [← hv2, div_self (sub_ne_zero.2 h), one_mul]
  | succ p ih =>
    intro i
    refine ⟨hleft (p + 1) i, hright (p + 1) i, ?_⟩
    intro h1 h2
    have hdeg : ∀ j, v (j + p + 1) = v j → Nb v x e p j = 0 := fun j h => Nb_degenerate hv he h
    have hd0 := hdeg i
    have hd1 := hdeg (i + 1)
    have hd2 := hdeg (i + 2)
    have m1 : v i ≤ v (i + 1) := hv (by omega)
    have m2 : v (i + p + 2) ≤ v (i + p + 3) := hv (by omega)
    have m3 : v (i + 1) ≤ v (i + p + 2) := hv (by omega)
    have m4 : v (i + 1) ≤ v (i + 2) := hv (by omega)
    have m5 : v i ≤ v (i + p + 1) := hv (by omega)
    have m6 : v (i + p + 1) ≤ v (i + p + 2) := hv (by omega)
    have m7 : v (i + 2) ≤ v (i + p + 3) := hv (by omega)
    rw [show i + 1 + p + 1 = i + p + 2 by ring] at hd1
    rw [show i + 2 + p + 1 = i + p + 3 by ring] at hd2
    simp only [Nb]
    rw [show i + (p + 1) + 1 = i + p + 2 by ring, show i + (p + 1) + 2 = i + p + 3 by ring,
      show i + 1 + p + 1 = i + p + 2 by ring, show i + 1 + p + 2 = i + p + 3 by ring, show i + 1 + 1 = i + 2 by ring]
    rw [← hv1 i h1]
    have hf : v (i + p + 3) = u (i + p + 2) := hv3 (i + p + 2) (by omega)
    rw [← hf]
    generalize hn0 : Nb v x e p i = n0 at *
    generalize hn1 : Nb v x e p (i + 1) = n1 at *
    generalize hn2 : Nb v x e p (i + 2) = n2 at *
    by_cases hb : i + p < k
    · -- case k = i + p + 1
      have hk : k = i + p + 1 := by omega
      have e1 : u (i + p + 1) = v (i + p + 1) := (hv1 _ (by omega)).symm
      have e2 : v (i + p + 2) = t := by rw [← hv2, hk]
      have e3 : u (i + 1) = v (i + 1) := (hv1 _ (by omega)).symm
      rw [(ih i).1 hb, (ih (i + 1)).2.2 (by omega) (by omega)]
      rw [show i + 1 + p + 1 = i + p + 2 by ring, show i + 1 + p + 2 = i + p + 3 by ring, show i + 1 + 1 = i + 2 by ring]
      rw [hn0, hn1, hn2, e1, e2, e3]
      rw [e2] at m2 m3 m6 hd1
      have t0 : (x - v i) / (v (i + p + 1) - v i) * n0 = (t - v i) / (t - v i) * ((x - v i) / (v (i + p + 1) - v i) * n0) := by
        by_cases h : t - v i = 0
        · have : v (i + p + 1) - v i = 0 := by linarith
          rw [this]; simp
        · rw [div_self h, one_mul]
      have t1 : (v (i + p + 3) - x) / (v (i + p + 3) - v (i + 1)) * ((t - v (i + 1)) / (t - v (i + 1)) * n1) =
          (t - v i) / (t - v i) * ((t - x) / (t - v (i + 1)) * n1) +
          (v (i + p + 3) - t) / (v (i + p + 3) - v (i + 1)) * ((x - v (i + 1)) / (t - v (i + 1)) * n1) := by
        by_cases h : t = v (i + 1)
        · rw [hd1 h]; simp
        · have h3 : t - v (i + 1) ≠ 0 := sub_ne_zero.2 h
          have h4 : v (i + 1) < t := lt_of_le_of_ne m3 (Ne.symm h)
          have h5 : v (i + p + 3) - v (i + 1) ≠ 0 := by apply ne_of_gt; linarith
          have h6 : t - v i ≠ 0 := by apply ne_of_gt; linarith
          field_simp
          ring
      linear_combination t0 + t1
    · by_cases hcc : i = k
      · -- case i = k
        subst hcc
        have e1 : u (i + p + 1) = v (i + p + 2) := (hv3 (i + p + 1) (by omega)).symm
        have e3 : u (i + 1) = v (i + 2) := (hv3 (i + 1) (by omega)).symm
        rw [(ih (i + 1)).2.1 (by omega), (ih i).2.2 (by omega) (by omega)]
        rw [show i + 1 + 1 = i + 2 by ring, hn0, hn1, hn2, e1, e3]
        rw [hv2] at m1 m3 m4 hd1
        rw [hv2]
        have t2 : (v (i + p + 3) - x) / (v (i + p + 3) - v (i + 2)) * n2 =
            (v (i + p + 3) - t) / (v (i + p + 3) - t) * ((v (i + p + 3) - x) / (v (i + p + 3) - v (i + 2)) * n2) := by
          by_cases h : v (i + p + 3) - t = 0
          · have : v (i + p + 3) - v (i + 2) = 0 := by linarith
            rw [this]; simp
          · rw [div_self h, one_mul]
        have t1 : (x - v i) / (v (i + p + 2) - v i) * ((v (i + p + 2) - t) / (v (i + p + 2) - t) * n1) =
            (t - v i) / (v (i + p + 2) - v i) * ((v (i + p + 2) - x) / (v (i + p + 2) - t) * n1) +
            (v (i + p + 3) - t) / (v (i + p + 3) - t) * ((x - t) / (v (i + p + 2) - t) * n1) := by
          by_cases h : v (i + p + 2) = t
          · rw [hd1 h]; simp
          · have h3 : v (i + p + 2) - t ≠ 0 := sub_ne_zero.2 h
            have h4 : t < v (i + p + 2) := lt_of_le_of_ne m3 (Ne.symm h)
            have h5 : v (i + p + 2) - v i ≠ 0 := by apply ne_of_gt; linarith
            have h6 : v (i + p + 3) - t ≠ 0 := by apply ne_of_gt; linarith
            field_simp
            ring
        linear_combination t1 + t2
      · -- both in the middle
        have e1 : u (i + p + 1) = v (i + p + 2) := (hv3 (i + p + 1) (by omega)).symm
        have e3 : u (i + 1) = v (i + 1) := (hv1 _ (by omega)).symm
        rw [(ih i).2.2 (by omega) (by omega), (ih (i + 1)).2.2 (by omega) (by omega)]
        rw [show i + 1 + p + 1 = i + p + 2 by ring, show i + 1 + p + 2 = i + p + 3 by ring, show i + 1 + 1 = i + 2 by ring]
        rw [hn0, hn1, hn2, e1, e3]
        have t1 : (x - v i) / (v (i + p + 2) - v i) * ((v (i + p + 2) - t) / (v (i + p + 2) - v (i + 1)) * n1) +
            (v (i + p + 3) - x) / (v (i + p + 3) - v (i + 1)) * ((t - v (i + 1)) / (v (i + p + 2) - v (i + 1)) * n1) =
            (t - v i) / (v (i + p + 2) - v i) * ((v (i + p + 2) - x) / (v (i + p + 2) - v (i + 1)) * n1) +
            (v (i + p + 3) - t) / (v (i + p + 3) - v (i + 1)) * ((x - v (i + 1)) / (v (i + p + 2) - v (i + 1)) * n1) := by
          by_cases h : v (i + p + 2) = v (i + 1)
          · rw [hd1 h]; simp
          · have h3 : v (i + p + 2) - v (i + 1) ≠ 0 := sub_ne_zero.2 h
            have h4 : v (i + 1) < v (i + p + 2) := lt_of_le_of_ne m3 (Ne.symm h)
            have h5 : v (i + p + 2) - v i ≠ 0 := by apply ne_of_gt; linarith
            have h6 : v (i + p + 3) - v (i + 1) ≠ 0 := by apply ne_of_gt; linarith
            field_simp
            ring
        linear_combination t1

end order
end SplineLib
