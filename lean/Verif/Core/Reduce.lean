import Mathlib.Tactic.FieldSimp
import Mathlib.Data.Nat.Choose.Sum
import Mathlib.Tactic.LinearCombination
import Verif.Spec.Bezier
import Verif.Core.Elevate
import Verif.Core.Sqrt

/-!
# Degree reduction of Bézier segments (helper lemmas)
-/

namespace SplineLib
set_option linter.unusedSectionVars false
open Finset

theorem forLoop_inv {σ : Type} {body : ℕ → σ → M σ} (P : ℕ → σ → Prop) : ∀ (n i : ℕ)
    (_ : ∀ j s, i ≤ j → j < i + n → P j s → ∃ s', body j s = .ok s' ∧ P (j + 1) s') (s : σ), P i s →
    ∃ s', Spl.forLoop body n i s = .ok s' ∧ P (i + n) s' := by
  intro n
  induction n with
  | zero => intro i _ s hs; exact ⟨s, rfl, hs⟩
  | succ n ih =>
    intro i hb s hs
    obtain ⟨s1, h1, h2⟩ := hb i s (le_refl _) (by omega) hs
    obtain ⟨s2, h3, h4⟩ := ih (i + 1) (fun j s a b => hb j s (by omega) (by omega)) s1 h2
    exact ⟨s2, by rw [Spl.forLoop, h1, ok_bind, h3], by rwa [show i + (n + 1) = i + 1 + n by omega]⟩

theorem forDown_inv {σ : Type} {body : ℤ → σ → M σ} (P : ℤ → σ → Prop) : ∀ (n : ℕ) (i : ℤ)
    (_ : ∀ j s, j ≤ i → i - n < j → P j s → ∃ s', body j s = .ok s' ∧ P (j - 1) s') (s : σ), P i s →
    ∃ s', Spl.forDown body n i s = .ok s' ∧ P (i - n) s' := by
  intro n
  induction n with
  | zero => intro i _ s hs; exact ⟨s, rfl, by simpa using hs⟩
  | succ n ih =>
    intro i hb s hs
    obtain ⟨s1, h1, h2⟩ := hb i s (le_refl _) (by omega) hs
    obtain ⟨s2, h3, h4⟩ := ih (i - 1) (fun j s a b => hb j s (by omega) (by omega)) s1 h2
    exact ⟨s2, by rw [Spl.forDown, h1, ok_bind, h3], by rwa [show i - ((n + 1 : ℕ) : ℤ) = i - 1 - n by omega]⟩

section
variable {K : Type} [Field K] [LinearOrder K] [IsStrictOrderedRing K]

/-! ### Bézier curves -/

theorem bernstein_sum (n : ℕ) (t : K) : ∑ j ∈ range (n + 1), (n.choose j : K) * t ^ j * (1 - t) ^ (n - j) = 1 := by
  have := add_pow t (1 - t) n
  rw [show t + (1 - t) = 1 by ring, one_pow] at this
  exact (sum_congr rfl fun j _ => by ring).trans this.symm

theorem bernstein_nonneg {n j : ℕ} {t : K} (h0 : 0 ≤ t) (h1 : t ≤ 1) : 0 ≤ (n.choose j : K) * t ^ j * (1 - t) ^ (n - j) :=
  mul_nonneg (mul_nonneg (Nat.cast_nonneg _) (pow_nonneg h0 _)) (pow_nonneg (sub_nonneg.2 h1) _)

/-- Elevating the control points does not change the curve. -/
theorem bezier_elevate (n : ℕ) (Q : ℕ → K) (t : K) :
    bezier (n + 1) (fun j => (1 - (j : K) / ((n + 1 : ℕ) : K)) * Q j + (j : K) / ((n + 1 : ℕ) : K) * Q (j - 1)) t = bezier n Q t := by
  unfold bezier
  have hn : ((n + 1 : ℕ) : K) ≠ 0 := Nat.cast_ne_zero.2 (by omega)
  have e : ∀ j ∈ range (n + 1 + 1), ((n + 1).choose j : K) * t ^ j * (1 - t) ^ (n + 1 - j) *
      ((1 - (j : K) / ((n + 1 : ℕ) : K)) * Q j + (j : K) / ((n + 1 : ℕ) : K) * Q (j - 1)) =
      (if j ≤ n then (n.choose j : K) * t ^ j * (1 - t) ^ (n + 1 - j) * Q j else 0) +
      (if 1 ≤ j then (n.choose (j - 1) : K) * t ^ j * (1 - t) ^ (n + 1 - j) * Q (j - 1) else 0) := by
    intro j hj
    have hj := mem_range.1 hj
    have h1 : ((n + 1).choose j : K) * (1 - (j : K) / ((n + 1 : ℕ) : K)) = if j ≤ n then (n.choose j : K) else 0 := by
      split_ifs with hle
      · have := Nat.choose_mul_succ_eq n j
        have h2 : (n.choose j : K) * ((n + 1 : ℕ) : K) = ((n + 1).choose j : K) * ((n + 1 : ℕ) - j : K) := by
          rw [← Nat.cast_sub (by omega), ← Nat.cast_mul, ← Nat.cast_mul, this]
        field_simp
        linear_combination -h2
      · have : j = n + 1 := by omega
        subst this
        rw [div_self hn, sub_self, mul_zero]
    have h2 : ((n + 1).choose j : K) * ((j : K) / ((n + 1 : ℕ) : K)) = if 1 ≤ j then (n.choose (j - 1) : K) else 0 := by
      split_ifs with hle
      · obtain ⟨k, rfl⟩ : ∃ k, j = k + 1 := ⟨j - 1, by omega⟩
        have := Nat.add_one_mul_choose_eq n k
        have h2 : ((n + 1 : ℕ) : K) * (n.choose k : K) = ((n + 1).choose (k + 1) : K) * ((k + 1 : ℕ) : K) := by
          rw [← Nat.cast_mul, ← Nat.cast_mul, this]
        rw [Nat.add_sub_cancel]
        field_simp
        linear_combination -h2
      · have : j = 0 := by omega
        subst this
        simp
    rw [mul_add, show ∀ a b c d e : K, a * b * c * (d * e) = a * d * b * c * e by intros; ring, h1,
      show ∀ a b c d e : K, a * b * c * (d * e) = a * d * b * c * e by intros; ring, h2]
    congr 1 <;> split_ifs <;> ring
  rw [sum_congr rfl e, sum_add_distrib, sum_range_succ, if_neg (show ¬ n + 1 ≤ n by omega), add_zero, sum_range_succ' _ (n + 1),
    if_neg (show ¬ 1 ≤ 0 by omega), add_zero, ← sum_add_distrib]
  refine sum_congr rfl fun j hj => ?_
  have hj := mem_range.1 hj
  rw [if_pos (by omega), if_pos (by omega), Nat.add_sub_cancel, show n + 1 - j = n - j + 1 by omega, show n + 1 - (j + 1) = n - j by omega,
    pow_succ, pow_succ]
  ring

theorem bezier_sub (n : ℕ) (P Q : ℕ → K) (t : K) : bezier n P t - bezier n Q t = bezier n (fun j => P j - Q j) t := by
  unfold bezier
  rw [← sum_sub_distrib]
  exact sum_congr rfl fun j _ => by ring

theorem bezier_congr {n : ℕ} {P Q : ℕ → K} {t : K} (h : ∀ j ≤ n, P j = Q j) : bezier n P t = bezier n Q t := by
  unfold bezier
  exact sum_congr rfl fun j hj => by rw [h j (by have := mem_range.1 hj; omega)]

theorem bezier_abs_le {n : ℕ} {P : ℕ → K} {t : K} (h0 : 0 ≤ t) (h1 : t ≤ 1) (h : ∀ j ≤ n, |P j| ≤ 1) : |bezier n P t| ≤ 1 := by
  unfold bezier
  refine (abs_sum_le_sum_abs _ _).trans (le_trans (sum_le_sum fun j hj => ?_) (le_of_eq (bernstein_sum n t)))
  rw [abs_mul, abs_of_nonneg (bernstein_nonneg h0 h1)]
  exact mul_le_of_le_one_right (bernstein_nonneg h0 h1) (h j (by have := mem_range.1 hj; omega))

theorem bezier_mul_right (n : ℕ) (P : ℕ → K) (a t : K) : bezier n (fun j => P j * a) t = bezier n P t * a := by
  unfold bezier
  rw [sum_mul]
  exact sum_congr rfl fun j _ => by ring

/-! ### Lists of points -/

/-- A list of `n` points of dimension `D`. -/
def IsNet (l : List (List K)) (n D : ℕ) : Prop := l.length = n ∧ ∀ x ∈ l, x.length = D

theorem IsNet.set {l : List (List K)} {n D : ℕ} (h : IsNet l n D) (i : ℕ) {x : List K} (hx : x.length = D) : IsNet (l.set i x) n D := by
  refine ⟨by rw [List.length_set]; exact h.1, fun y hy => ?_⟩
  rcases List.mem_or_eq_of_mem_set hy with hy | rfl
  · exact h.2 y hy
  · exact hx

theorem IsNet.getD {l : List (List K)} {n D : ℕ} (h : IsNet l n D) {i : ℕ} (hi : i < n) : (l.getD i []).length = D := by
  apply h.2
  rw [List.getD_eq_getElem?_getD, List.getElem?_eq_getElem (h.1 ▸ hi)]
  exact List.getElem_mem _

theorem IsNet.getI {l : List (List K)} {n D : ℕ} (h : IsNet l n D) {x : ℤ} {i : ℕ} (hx : x = i) (hi : i < n) :
    getI l x = .ok (l.getD i []) := by rw [hx, getI_getD (h.1 ▸ hi)]

theorem IsNet.setI {l : List (List K)} {n D : ℕ} (h : IsNet l n D) {x : ℤ} {i : ℕ} (hx : x = i) (hi : i < n) (v : List K) :
    setI l x v = .ok (l.set i v) := by rw [hx, setI_nat (h.1 ▸ hi)]

theorem isNet_replicate (n D : ℕ) : IsNet (List.replicate n (List.replicate D (0 : K))) n D :=
  ⟨by simp, fun x hx => by rw [List.eq_of_mem_replicate hx]; simp⟩

theorem lineCoord_set {w : ℕ} {l : List (List K)} {n : ℕ} {v : List K} {i c j : ℕ} (hn : n < l.length) :
    lineCoord w (l.set n v) i c j = if j + w * i = n then v.getD c 0 else lineCoord w l i c j := by
  unfold lineCoord
  by_cases h : j + w * i = n
  · rw [if_pos h, h]
    simp [List.getD_eq_getElem?_getD, hn]
  · rw [if_neg h]
    simp only [List.getD_eq_getElem?_getD]
    rw [List.getElem?_set_ne (fun e => h e.symm)]

theorem subPt_ok {D : ℕ} {p q : List K} (hp : p.length = D) (hq : q.length = D) :
    Spl.subPt p q = .ok (List.zipWith (· - ·) p q) ∧ (List.zipWith (· - ·) p q).length = D ∧
      ∀ c < D, (List.zipWith (· - ·) p q).getD c 0 = p.getD c 0 - q.getD c 0 := by
  refine ⟨by unfold Spl.subPt; rw [if_pos (by omega)], by simp [hp, hq], fun c hc => ?_⟩
  simp only [List.getD_eq_getElem?_getD]
  rw [List.getElem?_zipWith, List.getElem?_eq_getElem (by omega), List.getElem?_eq_getElem (by omega)]
  rfl

theorem addPt_ok {D : ℕ} {p q : List K} (hp : p.length = D) (hq : q.length = D) :
    Spl.addPt p q = .ok (List.zipWith (· + ·) p q) ∧ (List.zipWith (· + ·) p q).length = D ∧
      ∀ c < D, (List.zipWith (· + ·) p q).getD c 0 = p.getD c 0 + q.getD c 0 := by
  refine ⟨by unfold Spl.addPt; rw [if_pos (by omega)], by simp [hp, hq], fun c hc => ?_⟩
  simp only [List.getD_eq_getElem?_getD]
  rw [List.getElem?_zipWith, List.getElem?_eq_getElem (by omega), List.getElem?_eq_getElem (by omega)]
  rfl

theorem scale_len (a : K) (p : List K) : (Spl.scale a p).length = p.length := by simp [Spl.scale]

theorem scale_getD (a : K) (p : List K) (c : ℕ) : (Spl.scale a p).getD c 0 = p.getD c 0 * a := by
  unfold Spl.scale
  simp only [List.getD_eq_getElem?_getD, List.getElem?_map]
  cases p[c]? <;> simp

/-! ### One line -/

/-- The control values of line `i` after elevating the new points to degree `p`. -/
def elv (p : ℕ) (new : List (List K)) (i c j : ℕ) : K :=
  (1 - (j : K) / (p : K)) * lineCoord p new i c j + (j : K) / (p : K) * lineCoord p new i c (j - 1)

/-- How the difference at control point `j` depends on the error vector. -/
def redLam (K : Type) [Field K] (p j : ℕ) : K :=
  if p % 2 = 0 then (if j = p / 2 then 1 else 0)
  else (if j = p / 2 then ((p / 2 + 1 : ℕ) : K) / (p : K) / 2 else if j = p / 2 + 1 then -(((p / 2 + 1 : ℕ) : K) / (p : K) / 2) else 0)

/-- What `reduceLine` computes for line `i`. -/
structure LineRed (p D : ℕ) (b new : List (List K)) (i : ℕ) (e : List K) : Prop where
  len : e.length = D
  eq : ∀ j ≤ p, ∀ c < D, lineCoord (p + 1) b i c j - elv p new i c j = redLam K p j * e.getD c 0

theorem leftStep {p len D i : ℕ} {b new : List (List K)} (hb : IsNet b ((p + 1) * len) D) (hn : IsNet new (p * len) D) (hi : i < len)
    {j : ℕ} (h1 : 1 ≤ j) (hj : j < p) :
    ∃ v : List K, v.length = D ∧ (∀ c < D, (1 - (j : K) / p) * v.getD c 0 + (j : K) / p * lineCoord p new i c (j - 1) =
      lineCoord (p + 1) b i c j) ∧
    (do
      let alpha ← fdiv ((j : K)) (((p : ℤ) - 1 + 1 : ℤ) : K)
      let b1 ← getI b ((j : ℤ) + ((p : ℤ) - 1 + 2) * i)
      let c1 ← getI new (((j : ℤ) - 1) + ((p : ℤ) - 1 + 1) * i)
      let v ← Spl.subPt b1 (Spl.scale alpha c1)
      let f ← fdiv 1 (1 - alpha)
      setI new ((j : ℤ) + ((p : ℤ) - 1 + 1) * i) (Spl.scale f v)) = .ok (new.set (j + p * i) v) := by
  have hp : (p : K) ≠ 0 := Nat.cast_ne_zero.2 (by omega)
  have ecast : (((p : ℤ) - 1 + 1 : ℤ) : K) = (p : K) := by push_cast; ring
  have hlt1 : j + (p + 1) * i < (p + 1) * len := by nlinarith
  have hlt2 : j - 1 + p * i < p * len := by have : j - 1 + 1 ≤ p := by omega
                                            nlinarith
  have hlt3 : j + p * i < p * len := by nlinarith
  have ha : 1 - (j : K) / p ≠ 0 := by
    rw [sub_ne_zero]
    intro h
    have := (eq_div_iff hp).1 h
    rw [one_mul] at this
    have := Nat.cast_injective this
    omega
  obtain ⟨s1, s2, s3⟩ := subPt_ok (p := b.getD (j + (p + 1) * i) []) (q := Spl.scale ((j : K) / p) (new.getD (j - 1 + p * i) []))
    (hb.getD hlt1) (by rw [scale_len]; exact hn.getD hlt2)
  refine ⟨Spl.scale (1 / (1 - (j : K) / p)) (List.zipWith (· - ·) (b.getD (j + (p + 1) * i) [])
    (Spl.scale ((j : K) / p) (new.getD (j - 1 + p * i) []))), ?_, ?_, ?_⟩
  rotate_left 2
  · rw [ecast, fdiv_ok hp, ok_bind, hb.getI (i := j + (p + 1) * i) (by push_cast; ring) hlt1, ok_bind,
      hn.getI (i := j - 1 + p * i) (by rw [Nat.cast_add, Nat.cast_sub h1]; push_cast; ring) hlt2, ok_bind, s1, ok_bind, fdiv_ok ha, ok_bind,
      hn.setI (i := j + p * i) (by push_cast; ring) hlt3]
  · rw [scale_len]; exact s2
  · intro c hc
    rw [scale_getD, s3 c hc, scale_getD]
    unfold lineCoord
    rw [mul_one_div, mul_div_cancel₀ _ ha]
    ring

theorem rightStep {p len D i : ℕ} {b new : List (List K)} (hb : IsNet b ((p + 1) * len) D) (hn : IsNet new (p * len) D) (hi : i < len)
    {j : ℕ} (hj : j + 1 < p) :
    ∃ v : List K, v.length = D ∧ (∀ c < D, (1 - ((j + 1 : ℕ) : K) / p) * lineCoord p new i c (j + 1) + ((j + 1 : ℕ) : K) / p * v.getD c 0 =
      lineCoord (p + 1) b i c (j + 1)) ∧
    (do
      let alpha ← fdiv ((((j : ℤ) + 1 : ℤ) : K)) (((p : ℤ) - 1 + 1 : ℤ) : K)
      let b1 ← getI b ((((j : ℤ) + 1)) + ((p : ℤ) - 1 + 2) * i)
      let c1 ← getI new (((j : ℤ) + 1) + ((p : ℤ) - 1 + 1) * i)
      let v ← Spl.subPt b1 (Spl.scale (1 - alpha) c1)
      let f ← fdiv 1 alpha
      setI new ((j : ℤ) + ((p : ℤ) - 1 + 1) * i) (Spl.scale f v)) = .ok (new.set (j + p * i) v) := by
  have hp : (p : K) ≠ 0 := Nat.cast_ne_zero.2 (by omega)
  have ecast : (((p : ℤ) - 1 + 1 : ℤ) : K) = (p : K) := by push_cast; ring
  have ecast2 : ((((j : ℤ) + 1 : ℤ) : K)) = ((j + 1 : ℕ) : K) := by push_cast; ring
  have hlt1 : j + 1 + (p + 1) * i < (p + 1) * len := by nlinarith
  have hlt2 : j + 1 + p * i < p * len := by nlinarith
  have hlt3 : j + p * i < p * len := by nlinarith
  have hj1 : ((j + 1 : ℕ) : K) ≠ 0 := Nat.cast_ne_zero.2 (by omega)
  have ha : ((j + 1 : ℕ) : K) / p ≠ 0 := div_ne_zero hj1 hp
  obtain ⟨s1, s2, s3⟩ := subPt_ok (p := b.getD (j + 1 + (p + 1) * i) [])
    (q := Spl.scale (1 - ((j + 1 : ℕ) : K) / p) (new.getD (j + 1 + p * i) [])) (hb.getD hlt1) (by rw [scale_len]; exact hn.getD hlt2)
  refine ⟨Spl.scale (1 / (((j + 1 : ℕ) : K) / p)) (List.zipWith (· - ·) (b.getD (j + 1 + (p + 1) * i) [])
    (Spl.scale (1 - ((j + 1 : ℕ) : K) / p) (new.getD (j + 1 + p * i) []))), ?_, ?_, ?_⟩
  rotate_left 2
  · rw [ecast, ecast2, fdiv_ok hp, ok_bind, hb.getI (i := j + 1 + (p + 1) * i) (by push_cast; ring) hlt1, ok_bind,
      hn.getI (i := j + 1 + p * i) (by push_cast; ring) hlt2, ok_bind, s1, ok_bind, fdiv_ok ha, ok_bind,
      hn.setI (i := j + p * i) (by push_cast; ring) hlt3]
  · rw [scale_len]; exact s2
  · intro c hc
    rw [scale_getD, s3 c hc, scale_getD]
    unfold lineCoord
    field_simp
    ring

theorem elv_set {p len D i : ℕ} {new : List (List K)} (hn : IsNet new (p * len) D) (hi : i < len) {k : ℕ} (hk : k < p) (v : List K)
    {j : ℕ} (h1 : k ≠ j) (h2 : j = 0 ∨ k ≠ j - 1) (c : ℕ) : elv p (new.set (k + p * i) v) i c j = elv p new i c j := by
  have hlt : k + p * i < new.length := by rw [hn.1]; nlinarith
  unfold elv
  rw [lineCoord_set hlt, lineCoord_set hlt, if_neg (by omega)]
  rcases h2 with rfl | h2
  · simp
  · rw [if_neg (by omega)]

/-- The state of the new points while line `i` is computed: the points outside of the line are unchanged and the elevated points
agree with the old ones at the indices in `A`. -/
structure LineSt (p len D : ℕ) (b new0 : List (List K)) (i : ℕ) (A : ℕ → Prop) (new : List (List K)) : Prop where
  net : IsNet new (p * len) D
  out : ∀ n, n < p * i ∨ p * (i + 1) ≤ n → new[n]? = new0[n]?
  eq : ∀ j ≤ p, A j → ∀ c < D, elv p new i c j = lineCoord (p + 1) b i c j

theorem LineSt.set {p len D : ℕ} {b new0 : List (List K)} {i : ℕ} {A B : ℕ → Prop} {new : List (List K)}
    (h : LineSt p len D b new0 i A new) (hi : i < len) {k : ℕ} (hk : k < p) {v : List K} (hv : v.length = D)
    (hB : ∀ j ≤ p, B j → (A j ∧ k ≠ j ∧ (j = 0 ∨ k ≠ j - 1)) ∨ ∀ c < D, elv p (new.set (k + p * i) v) i c j = lineCoord (p + 1) b i c j) :
    LineSt p len D b new0 i B (new.set (k + p * i) v) := by
  refine ⟨h.net.set _ hv, fun n hn => ?_, fun j hj hBj c hc => ?_⟩
  · rw [List.getElem?_set_ne, h.out n hn]
    rintro rfl
    rcases hn with hn | hn
    · omega
    · rw [Nat.mul_add] at hn; omega
  · rcases hB j hj hBj with ⟨a, b1, b2⟩ | b
    · rw [elv_set h.net hi hk v b1 b2, h.eq j hj a c hc]
    · exact b c hc

theorem lineCoord_set_self {p len D i : ℕ} {new : List (List K)} (hn : IsNet new (p * len) D) (hi : i < len) {k : ℕ} (hk : k < p)
    (v : List K) (c : ℕ) : lineCoord p (new.set (k + p * i) v) i c k = v.getD c 0 := by
  rw [lineCoord_set (by rw [hn.1]; nlinarith), if_pos rfl]

theorem lineCoord_set_ne {p len D i : ℕ} {new : List (List K)} (hn : IsNet new (p * len) D) (hi : i < len) {k : ℕ} (hk : k < p)
    (v : List K) (c : ℕ) {j : ℕ} (hj : j ≠ k) : lineCoord p (new.set (k + p * i) v) i c j = lineCoord p new i c j := by
  rw [lineCoord_set (by rw [hn.1]; nlinarith), if_neg (by omega)]

variable [HasSqrt K]

theorem reduceLine_ok {p len D i : ℕ} (hp : 2 ≤ p) {b new : List (List K)} (hb : IsNet b ((p + 1) * len) D)
    (hn : IsNet new (p * len) D) (hi : i < len) (err : K) :
    ∃ new' e, Spl.reduceLine ((p : ℤ) - 1) b i (new, err) = .ok (new', if Phys.twoNorm e > err then Phys.twoNorm e else err) ∧
      IsNet new' (p * len) D ∧ LineRed p D b new' i e ∧ ∀ n, n < p * i ∨ p * (i + 1) ≤ n → new'[n]? = new[n]? := by
  have hp0 : (p : K) ≠ 0 := Nat.cast_ne_zero.2 (by omega)
  have hmono1 : ∀ j < p + 1, j + (p + 1) * i < (p + 1) * len := fun j hj => by nlinarith
  have hmono2 : ∀ j < p, j + p * i < p * len := fun j hj => by nlinarith
  set r := (p - 1) / 2 with hr
  have er : ((p : ℤ) - 1).tdiv 2 = (r : ℤ) := by
    rw [Int.tdiv_eq_ediv_of_nonneg (by omega)]; omega
  have eodd : decide (((p : ℤ) - 1 + 1).tmod 2 ≠ 0) = decide (p % 2 ≠ 0) := by
    rw [Int.tmod_eq_emod_of_nonneg (by omega)]
    rw [decide_eq_decide]; omega
  have hn1 := hn.set (0 + p * i) (hb.getD (hmono1 0 (by omega)))
  -- the first two points
  have h2 : LineSt p len D b new i (fun j => j < 1 ∨ j = p)
      ((new.set (0 + p * i) (b.getD (0 + (p + 1) * i) [])).set (p - 1 + p * i) (b.getD (p + (p + 1) * i) [])) := by
    have a : LineSt p len D b new i (fun j => j < 1) (new.set (0 + p * i) (b.getD (0 + (p + 1) * i) [])) := by
      refine LineSt.set (A := fun _ => False) ⟨hn, fun _ _ => rfl, fun _ _ h => h.elim⟩ hi (by omega) (hb.getD (hmono1 0 (by omega))) ?_
      intro j hj hj1
      right
      intro c hc
      have : j = 0 := by omega
      subst this
      unfold elv
      rw [lineCoord_set_self hn hi (by omega)]
      simp [lineCoord]
    refine a.set hi (by omega) (hb.getD (hmono1 p (by omega))) ?_
    rintro j hj (hj1 | rfl)
    · left; exact ⟨hj1, by omega, by omega⟩
    · right
      intro c hc
      unfold elv
      rw [lineCoord_set_self a.net hi (by omega), div_self hp0]
      simp [lineCoord]
  unfold Spl.reduceLine
  dsimp only
  rw [er, eodd, hb.getI (i := 0 + (p + 1) * i) (by push_cast; ring) (hmono1 0 (by omega)), ok_bind,
    hn.setI (i := 0 + p * i) (by push_cast; ring) (hmono2 0 (by omega)), ok_bind,
    hb.getI (i := p + (p + 1) * i) (by push_cast; ring) (hmono1 p (by omega)), ok_bind,
    hn1.setI (i := p - 1 + p * i) (by rw [Nat.cast_add, Nat.cast_sub (by omega)]; push_cast; ring) (hmono2 (p - 1) (by omega)), ok_bind]
  generalize ((new.set (0 + p * i) (b.getD (0 + (p + 1) * i) [])).set (p - 1 + p * i) (b.getD (p + (p + 1) * i) [])) = new2 at h2 ⊢
  -- the first loop
  set R := if p % 2 = 0 then r else r - 1 with hR
  have eR : (if decide (p % 2 ≠ 0) = true then (r : ℤ) - 1 else (r : ℤ)).toNat = R := by
    rw [hR]
    by_cases ho : p % 2 = 0
    · rw [if_pos ho, if_neg (by simp [ho])]; omega
    · rw [if_neg ho, if_pos (by simp [ho])]; omega
  have hRr : R ≤ r := by rw [hR]; split_ifs <;> omega
  rw [eR]
  obtain ⟨new3, e3, h3⟩ := forLoop_inv (fun j new' => LineSt p len D b new i (fun k => k < j ∨ k = p) new') R 1 (by
    intro j s hj1 hj2 hs
    obtain ⟨v, v1, v2, v3⟩ := leftStep hb hs.net hi hj1 (show j < p by omega)
    have hjp : j < p := by omega
    refine ⟨_, v3, hs.set hi hjp v1 ?_⟩
    rintro k hk hk2
    by_cases hkj : k = j
    · subst hkj
      right
      intro c hc
      unfold elv
      rw [lineCoord_set_self hs.net hi (by omega), lineCoord_set_ne hs.net hi (by omega) _ _ (by omega), v2 c hc]
    · left
      exact ⟨by omega, by omega, by omega⟩) new2 h2
  rw [e3, ok_bind]
  -- the second loop
  have eC : ((p : ℤ) - 1 - 1 - r).toNat = p - 2 - r := by omega
  rw [eC]
  obtain ⟨new4, e4, h4⟩ := forDown_inv (body := fun j new => do
      let alpha ← fdiv (((j + 1 : ℤ) : K)) (((p : ℤ) - 1 + 1 : ℤ) : K)
      let b1 ← getI b ((j + 1) + ((p : ℤ) - 1 + 2) * i)
      let c1 ← getI new ((j + 1) + ((p : ℤ) - 1 + 1) * i)
      let v ← Spl.subPt b1 (Spl.scale (1 - alpha) c1)
      let f ← fdiv 1 alpha
      setI new (j + ((p : ℤ) - 1 + 1) * i) (Spl.scale f v)) (fun (j : ℤ) new' => LineSt p len D b new i (fun k => k ≤ R ∨ j + 2 ≤ k) new') (p - 2 - r) ((p : ℤ) - 1 - 1)
    (by
    intro j s hj1 hj2 hs
    obtain ⟨j, rfl⟩ : ∃ n : ℕ, j = n := ⟨j.toNat, by omega⟩
    obtain ⟨v, v1, v2, v3⟩ := rightStep hb hs.net hi (show j + 1 < p by omega)
    have hjp : j < p := by omega
    refine ⟨_, v3, hs.set hi hjp v1 ?_⟩
    rintro k hk hk2
    by_cases hkj : k = j + 1
    · subst hkj
      right
      intro c hc
      unfold elv
      rw [Nat.add_sub_cancel, lineCoord_set_self hs.net hi (by omega), lineCoord_set_ne hs.net hi (by omega) _ _ (by omega), v2 c hc]
    · left
      exact ⟨by omega, by omega, by omega⟩) new3 ⟨h3.net, h3.out, fun j hj hA => h3.eq j hj (by
      rcases hA with hA | hA <;> omega)⟩
  rw [e4, ok_bind]
  rw [show (p : ℤ) - 1 - 1 - ((p - 2 - r : ℕ) : ℤ) = r by omega] at h4
  by_cases ho : p % 2 = 0
  · -- even
    rw [if_neg (by simp [ho])]
    have hp2 : p / 2 = r + 1 := by omega
    rw [if_pos ho] at hR
    have g0 := hb.getD (hmono1 (r + 1) (by omega))
    have g1 := h4.net.getD (hmono2 r (by omega))
    have g2 := h4.net.getD (hmono2 (r + 1) (by omega))
    obtain ⟨a1, a2, a3⟩ := addPt_ok g1 g2
    obtain ⟨s1, s2, s3⟩ := subPt_ok g0 (q := Spl.scale (1 / 2) (List.zipWith (· + ·) (new4.getD (r + p * i) []) (new4.getD (r + 1 + p * i) [])))
      (by rw [scale_len]; exact a2)
    refine ⟨new4, _, ?_, h4.net, ⟨s2, ?_⟩, h4.out⟩
    · rw [hb.getI (i := r + 1 + (p + 1) * i) (by push_cast; ring) (hmono1 (r + 1) (by omega)), ok_bind,
        h4.net.getI (i := r + p * i) (by push_cast; ring) (hmono2 r (by omega)), ok_bind,
        h4.net.getI (i := r + 1 + p * i) (by push_cast; ring) (hmono2 (r + 1) (by omega)), ok_bind, a1, ok_bind, s1, ok_bind]
      rfl
    · intro j hj c hc
      unfold redLam
      rw [if_pos ho, hp2]
      by_cases hj1 : j = r + 1
      · subst hj1
        rw [if_pos rfl, one_mul, s3 c hc, scale_getD, a3 c hc]
        unfold elv
        have e : ((r + 1 : ℕ) : K) / (p : K) = 1 / 2 := by
          rw [div_eq_div_iff hp0 (by norm_num)]
          have : p = 2 * (r + 1) := by omega
          rw [this]; push_cast; ring
        rw [e, Nat.add_sub_cancel]
        unfold lineCoord
        ring
      · rw [if_neg hj1, zero_mul, h4.eq j hj (by omega) c hc, sub_self]
  · -- odd
    rw [if_pos (by simp [ho])]
    rw [if_neg ho] at hR
    have hp2 : p / 2 = r := by omega
    have hr1 : 1 ≤ r := by omega
    have hpr : (p : K) = 2 * (r : K) + 1 := by
      have : p = 2 * r + 1 := by omega
      rw [this]; push_cast; ring
    have ecast : (((p : ℤ) - 1 + 1 : ℤ) : K) = (p : K) := by push_cast; ring
    have ecast2 : ((((r : ℤ) + 1 : ℤ) : K)) = ((r + 1 : ℕ) : K) := by push_cast; ring
    have ecast3 : ((((r : ℤ)) : ℤ) : K) = (r : K) := by push_cast; ring
    have hrp : (0 : K) ≤ r := Nat.cast_nonneg _
    have hpp : (2 * (r : K) + 1) ≠ 0 := by rw [← hpr]; exact hp0
    have ha : 1 - (r : K) / p = ((r + 1 : ℕ) : K) / p := by
      rw [hpr]; field_simp; push_cast; ring
    have ha' : ((r + 1 : ℕ) : K) / p ≠ 0 := div_ne_zero (Nat.cast_ne_zero.2 (by omega)) hp0
    have gb1 := hb.getD (hmono1 r (by omega))
    have gb2 := hb.getD (hmono1 (r + 1) (by omega))
    have g1 := h4.net.getD (hmono2 (r - 1) (by omega))
    have g2 := h4.net.getD (hmono2 (r + 1) (by omega))
    obtain ⟨s1, s2, s3⟩ := subPt_ok gb1 (q := Spl.scale ((r : K) / p) (new4.getD (r - 1 + p * i) [])) (by rw [scale_len]; exact g1)
    obtain ⟨t1, t2, t3⟩ := subPt_ok gb2 (q := Spl.scale (1 - ((r + 1 : ℕ) : K) / p) (new4.getD (r + 1 + p * i) [])) (by rw [scale_len]; exact g2)
    generalize List.zipWith (· - ·) (b.getD (r + (p + 1) * i) []) (Spl.scale ((r : K) / p) (new4.getD (r - 1 + p * i) [])) = v at s1 s2 s3
    generalize List.zipWith (· - ·) (b.getD (r + 1 + (p + 1) * i) []) (Spl.scale (1 - ((r + 1 : ℕ) : K) / p) (new4.getD (r + 1 + p * i) [])) = w
      at t1 t2 t3
    obtain ⟨a1, a2, a3⟩ := addPt_ok (D := D) (p := Spl.scale (1 / (1 - (r : K) / p)) v) (q := Spl.scale (1 / (((r + 1 : ℕ) : K) / p)) w)
      (by rw [scale_len]; exact s2) (by rw [scale_len]; exact t2)
    obtain ⟨d1, d2, d3⟩ := subPt_ok (D := D) (p := Spl.scale (1 / (1 - (r : K) / p)) v) (q := Spl.scale (1 / (((r + 1 : ℕ) : K) / p)) w)
      (by rw [scale_len]; exact s2) (by rw [scale_len]; exact t2)
    have hfin : LineSt p len D b new i (fun k => k < r ∨ r + 2 ≤ k)
        (new4.set (r + p * i) (Spl.scale (1 / 2) (List.zipWith (· + ·) (Spl.scale (1 / (1 - (r : K) / p)) v)
          (Spl.scale (1 / (((r + 1 : ℕ) : K) / p)) w)))) := by
      refine h4.set hi (by omega) (by rw [scale_len]; exact a2) ?_
      intro j hj hj2
      left
      exact ⟨by omega, by omega, by omega⟩
    refine ⟨_, _, ?_, hfin.net, ⟨d2, ?_⟩, hfin.out⟩
    · rw [ecast3, ecast2, ecast, fdiv_ok hp0, ok_bind, fdiv_ok hp0, ok_bind,
        hb.getI (i := r + (p + 1) * i) (by push_cast; ring) (hmono1 r (by omega)), ok_bind,
        h4.net.getI (i := r - 1 + p * i) (by rw [Nat.cast_add, Nat.cast_sub hr1]; push_cast; ring) (hmono2 (r - 1) (by omega)), ok_bind, s1, ok_bind,
        fdiv_ok (by rw [ha]; exact ha'), ok_bind]
      rw [hb.getI (i := r + 1 + (p + 1) * i) (by push_cast; ring) (hmono1 (r + 1) (by omega)), ok_bind,
        h4.net.getI (i := r + 1 + p * i) (by push_cast; ring) (hmono2 (r + 1) (by omega)), ok_bind, t1, ok_bind, fdiv_ok ha', ok_bind, a1, ok_bind,
        h4.net.setI (i := r + p * i) (by push_cast; ring) (hmono2 r (by omega)), ok_bind, d1, ok_bind]
      rfl
    · intro j hj c hc
      unfold redLam
      rw [if_neg ho, hp2]
      by_cases hj1 : j = r
      · subst hj1
        rw [if_pos rfl, d3 c hc]
        unfold elv
        rw [lineCoord_set_self h4.net hi (by omega), lineCoord_set_ne h4.net hi (by omega) _ _ (by omega), scale_getD, a3 c hc, scale_getD,
          scale_getD, s3 c hc, t3 c hc, scale_getD, scale_getD, ha]
        unfold lineCoord
        generalize ((r + 1 : ℕ) : K) / p = β at ha ha'
        field_simp
        ring
      · rw [if_neg hj1]
        by_cases hj2 : j = r + 1
        · subst hj2
          rw [if_pos rfl, d3 c hc]
          unfold elv
          rw [Nat.add_sub_cancel, lineCoord_set_self h4.net hi (by omega), lineCoord_set_ne h4.net hi (by omega) _ _ (by omega), scale_getD,
            a3 c hc, scale_getD, scale_getD, s3 c hc, t3 c hc, scale_getD, scale_getD, ha]
          unfold lineCoord
          have hb' : (r : K) / p = 1 - ((r + 1 : ℕ) : K) / p := by rw [← ha]; ring
          generalize ((r + 1 : ℕ) : K) / p = β at ha ha' hb'
          rw [hb']
          field_simp
          ring
        · rw [if_neg hj2, zero_mul, hfin.eq j hj (by omega) c hc, sub_self]

/-! ### One segment -/

theorem elv_congr {p i : ℕ} {new new' : List (List K)} (hp : 1 ≤ p) (h : ∀ n, p * i ≤ n → n < p * (i + 1) → new'[n]? = new[n]?) {j : ℕ} (hj : j ≤ p)
    (c : ℕ) : elv p new' i c j = elv p new i c j := by
  have hp0 : (p : K) ≠ 0 := Nat.cast_ne_zero.2 (by omega)
  have key : ∀ k < p, lineCoord p new' i c k = lineCoord p new i c k := by
    intro k hk
    unfold lineCoord
    simp only [List.getD_eq_getElem?_getD]
    rw [h _ (by omega) (by rw [Nat.mul_add]; omega)]
  unfold elv
  rcases Nat.lt_or_ge j p with hjp | hjp
  · rw [key j hjp, key (j - 1) (by omega)]
  · have : j = p := by omega
    subst this
    rw [div_self hp0, sub_self, zero_mul, zero_mul, key (j - 1) (by omega)]

theorem reduceBezier_ok {s : Spl K} (h : WFSpl s) {d p : ℕ} (hp : s.ps.degree[d]? = some p) (h2 : 2 ≤ p) {b : List (List K)}
    (hb : IsNet b ((p + 1) * ((npts s).set d 1).prod) (s.ph.dim + 1)) (tol : K) :
    ∃ (new : List (List K)) (err : K) (es : ℕ → List K), s.reduceBezier d b tol = .ok (new, decide (err < tol)) ∧
      IsNet new (p * ((npts s).set d 1).prod) (s.ph.dim + 1) ∧
      (∀ i < ((npts s).set d 1).prod, LineRed p (s.ph.dim + 1) b new i (es i) ∧ Phys.twoNorm (es i) ≤ err) ∧
      (err = 0 ∨ ∃ i < ((npts s).set d 1).prod, err = Phys.twoNorm (es i)) := by
  have hdl : d < s.ps.degree.length := lt_of_some hp
  have hdk : d < s.ps.knots.length := by rw [h.knots.length_eq]; exact hdl
  have hdn : d < (npts s).length := lt_of_some (nptsOf_get (List.getElem?_eq_getElem hdk) hp)
  have hpos : ∀ n ∈ npts s, 0 < n := nptsOf_pos h.knots
  set len := ((npts s).set d 1).prod with hlen
  obtain ⟨⟨new, err⟩, e1, e2, es, e3, e4⟩ := forLoop_inv (body := Spl.reduceLine ((p : ℤ) - 1) b)
    (fun i (st : List (List K) × K) => IsNet st.1 (p * len) (s.ph.dim + 1) ∧ ∃ es : ℕ → List K,
      (∀ k < i, LineRed p (s.ph.dim + 1) b st.1 k (es k) ∧ Phys.twoNorm (es k) ≤ st.2) ∧ (st.2 = 0 ∨ ∃ k < i, st.2 = Phys.twoNorm (es k)))
    len 0 (by
      rintro i ⟨new, err⟩ _ hi ⟨hn, es, h3, h4⟩
      obtain ⟨new', e, r1, r2, r3, r4⟩ := reduceLine_ok h2 hb hn (show i < len by omega) err
      refine ⟨_, r1, r2, Function.update es i e, ?_, ?_⟩
      · intro k hk
        rcases Nat.lt_succ_iff_lt_or_eq.1 hk with hk | rfl
        · rw [Function.update_of_ne (by omega)]
          obtain ⟨a, b1⟩ := h3 k hk
          refine ⟨⟨a.len, fun j hj c hc => ?_⟩, ?_⟩
          · rw [elv_congr (by omega) (fun n hn1 hn2 => r4 n (Or.inl (lt_of_lt_of_le hn2 (Nat.mul_le_mul_left p (by omega))))) hj, a.eq j hj c hc]
          · dsimp only at b1 ⊢
            split_ifs with hgt
            · exact b1.trans (le_of_lt hgt)
            · exact b1
        · rw [Function.update_self]
          refine ⟨r3, ?_⟩
          dsimp only
          split_ifs with hgt
          · exact le_refl _
          · exact not_lt.1 hgt
      · dsimp only
        split_ifs with hgt
        · right; exact ⟨i, by omega, by rw [Function.update_self]⟩
        · rcases h4 with h4 | ⟨k, hk, h4⟩
          · left; exact h4
          · right; exact ⟨k, by omega, by rw [Function.update_of_ne (by omega)]; exact h4⟩)
    (List.replicate (p * len) (List.replicate (s.ph.dim + 1) 0), 0) ⟨isNet_replicate _ _, fun _ => [], fun k hk => by omega, Or.inl rfl⟩
  rw [Nat.zero_add] at e3 e4
  refine ⟨new, err, es, ?_, e2, e3, e4⟩
  unfold Spl.reduceBezier
  rw [getN_eq_ok.2 hp, ok_bind, h.num, getN_zl hdn, ok_bind, h.phys.shape.cpsPer hpos hdn, ok_bind, ← hlen,
    show (p : ℤ) * (len : ℤ) = ((p * len : ℕ) : ℤ) by push_cast; ring, if_neg (by omega), Int.toNat_natCast, Int.toNat_natCast, e1, ok_bind]
  rfl

/-- For degree 0 and 1 the reduction of a segment reads or writes out of bounds. -/
theorem reduceBezier_low {s : Spl K} (h : WFSpl s) {d p : ℕ} (hp : s.ps.degree[d]? = some p) (h1 : p ≤ 1) (b : List (List K)) (tol : K)
    (r : List (List K) × Bool) : s.reduceBezier d b tol ≠ .ok r := by
  intro he
  have hdl : d < s.ps.degree.length := lt_of_some hp
  have hdk : d < s.ps.knots.length := by rw [h.knots.length_eq]; exact hdl
  have hdn : d < (npts s).length := lt_of_some (nptsOf_get (List.getElem?_eq_getElem hdk) hp)
  have hpos : ∀ n ∈ npts s, 0 < n := nptsOf_pos h.knots
  have hlen : 0 < ((npts s).set d 1).prod := prod_pos_iff.2 (set_pos hpos (by omega))
  unfold Spl.reduceBezier at he
  rw [getN_eq_ok.2 hp, ok_bind, h.num, getN_zl hdn, ok_bind, h.phys.shape.cpsPer hpos hdn, ok_bind] at he
  split at he
  · exact absurd he (by simp)
  · rw [bind_eq_ok] at he; obtain ⟨st, he, _⟩ := he
    obtain ⟨n, hn⟩ : ∃ n, ((((npts s).set d 1).prod : ℕ) : ℤ).toNat = n + 1 := ⟨((npts s).set d 1).prod - 1, by omega⟩
    rw [hn, Spl.forLoop, bind_eq_ok] at he
    obtain ⟨st1, he, _⟩ := he
    unfold Spl.reduceLine at he
    dsimp only at he
    rw [bind_eq_ok] at he; obtain ⟨a, _, he⟩ := he
    rw [bind_eq_ok] at he; obtain ⟨n1, hs1, he⟩ := he
    rcases Nat.lt_or_ge p 1 with hp0 | hp0
    · have : p = 0 := by omega
      subst this
      have := (setI_eq_ok hs1).2.1
      simp at this
    · have : p = 1 := by omega
      subst this
      rw [bind_eq_ok] at he; obtain ⟨a, _, he⟩ := he
      rw [bind_eq_ok] at he; obtain ⟨n2, _, he⟩ := he
      rw [bind_eq_ok] at he; obtain ⟨n3, _, he⟩ := he
      rw [bind_eq_ok] at he; obtain ⟨n4, _, he⟩ := he
      rw [if_pos (by decide)] at he
      rw [bind_eq_ok] at he; obtain ⟨_, _, he⟩ := he
      rw [bind_eq_ok] at he; obtain ⟨_, _, he⟩ := he
      rw [bind_eq_ok] at he; obtain ⟨_, _, he⟩ := he
      rw [bind_eq_ok] at he; obtain ⟨_, h9, he⟩ := he
      have := (getI_eq_ok h9).1
      simp at this

variable [LawfulSqrt K]

theorem sum_getD_sq {D : ℕ} {e : List K} (h : e.length = D) : ∑ c ∈ range D, e.getD c 0 * e.getD c 0 = (e.map fun x => x * x).sum := by
  subst h
  induction e with
  | nil => simp
  | cons x e ih =>
    rw [List.length_cons, sum_range_succ', List.map_cons, List.sum_cons, ← ih, add_comm]
    rfl

theorem redLam_abs {p : ℕ} (hp : 1 ≤ p) (j : ℕ) : |redLam K p j| ≤ 1 := by
  have h0 : (0 : K) < p := Nat.cast_pos.2 (by omega)
  have h1 : (0 : K) ≤ ((p / 2 + 1 : ℕ) : K) / (p : K) / 2 := by positivity
  have h2 : ((p / 2 + 1 : ℕ) : K) / (p : K) / 2 ≤ 1 := by
    rw [div_div, div_le_one (by positivity)]
    have : p / 2 + 1 ≤ p * 2 := by omega
    have := (Nat.cast_le (α := K)).2 this
    push_cast at this ⊢
    exact this
  unfold redLam
  split_ifs
  · simp
  · simp
  · rw [abs_of_nonneg h1]; exact h2
  · rw [abs_neg, abs_of_nonneg h1]; exact h2
  · simp

/-- The distance of the curves of a line in homogeneous coordinates. -/
theorem LineRed.error {p D : ℕ} {b new : List (List K)} {i : ℕ} {e : List K} (h : LineRed p D b new i e) (hp : 1 ≤ p) {t : K} (h0 : 0 ≤ t)
    (h1 : t ≤ 1) : ∑ c ∈ range D, (bezier p (lineCoord (p + 1) b i c) t - bezier (p - 1) (lineCoord p new i c) t) ^ 2 ≤
      Phys.twoNorm e ^ 2 := by
  have e1 : ∀ c ∈ range D, (bezier p (lineCoord (p + 1) b i c) t - bezier (p - 1) (lineCoord p new i c) t) ^ 2 =
      bezier p (redLam K p) t ^ 2 * (e.getD c 0 * e.getD c 0) := by
    intro c hc
    have hc := mem_range.1 hc
    obtain ⟨n, rfl⟩ : ∃ n, p = n + 1 := ⟨p - 1, by omega⟩
    rw [Nat.add_sub_cancel, ← bezier_elevate n, bezier_sub]
    change bezier (n + 1) (fun j => lineCoord (n + 1 + 1) b i c j - elv (n + 1) new i c j) t ^ 2 = _
    rw [bezier_congr (Q := fun j => redLam K (n + 1) j * e.getD c 0) (fun j hj => h.eq j hj c hc),
      bezier_mul_right]
    ring
  rw [sum_congr rfl e1, ← mul_sum, sum_getD_sq h.len]
  have e2 : Phys.twoNorm e ^ 2 = (e.map fun x => x * x).sum := by
    unfold Phys.twoNorm
    rw [foldl_sq, zero_add, pow_two, LawfulSqrt.sq _ (sum_sq_nonneg e)]
  rw [e2]
  apply mul_le_of_le_one_left (sum_sq_nonneg e)
  have := bezier_abs_le (n := p) h0 h1 (fun j _ => redLam_abs (K := K) hp j)
  rw [← sq_abs]
  exact pow_le_one₀ (abs_nonneg _) this

theorem redLam_left {p j : ℕ} (h : j < p / 2) : redLam K p j = 0 := by
  unfold redLam
  split_ifs <;> first | rfl | omega

theorem redLam_right {p j : ℕ} (h : p / 2 + p % 2 < j) : redLam K p j = 0 := by
  unfold redLam
  split_ifs <;> first | rfl | omega

/-- A line that is the elevation of a line of lower degree is recovered. -/
theorem LineRed.exact {p D : ℕ} {b new : List (List K)} {i : ℕ} {e : List K} (h : LineRed p D b new i e) (hp : 2 ≤ p) {c : ℕ} (hc : c < D)
    {Q : ℕ → K} (hQ : ∀ j ≤ p, lineCoord (p + 1) b i c j = (1 - (j : K) / p) * Q j + (j : K) / p * Q (j - 1)) :
    (∀ j < p, lineCoord p new i c j = Q j) ∧ e.getD c 0 = 0 := by
  have hp0 : (p : K) ≠ 0 := Nat.cast_ne_zero.2 (by omega)
  have key : ∀ j ≤ p, (1 - (j : K) / p) * (Q j - lineCoord p new i c j) + (j : K) / p * (Q (j - 1) - lineCoord p new i c (j - 1)) =
      redLam K p j * e.getD c 0 := by
    intro j hj
    rw [← h.eq j hj c hc, hQ j hj]
    unfold elv
    ring
  -- from the left
  have hle : ∀ j < p / 2, Q j - lineCoord p new i c j = 0 := by
    intro j
    induction j with
    | zero =>
      intro hj
      have := key 0 (by omega)
      rw [redLam_left hj] at this
      simpa using this
    | succ j ih =>
      intro hj
      have := key (j + 1) (by omega)
      rw [redLam_left hj, Nat.add_sub_cancel, ih (by omega), mul_zero, add_zero, zero_mul] at this
      rcases mul_eq_zero.1 this with h1 | h1
      · exfalso
        have h1 := sub_eq_zero.1 h1
        have h1 := (eq_div_iff hp0).1 h1
        rw [one_mul] at h1
        have := Nat.cast_injective h1
        omega
      · exact h1
  have hri : ∀ m, p / 2 + p % 2 < p - m → m < p → Q (p - 1 - m) - lineCoord p new i c (p - 1 - m) = 0 := by
    intro m
    induction m with
    | zero =>
      intro h1 h2
      have := key p (le_refl _)
      rw [redLam_right (by omega), div_self hp0] at this
      simpa using this
    | succ m ih =>
      intro h1 h2
      have := key (p - (m + 1)) (by omega)
      rw [redLam_right h1, show p - (m + 1) = p - 1 - m by omega, ih (by omega) (by omega), mul_zero, zero_add, zero_mul,
        show p - 1 - m - 1 = p - 1 - (m + 1) by omega] at this
      rcases mul_eq_zero.1 this with h1 | h1
      · exfalso
        rcases div_eq_zero_iff.1 h1 with h1 | h1
        · have := Nat.cast_eq_zero.1 h1; omega
        · exact hp0 h1
      · exact h1
  have hri : ∀ j, p / 2 + p % 2 ≤ j → j < p → Q j - lineCoord p new i c j = 0 := by
    intro j h1 h2
    have := hri (p - 1 - j) (by omega) (by omega)
    rwa [show p - 1 - (p - 1 - j) = j by omega] at this
  by_cases ho : p % 2 = 0
  · have hall : ∀ j < p, Q j - lineCoord p new i c j = 0 := fun j hj => by
      rcases Nat.lt_or_ge j (p / 2) with hl | hl
      · exact hle j hl
      · exact hri j (by omega) hj
    refine ⟨fun j hj => (sub_eq_zero.1 (hall j hj)).symm, ?_⟩
    have := key (p / 2) (by omega)
    rw [hall _ (by omega), hall _ (by omega), mul_zero, mul_zero, add_zero] at this
    unfold redLam at this
    rw [if_pos ho, if_pos rfl, one_mul] at this
    exact this.symm
  · have k1 := key (p / 2) (by omega)
    have k2 := key (p / 2 + 1) (by omega)
    rw [hle (p / 2 - 1) (by omega), mul_zero, add_zero] at k1
    rw [hri (p / 2 + 1) (by omega) (by omega), mul_zero, zero_add, Nat.add_sub_cancel] at k2
    unfold redLam at k1 k2
    rw [if_neg ho, if_pos rfl] at k1
    rw [if_neg ho, if_neg (by omega), if_pos rfl] at k2
    set r := p / 2 with hr
    have hpr : (p : K) = 2 * (r : K) + 1 := by
      have : p = 2 * r + 1 := by omega
      rw [this]; push_cast; ring
    have hr0 : (0 : K) ≤ r := Nat.cast_nonneg _
    have hrp : ((r + 1 : ℕ) : K) / (p : K) ≠ 0 := div_ne_zero (Nat.cast_ne_zero.2 (by omega)) hp0
    have ha : 1 - (r : K) / p = ((r + 1 : ℕ) : K) / p := by
      rw [eq_div_iff hp0, sub_mul, div_mul_cancel₀ _ hp0, hpr]; push_cast; ring
    rw [ha] at k1
    have hx : Q r - lineCoord p new i c r = 0 := by
      have : ((r + 1 : ℕ) : K) / (p : K) * (2 * (Q r - lineCoord p new i c r)) = 0 := by linear_combination k1 + k2
      rcases mul_eq_zero.1 this with h1 | h1
      · exact absurd h1 hrp
      · rcases mul_eq_zero.1 h1 with h1 | h1
        · exact absurd h1 (by norm_num)
        · exact h1
    refine ⟨fun j hj => ?_, ?_⟩
    · rcases Nat.lt_trichotomy j r with hl | rfl | hl
      · exact (sub_eq_zero.1 (hle j hl)).symm
      · exact (sub_eq_zero.1 hx).symm
      · exact (sub_eq_zero.1 (hri j (by omega) hj)).symm
    · rw [hx, mul_zero] at k1
      rcases mul_eq_zero.1 k1.symm with h1 | h1
      · rcases div_eq_zero_iff.1 h1 with h1 | h1
        · exact absurd h1 hrp
        · exact absurd h1 (by norm_num)
      · exact h1

end
end SplineLib
