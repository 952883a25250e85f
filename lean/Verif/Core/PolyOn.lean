import Verif.Core.Integral
import Mathlib.LinearAlgebra.Matrix.Determinant.Basic

/-!
# Polynomials of several variables in a box (helper mathematics)
-/

namespace SplineLib
set_option linter.unusedSectionVars false
open Finset MvPolynomial

/-- In the box, `g` is a polynomial of the coordinates whose degree in the direction `k` is at most `m k`. -/
def PolyOn (m : ℕ → ℕ) (box : List (ℝ × ℝ)) (g : List ℝ → ℝ) : Prop :=
  ∃ P : MvPolynomial ℕ ℝ, (∀ k, P.degreeOf k ≤ m k) ∧ ∀ x, InCell box x → g x = eval (fun k => x.getD k 0) P

variable {m n : ℕ → ℕ} {box : List (ℝ × ℝ)} {f g : List ℝ → ℝ}

theorem PolyOn.congr (h : PolyOn m box f) (e : ∀ x, InCell box x → g x = f x) : PolyOn m box g := by
  obtain ⟨P, h1, h2⟩ := h
  exact ⟨P, h1, fun x hx => by rw [e x hx, h2 x hx]⟩

theorem PolyOn.mono (h : PolyOn m box f) (e : ∀ k, m k ≤ n k) : PolyOn n box f := by
  obtain ⟨P, h1, h2⟩ := h
  exact ⟨P, fun k => (h1 k).trans (e k), h2⟩

theorem PolyOn.const (c : ℝ) : PolyOn m box fun _ => c := ⟨C c, fun k => by simp, fun x _ => by simp⟩

theorem PolyOn.add (hf : PolyOn m box f) (hg : PolyOn m box g) : PolyOn m box fun x => f x + g x := by
  obtain ⟨P, h1, h2⟩ := hf
  obtain ⟨Q, h3, h4⟩ := hg
  exact ⟨P + Q, fun k => (degreeOf_add_le k P Q).trans (max_le (h1 k) (h3 k)), fun x hx => by dsimp only; rw [h2 x hx, h4 x hx, eval_add]⟩

theorem PolyOn.mul (hf : PolyOn m box f) (hg : PolyOn n box g) : PolyOn (fun k => m k + n k) box fun x => f x * g x := by
  obtain ⟨P, h1, h2⟩ := hf
  obtain ⟨Q, h3, h4⟩ := hg
  exact ⟨P * Q, fun k => (degreeOf_mul_le k P Q).trans (add_le_add (h1 k) (h3 k)), fun x hx => by dsimp only; rw [h2 x hx, h4 x hx, eval_mul]⟩

theorem PolyOn.const_mul (c : ℝ) (hf : PolyOn m box f) : PolyOn m box fun x => c * f x :=
  ((PolyOn.const (m := fun _ => 0) c).mul hf).mono fun k => by simp

theorem PolyOn.mul_const (c : ℝ) (hf : PolyOn m box f) : PolyOn m box fun x => f x * c :=
  (hf.const_mul c).congr fun _ _ => mul_comm _ _

theorem PolyOn.sum {ι : Type*} (s : Finset ι) {f : ι → List ℝ → ℝ} (h : ∀ i ∈ s, PolyOn m box (f i)) : PolyOn m box fun x => ∑ i ∈ s, f i x := by
  classical
  induction s using Finset.induction_on with
  | empty => simpa using PolyOn.const (m := m) (box := box) 0
  | insert a s ha ih =>
    refine ((h a (by simp)).add (ih fun i hi => h i (by simp [hi]))).congr fun x _ => ?_
    rw [sum_insert ha]

theorem PolyOn.prod {ι : Type*} (s : Finset ι) {f : ι → List ℝ → ℝ} (h : ∀ i ∈ s, PolyOn m box (f i)) :
    PolyOn (fun k => s.card * m k) box fun x => ∏ i ∈ s, f i x := by
  classical
  induction s using Finset.induction_on with
  | empty => exact (PolyOn.const (m := _) (box := box) 1).congr fun x _ => by simp
  | insert a s ha ih =>
    refine (((h a (by simp)).mul (ih fun i hi => h i (by simp [hi]))).congr fun x _ => ?_).mono fun k => ?_
    · rw [prod_insert ha]
    · rw [card_insert_of_notMem ha, add_mul, one_mul, add_comm]

theorem PolyOn.det {d : ℕ} {A : List ℝ → Matrix (Fin d) (Fin d) ℝ} (h : ∀ i j, PolyOn m box fun x => A x i j) :
    PolyOn (fun k => d * m k) box fun x => (A x).det := by
  have : ∀ x, (A x).det = ∑ σ : Equiv.Perm (Fin d), ((Equiv.Perm.sign σ : ℤ) : ℝ) * ∏ i, A x (σ i) i := fun x => Matrix.det_apply' _
  simp only [this]
  apply PolyOn.sum
  intro σ _
  apply PolyOn.const_mul
  simpa using PolyOn.prod (univ : Finset (Fin d)) (f := fun i x => A x (σ i) i) fun i _ => h _ _

theorem PolyOn.msum (ns : List ℕ) {f : List ℕ → List ℝ → ℝ} (h : ∀ I, InBox ns I → PolyOn m box (f I)) (hn : ∀ n ∈ ns, 0 < n) :
    PolyOn m box fun x => msum ns fun I => f I x := by
  have : ∀ x, SplineLib.msum ns (fun I => f I x) = ∑ k ∈ range ns.prod, f (unlin ns k) x := fun x => msum_eq_sum_unlin ns _
  simp only [this]
  exact PolyOn.sum _ fun k _ => h _ (unlin_inBox hn k)

/-! ### Products of polynomials of one variable -/

theorem degreeOf_aeval_self (p : Polynomial ℝ) (k : ℕ) : (Polynomial.aeval (X k : MvPolynomial ℕ ℝ) p).degreeOf k ≤ p.natDegree := by
  rw [Polynomial.aeval_eq_sum_range]
  refine (degreeOf_sum_le _ _ _).trans (Finset.sup_le fun i hi => ?_)
  rw [smul_eq_C_mul]
  refine (degreeOf_C_mul_le _ _ _).trans ?_
  rw [degreeOf_X_self_pow]
  have := mem_range.1 hi
  omega

theorem degreeOf_aeval_ne (p : Polynomial ℝ) {k j : ℕ} (h : j ≠ k) : (Polynomial.aeval (X k : MvPolynomial ℕ ℝ) p).degreeOf j = 0 := by
  rw [← Nat.le_zero, Polynomial.aeval_eq_sum_range]
  refine (degreeOf_sum_le _ _ _).trans (Finset.sup_le fun i hi => ?_)
  rw [smul_eq_C_mul]
  refine (degreeOf_C_mul_le _ _ _).trans ?_
  rw [degreeOf_X_pow_of_ne _ h]

theorem eval_aeval_X (p : Polynomial ℝ) (k : ℕ) (v : ℕ → ℝ) : eval v (Polynomial.aeval (X k : MvPolynomial ℕ ℝ) p) = p.eval (v k) := by
  rw [Polynomial.aeval_eq_sum_range, map_sum, Polynomial.eval_eq_sum_range]
  refine sum_congr rfl fun i _ => ?_
  rw [smul_eq_C_mul]
  simp

theorem degreeOf_rename_succ_zero (P : MvPolynomial ℕ ℝ) : (rename Nat.succ P).degreeOf 0 = 0 := by
  classical
  rw [← Nat.le_zero]
  rw [degreeOf_le_iff]
  intro e he
  rw [support_rename_of_injective Nat.succ_injective] at he
  obtain ⟨e', _, rfl⟩ := Finset.mem_image.1 he
  rw [Finsupp.mapDomain_of_notMem_range]
  simp

/-- A direction more: the polynomial `p` of the first coordinate times a polynomial of the others. -/
theorem PolyOn.cons {ab : ℝ × ℝ} {p : Polynomial ℝ} {d : ℕ} (hp : p.natDegree ≤ d) {f : ℝ → ℝ} (hf : ∀ x, ab.1 ≤ x → x < ab.2 → f x = p.eval x)
    (hg : PolyOn m box g) {h : List ℝ → ℝ} (e : ∀ x xs, h (x :: xs) = f x * g xs) :
    PolyOn (fun k => match k with | 0 => d | k + 1 => m k) (ab :: box) h := by
  obtain ⟨P, h1, h2⟩ := hg
  refine ⟨Polynomial.aeval (X 0 : MvPolynomial ℕ ℝ) p * rename Nat.succ P, fun k => ?_, fun x hx => ?_⟩
  · refine (degreeOf_mul_le _ _ _).trans ?_
    cases k with
    | zero =>
      rw [degreeOf_rename_succ_zero, add_zero]
      exact (degreeOf_aeval_self p 0).trans hp
    | succ k =>
      rw [degreeOf_aeval_ne p (Nat.succ_ne_zero k), zero_add]
      have := degreeOf_rename_of_injective (p := P) Nat.succ_injective k
      rw [show Nat.succ k = k + 1 from rfl] at this
      rw [this]
      exact h1 k
  · cases hx with
    | cons ha hx =>
      rw [e, hf _ ha.1 ha.2, h2 _ hx, eval_mul, eval_aeval_X, eval_rename]
      rfl

/-! ### Sums of products -/

theorem prod_support_eq (e : ℕ →₀ ℕ) (v : ℕ → ℝ) (d : ℕ) (hv : ∀ k, d ≤ k → v k = 0) :
    (e.prod fun k a => v k ^ a) = (if ∀ k ∈ e.support, k < d then 1 else 0) * ∏ k ∈ range d, v k ^ e k := by
  split
  · rename_i h
    rw [one_mul, Finsupp.prod]
    apply Finset.prod_subset
    · intro k hk
      exact mem_range.2 (h k hk)
    · intro k _ hk
      rw [Finsupp.notMem_support_iff.1 hk, pow_zero]
  · rename_i h
    push Not at h
    obtain ⟨k, hk, hd⟩ := h
    rw [zero_mul, Finsupp.prod]
    apply Finset.prod_eq_zero hk
    rw [hv k hd, zero_pow (Finsupp.mem_support_iff.1 hk)]

theorem prodEval_pow : ∀ (x : List ℝ) (e : ℕ → ℕ), prodEval ((List.range x.length).map fun k => Polynomial.X ^ e k) x =
    ∏ k ∈ range x.length, (x.getD k 0) ^ e k
  | [], e => rfl
  | x :: xs, e => by
    rw [List.length_cons, List.range_succ_eq_map, List.map_cons, List.map_map, prodEval, prod_range_succ']
    have := prodEval_pow xs fun k => e (k + 1)
    rw [show ((fun k => (Polynomial.X : Polynomial ℝ) ^ e k) ∘ Nat.succ) = fun k => Polynomial.X ^ e (k + 1) from rfl, this, mul_comm]
    simp

theorem list_sum_range {α : Type} (f : α → ℝ) (d : α) : ∀ l : List α, (l.map f).sum = ∑ i ∈ range l.length, f (l.getD i d)
  | [] => rfl
  | a :: l => by
    rw [List.map_cons, List.sum_cons, list_sum_range f d l, List.length_cons, sum_range_succ', add_comm]
    simp

theorem PolyOn.sumProd {d : ℕ} (h : PolyOn m box g) (hm : ∀ k, m k ≤ d) : SumProd d box g := by
  classical
  obtain ⟨P, h1, h2⟩ := h
  obtain ⟨es, hes⟩ : ∃ es : List (ℕ →₀ ℕ), es.Nodup ∧ es.toFinset = P.support := ⟨P.support.toList, P.support.nodup_toList, by simp⟩
  let E : ℕ → (ℕ →₀ ℕ) := fun i => es.getD i 0
  refine ⟨es.length, fun i => coeff (E i) P * (if ∀ k ∈ (E i).support, k < box.length then 1 else 0),
    fun i => (List.range box.length).map fun k => Polynomial.X ^ (if E i ∈ P.support then E i k else 0), fun i => by simp, ?_, ?_⟩
  · intro i p hp
    obtain ⟨k, _, rfl⟩ := List.mem_map.1 hp
    rw [Polynomial.natDegree_X_pow]
    split
    · rename_i hc
      exact (degreeOf_le_iff.1 (h1 k) _ hc).trans (hm k)
    · simp
  · intro x hx
    have hl : box.length = x.length := List.Forall₂.length_eq hx
    rw [h2 x hx, eval_eq, ← hes.2, List.sum_toFinset _ hes.1, list_sum_range _ 0]
    refine sum_congr rfl fun i hi => ?_
    have hE : E i ∈ P.support := by
      rw [← hes.2, List.mem_toFinset]
      have := mem_range.1 hi
      show es.getD i 0 ∈ es
      rw [List.getD_eq_getElem _ _ this]
      exact List.getElem_mem _
    have hp := prod_support_eq (E i) (fun k => x.getD k 0) x.length (fun k hk => by simp [List.getD_eq_getElem?_getD, List.getElem?_eq_none hk])
    rw [Finsupp.prod] at hp
    show coeff (E i) P * ∏ k ∈ (E i).support, x.getD k 0 ^ (E i) k = _
    rw [hp, hl, prodEval_pow, hes.2]
    simp only [if_pos hE]
    rw [mul_assoc]

end SplineLib
