import Verif.Model.MultiIndex
import Verif.Spec.Tensor
import Mathlib.Algebra.BigOperators.Group.Finset.Basic
import Mathlib.Algebra.BigOperators.Intervals
import Mathlib.Algebra.BigOperators.Ring.Finset
import Mathlib.Algebra.Order.BigOperators.Group.List
import Mathlib.Tactic.Ring
import Mathlib.Tactic.Linarith

/-!
# Mixed radix arithmetic for the multi-index handler (helper lemmas)
-/

namespace SplineLib
open Finset

/-- Multi-index at position `k`. -/
def unlin : List ℕ → ℕ → List ℕ
  | [], _ => []
  | n :: ns, k => k % n :: unlin ns (k / n)

@[simp] theorem inBox_nil : InBox [] [] := List.Forall₂.nil
@[simp] theorem inBox_cons {n i : ℕ} {ns is : List ℕ} : InBox (n :: ns) (i :: is) ↔ i < n ∧ InBox ns is :=
  List.forall₂_cons
@[simp] theorem inBox_nil_cons {i : ℕ} {is : List ℕ} : ¬ InBox [] (i :: is) := by simp [InBox]
@[simp] theorem inBox_cons_nil {n : ℕ} {ns : List ℕ} : ¬ InBox (n :: ns) [] := by simp [InBox]
theorem inBox_nil_iff {is : List ℕ} : InBox [] is ↔ is = [] := by simp [InBox]

theorem InBox.length {ns is : List ℕ} (h : InBox ns is) : is.length = ns.length := List.Forall₂.length_eq h

theorem InBox.getD_lt {ns is : List ℕ} (h : InBox ns is) {d : ℕ} (hd : d < ns.length) :
    is.getD d 0 < ns.getD d 0 := by
  induction ns generalizing is d with
  | nil => simp at hd
  | cons n ns ih =>
    cases is with
    | nil => simp at h
    | cons i is =>
      simp at h
      cases d with
      | zero => simpa using h.1
      | succ d => simpa using ih h.2 (by simpa using hd)

@[simp] theorem unlin_length (ns : List ℕ) (k : ℕ) : (unlin ns k).length = ns.length := by
  induction ns generalizing k with
  | nil => rfl
  | cons n ns ih => simp [unlin, ih]

theorem unlin_inBox {ns : List ℕ} (h : ∀ n ∈ ns, 0 < n) (k : ℕ) : InBox ns (unlin ns k) := by
  induction ns generalizing k with
  | nil => simp [unlin]
  | cons n ns ih =>
    simp only [unlin, inBox_cons]
    exact ⟨Nat.mod_lt _ (h n (by simp)), ih (fun m hm => h m (by simp [hm])) _⟩

theorem lin_unlin {ns : List ℕ} {k : ℕ} (hk : k < ns.prod) : lin ns (unlin ns k) = k := by
  induction ns generalizing k with
  | nil => simp at hk; simp [lin, hk]
  | cons n ns ih =>
    simp only [unlin, lin]
    simp only [List.prod_cons] at hk
    have : k / n < ns.prod := Nat.div_lt_of_lt_mul hk
    rw [ih this, Nat.mod_add_div]

theorem lin_lt {ns is : List ℕ} (h : InBox ns is) : lin ns is < ns.prod := by
  induction ns generalizing is with
  | nil => rw [inBox_nil_iff] at h; simp [lin]
  | cons n ns ih =>
    cases is with
    | nil => simp at h
    | cons i is =>
      simp at h
      simp only [lin, List.prod_cons]
      have := ih h.2
      calc i + n * lin ns is < n + n * lin ns is := by omega
        _ = n * (lin ns is + 1) := by ring
        _ ≤ n * ns.prod := Nat.mul_le_mul_left _ this

theorem unlin_lin {ns is : List ℕ} (h : InBox ns is) : unlin ns (lin ns is) = is := by
  induction ns generalizing is with
  | nil => rw [inBox_nil_iff] at h; simp [unlin, h]
  | cons n ns ih =>
    cases is with
    | nil => simp at h
    | cons i is =>
      simp at h
      have hn : 0 < n := by omega
      simp only [lin, unlin]
      rw [Nat.add_mul_mod_self_left, Nat.mod_eq_of_lt h.1, Nat.add_mul_div_left _ _ hn,
        Nat.div_eq_of_lt h.1, Nat.zero_add, ih h.2]

theorem lin_inj {ns is js : List ℕ} (h : InBox ns is) (h' : InBox ns js) (e : lin ns is = lin ns js) : is = js := by
  rw [← unlin_lin h, ← unlin_lin h', e]

theorem unlin_zero (ns : List ℕ) : unlin ns 0 = ns.map fun _ => 0 := by
  induction ns with
  | nil => rfl
  | cons n ns ih => simp [unlin, ih]

theorem unlin_prod (ns : List ℕ) : unlin ns ns.prod = ns.map fun _ => 0 := by
  induction ns with
  | nil => rfl
  | cons n ns ih =>
    rcases Nat.eq_zero_or_pos n with hn | hn
    · subst hn; simp only [unlin, List.prod_cons, Nat.zero_mul, Nat.zero_mod, Nat.div_zero, List.map_cons]; rw [unlin_zero]
    · simp [unlin, Nat.mul_div_cancel_left _ hn, ih]

theorem unlin_add_prod {ns : List ℕ} (h : ∀ n ∈ ns, 0 < n) (k : ℕ) : unlin ns (k + ns.prod) = unlin ns k := by
  induction ns generalizing k with
  | nil => rfl
  | cons n ns ih =>
    have hn : 0 < n := h n (by simp)
    simp only [unlin, List.prod_cons]
    rw [Nat.add_mul_mod_self_left, Nat.add_mul_div_left _ _ hn, ih (fun m hm => h m (by simp [hm]))]

/-! ### The handler in terms of `lin`/`unlin` -/

theorem foldl_mul_int (l : List ℤ) (a : ℤ) : l.foldl (· * ·) a = a * l.prod := by
  induction l generalizing a with
  | nil => simp
  | cons x xs ih => simp [ih, mul_assoc]

theorem oneDLoop_eq (done len ix : List ℤ) :
    MIH.oneDLoop done len ix = done.prod * MIH.oneDLoop [] len ix := by
  induction len generalizing done ix with
  | nil => cases ix <;> simp [MIH.oneDLoop]
  | cons l ls ih =>
    cases ix with
    | nil => simp [MIH.oneDLoop]
    | cons i is =>
      simp only [MIH.oneDLoop]
      rw [ih (l :: done), ih [l], foldl_mul_int]
      simp
      ring

/-- Horner form of `Get1DIndex`. -/
theorem oneD_cons (l i : ℤ) (ls is : List ℤ) :
    MIH.oneD (l :: ls) (i :: is) = i + l * MIH.oneD ls is := by
  simp only [MIH.oneD, MIH.oneDLoop]
  rw [oneDLoop_eq [l]]
  simp

@[simp] theorem oneD_nil (is : List ℤ) : MIH.oneD [] is = 0 := by cases is <;> rfl
@[simp] theorem oneD_nil_right (ls : List ℤ) : MIH.oneD ls [] = 0 := by cases ls <;> rfl

theorem oneD_zl (ns is : List ℕ) : MIH.oneD (zl ns) (zl is) = (lin ns is : ℤ) := by
  induction ns generalizing is with
  | nil => simp [lin]
  | cons n ns ih =>
    cases is with
    | nil => simp [lin]
    | cons i is =>
      simp only [List.map_cons, oneD_cons, lin]
      rw [show List.map (Nat.cast : ℕ → ℤ) ns = zl ns from rfl, show List.map (Nat.cast : ℕ → ℤ) is = zl is from rfl, ih]
      push_cast; ring

theorem length1D_zl (ns is : List ℕ) : (MIH.mk (zl ns) (zl is)).length1D = (ns.prod : ℤ) := by
  simp only [MIH.length1D]
  rw [foldl_mul_int]
  simp [zl]

theorem incrL_unlin {ns : List ℕ} (h : ∀ n ∈ ns, 0 < n) (k : ℕ) :
    MIH.incrL (zl ns) (zl (unlin ns k)) = zl (unlin ns (k + 1)) := by
  induction ns generalizing k with
  | nil => simp [unlin, MIH.incrL]
  | cons n ns ih =>
    have hn : 0 < n := h n (by simp)
    have ih' := ih (fun m hm => h m (by simp [hm]))
    simp only [unlin, List.map_cons, MIH.incrL]
    have hlt := Nat.mod_lt k hn
    by_cases hc : k % n = n - 1
    · have h1 : (((k % n : ℕ) : ℤ) = (n : ℤ) - 1 ∨ (n : ℤ) = 0) := by left; omega
      rw [if_pos h1]
      have hk : k + 1 = n * (k / n + 1) := by
        have := Nat.mod_add_div k n; rw [hc] at this
        rw [Nat.mul_add]; omega
      have h2 : (k + 1) % n = 0 := by rw [hk]; simp
      have h3 : (k + 1) / n = k / n + 1 := by rw [hk, Nat.mul_div_cancel_left _ hn]
      rw [h2, h3]
      have := ih' (k / n)
      simp only [zl] at this
      rw [this]; simp
    · have h1 : ¬ (((k % n : ℕ) : ℤ) = (n : ℤ) - 1 ∨ (n : ℤ) = 0) := by omega
      rw [if_neg h1]
      have hlt2 : k % n + 1 < n := by omega
      have hk : k + 1 = (k % n + 1) + n * (k / n) := by
        have := Nat.mod_add_div k n; omega
      have h2 : (k + 1) % n = k % n + 1 := by
        rw [hk, Nat.add_mul_mod_self_left, Nat.mod_eq_of_lt hlt2]
      have h3 : (k + 1) / n = k / n := by
        rw [hk, Nat.add_mul_div_left _ _ hn, Nat.div_eq_of_lt hlt2, Nat.zero_add]
      rw [h2, h3]; simp

theorem decrL_unlin {ns : List ℕ} (h : ∀ n ∈ ns, 0 < n) (k : ℕ) :
    MIH.decrL (zl ns) (zl (unlin ns (k + 1))) = zl (unlin ns k) := by
  induction ns generalizing k with
  | nil => simp [unlin, MIH.decrL]
  | cons n ns ih =>
    have hn : 0 < n := h n (by simp)
    have ih' := ih (fun m hm => h m (by simp [hm]))
    simp only [unlin, List.map_cons, MIH.decrL]
    have hlt := Nat.mod_lt k hn
    by_cases hc : k % n = n - 1
    · have hk : k + 1 = n * (k / n + 1) := by
        have := Nat.mod_add_div k n; rw [hc] at this
        rw [Nat.mul_add]; omega
      have h2 : (k + 1) % n = 0 := by rw [hk]; simp
      have h3 : (k + 1) / n = k / n + 1 := by rw [hk, Nat.mul_div_cancel_left _ hn]
      rw [h2, h3]
      have := ih' (k / n)
      simp only [zl] at this
      rw [this]; simp [hc]; omega
    · have hlt2 : k % n + 1 < n := by omega
      have hk : k + 1 = (k % n + 1) + n * (k / n) := by
        have := Nat.mod_add_div k n; omega
      have h2 : (k + 1) % n = k % n + 1 := by
        rw [hk, Nat.add_mul_mod_self_left, Nat.mod_eq_of_lt hlt2]
      have h3 : (k + 1) / n = k / n := by
        rw [hk, Nat.add_mul_div_left _ _ hn, Nat.div_eq_of_lt hlt2, Nat.zero_add]
      rw [h2, h3]
      have : ¬ (((k % n + 1 : ℕ) : ℤ) = 0) := by omega
      rw [if_neg this]; simp

/-! ### Sums over a box -/

section
variable {R : Type*} [AddCommMonoid R]

theorem msum_congr {ns : List ℕ} {f g : List ℕ → R} (h : ∀ I, InBox ns I → f I = g I) : msum ns f = msum ns g := by
  induction ns generalizing f g with
  | nil => exact h [] inBox_nil
  | cons n ns ih =>
    apply sum_congr rfl
    intro i hi
    apply ih
    intro I hI
    exact h _ (inBox_cons.2 ⟨mem_range.1 hi, hI⟩)

theorem msum_zero (ns : List ℕ) : msum ns (fun _ => (0 : R)) = 0 := by
  induction ns with
  | nil => rfl
  | cons n ns ih => simp [msum, ih]

theorem msum_add (ns : List ℕ) (f g : List ℕ → R) : msum ns (fun I => f I + g I) = msum ns f + msum ns g := by
  induction ns generalizing f g with
  | nil => rfl
  | cons n ns ih => simp [msum, ih, sum_add_distrib]

theorem msum_sum_comm {ι : Type*} (s : Finset ι) (ns : List ℕ) (f : ι → List ℕ → R) :
    msum ns (fun I => ∑ j ∈ s, f j I) = ∑ j ∈ s, msum ns (f j) := by
  induction ns generalizing f with
  | nil => rfl
  | cons n ns ih => simp only [msum, ih]; rw [sum_comm]

theorem sum_range_mul_divmod (n P : ℕ) (f : ℕ → ℕ → R) :
    ∑ k ∈ range (n * P), f (k % n) (k / n) = ∑ t ∈ range P, ∑ i ∈ range n, f i t := by
  induction P with
  | zero => simp
  | succ P ih =>
    rw [Nat.mul_succ, sum_range_add, ih, sum_range_succ]
    congr 1
    apply sum_congr rfl
    intro i hi
    have hi := mem_range.1 hi
    have hn : 0 < n := by omega
    rw [Nat.mul_add_mod, Nat.mod_eq_of_lt hi, Nat.add_comm (n * P), Nat.add_mul_div_left _ _ hn,
      Nat.div_eq_of_lt hi, Nat.zero_add]

theorem msum_eq_sum_unlin (ns : List ℕ) (f : List ℕ → R) :
    msum ns f = ∑ k ∈ range ns.prod, f (unlin ns k) := by
  induction ns generalizing f with
  | nil => simp only [msum, unlin, List.prod_nil, range_one, sum_singleton]
  | cons n ns ih =>
    simp only [msum, List.prod_cons, unlin]
    rw [sum_range_mul_divmod n ns.prod (fun i t => f (i :: unlin ns t)), sum_comm]
    exact sum_congr rfl fun i _ => ih _

end

section
variable {R : Type*} [CommSemiring R]

theorem msum_mul_left (a : R) (ns : List ℕ) (f : List ℕ → R) : msum ns (fun I => a * f I) = a * msum ns f := by
  induction ns generalizing f with
  | nil => rfl
  | cons n ns ih => simp [msum, ih, mul_sum]

theorem msum_mul_right (a : R) (ns : List ℕ) (f : List ℕ → R) : msum ns (fun I => f I * a) = msum ns f * a := by
  simp only [mul_comm _ a]; exact msum_mul_left a ns f

/-- The tensor product sum factorises. -/
theorem msum_dprod (ns : List ℕ) (bs : List (ℕ → R)) (h : bs.length = ns.length) :
    msum ns (dprod bs) = (List.zipWith (fun n b => ∑ i ∈ range n, b i) ns bs).prod := by
  induction ns generalizing bs with
  | nil => cases bs <;> simp_all [msum, dprod]
  | cons n ns ih =>
    cases bs with
    | nil => simp at h
    | cons b bs =>
      simp only [msum, dprod, List.zipWith_cons_cons, List.prod_cons]
      simp only [msum_mul_left]
      rw [ih bs (by simpa using h), sum_mul]

/-- A sum over a box can be changed in one direction if the change is invisible in every line of that direction. -/
theorem msum_change_dir {R : Type*} [AddCommMonoid R] (ns : List ℕ) (d : ℕ) (hd : d < ns.length) (n' : ℕ)
    (f g : List ℕ → R)
    (h : ∀ I, InBox (ns.set d 1) I →
      ∑ i ∈ range (ns.getD d 0), f (I.set d i) = ∑ i ∈ range n', g (I.set d i)) :
    msum ns f = msum (ns.set d n') g := by
  induction ns generalizing d f g with
  | nil => simp at hd
  | cons n ns ih =>
    cases d with
    | zero =>
      simp only [List.set_cons_zero, msum]
      have hh : ∀ t, InBox ns t → ∑ i ∈ range n, f (i :: t) = ∑ i ∈ range n', g (i :: t) := by
        intro t ht
        have := h (0 :: t) (by simp [ht])
        simpa using this
      rw [← msum_sum_comm, ← msum_sum_comm]
      exact msum_congr hh
    | succ d =>
      simp only [List.set_cons_succ, msum]
      apply sum_congr rfl
      intro i hi
      apply ih d (by simpa using hd)
      intro I hI
      have := h (i :: I) (by simpa [hI] using mem_range.1 hi)
      simpa using this

end
end SplineLib
