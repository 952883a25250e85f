import Verif.Model.IntRange
import Verif.Core.RatDeriv
import Verif.Core.IgesBack
import Mathlib.Data.Nat.Choose.Vandermonde
import Mathlib.Data.Nat.Choose.Central

/-!
# Index arithmetic with the range of `int` (helper lemmas)
-/

namespace SplineLib
set_option linter.unusedSectionVars false

theorem int_ok {a : ℤ} (h0 : -2 ^ 31 ≤ a) (h : a < 2 ^ 31) : I32.int a = .ok a := by
  unfold I32.int; rw [if_pos ⟨h0, by omega⟩]

theorem int_nat {a : ℕ} (h : a < 2 ^ 31) : I32.int (a : ℤ) = .ok (a : ℤ) := int_ok (by omega) (by omega)

theorem int_ub {a : ℕ} (h : 2 ^ 31 ≤ a) : I32.int (a : ℤ) = .error .ub := by
  unfold I32.int; rw [if_neg]; omega

theorem scale_ok : ∀ {ls : List ℕ} {t : ℕ}, (∀ n ∈ ls, 0 < n) → t * ls.prod < 2 ^ 31 → I32.scale (zl ls) (t : ℤ) = .ok ((t * ls.prod : ℕ) : ℤ)
  | [], t, _, _ => by simp [I32.scale]
  | l :: ls, t, hp, h => by
    have hls : ∀ n ∈ ls, 0 < n := fun n hn => hp n (by simp [hn])
    have hP := prod_pos_of hls
    rw [List.prod_cons, ← mul_assoc] at h
    have h1 : t * l < 2 ^ 31 := lt_of_le_of_lt (Nat.le_mul_of_pos_right _ hP) h
    simp only [List.map_cons, I32.scale, ← Nat.cast_mul, int_nat h1, ok_bind, List.prod_cons]
    rw [show (List.map (fun i : ℕ => (i : ℤ)) ls) = zl ls from rfl, scale_ok hls h, mul_assoc]

theorem scale_ub : ∀ {ls : List ℕ} {t : ℕ}, (∀ n ∈ ls, 0 < n) → t < 2 ^ 31 → 2 ^ 31 ≤ t * ls.prod → I32.scale (zl ls) (t : ℤ) = .error .ub
  | [], t, _, h1, h => by simp at h; omega
  | l :: ls, t, hp, h1, h => by
    have hls : ∀ n ∈ ls, 0 < n := fun n hn => hp n (by simp [hn])
    rw [List.prod_cons, ← mul_assoc] at h
    simp only [List.map_cons, I32.scale, ← Nat.cast_mul]
    by_cases hc : t * l < 2 ^ 31
    · rw [int_nat hc, ok_bind]; exact scale_ub hls hc h
    · rw [int_ub (by omega)]; rfl

theorem oneDLoop_ok : ∀ {ns is d : List ℕ} {sum : ℕ}, InBox ns is → (∀ n ∈ d, 0 < n) → sum + d.prod * lin ns is < 2 ^ 31 →
    I32.oneDLoop (zl d) (zl ns) (zl is) (sum : ℤ) = .ok ((sum + d.prod * lin ns is : ℕ) : ℤ)
  | [], is, d, sum, hI, _, _ => by
    rw [inBox_nil_iff] at hI; subst hI
    simp [I32.oneDLoop, lin]
  | n :: ns, [], d, sum, hI, _, _ => by simp at hI
  | n :: ns, i :: is, d, sum, hI, hd, h => by
    simp only [inBox_cons] at hI
    simp only [lin] at h
    have e : d.prod * (i + n * lin ns is) = i * d.prod + (n * d.prod) * lin ns is := by ring
    rw [e] at h
    have h1 : i * d.prod < 2 ^ 31 := by
      have := Nat.zero_le ((n * d.prod) * lin ns is)
      omega
    have h2 : sum + i * d.prod < 2 ^ 31 := by
      have := Nat.zero_le ((n * d.prod) * lin ns is)
      omega
    have hd' : ∀ m ∈ n :: d, 0 < m := by
      intro m hm
      rcases List.mem_cons.1 hm with rfl | hm
      · omega
      · exact hd m hm
    have ih := oneDLoop_ok (ns := ns) (is := is) (d := n :: d) (sum := sum + i * d.prod) hI.2 hd' (by rw [List.prod_cons, Nat.add_assoc]; exact h)
    simp only [List.map_cons, I32.oneDLoop]
    rw [scale_ok hd h1, ok_bind, ← Nat.cast_add, int_nat h2, ok_bind]
    rw [show ((n : ℤ) :: zl d) = zl (n :: d) from rfl, ih]
    congr 2
    simp only [List.prod_cons, lin]
    rw [e]; ring

theorem oneD_ok {ns is : List ℕ} (hI : InBox ns is) (h : lin ns is < 2 ^ 31) : I32.oneD (zl ns) (zl is) = .ok (lin ns is : ℤ) := by
  have := oneDLoop_ok (d := []) (sum := 0) hI (by simp) (by simpa using h)
  simpa [I32.oneD] using this

theorem length1D_ok {ns : List ℕ} {c : List ℤ} (hp : ∀ n ∈ ns, 0 < n) (h : ns.prod < 2 ^ 31) :
    I32.length1D ⟨zl ns, c⟩ = .ok (ns.prod : ℤ) := by
  have := scale_ok (t := 1) hp (by simpa using h)
  simpa [I32.length1D] using this

theorem le_prod_of_pos : ∀ {ns : List ℕ}, (∀ n ∈ ns, 0 < n) → ∀ n ∈ ns, n ≤ ns.prod
  | [], _, n, h => by simp at h
  | m :: ns, hp, n, h => by
    have hls : ∀ n ∈ ns, 0 < n := fun n hn => hp n (by simp [hn])
    have hP := prod_pos_of hls
    rw [List.prod_cons]
    rcases List.mem_cons.1 h with rfl | h
    · exact Nat.le_mul_of_pos_right _ hP
    · exact (le_prod_of_pos hls n h).trans (Nat.le_mul_of_pos_left _ (hp m (by simp)))

theorem incrL_ok : ∀ {ns is : List ℕ}, InBox ns is → (∀ n ∈ ns, n < 2 ^ 31) → I32.incrL (zl ns) (zl is) = .ok (MIH.incrL (zl ns) (zl is))
  | [], is, hI, _ => by
    rw [inBox_nil_iff] at hI; subst hI; rfl
  | n :: ns, [], hI, _ => by simp at hI
  | n :: ns, i :: is, hI, h => by
    simp only [inBox_cons] at hI
    have hn := h n (by simp)
    have h1 : I32.int ((n : ℤ) - 1) = .ok ((n : ℤ) - 1) := int_ok (by omega) (by omega)
    have h2 : I32.int ((i : ℤ) + 1) = .ok ((i : ℤ) + 1) := int_ok (by omega) (by omega)
    have ih := incrL_ok hI.2 fun m hm => h m (by simp [hm])
    simp only [List.map_cons, I32.incrL, MIH.incrL, h1, h2, ok_bind, pure_ok]
    split
    · rw [show (List.map (fun i : ℕ => (i : ℤ)) ns) = zl ns from rfl, show (List.map (fun i : ℕ => (i : ℤ)) is) = zl is from rfl, ih]; rfl
    · rfl

theorem i32_incr {ns : List ℕ} (hp : ∀ n ∈ ns, 0 < n) (h : ∀ n ∈ ns, n < 2 ^ 31) (k : ℕ) :
    I32.incr ⟨zl ns, zl (unlin ns k)⟩ = .ok ⟨zl ns, zl (unlin ns (k + 1))⟩ := by
  simp only [I32.incr, incrL_ok (unlin_inBox hp k) h, ok_bind, pure_ok]
  have := incr_zl hp k
  simp only [MIH.incr] at this
  rw [this]

/-- A loop whose body agrees with another one. -/
theorem i32_upLoop_eq {σ : Type} {ns : List ℕ} (hp : ∀ n ∈ ns, 0 < n) (h : ∀ n ∈ ns, n < 2 ^ 31) {body body' : MIH → σ → M σ} :
    ∀ (n k : ℕ) (st : σ), (∀ m, k ≤ m → m < k + n → ∀ st, body ⟨zl ns, zl (unlin ns m)⟩ st = body' ⟨zl ns, zl (unlin ns m)⟩ st) →
      I32.upLoop body n ⟨zl ns, zl (unlin ns k)⟩ st = upLoop body' n ⟨zl ns, zl (unlin ns k)⟩ st := by
  intro n
  induction n with
  | zero => intro k st _; rfl
  | succ n ih =>
    intro k st hb
    rw [I32.upLoop, upLoop, hb k le_rfl (by omega)]
    cases body' ⟨zl ns, zl (unlin ns k)⟩ st with
    | error e => rfl
    | ok st' =>
      simp only [ok_bind, i32_incr hp h, incr_zl hp]
      exact ih (k + 1) st' fun m h1 h2 => hb m (by omega) (by omega)

/-- A loop in which one iteration is undefined, and the others succeed or are undefined. -/
theorem i32_upLoop_ub {σ : Type} {ns : List ℕ} (hp : ∀ n ∈ ns, 0 < n) (h : ∀ n ∈ ns, n < 2 ^ 31) {body : MIH → σ → M σ} {Inv : σ → Prop}
    {j : ℕ} (hj : ∀ st, Inv st → body ⟨zl ns, zl (unlin ns j)⟩ st = .error .ub) :
    ∀ (n k : ℕ) (st : σ), k ≤ j → j < k + n → Inv st → (∀ m, k ≤ m → m < j → ∀ st, Inv st →
      (∃ st', body ⟨zl ns, zl (unlin ns m)⟩ st = .ok st' ∧ Inv st') ∨ body ⟨zl ns, zl (unlin ns m)⟩ st = .error .ub) →
      I32.upLoop body n ⟨zl ns, zl (unlin ns k)⟩ st = .error .ub := by
  intro n
  induction n with
  | zero => intro k st h1 h2; omega
  | succ n ih =>
    intro k st h1 h2 hst hb
    rw [I32.upLoop]
    rcases Nat.eq_or_lt_of_le h1 with rfl | hlt
    · rw [hj st hst]; rfl
    · rcases hb k le_rfl hlt st hst with ⟨st', e1, e2⟩ | e1
      · rw [e1, ok_bind, i32_incr hp h, ok_bind]
        exact ih (k + 1) st' (by omega) (by omega) e2 fun m a b => hb m (by omega) b
      · rw [e1]; rfl

theorem plus_ok : ∀ {a b : List ℕ}, (∀ n ∈ List.zipWith (· + ·) a b, n < 2 ^ 31) → I32.plus (zl a) (zl b) = .ok (zl (List.zipWith (· + ·) a b))
  | [], b, _ => by cases b <;> rfl
  | a :: as, [], _ => rfl
  | a :: as, b :: bs, h => by
    have ih := plus_ok (a := as) (b := bs) fun n hn => h n (by simp [hn])
    have h1 : I32.int ((a : ℤ) + b) = .ok ((a : ℤ) + b) := by
      rw [← Nat.cast_add]; exact int_nat (h (a + b) (by simp))
    simp only [List.map_cons, I32.plus, h1, ok_bind, List.zipWith_cons_cons]
    rw [show (List.map (fun i : ℕ => (i : ℤ)) as) = zl as from rfl, show (List.map (fun i : ℕ => (i : ℤ)) bs) = zl bs from rfl, ih]
    simp

theorem succs_ok : ∀ {k : List ℕ}, (∀ n ∈ k.map (· + 1), n < 2 ^ 31) → I32.succs (zl k) = .ok (zl (k.map (· + 1)))
  | [], _ => rfl
  | a :: as, h => by
    have ih := succs_ok (k := as) fun n hn => h n (by simp only [List.map_cons, List.mem_cons]; exact .inr hn)
    have h1 : I32.int ((a : ℤ) + 1) = .ok ((a : ℤ) + 1) := by
      have := int_nat (h (a + 1) (by simp)); push_cast at this; exact this
    simp only [List.map_cons, I32.succs, h1, ok_bind]
    rw [show (List.map (fun i : ℕ => (i : ℤ)) as) = zl as from rfl, ih]
    simp

theorem diff_ok : ∀ {ns c : List ℕ}, InBox ns c → (∀ n ∈ ns, n < 2 ^ 31) →
    I32.differenceIndices (zl ns) (zl c) = .ok (MIH.mk (zl ns) (zl c)).differenceIndices
  | [], c, hI, _ => by rw [inBox_nil_iff] at hI; subst hI; rfl
  | n :: ns, [], hI, _ => by simp at hI
  | n :: ns, i :: is, hI, h => by
    simp only [inBox_cons] at hI
    have hn := h n (by simp)
    have h1 : I32.int ((n : ℤ) - i) = .ok ((n : ℤ) - i) := int_ok (by omega) (by omega)
    have h2 : I32.int ((n : ℤ) - i - 1) = .ok ((n : ℤ) - i - 1) := int_ok (by omega) (by omega)
    have ih := diff_ok hI.2 fun m hm => h m (by simp [hm])
    simp only [MIH.differenceIndices] at ih ⊢
    simp only [List.map_cons, I32.differenceIndices, h1, h2, ok_bind, List.zipWith_cons_cons]
    rw [show (List.map (fun i : ℕ => (i : ℤ)) ns) = zl ns from rfl, show (List.map (fun i : ℕ => (i : ℤ)) is) = zl is from rfl, ih]
    rfl

/-! ### Binomial coefficients -/

theorem i32_binomial : ∀ {n m : ℕ}, m ≤ n → I32.binomialCoefficient n m = if n.choose m < 2 ^ 31 then .ok (n.choose m : ℤ) else .error .ub
  | n, 0, _ => by simp [I32.binomialCoefficient]
  | 0, m + 1, h => by omega
  | n + 1, m + 1, h => by
    rw [I32.binomialCoefficient]
    split
    · rename_i he
      rw [he, Nat.choose_self]; simp
    · have h1 := i32_binomial (n := n) (m := m) (by omega)
      have h2 := i32_binomial (n := n) (m := m + 1) (by omega)
      rw [h1, h2, Nat.choose_succ_succ']
      by_cases ha : n.choose m < 2 ^ 31
      · rw [if_pos ha, ok_bind]
        by_cases hb : n.choose (m + 1) < 2 ^ 31
        · rw [if_pos hb, ok_bind, ← Nat.cast_add]
          split
          · rename_i hc; exact int_nat hc
          · rename_i hc; exact int_ub (by omega)
        · rw [if_neg hb, if_neg (show ¬ (n.choose m + n.choose (m + 1) < 2 ^ 31) by omega)]; rfl
      · rw [if_neg ha, if_neg (show ¬ (n.choose m + n.choose (m + 1) < 2 ^ 31) by omega)]; rfl

theorem choose_33 : Nat.choose 33 16 < 2 ^ 31 := by
  rw [Nat.choose_eq_descFactorial_div_factorial]; decide +kernel

theorem choose_34 : 2 ^ 31 ≤ Nat.choose 34 17 := by
  rw [Nat.choose_eq_descFactorial_div_factorial]; decide +kernel

theorem choose_small {n m : ℕ} (h : n ≤ 33) : n.choose m < 2 ^ 31 :=
  lt_of_le_of_lt ((Nat.choose_le_choose m h).trans (Nat.choose_le_middle m 33)) choose_33

theorem choose_mul_le (a b i j : ℕ) : a.choose i * b.choose j ≤ (a + b).choose (i + j) := by
  rw [Nat.add_choose_eq]
  exact Finset.single_le_sum (f := fun ij : ℕ × ℕ => a.choose ij.1 * b.choose ij.2) (fun _ _ => Nat.zero_le _)
    (Finset.mem_antidiagonal.2 rfl : (i, j) ∈ Finset.antidiagonal (i + j))

theorem mbinom_le : ∀ (k j : List ℕ), ∃ m, mbinom k j ≤ k.sum.choose m
  | [], j => ⟨0, by simp [mbinom]⟩
  | a :: k, [] => ⟨0, by simp [mbinom]⟩
  | a :: k, b :: j => by
    obtain ⟨m, hm⟩ := mbinom_le k j
    refine ⟨b + m, ?_⟩
    simp only [mbinom, List.zipWith_cons_cons, List.prod_cons, List.sum_cons] at hm ⊢
    exact (Nat.mul_le_mul_left _ hm).trans (choose_mul_le _ _ _ _)

theorem mbinom_small {k j : List ℕ} (h : k.sum ≤ 33) : mbinom k j < 2 ^ 31 := by
  obtain ⟨m, hm⟩ := mbinom_le k j
  exact lt_of_le_of_lt hm (choose_small h)

theorem mbinom_pos : ∀ {k j : List ℕ}, InBox (k.map (· + 1)) j → 0 < mbinom k j
  | [], j, _ => by simp [mbinom]
  | n :: k, [], h => by simp at h
  | n :: k, m :: j, h => by
    simp only [List.map_cons, inBox_cons] at h
    have := Nat.mul_pos (Nat.choose_pos (show m ≤ n by omega)) (mbinom_pos h.2)
    simpa [mbinom] using this

/-- The product of binomial coefficients is undefined exactly if it does not fit. -/
theorem i32_binomials : ∀ {k j : List ℕ} {bc : ℕ}, InBox (k.map (· + 1)) j → 0 < bc → bc < 2 ^ 31 →
    I32.binomialLoop (zl k) (zl j) (bc : ℤ) = if bc * mbinom k j < 2 ^ 31 then .ok ((bc * mbinom k j : ℕ) : ℤ) else .error .ub
  | [], j, bc, h, _, hb => by
    simp [inBox_nil_iff] at h; subst h; simp [I32.binomialLoop, mbinom]; omega
  | n :: k, [], bc, h, _, _ => by simp at h
  | n :: k, m :: j, bc, h, h0, hb => by
    simp only [List.map_cons, inBox_cons] at h
    have e : mbinom (n :: k) (m :: j) = n.choose m * mbinom k j := by simp [mbinom]
    have hpos := mbinom_pos h.2
    have hc := Nat.choose_pos (show m ≤ n by omega)
    have l1 : n.choose m ≤ bc * n.choose m := Nat.le_mul_of_pos_left _ h0
    have l2 : bc * n.choose m ≤ bc * n.choose m * mbinom k j := Nat.le_mul_of_pos_right _ hpos
    rw [e, ← mul_assoc]
    simp only [List.map_cons, I32.binomialLoop, Int.toNat_natCast, i32_binomial (show m ≤ n by omega)]
    by_cases h1 : n.choose m < 2 ^ 31
    · rw [if_pos h1, ok_bind, ← Nat.cast_mul]
      by_cases h2 : bc * n.choose m < 2 ^ 31
      · rw [int_nat h2, ok_bind]
        exact i32_binomials h.2 (Nat.mul_pos h0 hc) h2
      · rw [int_ub (by omega), if_neg (show ¬ (bc * n.choose m * mbinom k j < 2 ^ 31) by omega)]; rfl
    · rw [if_neg h1, if_neg (show ¬ (bc * n.choose m * mbinom k j < 2 ^ 31) by omega)]; rfl

/-- All products of binomial coefficients that occur in the derivative of order `k` fit into `int`. -/
def BinomialsFit (k : List ℕ) : Prop := ∀ j, InBox (k.map (· + 1)) j → mbinom k j < 2 ^ 31

theorem binomialsFit_sum {k : List ℕ} (h : k.sum ≤ 33) : BinomialsFit k := fun _ _ => mbinom_small h

theorem inBox_mono : ∀ {a b j : List ℕ}, List.Forall₂ (· ≤ ·) a b → InBox (a.map (· + 1)) j → InBox (b.map (· + 1)) j ∧ mbinom a j ≤ mbinom b j
  | _, _, j, .nil, h => ⟨h, le_rfl⟩
  | _, _, [], .cons _ _, h => by simp at h
  | _, _, i :: j, .cons (a := a) (b := b) h1 h2, h => by
    simp only [List.map_cons, inBox_cons] at h ⊢
    obtain ⟨r1, r2⟩ := inBox_mono h2 h.2
    refine ⟨⟨by omega, r1⟩, ?_⟩
    simp only [mbinom, List.zipWith_cons_cons, List.prod_cons] at r2 ⊢
    exact Nat.mul_le_mul (Nat.choose_le_choose _ h1) r2

theorem msub_le : ∀ {k j : List ℕ}, k.length = j.length → List.Forall₂ (· ≤ ·) (msub k j) k
  | [], [], _ => .nil
  | a :: k, b :: j, h => by
    simp only [msub, List.zipWith_cons_cons]
    exact .cons (Nat.sub_le _ _) (msub_le (by simpa using h))

theorem BinomialsFit.sub {k i : List ℕ} (h : BinomialsFit k) (hl : k.length = i.length) : BinomialsFit (msub k i) := by
  intro j hj
  obtain ⟨h1, h2⟩ := inBox_mono (msub_le hl) hj
  exact lt_of_le_of_lt h2 (h j h1)

/-- An order of 34 or more in some direction is too large. -/
theorem not_binomialsFit : ∀ {k : List ℕ}, (∃ n ∈ k, 34 ≤ n) → ¬ BinomialsFit k
  | [], h => by simp at h
  | a :: k, h => by
    intro hf
    by_cases ha : 34 ≤ a
    · have := hf (17 :: k.map fun _ => 0) (by
        simp only [List.map_cons, inBox_cons]
        refine ⟨by omega, ?_⟩
        clear hf h
        induction k with
        | nil => simp
        | cons b k ih => simp only [List.map_cons, inBox_cons]; exact ⟨by omega, ih⟩)
      have e : mbinom (a :: k) (17 :: k.map fun _ => 0) = a.choose 17 * mbinom k (k.map fun _ => 0) := by simp [mbinom]
      rw [e, mbinom_zero, mul_one] at this
      have h1 := Nat.choose_le_choose 17 ha
      have := choose_34
      omega
    · refine not_binomialsFit (k := k) ?_ ?_
      · obtain ⟨n, hn, h34⟩ := h
        rcases List.mem_cons.1 hn with rfl | hn
        · exact absurd h34 ha
        · exact ⟨n, hn, h34⟩
      · intro j hj
        have := hf (0 :: j) (by simp only [List.map_cons, inBox_cons]; exact ⟨by omega, hj⟩)
        simpa [mbinom] using this

/-- A loop whose iterations succeed or are undefined succeeds or is undefined. -/
theorem i32_upLoop_cases {σ : Type} {ns : List ℕ} (hp : ∀ n ∈ ns, 0 < n) (h : ∀ n ∈ ns, n < 2 ^ 31) {body : MIH → σ → M σ} :
    ∀ (n k : ℕ) (st : σ), (∀ m, k ≤ m → m < k + n → ∀ st, (∃ st', body ⟨zl ns, zl (unlin ns m)⟩ st = .ok st') ∨
      body ⟨zl ns, zl (unlin ns m)⟩ st = .error .ub) →
      (∃ st', I32.upLoop body n ⟨zl ns, zl (unlin ns k)⟩ st = .ok st') ∨ I32.upLoop body n ⟨zl ns, zl (unlin ns k)⟩ st = .error .ub := by
  intro n
  induction n with
  | zero => intro k st _; exact .inl ⟨st, rfl⟩
  | succ n ih =>
    intro k st hb
    rw [I32.upLoop]
    rcases hb k le_rfl (by omega) st with ⟨st', e⟩ | e
    · rw [e, ok_bind, i32_incr hp h, ok_bind]
      exact ih (k + 1) st' fun m h1 h2 => hb m (by omega) (by omega)
    · rw [e]; exact .inr rfl

end SplineLib
