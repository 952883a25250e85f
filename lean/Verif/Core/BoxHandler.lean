import Verif.Core.Box
import Verif.Spec.MultiIndex

/-!
# The multi-index handler in terms of mixed radix arithmetic (helper lemmas)
-/

namespace SplineLib
open Finset

theorem exists_zl_of_pos {len : List ℤ} (h : PosLen len) : ∃ ns : List ℕ, len = zl ns ∧ ∀ n ∈ ns, 0 < n := by
  induction len with
  | nil => exact ⟨[], rfl, by simp⟩
  | cons l ls ih =>
    obtain ⟨ns, rfl, hn⟩ := ih (fun x hx => h x (by simp [hx]))
    have := h l (by simp)
    refine ⟨l.toNat :: ns, by simp; omega, ?_⟩
    intro n hn'
    rcases List.mem_cons.1 hn' with rfl | h'
    · omega
    · exact hn n h'

theorem exists_zl_of_valid {ns : List ℕ} {ix : List ℤ} (h : ValidIx (zl ns) ix) : ∃ is : List ℕ, ix = zl is ∧ InBox ns is := by
  induction ns generalizing ix with
  | nil => cases h; exact ⟨[], rfl, inBox_nil⟩
  | cons n ns ih =>
    cases h with
    | cons h1 h2 =>
      rename_i i is
      obtain ⟨js, rfl, hb⟩ := ih h2
      refine ⟨i.toNat :: js, ?_, ?_⟩
      · simp; omega
      · simp [hb]; omega

theorem validIx_zl {ns is : List ℕ} : ValidIx (zl ns) (zl is) ↔ InBox ns is := by
  simp [ValidIx, InBox, List.forall₂_map_left_iff, List.forall₂_map_right_iff]

theorem mk'_zl (ns : List ℕ) : MIH.mk' (zl ns) = ⟨zl ns, zl (unlin ns 0)⟩ := by
  rw [unlin_zero]; simp [MIH.mk', Function.comp_def]

theorem incr_zl {ns : List ℕ} (h : ∀ n ∈ ns, 0 < n) (k : ℕ) :
    (MIH.mk (zl ns) (zl (unlin ns k))).incr = ⟨zl ns, zl (unlin ns (k + 1))⟩ := by
  simp only [MIH.incr]; rw [incrL_unlin h]

theorem decr_zl {ns : List ℕ} (h : ∀ n ∈ ns, 0 < n) (k : ℕ) :
    (MIH.mk (zl ns) (zl (unlin ns (k + 1)))).decr = ⟨zl ns, zl (unlin ns k)⟩ := by
  simp only [MIH.decr]; rw [decrL_unlin h]

theorem incr_iter_zl {ns : List ℕ} (h : ∀ n ∈ ns, 0 < n) (k j : ℕ) :
    MIH.incr^[j] (MIH.mk (zl ns) (zl (unlin ns k))) = ⟨zl ns, zl (unlin ns (k + j))⟩ := by
  induction j with
  | zero => rfl
  | succ j ih => rw [Function.iterate_succ_apply', ih, incr_zl h]; rfl

theorem mk'_iter_zl {ns : List ℕ} (h : ∀ n ∈ ns, 0 < n) (j : ℕ) :
    MIH.incr^[j] (MIH.mk' (zl ns)) = ⟨zl ns, zl (unlin ns j)⟩ := by
  rw [mk'_zl, incr_iter_zl h]; simp

theorem get1D_zl_unlin {ns : List ℕ} {k : ℕ} (hk : k < ns.prod) :
    (MIH.mk (zl ns) (zl (unlin ns k))).get1D = k := by
  simp only [MIH.get1D]; rw [oneD_zl, lin_unlin hk]

theorem zl_inj {a b : List ℕ} (h : zl a = zl b) : a = b :=
  List.map_injective_iff.2 (fun _ _ h => by exact_mod_cast h) h

theorem prod_pos_of {ns : List ℕ} (h : ∀ n ∈ ns, 0 < n) : 0 < ns.prod := by
  induction ns with
  | nil => simp
  | cons n ns ih => simp only [List.prod_cons]; exact Nat.mul_pos (h n (by simp)) (ih fun m hm => h m (by simp [hm]))

theorem position_cons (l i : ℤ) (ls is : List ℤ) : position (l :: ls) (i :: is) = i + l * position ls is := by
  simp only [position, List.length_cons, sum_range_succ', mul_sum]
  simp [add_comm]
  exact sum_congr rfl fun d _ => by ring

theorem oneD_eq_position (len ix : List ℤ) : MIH.oneD len ix = position len ix := by
  induction len generalizing ix with
  | nil => simp [position]
  | cons l ls ih =>
    cases ix with
    | nil => simp [position]
    | cons i is => rw [oneD_cons, position_cons, ih]

theorem zl_prod (ns : List ℕ) : (zl ns).prod = ns.prod := by simp [zl]

theorem exists_unlin {len cur : List ℤ} (hl : PosLen len) (hv : ValidIx len cur) :
    ∃ (ns : List ℕ) (k : ℕ), (∀ n ∈ ns, 0 < n) ∧ k < ns.prod ∧ len = zl ns ∧ cur = zl (unlin ns k) := by
  obtain ⟨ns, rfl, hn⟩ := exists_zl_of_pos hl
  obtain ⟨is, rfl, hb⟩ := exists_zl_of_valid hv
  exact ⟨ns, lin ns is, hn, lin_lt hb, rfl, by rw [unlin_lin hb]⟩

theorem set1D_reaches {ns : List ℕ} (h : ∀ n ∈ ns, 0 < n) (i : ℕ) (hi : i < ns.prod) :
    ∀ (j k : ℕ), (k + j + 1) % ns.prod = i →
      MIH.Set1D ⟨zl ns, zl (unlin ns k)⟩ i ⟨zl ns, zl (unlin ns i)⟩ := by
  have hmod : ∀ k, unlin ns (k % ns.prod) = unlin ns k := by
    intro k
    have key : ∀ q r, unlin ns (r + ns.prod * q) = unlin ns r := by
      intro q
      induction q with
      | zero => intro r; rfl
      | succ q ih => intro r; rw [Nat.mul_succ, ← Nat.add_assoc, unlin_add_prod h, ih]
    conv_rhs => rw [← Nat.mod_add_div k ns.prod]
    rw [key]
  have hpos := prod_pos_of h
  intro j
  induction j with
  | zero =>
    intro k hk
    have e : (MIH.mk (zl ns) (zl (unlin ns k))).incr = ⟨zl ns, zl (unlin ns i)⟩ := by
      rw [incr_zl h, ← hmod (k + 1), ← hk]
    rw [← e]
    apply MIH.Set1D.stop
    rw [e, get1D_zl_unlin hi]
  | succ j ih =>
    intro k hk
    by_cases hc : (k + 1) % ns.prod = i
    · have e : (MIH.mk (zl ns) (zl (unlin ns k))).incr = ⟨zl ns, zl (unlin ns i)⟩ := by
        rw [incr_zl h, ← hmod (k + 1), hc]
      rw [← e]
      apply MIH.Set1D.stop
      rw [e, get1D_zl_unlin hi]
    · apply MIH.Set1D.again
      · rw [incr_zl h, ← hmod (k + 1), get1D_zl_unlin (Nat.mod_lt _ hpos)]
        exact_mod_cast hc
      · rw [incr_zl h]
        apply ih
        rw [← hk]; congr 1; ring

theorem set1D_range {ns : List ℕ} (h : ∀ n ∈ ns, 0 < n) {s s' : MIH} {i : ℤ} (hs : MIH.Set1D s i s') :
    ∀ k, s = ⟨zl ns, zl (unlin ns k)⟩ → (∃ j, s' = ⟨zl ns, zl (unlin ns j)⟩) ∧ s'.get1D = i := by
  induction hs with
  | stop s i hi => intro k hk; subst hk; exact ⟨⟨k + 1, incr_zl h k⟩, hi⟩
  | again s i s' _ _ ih => intro k hk; subst hk; exact ih (k + 1) (incr_zl h k)

theorem get1D_zl_range {ns : List ℕ} (h : ∀ n ∈ ns, 0 < n) (j : ℕ) :
    0 ≤ (MIH.mk (zl ns) (zl (unlin ns j))).get1D ∧ (MIH.mk (zl ns) (zl (unlin ns j))).get1D < ns.prod := by
  simp only [MIH.get1D]; rw [oneD_zl]
  have := lin_lt (unlin_inBox h j)
  omega

end SplineLib
