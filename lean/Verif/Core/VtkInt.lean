import Verif.Model.VtkInt
import Verif.Core.IntRange
import Verif.Core.Vtk

/-!
# The cells of the VTK writer with the range of `int` (helper lemmas)
-/

namespace SplineLib
namespace VtkInt
open Vtk
set_option linter.unusedSectionVars false

theorem decrL_ok : ∀ {ns is : List ℕ}, InBox ns is → (∀ n ∈ ns, n < 2 ^ 31) → I32.decrL (zl ns) (zl is) = .ok (MIH.decrL (zl ns) (zl is))
  | [], is, hI, _ => by
    rw [inBox_nil_iff] at hI; subst hI; rfl
  | n :: ns, [], hI, _ => by simp at hI
  | n :: ns, i :: is, hI, h => by
    simp only [inBox_cons] at hI
    have hn := h n (by simp)
    have h1 : I32.int ((n : ℤ) - 1) = .ok ((n : ℤ) - 1) := int_ok (by omega) (by omega)
    have h2 : I32.int ((i : ℤ) - 1) = .ok ((i : ℤ) - 1) := int_ok (by omega) (by omega)
    have ih := decrL_ok hI.2 fun m hm => h m (by simp [hm])
    simp only [List.map_cons, I32.decrL, MIH.decrL, h1, h2, ok_bind, pure_ok]
    split
    · rw [show (List.map (fun i : ℕ => (i : ℤ)) ns) = zl ns from rfl, show (List.map (fun i : ℕ => (i : ℤ)) is) = zl is from rfl, ih]; rfl
    · rfl

theorem i32_decr {ns : List ℕ} (hp : ∀ n ∈ ns, 0 < n) (h : ∀ n ∈ ns, n < 2 ^ 31) (k : ℕ) :
    I32.decr ⟨zl ns, zl (unlin ns (k + 1))⟩ = .ok ⟨zl ns, zl (unlin ns k)⟩ := by
  simp only [I32.decr, decrL_ok (unlin_inBox hp (k + 1)) h, ok_bind, pure_ok]
  have := decr_zl hp k
  simp only [MIH.decr] at this
  rw [this]

/-- A step of the grid counter is possible: the extents are positive and fit. -/
structure Fits (ns : List ℕ) : Prop where
  pos : ∀ n ∈ ns, 0 < n
  lt : ∀ n ∈ ns, n < 2 ^ 31

theorem forward_zl {ns : List ℕ} (h : Fits ns) : ∀ (j k : ℕ) {z : ℤ}, z = j →
    I32.forward ⟨zl ns, zl (unlin ns k)⟩ z = .ok ⟨zl ns, zl (unlin ns (k + j))⟩ := by
  intro j k z hz
  subst hz
  rw [I32.forward, Int.toNat_natCast]
  induction j generalizing k with
  | zero => rfl
  | succ j ih =>
    rw [I32.repeated, i32_incr h.pos h.lt, ok_bind, ih]
    congr 4; omega

theorem backward_zl {ns : List ℕ} (h : Fits ns) : ∀ (j k : ℕ) {l : ℕ} {z : ℤ}, z = j → l = k + j →
    I32.backward ⟨zl ns, zl (unlin ns l)⟩ z = .ok ⟨zl ns, zl (unlin ns k)⟩ := by
  intro j k l z hz hl
  subst hz hl
  rw [I32.backward, Int.toNat_natCast]
  induction j with
  | zero => rfl
  | succ j ih => rw [I32.repeated, ← Nat.add_assoc, i32_decr h.pos h.lt, ok_bind, ih]

theorem node_zl {ns : List ℕ} (h : Fits ns) {m off : ℕ} (hm : m < ns.prod) (ho : off + ns.prod < 2 ^ 31) :
    I32.node ⟨zl ns, zl (unlin ns m)⟩ (off : ℤ) = .ok ((m : ℤ) + off) := by
  rw [I32.node]
  dsimp only
  rw [oneD_ok (unlin_inBox h.pos m) (by rw [lin_unlin hm]; omega), lin_unlin hm, ok_bind]
  exact int_ok (by omega) (by omega)

theorem node_eq {ns : List ℕ} (h : Fits ns) {m off : ℕ} (hm : m < ns.prod) (ho : off + ns.prod < 2 ^ 31) :
    I32.node ⟨zl ns, zl (unlin ns m)⟩ (off : ℤ) = .ok (MIH.get1D ⟨zl ns, zl (unlin ns m)⟩ + off) := by
  rw [node_zl h hm ho, get1D_zl_unlin hm]

theorem fits_succ {ns : List ℕ} (h : (ns.map (· + 1)).prod < 2 ^ 31) : Fits (ns.map (· + 1)) where
  pos := by simp
  lt := fun n hn => lt_of_le_of_lt (le_prod_of_pos (by simp) n hn) h

theorem step2_i32 (n0 n1 off k : ℕ) (hk : k < (n0 + 1) * (n1 + 1)) (ho : off + (n0 + 1) * (n1 + 1) < 2 ^ 31) :
    I32.step2 n0 n1 off (⟨zl [n0 + 1, n1 + 1], zl (unlin [n0 + 1, n1 + 1] k)⟩, (lowers [n0, n1] [n0 + 1, n1 + 1] k).map (cellLine [n0, n1] off))
      = .ok (⟨zl [n0 + 1, n1 + 1], zl (unlin [n0 + 1, n1 + 1] (k + 1))⟩,
        (lowers [n0, n1] [n0 + 1, n1 + 1] (k + 1)).map (cellLine [n0, n1] off)) := by
  rw [← step2_eq n0 n1 off k hk]
  have hprod : [n0 + 1, n1 + 1].prod = (n0 + 1) * (n1 + 1) := by simp
  have hf : Fits [n0 + 1, n1 + 1] := fits_succ (ns := [n0, n1]) (by simpa using (by omega : (n0 + 1) * (n1 + 1) < 2 ^ 31))
  have hn0 := hf.lt (n0 + 1) (by simp)
  have hpos := hf.pos
  obtain ⟨x, y, hc, hx, hy⟩ := inBox2.1 (unlin_inBox hpos k)
  have hkl : k = x + (n0 + 1) * y := by
    have := lin_unlin (ns := [n0 + 1, n1 + 1]) (k := k) (by rw [hprod]; exact hk)
    rw [hc] at this
    simp only [lin, Nat.mul_zero, Nat.add_zero] at this
    omega
  unfold I32.step2 Vtk.step2
  dsimp only
  have e0 : getN (zl (unlin [n0 + 1, n1 + 1] k)) 0 = .ok (x : ℤ) := by rw [hc]; rfl
  have e1 : getN (zl (unlin [n0 + 1, n1 + 1] k)) 1 = .ok (y : ℤ) := by rw [hc]; rfl
  rw [e0, ok_bind, e1, ok_bind, ok_bind, ok_bind]
  by_cases hin : (x : ℤ) ≠ n0 ∧ (y : ℤ) ≠ n1
  · rw [if_pos hin, if_pos hin]
    have h2 : x < n0 := by have := hin.1; omega
    have h3 : y < n1 := by have := hin.2; omega
    have hlt : k + 1 + (n0 + 1) < (n0 + 1) * (n1 + 1) := by
      calc k + 1 + (n0 + 1) = (x + 1) + (n0 + 1) * (y + 1) := by rw [hkl]; ring
        _ < (n0 + 1) + (n0 + 1) * (y + 1) := by omega
        _ = (n0 + 1) * (y + 2) := by ring
        _ ≤ (n0 + 1) * (n1 + 1) := Nat.mul_le_mul_left _ (by omega)
    have ho' : off + [n0 + 1, n1 + 1].prod < 2 ^ 31 := by rw [hprod]; exact ho
    have z1 : I32.int ((n0 : ℤ) + 1) = .ok ((n0 : ℤ) + 1) := int_ok (by omega) (by omega)
    rw [plus_zl hpos k (z := 1) (j := 1) (by norm_num), plus_zl hpos (k + 1) (j := n0 + 1) (by push_cast; rfl),
      minus_zl hpos (k := k + (n0 + 1)) (z := 1) (j := 1) (by norm_num) (by omega),
      minus_zl hpos (k := k) (j := n0 + 1) (by push_cast; rfl) rfl,
      node_eq hf (by omega) ho', ok_bind, forward_zl hf 1 k (by norm_num), ok_bind, node_eq hf (by omega) ho', ok_bind,
      forward_zl hf n0 (k + 1) rfl, ok_bind, forward_zl hf 1 (k + 1 + n0) (by norm_num), ok_bind, Nat.add_assoc (k + 1) n0 1,
      node_eq hf (by omega) ho', ok_bind, backward_zl hf 1 (k + (n0 + 1)) (by norm_num) (by omega), ok_bind,
      node_eq hf (by omega) ho', ok_bind, z1, ok_bind, backward_zl hf (n0 + 1) k (by push_cast; rfl) rfl, ok_bind,
      i32_incr hf.pos hf.lt, ok_bind, incr_zl hpos]
  · rw [if_neg hin, if_neg hin, i32_incr hf.pos hf.lt, ok_bind, incr_zl hpos]

theorem cells2_i32 (n0 n1 off : ℕ) (ho : off + (n0 + 1) * (n1 + 1) < 2 ^ 31) :
    I32.cells2 n0 n1 off = Vtk.cells2 n0 n1 off := by
  have hs : ∀ k < (n0 + 1) * n1, k < (n0 + 1) * (n1 + 1) := fun k hk => lt_of_lt_of_le hk (Nat.mul_le_mul_left _ (by omega))
  have h := times_times (body := I32.step2 n0 n1 off) (a := n0 + 1) (b := n1)
    (fun k => ((⟨zl [n0 + 1, n1 + 1], zl (unlin [n0 + 1, n1 + 1] k)⟩ : MIH),
      (lowers [n0, n1] [n0 + 1, n1 + 1] k).map (cellLine [n0, n1] off)))
    (fun k hk => step2_i32 n0 n1 off k (hs k hk) ho)
  have h' := times_times (body := Vtk.step2 n0 n1 off) (a := n0 + 1) (b := n1)
    (fun k => ((⟨zl [n0 + 1, n1 + 1], zl (unlin [n0 + 1, n1 + 1] k)⟩ : MIH),
      (lowers [n0, n1] [n0 + 1, n1 + 1] k).map (cellLine [n0, n1] off)))
    (fun k hk => step2_eq n0 n1 off k (hs k hk))
  have hf : Fits [n0 + 1, n1 + 1] := fits_succ (ns := [n0, n1]) (by simpa using (by omega : (n0 + 1) * (n1 + 1) < 2 ^ 31))
  have hn0 := hf.lt (n0 + 1) (by simp)
  have hn1 := hf.lt (n1 + 1) (by simp)
  have e : MIH.mk' [(n0 : ℤ) + 1, (n1 : ℤ) + 1] = ⟨zl [n0 + 1, n1 + 1], zl (unlin [n0 + 1, n1 + 1] 0)⟩ := by
    rw [← mk'_zl]; simp [zl]
  have z0 : I32.int ((n0 : ℤ) + 1) = .ok ((n0 : ℤ) + 1) := int_ok (by omega) (by omega)
  have z1 : I32.int ((n1 : ℤ) + 1) = .ok ((n1 : ℤ) + 1) := int_ok (by omega) (by omega)
  have e2 : lowers [n0, n1] [n0 + 1, n1 + 1] 0 = [] := rfl
  simp only [e2, List.map_nil] at h h'
  unfold I32.cells2 Vtk.cells2
  rw [z0, ok_bind, z1, ok_bind, e, show ((n0 : ℤ) + 1).toNat = n0 + 1 by omega, Int.toNat_natCast, h, h']

theorem step3_i32 (n0 n1 n2 off k : ℕ) (hk : k < (n0 + 1) * ((n1 + 1) * (n2 + 1))) (ho : off + (n0 + 1) * ((n1 + 1) * (n2 + 1)) < 2 ^ 31) :
    I32.step3 n0 n1 n2 off (⟨zl [n0 + 1, n1 + 1, n2 + 1], zl (unlin [n0 + 1, n1 + 1, n2 + 1] k)⟩,
        (lowers [n0, n1, n2] [n0 + 1, n1 + 1, n2 + 1] k).map (cellLine [n0, n1, n2] off))
      = .ok (⟨zl [n0 + 1, n1 + 1, n2 + 1], zl (unlin [n0 + 1, n1 + 1, n2 + 1] (k + 1))⟩,
        (lowers [n0, n1, n2] [n0 + 1, n1 + 1, n2 + 1] (k + 1)).map (cellLine [n0, n1, n2] off)) := by
  rw [← step3_eq n0 n1 n2 off k hk]
  have hprod : [n0 + 1, n1 + 1, n2 + 1].prod = (n0 + 1) * ((n1 + 1) * (n2 + 1)) := by simp
  have hf : Fits [n0 + 1, n1 + 1, n2 + 1] :=
    fits_succ (ns := [n0, n1, n2]) (by simpa using (by omega : (n0 + 1) * ((n1 + 1) * (n2 + 1)) < 2 ^ 31))
  have hn0 := hf.lt (n0 + 1) (by simp)
  have hpos := hf.pos
  obtain ⟨x, y, z, hc, hx, hy, hz⟩ := inBox3.1 (unlin_inBox hpos k)
  have hkl : k = x + (n0 + 1) * (y + (n1 + 1) * z) := by
    have := lin_unlin (ns := [n0 + 1, n1 + 1, n2 + 1]) (k := k) (by rw [hprod]; exact hk)
    rw [hc] at this
    simp only [lin, Nat.mul_zero, Nat.add_zero] at this
    omega
  unfold I32.step3 Vtk.step3
  dsimp only
  have e0 : getN (zl (unlin [n0 + 1, n1 + 1, n2 + 1] k)) 0 = .ok (x : ℤ) := by rw [hc]; rfl
  have e1 : getN (zl (unlin [n0 + 1, n1 + 1, n2 + 1] k)) 1 = .ok (y : ℤ) := by rw [hc]; rfl
  have e2 : getN (zl (unlin [n0 + 1, n1 + 1, n2 + 1] k)) 2 = .ok (z : ℤ) := by rw [hc]; rfl
  rw [e0, ok_bind, e1, ok_bind, e2, ok_bind, ok_bind, ok_bind, ok_bind]
  by_cases hin : (x : ℤ) ≠ n0 ∧ (y : ℤ) ≠ n1 ∧ (z : ℤ) ≠ n2
  · rw [if_pos hin, if_pos hin]
    have h2 : x < n0 := by have := hin.1; omega
    have h3 : y < n1 := by have := hin.2.1; omega
    have h4 : z < n2 := by have := hin.2.2; omega
    have hlt : k + (n0 + 1) * (n1 + 1) + 1 + (n0 + 1) < (n0 + 1) * ((n1 + 1) * (n2 + 1)) := by
      calc k + (n0 + 1) * (n1 + 1) + 1 + (n0 + 1) = (x + 1) + (n0 + 1) * ((y + 1) + (n1 + 1) * (z + 1)) := by rw [hkl]; ring
        _ < (n0 + 1) + (n0 + 1) * ((y + 1) + (n1 + 1) * (z + 1)) := by omega
        _ = (n0 + 1) * ((y + 2) + (n1 + 1) * (z + 1)) := by ring
        _ ≤ (n0 + 1) * ((n1 + 1) + (n1 + 1) * (z + 1)) := Nat.mul_le_mul_left _ (by omega)
        _ = (n0 + 1) * ((n1 + 1) * (z + 2)) := by ring
        _ ≤ (n0 + 1) * ((n1 + 1) * (n2 + 1)) := Nat.mul_le_mul_left _ (Nat.mul_le_mul_left _ (by omega))
    have hm : n1 * (n0 + 1) + (n0 + 1) = (n0 + 1) * (n1 + 1) := by ring
    have hm2 : (n0 + 1) * (n1 + 2) = (n0 + 1) * (n1 + 1) + (n0 + 1) := by ring
    have hn1 := hf.lt (n1 + 1) (by simp)
    have ho' : off + [n0 + 1, n1 + 1, n2 + 1].prod < 2 ^ 31 := by rw [hprod]; exact ho
    have z1 : I32.int ((n0 : ℤ) + 1) = .ok ((n0 : ℤ) + 1) := int_ok (by omega) (by omega)
    have z2 : I32.int ((n1 : ℤ) * ((n0 : ℤ) + 1)) = .ok ((n1 : ℤ) * ((n0 : ℤ) + 1)) := by
      have := int_nat (a := n1 * (n0 + 1)) (by omega); push_cast at this; exact this
    have z4 : I32.int (((n0 : ℤ) + 1) * ((n1 : ℤ) + 2)) = .ok (((n0 : ℤ) + 1) * ((n1 : ℤ) + 2)) := by
      have := int_nat (a := (n0 + 1) * (n1 + 2)) (by omega); push_cast at this; exact this
    have hy2 : n1 + 2 ≤ (n0 + 1) * (n1 + 2) := Nat.le_mul_of_pos_left _ (by omega)
    have z3 : I32.int ((n1 : ℤ) + 2) = .ok ((n1 : ℤ) + 2) := int_ok (by omega) (by omega)
    rw [plus_zl hpos k (z := 1) (j := 1) (by norm_num), plus_zl hpos (k + 1) (j := n0 + 1) (by push_cast; rfl),
      minus_zl hpos (k := k + (n0 + 1)) (z := 1) (j := 1) (by norm_num) (by omega),
      plus_zl hpos (k + (n0 + 1)) (j := n1 * (n0 + 1)) (by push_cast; rfl),
      plus_zl hpos _ (z := 1) (j := 1) (by norm_num),
      plus_zl hpos _ (j := n0 + 1) (by push_cast; rfl),
      minus_zl hpos (k := k + (n0 + 1) * (n1 + 2)) (z := 1) (j := 1) (by norm_num) (by omega),
      minus_zl hpos (k := k) (j := (n0 + 1) * (n1 + 2)) (by push_cast; ring) rfl, incr_zl hpos]
    rw [node_eq hf (by omega) ho', ok_bind, forward_zl hf 1 k (by norm_num), ok_bind, node_eq hf (by omega) ho', ok_bind,
      forward_zl hf n0 (k + 1) rfl, ok_bind, forward_zl hf 1 (k + 1 + n0) (by norm_num), ok_bind, Nat.add_assoc (k + 1) n0 1,
      node_eq hf (by omega) ho', ok_bind, backward_zl hf 1 (k + (n0 + 1)) (by norm_num) (by omega), ok_bind,
      node_eq hf (by omega) ho', ok_bind, z1, ok_bind, z2, ok_bind,
      forward_zl hf (n1 * (n0 + 1)) (k + (n0 + 1)) (by push_cast; rfl), ok_bind, node_eq hf (by omega) ho', ok_bind,
      forward_zl hf 1 _ (by norm_num), ok_bind, node_eq hf (by omega) ho', ok_bind,
      forward_zl hf n0 _ rfl, ok_bind, forward_zl hf 1 _ (by norm_num), ok_bind,
      Nat.add_assoc (k + (n0 + 1) + n1 * (n0 + 1) + 1) n0 1, node_eq hf (by omega) ho', ok_bind,
      backward_zl hf 1 (k + (n0 + 1) * (n1 + 2)) (by norm_num) (by omega), ok_bind, node_eq hf (by omega) ho', ok_bind,
      ok_bind, z3, ok_bind, z4, ok_bind,
      backward_zl hf ((n0 + 1) * (n1 + 2)) k (by push_cast; ring) rfl, ok_bind, i32_incr hf.pos hf.lt, ok_bind]
  · rw [if_neg hin, if_neg hin, i32_incr hf.pos hf.lt, ok_bind, incr_zl hpos]

theorem loop3_i32 (n0 n1 n2 off : ℕ) (ho : off + (n0 + 1) * ((n1 + 1) * (n2 + 1)) < 2 ^ 31) : ∀ (m k : ℕ),
    k < (n0 + 1) * ((n1 + 1) * (n2 + 1)) → (n0 + 1) * ((n1 + 1) * (n2 + 1)) ≤ k + m →
    I32.loop3 n0 n1 n2 off m (⟨zl [n0 + 1, n1 + 1, n2 + 1], zl (unlin [n0 + 1, n1 + 1, n2 + 1] k)⟩,
        (lowers [n0, n1, n2] [n0 + 1, n1 + 1, n2 + 1] k).map (cellLine [n0, n1, n2] off))
      = .ok ((lowers [n0, n1, n2] [n0 + 1, n1 + 1, n2 + 1] ((n0 + 1) * ((n1 + 1) * (n2 + 1)) - 1)).map (cellLine [n0, n1, n2] off)) := by
  have hprod : [n0 + 1, n1 + 1, n2 + 1].prod = (n0 + 1) * ((n1 + 1) * (n2 + 1)) := by simp
  have hf : Fits [n0 + 1, n1 + 1, n2 + 1] :=
    fits_succ (ns := [n0, n1, n2]) (by simpa using (by omega : (n0 + 1) * ((n1 + 1) * (n2 + 1)) < 2 ^ 31))
  intro m
  induction m with
  | zero => intro k h1 h2; omega
  | succ m ih =>
    intro k h1 h2
    have hk : k < [n0 + 1, n1 + 1, n2 + 1].prod := by rw [hprod]; exact h1
    have hg := oneD_ok (unlin_inBox hf.pos k) (by rw [lin_unlin hk]; omega)
    rw [lin_unlin hk] at hg
    have hl := length1D_ok (c := zl (unlin [n0 + 1, n1 + 1, n2 + 1] k)) hf.pos (by rw [hprod]; omega)
    rw [hprod] at hl
    rw [I32.loop3]
    dsimp only
    rw [hg, ok_bind, hl, ok_bind, int_ok (by omega) (by omega), ok_bind]
    split_ifs with hif
    · rw [step3_i32 n0 n1 n2 off k h1 ho, ok_bind]
      exact ih (k + 1) (by omega) (by omega)
    · have : k = (n0 + 1) * ((n1 + 1) * (n2 + 1)) - 1 := by omega
      rw [← this]

theorem cells3_i32 (n0 n1 n2 off : ℕ) (ho : off + (n0 + 1) * ((n1 + 1) * (n2 + 1)) < 2 ^ 31) :
    I32.cells3 n0 n1 n2 off = Vtk.cells3 n0 n1 n2 off := by
  have hP : 0 < (n0 + 1) * ((n1 + 1) * (n2 + 1)) := by positivity
  have h := loop3_i32 n0 n1 n2 off ho ((n0 + 1) * ((n1 + 1) * (n2 + 1)) + 1) 0 hP (by omega)
  have h' := loop3_eq n0 n1 n2 off ((n0 + 1) * ((n1 + 1) * (n2 + 1)) + 1) 0 hP (by omega)
  have hf : Fits [n0 + 1, n1 + 1, n2 + 1] :=
    fits_succ (ns := [n0, n1, n2]) (by simpa using (by omega : (n0 + 1) * ((n1 + 1) * (n2 + 1)) < 2 ^ 31))
  have hn0 := hf.lt (n0 + 1) (by simp)
  have hn1 := hf.lt (n1 + 1) (by simp)
  have hn2 := hf.lt (n2 + 1) (by simp)
  have z0 : I32.int ((n0 : ℤ) + 1) = .ok ((n0 : ℤ) + 1) := int_ok (by omega) (by omega)
  have z1 : I32.int ((n1 : ℤ) + 1) = .ok ((n1 : ℤ) + 1) := int_ok (by omega) (by omega)
  have z2 : I32.int ((n2 : ℤ) + 1) = .ok ((n2 : ℤ) + 1) := int_ok (by omega) (by omega)
  have e : MIH.mk' [(n0 : ℤ) + 1, (n1 : ℤ) + 1, (n2 : ℤ) + 1]
      = ⟨zl [n0 + 1, n1 + 1, n2 + 1], zl (unlin [n0 + 1, n1 + 1, n2 + 1] 0)⟩ := by
    rw [← mk'_zl]; simp [zl]
  have hl : MIH.length1D ⟨zl [n0 + 1, n1 + 1, n2 + 1], zl (unlin [n0 + 1, n1 + 1, n2 + 1] 0)⟩
      = (((n0 + 1) * ((n1 + 1) * (n2 + 1)) : ℕ) : ℤ) := by
    rw [length1D_zl]; simp
  have e2 : lowers [n0, n1, n2] [n0 + 1, n1 + 1, n2 + 1] 0 = [] := rfl
  simp only [e2, List.map_nil] at h h'
  unfold I32.cells3 Vtk.cells3
  dsimp only
  rw [z0, ok_bind, z1, ok_bind, z2, ok_bind, e, hl, Int.toNat_natCast, h, h']

theorem cells1_i32 (n off : ℕ) (ho : off + (n + 1) < 2 ^ 31) : I32.cells1 n off = .ok (Vtk.cells1 n off) := by
  unfold I32.cells1 Vtk.cells1
  rw [Int.toNat_natCast]
  refine buildList_eq fun i hi => ?_
  rw [int_ok (by omega) (by omega), ok_bind, int_ok (by omega) (by omega), ok_bind, int_ok (by omega) (by omega), ok_bind, pure_ok]

end VtkInt
end SplineLib
