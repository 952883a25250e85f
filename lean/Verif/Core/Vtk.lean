import Verif.Model.Vtk
import Verif.Spec.Grid
import Verif.Core.EvalProps

/-!
# Helper lemmas for the VTK writer
-/

namespace SplineLib
namespace Vtk
open Finset
set_option linter.unusedSectionVars false

theorem times_fun {σ : Type} {body : σ → M σ} {N : ℕ} (st : ℕ → σ) (hstep : ∀ k < N, body (st k) = .ok (st (k + 1))) :
    ∀ (m k : ℕ), k + m ≤ N → times body m (st k) = .ok (st (k + m)) := by
  intro m
  induction m with
  | zero => intro k _; rfl
  | succ m ih =>
    intro k hk
    rw [times, hstep k (by omega), ok_bind, ih (k + 1) (by omega)]
    congr 2; omega

theorem times_times {σ : Type} {body : σ → M σ} {a b : ℕ} (st : ℕ → σ)
    (hstep : ∀ k < a * b, body (st k) = .ok (st (k + 1))) : times (times body a) b (st 0) = .ok (st (a * b)) := by
  have h := times_fun (body := times body a) (N := b) (fun j => st (a * j)) (fun j hj => by
    have h2 := times_fun st hstep a (a * j) (by
      calc a * j + a = a * (j + 1) := by ring
        _ ≤ a * b := Nat.mul_le_mul_left _ hj)
    rw [h2]; congr 1) b 0 (by omega)
  simpa using h

theorem decr_iter_zl {ns : List ℕ} (h : ∀ n ∈ ns, 0 < n) (k j : ℕ) :
    MIH.decr^[j] ⟨zl ns, zl (unlin ns (k + j))⟩ = ⟨zl ns, zl (unlin ns k)⟩ := by
  induction j with
  | zero => rfl
  | succ j ih =>
    rw [Function.iterate_succ_apply, ← Nat.add_assoc, decr_zl h, ih]

theorem plus_zl {ns : List ℕ} (h : ∀ n ∈ ns, 0 < n) (k : ℕ) {z : ℤ} {j : ℕ} (hz : z = j) :
    MIH.plus ⟨zl ns, zl (unlin ns k)⟩ z = ⟨zl ns, zl (unlin ns (k + j))⟩ := by
  subst hz
  rw [MIH.plus, Int.toNat_natCast, incr_iter_zl h]

theorem minus_zl {ns : List ℕ} (h : ∀ n ∈ ns, 0 < n) {k l : ℕ} {z : ℤ} {j : ℕ} (hz : z = j) (hl : l = k + j) :
    MIH.minus ⟨zl ns, zl (unlin ns l)⟩ z = ⟨zl ns, zl (unlin ns k)⟩ := by
  subst hz hl
  rw [MIH.minus, Int.toNat_natCast, decr_iter_zl h]

/-- The lower corners of the cells among the first `M` grid points. -/
noncomputable def lowers (ns N : List ℕ) (M : ℕ) : List (List ℕ) :=
  letI := Classical.propDecidable
  ((List.range M).map (unlin N)).filter fun c => decide (InBox ns c)

theorem lowers_succ_pos {ns N : List ℕ} {M : ℕ} (h : InBox ns (unlin N M)) :
    lowers ns N (M + 1) = lowers ns N M ++ [unlin N M] := by
  unfold lowers
  rw [List.range_succ, List.map_append, List.filter_append]
  simp [h]

theorem lowers_succ_neg {ns N : List ℕ} {M : ℕ} (h : ¬ InBox ns (unlin N M)) :
    lowers ns N (M + 1) = lowers ns N M := by
  unfold lowers
  rw [List.range_succ, List.map_append, List.filter_append]
  simp [h]

theorem lowers_spec {ns N : List ℕ} {M : ℕ} (hM : M ≤ N.prod) (hb : ∀ c, InBox ns c → InBox N c ∧ lin N c < M) :
    (lowers ns N M).Nodup ∧ ∀ c, c ∈ lowers ns N M ↔ InBox ns c := by
  constructor
  · refine List.Nodup.filter _ ((List.nodup_map_iff_inj_on List.nodup_range).2 ?_)
    intro a ha b hb he
    have ha := List.mem_range.1 ha
    have hb := List.mem_range.1 hb
    rw [← lin_unlin (ns := N) (k := a) (by omega), he, lin_unlin (by omega)]
  · intro c
    unfold lowers
    rw [List.mem_filter, List.mem_map]
    constructor
    · rintro ⟨-, h⟩; simpa using h
    · intro h
      obtain ⟨h1, h2⟩ := hb c h
      exact ⟨⟨lin N c, List.mem_range.2 h2, unlin_lin h1⟩, by simpa using h⟩

theorem cells1_lists (n off : ℕ) : ListsCells [n] off (cells1 n off) := by
  refine ⟨(List.range n).map fun i => [i], ?_, ?_, ?_⟩
  · exact (List.nodup_map_iff_inj_on List.nodup_range).2 (by simp)
  · intro c
    rw [List.mem_map]
    constructor
    · rintro ⟨i, hi, rfl⟩; simpa using hi
    · intro h
      cases c with
      | nil => simp at h
      | cons i is =>
        obtain ⟨h1, h2⟩ := inBox_cons.1 h
        obtain rfl := inBox_nil_iff.1 h2
        exact ⟨i, List.mem_range.2 h1, rfl⟩
  · rw [cells1, List.map_map, Int.toNat_natCast]
    apply List.map_congr_left
    intro i _
    simp [cellLine, corners, pointNumber, lin]
    omega

theorem inBox2 {a b : ℕ} {c : List ℕ} : InBox [a, b] c ↔ ∃ x y, c = [x, y] ∧ x < a ∧ y < b := by
  constructor
  · intro h
    match c, h with
    | [x, y], h => exact ⟨x, y, rfl, by simp at h; exact ⟨h.1, h.2⟩⟩
    | [], h => simp at h
    | [x], h => simp at h
    | _ :: _ :: _ :: _, h => simp at h
  · rintro ⟨x, y, rfl, h1, h2⟩; simp [h1, h2]

theorem inBox3 {a b d : ℕ} {c : List ℕ} : InBox [a, b, d] c ↔ ∃ x y z, c = [x, y, z] ∧ x < a ∧ y < b ∧ z < d := by
  constructor
  · intro h
    match c, h with
    | [x, y, z], h => exact ⟨x, y, z, rfl, by simp at h; exact ⟨h.1, h.2.1, h.2.2⟩⟩
    | [], h => simp at h
    | [x], h => simp at h
    | [x, y], h => simp at h
    | _ :: _ :: _ :: _ :: _, h => simp at h
  · rintro ⟨x, y, z, rfl, h1, h2, h3⟩; simp [h1, h2, h3]

theorem step2_eq (n0 n1 off k : ℕ) (hk : k < (n0 + 1) * (n1 + 1)) :
    step2 n0 n1 off (⟨zl [n0 + 1, n1 + 1], zl (unlin [n0 + 1, n1 + 1] k)⟩, (lowers [n0, n1] [n0 + 1, n1 + 1] k).map (cellLine [n0, n1] off))
      = .ok (⟨zl [n0 + 1, n1 + 1], zl (unlin [n0 + 1, n1 + 1] (k + 1))⟩,
        (lowers [n0, n1] [n0 + 1, n1 + 1] (k + 1)).map (cellLine [n0, n1] off)) := by
  have hpos : ∀ n ∈ [n0 + 1, n1 + 1], 0 < n := by simp
  obtain ⟨x, y, hc, hx, hy⟩ := inBox2.1 (unlin_inBox hpos k)
  have hk2 : k < [n0 + 1, n1 + 1].prod := by simpa using hk
  have hkl : k = x + (n0 + 1) * y := by
    have := lin_unlin hk2
    rw [hc] at this
    simp only [lin, Nat.mul_zero, Nat.add_zero] at this
    omega
  have hg : ∀ m, m < (n0 + 1) * (n1 + 1) →
      MIH.get1D ⟨zl [n0 + 1, n1 + 1], zl (unlin [n0 + 1, n1 + 1] m)⟩ = (m : ℤ) :=
    fun m hm => get1D_zl_unlin (by simpa using hm)
  unfold step2
  dsimp only
  have e0 : getN (zl (unlin [n0 + 1, n1 + 1] k)) 0 = .ok (x : ℤ) := by rw [hc]; rfl
  have e1 : getN (zl (unlin [n0 + 1, n1 + 1] k)) 1 = .ok (y : ℤ) := by rw [hc]; rfl
  rw [e0, ok_bind, e1, ok_bind]
  by_cases hin : InBox [n0, n1] (unlin [n0 + 1, n1 + 1] k)
  · obtain ⟨x', y', h1, h2, h3⟩ := inBox2.1 hin
    rw [hc] at h1
    obtain ⟨rfl, rfl⟩ : x = x' ∧ y = y' := by simpa using h1
    rw [if_pos (by constructor <;> simp <;> omega)]
    have hlt : k + 1 + (n0 + 1) < (n0 + 1) * (n1 + 1) := by
      calc k + 1 + (n0 + 1) = (x + 1) + (n0 + 1) * (y + 1) := by rw [hkl]; ring
        _ < (n0 + 1) + (n0 + 1) * (y + 1) := by omega
        _ = (n0 + 1) * (y + 2) := by ring
        _ ≤ (n0 + 1) * (n1 + 1) := Nat.mul_le_mul_left _ (by omega)
    rw [plus_zl hpos k (z := 1) (j := 1) (by norm_num), plus_zl hpos (k + 1) (j := n0 + 1) (by push_cast; rfl),
      minus_zl hpos (k := k + (n0 + 1)) (z := 1) (j := 1) (by norm_num) (by omega),
      minus_zl hpos (k := k) (j := n0 + 1) (by push_cast; rfl) rfl, incr_zl hpos,
      hg k (by omega), hg (k + 1) (by omega), hg (k + 1 + (n0 + 1)) (by omega), hg (k + (n0 + 1)) (by omega), pure_ok,
      lowers_succ_pos hin, List.map_append, List.map_singleton, hc]
    congr 4
    simp only [cellLine, corners, pointNumber, lin, List.zipWith_cons_cons, List.zipWith_nil_right, List.map_cons, List.map_nil, List.length_cons,
      List.length_nil, hkl, List.cons.injEq, and_true]
    refine ⟨by norm_num, ?_, ?_, ?_, ?_⟩ <;> · push_cast; ring
  · rw [if_neg, pure_ok, incr_zl hpos, lowers_succ_neg hin]
    rintro ⟨h1, h2⟩
    have h1' : x ≠ n0 := by exact_mod_cast h1
    have h2' : y ≠ n1 := by exact_mod_cast h2
    exact hin (inBox2.2 ⟨x, y, hc, by omega, by omega⟩)

theorem cells2_lists (n0 n1 off : ℕ) : ∃ l, cells2 n0 n1 off = .ok l ∧ ListsCells [n0, n1] off l := by
  have h := times_times (body := step2 n0 n1 off) (a := n0 + 1) (b := n1)
    (fun k => ((⟨zl [n0 + 1, n1 + 1], zl (unlin [n0 + 1, n1 + 1] k)⟩ : MIH),
      (lowers [n0, n1] [n0 + 1, n1 + 1] k).map (cellLine [n0, n1] off)))
    (fun k hk => step2_eq n0 n1 off k (lt_of_lt_of_le hk (Nat.mul_le_mul_left _ (by omega))))
  refine ⟨_, ?_, lowers [n0, n1] [n0 + 1, n1 + 1] ((n0 + 1) * n1), ?_, ?_, rfl⟩
  · unfold cells2
    have e : MIH.mk' [(n0 : ℤ) + 1, (n1 : ℤ) + 1] = ⟨zl [n0 + 1, n1 + 1], zl (unlin [n0 + 1, n1 + 1] 0)⟩ := by
      rw [← mk'_zl]; simp [zl]
    rw [e, show ((n0 : ℤ) + 1).toNat = n0 + 1 by omega, Int.toNat_natCast]
    have e2 : lowers [n0, n1] [n0 + 1, n1 + 1] 0 = [] := rfl
    simp only [e2, List.map_nil] at h
    rw [h, ok_bind, pure_ok]
  all_goals
    have hs := lowers_spec (ns := [n0, n1]) (N := [n0 + 1, n1 + 1]) (M := (n0 + 1) * n1)
      (by simpa using Nat.mul_le_mul_left (n0 + 1) (Nat.le_succ n1)) (fun c hc => by
        obtain ⟨x, y, rfl, h1, h2⟩ := inBox2.1 hc
        refine ⟨by simp; omega, ?_⟩
        simp only [lin, Nat.mul_zero, Nat.add_zero]
        calc x + (n0 + 1) * y < (n0 + 1) + (n0 + 1) * y := by omega
          _ = (n0 + 1) * (y + 1) := by ring
          _ ≤ (n0 + 1) * n1 := Nat.mul_le_mul_left _ h2)
  · exact hs.1
  · exact hs.2

theorem step3_eq (n0 n1 n2 off k : ℕ) (hk : k < (n0 + 1) * ((n1 + 1) * (n2 + 1))) :
    step3 n0 n1 n2 off (⟨zl [n0 + 1, n1 + 1, n2 + 1], zl (unlin [n0 + 1, n1 + 1, n2 + 1] k)⟩,
        (lowers [n0, n1, n2] [n0 + 1, n1 + 1, n2 + 1] k).map (cellLine [n0, n1, n2] off))
      = .ok (⟨zl [n0 + 1, n1 + 1, n2 + 1], zl (unlin [n0 + 1, n1 + 1, n2 + 1] (k + 1))⟩,
        (lowers [n0, n1, n2] [n0 + 1, n1 + 1, n2 + 1] (k + 1)).map (cellLine [n0, n1, n2] off)) := by
  have hpos : ∀ n ∈ [n0 + 1, n1 + 1, n2 + 1], 0 < n := by simp
  obtain ⟨x, y, z, hc, hx, hy, hz⟩ := inBox3.1 (unlin_inBox hpos k)
  have hk2 : k < [n0 + 1, n1 + 1, n2 + 1].prod := by simpa using hk
  have hkl : k = x + (n0 + 1) * (y + (n1 + 1) * z) := by
    have := lin_unlin hk2
    rw [hc] at this
    simp only [lin, Nat.mul_zero, Nat.add_zero] at this
    omega
  have hg : ∀ m, m < (n0 + 1) * ((n1 + 1) * (n2 + 1)) →
      MIH.get1D ⟨zl [n0 + 1, n1 + 1, n2 + 1], zl (unlin [n0 + 1, n1 + 1, n2 + 1] m)⟩ = (m : ℤ) :=
    fun m hm => get1D_zl_unlin (by simpa using hm)
  unfold step3
  dsimp only
  have e0 : getN (zl (unlin [n0 + 1, n1 + 1, n2 + 1] k)) 0 = .ok (x : ℤ) := by rw [hc]; rfl
  have e1 : getN (zl (unlin [n0 + 1, n1 + 1, n2 + 1] k)) 1 = .ok (y : ℤ) := by rw [hc]; rfl
  have e2 : getN (zl (unlin [n0 + 1, n1 + 1, n2 + 1] k)) 2 = .ok (z : ℤ) := by rw [hc]; rfl
  rw [e0, ok_bind, e1, ok_bind, e2, ok_bind]
  by_cases hin : InBox [n0, n1, n2] (unlin [n0 + 1, n1 + 1, n2 + 1] k)
  · obtain ⟨x', y', z', h1, h2, h3, h4⟩ := inBox3.1 hin
    rw [hc] at h1
    obtain ⟨rfl, rfl, rfl⟩ : x = x' ∧ y = y' ∧ z = z' := by simpa using h1
    rw [if_pos (by refine ⟨?_, ?_, ?_⟩ <;> simp <;> omega)]
    have hlt : k + (n0 + 1) * (n1 + 1) + 1 + (n0 + 1) < (n0 + 1) * ((n1 + 1) * (n2 + 1)) := by
      calc k + (n0 + 1) * (n1 + 1) + 1 + (n0 + 1) = (x + 1) + (n0 + 1) * ((y + 1) + (n1 + 1) * (z + 1)) := by rw [hkl]; ring
        _ < (n0 + 1) + (n0 + 1) * ((y + 1) + (n1 + 1) * (z + 1)) := by omega
        _ = (n0 + 1) * ((y + 2) + (n1 + 1) * (z + 1)) := by ring
        _ ≤ (n0 + 1) * ((n1 + 1) + (n1 + 1) * (z + 1)) := Nat.mul_le_mul_left _ (by omega)
        _ = (n0 + 1) * ((n1 + 1) * (z + 2)) := by ring
        _ ≤ (n0 + 1) * ((n1 + 1) * (n2 + 1)) := Nat.mul_le_mul_left _ (Nat.mul_le_mul_left _ (by omega))
    have hm : n1 * (n0 + 1) + (n0 + 1) = (n0 + 1) * (n1 + 1) := by ring
    have hm2 : (n0 + 1) * (n1 + 2) = (n0 + 1) * (n1 + 1) + (n0 + 1) := by ring
    rw [plus_zl hpos k (z := 1) (j := 1) (by norm_num), plus_zl hpos (k + 1) (j := n0 + 1) (by push_cast; rfl),
      minus_zl hpos (k := k + (n0 + 1)) (z := 1) (j := 1) (by norm_num) (by omega),
      plus_zl hpos (k + (n0 + 1)) (j := n1 * (n0 + 1)) (by push_cast; rfl),
      plus_zl hpos _ (z := 1) (j := 1) (by norm_num),
      plus_zl hpos _ (j := n0 + 1) (by push_cast; rfl),
      minus_zl hpos (k := k + (n0 + 1) * (n1 + 2)) (z := 1) (j := 1) (by norm_num) (by omega),
      minus_zl hpos (k := k) (j := (n0 + 1) * (n1 + 2)) (by push_cast; ring) rfl, incr_zl hpos,
      hg k (by omega), hg (k + 1) (by omega), hg (k + 1 + (n0 + 1)) (by omega), hg (k + (n0 + 1)) (by omega),
      hg _ (by omega), hg _ (by omega), hg _ (by omega), hg _ (by omega), pure_ok,
      lowers_succ_pos hin, List.map_append, List.map_singleton, hc]
    congr 4
    simp only [cellLine, corners, pointNumber, lin, List.zipWith_cons_cons, List.zipWith_nil_right, List.map_cons, List.map_nil, List.length_cons,
      List.length_nil, hkl, List.cons.injEq, and_true]
    refine ⟨by norm_num, ?_, ?_, ?_, ?_, ?_, ?_, ?_, ?_⟩ <;> · push_cast; ring
  · rw [if_neg, pure_ok, incr_zl hpos, lowers_succ_neg hin]
    rintro ⟨h1, h2, h3⟩
    have h1' : x ≠ n0 := by exact_mod_cast h1
    have h2' : y ≠ n1 := by exact_mod_cast h2
    have h3' : z ≠ n2 := by exact_mod_cast h3
    exact hin (inBox3.2 ⟨x, y, z, hc, by omega, by omega, by omega⟩)

theorem loop3_eq (n0 n1 n2 off : ℕ) : ∀ (m k : ℕ), k < (n0 + 1) * ((n1 + 1) * (n2 + 1)) →
    (n0 + 1) * ((n1 + 1) * (n2 + 1)) ≤ k + m →
    loop3 n0 n1 n2 off m (⟨zl [n0 + 1, n1 + 1, n2 + 1], zl (unlin [n0 + 1, n1 + 1, n2 + 1] k)⟩,
        (lowers [n0, n1, n2] [n0 + 1, n1 + 1, n2 + 1] k).map (cellLine [n0, n1, n2] off))
      = .ok ((lowers [n0, n1, n2] [n0 + 1, n1 + 1, n2 + 1] ((n0 + 1) * ((n1 + 1) * (n2 + 1)) - 1)).map (cellLine [n0, n1, n2] off)) := by
  intro m
  induction m with
  | zero => intro k h1 h2; omega
  | succ m ih =>
    intro k h1 h2
    have hg : MIH.get1D ⟨zl [n0 + 1, n1 + 1, n2 + 1], zl (unlin [n0 + 1, n1 + 1, n2 + 1] k)⟩ = (k : ℤ) :=
      get1D_zl_unlin (by simpa using h1)
    have hl : MIH.length1D ⟨zl [n0 + 1, n1 + 1, n2 + 1], zl (unlin [n0 + 1, n1 + 1, n2 + 1] k)⟩
        = (((n0 + 1) * ((n1 + 1) * (n2 + 1)) : ℕ) : ℤ) := by
      rw [length1D_zl]; simp
    rw [loop3]
    dsimp only
    rw [hg, hl]
    split_ifs with hif
    · rw [step3_eq n0 n1 n2 off k h1, ok_bind]
      exact ih (k + 1) (by omega) (by omega)
    · have : k = (n0 + 1) * ((n1 + 1) * (n2 + 1)) - 1 := by omega
      rw [← this]

theorem cells3_lists (n0 n1 n2 off : ℕ) : ∃ l, cells3 n0 n1 n2 off = .ok l ∧ ListsCells [n0, n1, n2] off l := by
  have hP : 0 < (n0 + 1) * ((n1 + 1) * (n2 + 1)) := by positivity
  have h := loop3_eq n0 n1 n2 off ((n0 + 1) * ((n1 + 1) * (n2 + 1)) + 1) 0 hP (by omega)
  refine ⟨_, ?_, lowers [n0, n1, n2] [n0 + 1, n1 + 1, n2 + 1] ((n0 + 1) * ((n1 + 1) * (n2 + 1)) - 1), ?_, ?_, rfl⟩
  · unfold cells3
    have e : MIH.mk' [(n0 : ℤ) + 1, (n1 : ℤ) + 1, (n2 : ℤ) + 1]
        = ⟨zl [n0 + 1, n1 + 1, n2 + 1], zl (unlin [n0 + 1, n1 + 1, n2 + 1] 0)⟩ := by
      rw [← mk'_zl]; simp [zl]
    have hl : MIH.length1D ⟨zl [n0 + 1, n1 + 1, n2 + 1], zl (unlin [n0 + 1, n1 + 1, n2 + 1] 0)⟩
        = (((n0 + 1) * ((n1 + 1) * (n2 + 1)) : ℕ) : ℤ) := by
      rw [length1D_zl]; simp
    dsimp only
    rw [e, hl, Int.toNat_natCast]
    have e2 : lowers [n0, n1, n2] [n0 + 1, n1 + 1, n2 + 1] 0 = [] := rfl
    simp only [e2, List.map_nil] at h
    rw [h]
  all_goals
    have hs := lowers_spec (ns := [n0, n1, n2]) (N := [n0 + 1, n1 + 1, n2 + 1]) (M := (n0 + 1) * ((n1 + 1) * (n2 + 1)) - 1)
      (by simp) (fun c hc => by
        obtain ⟨x, y, z, rfl, h1, h2, h3⟩ := inBox3.1 hc
        refine ⟨by simp; omega, ?_⟩
        have hb : InBox [n0 + 1, n1 + 1, n2 + 1] [x + 1, y, z] := by simp; omega
        have := lin_lt hb
        simp only [lin, List.prod_cons, List.prod_nil, Nat.mul_one, Nat.mul_zero, Nat.add_zero] at this ⊢
        omega)
  · exact hs.1
  · exact hs.2

/-! ## Points -/

variable {K : Type} [Field K] [LinearOrder K] [IsStrictOrderedRing K]

theorem gridCoord_eq {Us : List (List K)} {ps : List ℕ} (h : List.Forall₂ WFKnots Us ps) : ∀ {ns I : List ℕ},
    ns.length = Us.length → (∀ n ∈ ns, 0 < n) → InBox (ns.map (· + 1)) I →
    gridCoord Us (zl I) (zl ns) = .ok (gridParam Us ns I) ∧
      List.Forall₂ (fun U a => knot U 0 ≤ a ∧ a ≤ lastKnot U) Us (gridParam Us ns I) := by
  induction h with
  | nil => intro ns I hl _ _; exact ⟨rfl, .nil⟩
  | @cons U p Us ps hU _ ih =>
    intro ns I hl hpos hI
    cases ns with
    | nil => simp at hl
    | cons n ns =>
      cases I with
      | nil => simp at hI
      | cons i I =>
        simp only [List.map_cons, inBox_cons] at hI
        obtain ⟨h1, h2⟩ := ih (ns := ns) (I := I) (by simpa using hl) (fun m hm => hpos m (by simp [hm])) hI.2
        have hn : 0 < n := hpos n (by simp)
        have hnK : (0 : K) < n := by exact_mod_cast hn
        have hlen : 0 < U.length := by have := hU.size; omega
        have e1 : kvGet U 0 = .ok (knot U 0) := by
          unfold kvGet; rw [getN_getD hlen 0]; rfl
        have e2 : kvLast U = .ok (lastKnot U) := kvLast_eq (List.ne_nil_of_length_pos hlen)
        have hle : knot U 0 ≤ lastKnot U := hU.range.le
        have hq : 0 ≤ lastKnot U - knot U 0 := sub_nonneg.2 hle
        have hin : (i : K) ≤ n := by exact_mod_cast Nat.lt_succ_iff.1 hI.1
        constructor
        · simp only [List.map_cons, gridCoord]
          rw [e1, ok_bind, e2, ok_bind]
          have e3 : fdiv (((i : ℤ) : K) * (lastKnot U - knot U 0)) ((n : ℤ) : K)
              = .ok ((i : K) * (lastKnot U - knot U 0) / n) := by
            unfold fdiv; rw [if_neg (by exact_mod_cast hnK.ne')]; push_cast; rfl
          rw [e3, ok_bind]
          have h1' : gridCoord Us (List.map Nat.cast I) (List.map Nat.cast ns) = .ok (gridParam Us ns I) := h1
          rw [h1', ok_bind, pure_ok]
          rfl
        · refine .cons ⟨?_, ?_⟩ h2
          · have : 0 ≤ (i : K) * (lastKnot U - knot U 0) / n := div_nonneg (mul_nonneg (by positivity) hq) hnK.le
            simpa using this
          · have : (i : K) * (lastKnot U - knot U 0) / n ≤ lastKnot U - knot U 0 := by
              rw [div_le_iff₀ hnK, mul_comm (lastKnot U - knot U 0)]
              exact mul_le_mul_of_nonneg_right hin hq
            simp only
            linarith

theorem pointLine_eq {s : Spl K} (h : WFSpl s) {x : List K} (hx : InDomain s x) : pointLine s x = .ok (padded s x) := by
  unfold pointLine padded
  refine buildList_eq ?_
  intro k _
  split_ifs with hk
  · cases hw : s.ph.weights with
    | none =>
      have := evaluate_bspline h hw hx [k] (by simpa using hk)
      simp only [List.map_cons, List.map_nil] at this
      rw [this, ok_bind]
      simp [getN, splineValue, hw]
    | some w =>
      have := evaluate_nurbs h ⟨w, hw⟩ hx [k] (by simp; omega)
      simp only [List.map_cons, List.map_nil] at this
      rw [this, ok_bind]
      simp [getN, splineValue, hw, hk.ne]
  · rfl

theorem writePoints_eq {s : Spl K} (h : WFSpl s) {ns : List ℕ} (hl : ns.length = s.ps.knots.length) (hpos : ∀ n ∈ ns, 0 < n) :
    writePoints s (zl ns) = .ok ((List.range (ns.map (· + 1)).prod).map fun k =>
      padded s (gridParam s.ps.knots ns (unlin (ns.map (· + 1)) k))) := by
  unfold writePoints
  have e : (zl ns).map (· + 1) = zl (ns.map (· + 1)) := by simp [zl]
  have hp : ∀ n ∈ ns.map (· + 1), 0 < n := by simp
  rw [e]
  dsimp only
  have := upLoop_fun (ns := ns.map (· + 1)) (body := fun h acc => do
    let x ← gridCoord s.ps.knots h.cur (zl ns)
    let l ← pointLine s x
    return acc ++ [l]) (fun k => (List.range k).map fun k => padded s (gridParam s.ps.knots ns (unlin (ns.map (· + 1)) k))) (by
      intro k hk
      obtain ⟨h1, h2⟩ := gridCoord_eq h.knots hl hpos (unlin_inBox hp k)
      dsimp only
      rw [h1, ok_bind, pointLine_eq h h2, ok_bind, pure_ok, List.range_succ, List.map_append]
      rfl)
  exact this

end Vtk
end SplineLib
