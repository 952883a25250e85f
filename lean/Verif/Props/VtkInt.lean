import Verif.Core.VtkInt
import Verif.Props.Vtk

/-!
# C108: VTK files and the range of `int`
-/

namespace SplineLib
namespace VtkInt
open Vtk
set_option linter.unusedSectionVars false

/-- The number of numbers in the lines of section `CELLS`, for one scattering: each cell has its corners and their number. -/
def gridEntries (ns : List ℕ) : ℕ := ns.prod * (2 ^ ns.length + 1)

theorem entries_eq {ns : List ℕ} (h : Dim123 ns.length) : ((ns.prod : ℕ) : ℤ) * entriesPerCell ns.length = ((gridEntries ns : ℕ) : ℤ) := by
  unfold gridEntries entriesPerCell
  rcases h with h | h | h <;> rw [h] <;> norm_num

theorem int_error {a : ℤ} {e : Err} (h : I32.int a = .error e) : e = .ub := by
  unfold I32.int at h
  split_ifs at h
  exact (Except.error.inj h).symm

theorem succs_error : ∀ {l : List ℤ} {e : Err}, I32.succs l = .error e → e = .ub
  | [], e, h => by cases h
  | a :: as, e, h => by
    rw [I32.succs] at h
    cases h1 : I32.int (a + 1) with
    | error e1 =>
      rw [h1] at h
      obtain rfl := Except.error.inj h
      exact int_error h1
    | ok b =>
      rw [h1, ok_bind] at h
      cases h2 : I32.succs as with
      | error e2 =>
        rw [h2] at h
        obtain rfl := Except.error.inj h
        exact succs_error h2
      | ok r => rw [h2] at h; cases h

theorem succs_ub {k : List ℕ} (h : ¬ ∀ n ∈ k.map (· + 1), n < 2 ^ 31) : I32.succs (zl k) = .error .ub := by
  induction k with
  | nil => exact absurd (by simp) h
  | cons a as ih =>
    simp only [List.map_cons, I32.succs]
    by_cases ha : a + 1 < 2 ^ 31
    · have h1 : I32.int ((a : ℤ) + 1) = .ok ((a : ℤ) + 1) := int_ok (by omega) (by omega)
      rw [h1, ok_bind, show (List.map (fun i : ℕ => (i : ℤ)) as) = zl as from rfl, ih]
      · rfl
      · intro hn
        refine h fun n hn' => ?_
        rcases List.mem_cons.1 (by simpa only [List.map_cons] using hn') with rfl | hn'
        · exact ha
        · exact hn n hn'
    · have h1 : I32.int ((a : ℤ) + 1) = .error .ub := by
        have := int_ub (a := a + 1) (by omega); push_cast at this; exact this
      rw [h1]; rfl

theorem numCells_ok {ns : List ℕ} (hp : ∀ n ∈ ns, 0 < n) (hd : Dim123 ns.length) (h : ns.prod < 2 ^ 31) :
    I32.numCells ns.length (zl ns) = .ok ((ns.prod : ℕ) : ℤ) := by
  rw [I32.numCells, used_eq hd, List.take_of_length_le (by simp)]
  have := scale_ok (t := 1) hp (by simpa using h)
  simpa using this

theorem numCells_ub {ns : List ℕ} (hp : ∀ n ∈ ns, 0 < n) (hd : Dim123 ns.length) (h : 2 ^ 31 ≤ ns.prod) :
    I32.numCells ns.length (zl ns) = .error .ub := by
  rw [I32.numCells, used_eq hd, List.take_of_length_le (by simp)]
  have := scale_ub (t := 1) hp (by norm_num) (by simpa using h)
  simpa using this

theorem numPoints_ok {ns : List ℕ} (hd : Dim123 ns.length) (h : gridPoints ns < 2 ^ 31) :
    I32.numPoints ns.length (zl ns) = .ok ((gridPoints ns : ℕ) : ℤ) := by
  rw [I32.numPoints, used_eq hd, List.take_of_length_le (by simp), succs_ok (fits_succ h).lt, ok_bind]
  have := scale_ok (ls := ns.map (· + 1)) (t := 1) (by simp) (by rw [Nat.one_mul]; exact h)
  rw [Nat.cast_one] at this
  rw [this, Nat.one_mul]; rfl

theorem numPoints_ub {ns : List ℕ} (hd : Dim123 ns.length) (h : 2 ^ 31 ≤ gridPoints ns) :
    I32.numPoints ns.length (zl ns) = .error .ub := by
  rw [I32.numPoints, used_eq hd, List.take_of_length_le (by simp)]
  by_cases hs : ∀ n ∈ ns.map (· + 1), n < 2 ^ 31
  · rw [succs_ok hs, ok_bind]
    have := scale_ub (ls := ns.map (· + 1)) (t := 1) (by simp) (by norm_num) (by simpa [gridPoints] using h)
    simpa using this
  · rw [succs_ub hs]; rfl

theorem counts_ok {f : ℕ → List ℤ → M ℤ} {g : List ℕ → ℕ} : ∀ {nss : List (List ℕ)},
    (∀ ns ∈ nss, f ns.length (zl ns) = .ok ((g ns : ℕ) : ℤ)) →
    I32.counts f (nss.map List.length) (nss.map zl) = .ok (zl (nss.map g))
  | [], _ => rfl
  | ns :: nss, h => by
    have ih := counts_ok (nss := nss) fun m hm => h m (by simp [hm])
    have h1 := h ns (by simp)
    simp only [List.map_cons, I32.counts]
    rw [h1, ok_bind, ih, ok_bind, pure_ok]

theorem counts_ub {f : ℕ → List ℤ → M ℤ} {g : List ℕ → ℕ} : ∀ {nss : List (List ℕ)},
    (∀ ns ∈ nss, g ns < 2 ^ 31 → f ns.length (zl ns) = .ok ((g ns : ℕ) : ℤ)) → (∀ ns ∈ nss, 2 ^ 31 ≤ g ns → f ns.length (zl ns) = .error .ub) →
    (∃ ns ∈ nss, 2 ^ 31 ≤ g ns) → I32.counts f (nss.map List.length) (nss.map zl) = .error .ub
  | [], _, _, h => by simp at h
  | ns :: nss, h1, h2, h => by
    simp only [List.map_cons, I32.counts]
    by_cases hn : g ns < 2 ^ 31
    · rw [h1 ns (by simp) hn, ok_bind, counts_ub (fun m hm => h1 m (by simp [hm])) (fun m hm => h2 m (by simp [hm]))]
      · rfl
      · obtain ⟨m, hm, hg⟩ := h
        rcases List.mem_cons.1 hm with rfl | hm
        · omega
        · exact ⟨m, hm, hg⟩
    · rw [h2 ns (by simp) (by omega)]; rfl

theorem accumulate_eq : ∀ (as : List ℕ) {t : ℕ}, t < 2 ^ 31 →
    I32.accumulate (zl as) (t : ℤ) = if t + as.sum < 2 ^ 31 then .ok ((t + as.sum : ℕ) : ℤ) else .error .ub
  | [], t, h => by rw [List.sum_nil, Nat.add_zero, if_pos h]; rfl
  | a :: as, t, h => by
    rw [List.sum_cons, ← Nat.add_assoc]
    simp only [List.map_cons, I32.accumulate, ← Nat.cast_add]
    by_cases hc : t + a < 2 ^ 31
    · rw [int_nat hc, ok_bind]
      exact accumulate_eq as hc
    · rw [int_ub (by omega), if_neg (by omega)]; rfl

theorem cellEntries_eq : ∀ {nss : List (List ℕ)} {t : ℕ}, (∀ ns ∈ nss, Dim123 ns.length) → t < 2 ^ 31 →
    I32.cellEntries (nss.map List.length) (zl (nss.map List.prod)) (t : ℤ)
      = if t + (nss.map gridEntries).sum < 2 ^ 31 then .ok ((t + (nss.map gridEntries).sum : ℕ) : ℤ) else .error .ub
  | [], t, _, h => by rw [List.map_nil (f := gridEntries), List.sum_nil, Nat.add_zero, if_pos h]; rfl
  | ns :: nss, t, hd, h => by
    have ih := @cellEntries_eq nss
    rw [List.map_cons (f := gridEntries), List.sum_cons, ← Nat.add_assoc]
    simp only [List.map_cons, I32.cellEntries]
    rw [entries_eq (hd ns (by simp))]
    by_cases h1 : gridEntries ns < 2 ^ 31
    · rw [int_nat h1, ok_bind, ← Nat.cast_add]
      by_cases hc : t + gridEntries ns < 2 ^ 31
      · rw [int_nat hc, ok_bind]
        exact ih (fun m hm => hd m (by simp [hm])) hc
      · rw [int_ub (by omega), if_neg (by omega)]; rfl
    · rw [int_ub (by omega), if_neg (by omega)]; rfl

theorem getN1_bind {β : Type} (F : ℤ → M β) (n : ℕ) : (do let a ← getN (zl [n]) 0; F a) = F n := rfl

theorem getN2_bind {β : Type} (F : ℤ → ℤ → M β) (n m : ℕ) : (do let a ← getN (zl [n, m]) 0; let b ← getN (zl [n, m]) 1; F a b) = F n m := rfl

theorem getN3_bind {β : Type} (F : ℤ → ℤ → ℤ → M β) (n m l : ℕ) :
    (do let a ← getN (zl [n, m, l]) 0; let b ← getN (zl [n, m, l]) 1; let c ← getN (zl [n, m, l]) 2; F a b c) = F n m l := rfl

theorem addCells1_i32 {n off : ℕ} (h : I32.cells1 n off = .ok (Vtk.cells1 n off)) :
    I32.addCells (zl [n]) off 1 = Vtk.addCells (zl [n]) off 1 := by
  unfold I32.addCells Vtk.addCells
  rw [if_pos rfl, if_pos rfl, getN1_bind, getN1_bind, h, pure_ok]

theorem addCells2_i32 {n m off : ℕ} (h : I32.cells2 n m off = Vtk.cells2 n m off) :
    I32.addCells (zl [n, m]) off 2 = Vtk.addCells (zl [n, m]) off 2 := by
  unfold I32.addCells Vtk.addCells
  rw [if_neg (by decide), if_pos rfl, if_neg (by decide), if_pos rfl, getN2_bind (fun a b => I32.cells2 a b off),
    getN2_bind (fun a b => Vtk.cells2 a b off), h]

theorem addCells3_i32 {n m l off : ℕ} (h : I32.cells3 n m l off = Vtk.cells3 n m l off) :
    I32.addCells (zl [n, m, l]) off 3 = Vtk.addCells (zl [n, m, l]) off 3 := by
  unfold I32.addCells Vtk.addCells
  rw [if_neg (by decide), if_neg (by decide), if_pos rfl, if_neg (by decide), if_neg (by decide), if_pos rfl,
    getN3_bind (fun a b c => I32.cells3 a b c off), getN3_bind (fun a b c => Vtk.cells3 a b c off), h]

theorem addCells_i32 {ns : List ℕ} {off : ℕ} (hd : Dim123 ns.length) (h : off + gridPoints ns < 2 ^ 31) :
    I32.addCells (zl ns) off ns.length = Vtk.addCells (zl ns) off ns.length := by
  rcases hd with hd | hd | hd
  · obtain ⟨n, hn⟩ := List.length_eq_one_iff.1 hd
    have eg : gridPoints ns = n + 1 := by rw [hn]; simp [gridPoints]
    rw [eg] at h
    rw [hd, hn]
    exact addCells1_i32 (cells1_i32 n off h)
  · obtain ⟨n, m, hn⟩ := List.length_eq_two.1 hd
    have eg : gridPoints ns = (n + 1) * (m + 1) := by rw [hn]; simp [gridPoints]
    rw [eg] at h
    rw [hd, hn]
    exact addCells2_i32 (cells2_i32 n m off h)
  · obtain ⟨n, m, l, hn⟩ := List.length_eq_three.1 hd
    have eg : gridPoints ns = (n + 1) * ((m + 1) * (l + 1)) := by rw [hn]; simp [gridPoints]
    rw [eg] at h
    rw [hd, hn]
    exact addCells3_i32 (cells3_i32 n m l off h)

theorem allCells_i32 : ∀ {nss : List (List ℕ)} {dn : List ℕ}, (∀ ns ∈ nss, Dim123 ns.length) → dn.sum + (nss.map gridPoints).sum < 2 ^ 31 →
    I32.allCells (nss.map List.length) (nss.map zl) (zl dn) (zl (nss.map gridPoints)) = Vtk.allCells (nss.map List.length) (nss.map zl) dn.sum
  | [], dn, _, _ => by simp [I32.allCells, Vtk.allCells]
  | ns :: nss, dn, hd, h => by
    simp only [List.map_cons, List.sum_cons] at h
    have hdn := hd ns (by simp)
    have ih := allCells_i32 (nss := nss) (dn := dn ++ [gridPoints ns]) (fun m hm => hd m (by simp [hm])) (by simp; omega)
    have ha := accumulate_eq dn (t := 0) (by norm_num)
    rw [if_pos (by omega), Nat.zero_add, Nat.cast_zero] at ha
    have hnp := numPoints_eq hdn
    simp only [List.map_cons, I32.allCells, Vtk.allCells]
    rw [ha, ok_bind, addCells_i32 hdn (by omega), hnp]
    have e1 : zl dn ++ [((gridPoints ns : ℕ) : ℤ)] = zl (dn ++ [gridPoints ns]) := by simp
    have e2 : ((dn.sum : ℕ) : ℤ) + ((gridPoints ns : ℕ) : ℤ) = (((dn ++ [gridPoints ns]).sum : ℕ) : ℤ) := by simp
    rw [e1, e2, show (List.map (fun i : ℕ => (i : ℤ)) (nss.map gridPoints)) = zl (nss.map gridPoints) from rfl, ih]

theorem addCellTypes_i32 {ns : List ℕ} (hp : ∀ n ∈ ns, 0 < n) (hd : Dim123 ns.length) (h : ns.prod < 2 ^ 31) :
    I32.addCellTypes ns.length (zl ns) = .ok (Vtk.addCellTypes (zl ns) ns.length) := by
  have h1 : I32.scale (zl ns) 1 = .ok (numberOfCells (zl ns)) := by
    have := scale_ok (t := 1) hp (by simpa using h)
    rw [numberOfCells_zl]
    simpa using this
  have e : ∀ k, ns.length = k → (zl ns).take k = zl ns := fun k hk => List.take_of_length_le (by simp [hk])
  unfold I32.addCellTypes Vtk.addCellTypes
  rcases hd with hd | hd | hd <;> simp only [hd, e _ hd, h1, ok_bind, pure_ok] <;> simp

theorem allTypes_i32 : ∀ {nss : List (List ℕ)}, (∀ ns ∈ nss, (∀ n ∈ ns, 0 < n) ∧ Dim123 ns.length ∧ ns.prod < 2 ^ 31) →
    I32.allTypes (nss.map List.length) (nss.map zl)
      = .ok (List.zipWith (fun d c => Vtk.addCellTypes c d) (nss.map List.length) (nss.map zl)).flatten
  | [], _ => rfl
  | ns :: nss, h => by
    have ih := allTypes_i32 (nss := nss) fun m hm => h m (by simp [hm])
    obtain ⟨h1, h2, h3⟩ := h ns (by simp)
    simp only [List.map_cons, I32.allTypes]
    rw [addCellTypes_i32 h1 h2 h3, ok_bind, ih, ok_bind, pure_ok]
    rfl

variable {K : Type} [Field K] [LinearOrder K] [IsStrictOrderedRing K]

theorem addPoints_i32 {s : Spl K} {ns : List ℕ} (hd : Dim123 ns.length) (hl : ns.length = s.ps.knots.length) (h : gridPoints ns < 2 ^ 31) :
    I32.addPoints s (zl ns) s.ps.knots.length = Vtk.addPoints s (zl ns) s.ps.knots.length := by
  have hf := fits_succ h
  unfold I32.addPoints Vtk.addPoints
  have hd' : ns.length = 1 ∨ ns.length = 2 ∨ ns.length = 3 := hd
  rw [← hl, if_pos hd', if_pos hd', List.take_of_length_le (by simp)]
  unfold I32.writePoints Vtk.writePoints
  have e : (zl ns).map (· + 1) = zl (ns.map (· + 1)) := by simp [zl]
  dsimp only
  rw [succs_ok hf.lt, ok_bind, e, mk'_zl, length1D_ok hf.pos h, ok_bind, length1D_zl]
  exact i32_upLoop_eq hf.pos hf.lt _ 0 [] fun _ _ _ _ => rfl

theorem allPoints_i32 {splines : List (Spl K)} {nss : List (List ℕ)}
    (h : List.Forall₂ (fun s ns => WFSpl s ∧ ns.length = s.ps.knots.length ∧ (∀ n ∈ ns, 0 < n) ∧ Dim123 ns.length) splines nss)
    (hb : ∀ ns ∈ nss, gridPoints ns < 2 ^ 31) : I32.allPoints splines (nss.map zl) = Vtk.allPoints splines (nss.map zl) := by
  induction h with
  | nil => rfl
  | @cons s ns ss nss h1 _ ih =>
    simp only [List.map_cons, I32.allPoints, Vtk.allPoints]
    rw [addPoints_i32 h1.2.2.2 h1.2.1 (hb ns (by simp)),
      ih fun m hm => hb m (by simp [hm])]

theorem prod_le_gridPoints : ∀ ns : List ℕ, ns.prod ≤ gridPoints ns
  | [] => le_rfl
  | n :: ns => by
    have := prod_le_gridPoints ns
    simp only [gridPoints, List.map_cons, List.prod_cons] at this ⊢
    exact Nat.mul_le_mul (Nat.le_succ n) this

/-- **C108.** For splines of dimensions 1 to 3 with scatterings of matching sizes, the VTK writer with 32 bit integers writes the same file as the
one with unbounded integers (C39) if the number of points and the number of entries of the section `CELLS`, over all splines, are less than `2³¹`.
In every other case a signed integer overflows. -/
theorem C108_file {splines : List (Spl K)} {nss : List (List ℕ)}
    (h : List.Forall₂ (fun s ns => WFSpl s ∧ ns.length = s.ps.knots.length ∧ (∀ n ∈ ns, 0 < n) ∧ Dim123 ns.length) splines nss) :
    I32.writeVtk splines (nss.map zl) =
      if (nss.map gridPoints).sum < 2 ^ 31 ∧ (nss.map gridEntries).sum < 2 ^ 31 then Vtk.writeFile splines (nss.map zl) else .error .ub := by
  have hall : ∀ ns ∈ nss, (∀ n ∈ ns, 0 < n) ∧ Dim123 ns.length := by
    intro ns hns
    induction h with
    | nil => simp at hns
    | cons h1 _ ih =>
      rcases List.mem_cons.1 hns with rfl | hns
      · exact h1.2.2
      · exact ih hns
  have hd : ∀ ns ∈ nss, Dim123 ns.length := fun ns hns => (hall ns hns).2
  have hlen : splines.length = nss.length := h.length_eq
  have hdims : splines.map (fun s => s.ps.knots.length) = nss.map List.length := by
    clear * - h
    induction h with
    | nil => rfl
    | cons h1 _ ih => simp only [List.map_cons, ih, h1.2.1]
  have hle : (nss.map List.prod).sum ≤ (nss.map gridPoints).sum := List.sum_le_sum fun ns _ => prod_le_gridPoints ns
  unfold I32.writeVtk
  simp only [hdims]
  rw [if_neg (by simp), checkSizes_ok, ok_bind]
  by_cases hP : (nss.map gridPoints).sum < 2 ^ 31
  · have hpts : ∀ ns ∈ nss, gridPoints ns < 2 ^ 31 := fun ns hns =>
      lt_of_le_of_lt (List.single_le_sum (by simp) _ (List.mem_map_of_mem hns)) hP
    have hcells : ∀ ns ∈ nss, ns.prod < 2 ^ 31 := fun ns hns => lt_of_le_of_lt (prod_le_gridPoints ns) (hpts ns hns)
    have a1 := accumulate_eq (nss.map gridPoints) (t := 0) (by norm_num)
    have a2 := accumulate_eq (nss.map List.prod) (t := 0) (by norm_num)
    have a3 := cellEntries_eq (nss := nss) (t := 0) hd (by norm_num)
    rw [if_pos (by omega), Nat.zero_add, Nat.cast_zero] at a1 a2
    rw [Nat.zero_add, Nat.cast_zero] at a3
    rw [counts_ok (g := List.prod) fun ns hns => numCells_ok (hall ns hns).1 (hd ns hns) (hcells ns hns), ok_bind,
      counts_ok (g := gridPoints) fun ns hns => numPoints_ok (hd ns hns) (hpts ns hns), ok_bind, a1, ok_bind, allPoints_i32 h hpts,
      allPoints_eq h, ok_bind, a2, ok_bind, a3]
    by_cases hE : (nss.map gridEntries).sum < 2 ^ 31
    · obtain ⟨f, hf, -⟩ := C39_file h
      rw [if_pos hE, if_pos ⟨hP, hE⟩, ok_bind]
      have a4 := allCells_i32 (nss := nss) (dn := []) hd (by simpa using hP)
      rw [allTypes_i32 fun ns hns => ⟨(hall ns hns).1, hd ns hns, hcells ns hns⟩]
      simp only [List.map_nil, List.sum_nil, Nat.cast_zero] at a4
      rw [a4]
      unfold Vtk.writeFile
      simp only [hdims]
      rw [if_neg (by simp), checkSizes_ok, ok_bind, allPoints_eq h, ok_bind]
      have e1 : List.zipWith Vtk.numCells (nss.map List.length) (nss.map zl) = zl (nss.map List.prod) := by
        clear * - hd
        induction nss with
        | nil => rfl
        | cons ns nss ih =>
          have := numCells_eq (hd ns (by simp))
          simp only [List.map_cons, List.zipWith_cons_cons]
          exact congrArg₂ _ this (ih fun m hm => hd m (by simp [hm]))
      have e2 : List.zipWith Vtk.numPoints (nss.map List.length) (nss.map zl) = zl (nss.map gridPoints) := by
        clear * - hd
        induction nss with
        | nil => rfl
        | cons ns nss ih =>
          have := numPoints_eq (hd ns (by simp))
          simp only [List.map_cons, List.zipWith_cons_cons]
          exact congrArg₂ _ this (ih fun m hm => hd m (by simp [hm]))
      have e3 : List.zipWith (fun d n => n * entriesPerCell d) (nss.map List.length) (zl (nss.map List.prod)) = zl (nss.map gridEntries) := by
        clear * - hd
        induction nss with
        | nil => rfl
        | cons ns nss ih =>
          have := entries_eq (hd ns (by simp))
          simp only [List.map_cons, List.zipWith_cons_cons]
          exact congrArg₂ _ this (ih fun m hm => hd m (by simp [hm]))
      have hsum : ∀ l : List ℕ, (zl l).foldl (· + ·) 0 = ((l.sum : ℕ) : ℤ) := by
        intro l
        rw [foldl_add, zero_add]
        induction l with
        | nil => rfl
        | cons a l ih => simp only [List.map_cons, List.sum_cons, ih]; push_cast; rfl
      rw [e1, e2, e3, hsum, hsum, hsum]
      cases Vtk.allCells (nss.map List.length) (nss.map zl) 0 <;> rfl
    · rw [if_neg hE, if_neg (fun hh => hE hh.2)]; rfl
  · rw [if_neg (fun hh => hP hh.1)]
    by_cases hc : ∀ ns ∈ nss, ns.prod < 2 ^ 31
    · rw [counts_ok (g := List.prod) fun ns hns => numCells_ok (hall ns hns).1 (hd ns hns) (hc ns hns), ok_bind]
      by_cases hp : ∀ ns ∈ nss, gridPoints ns < 2 ^ 31
      · have a1 := accumulate_eq (nss.map gridPoints) (t := 0) (by norm_num)
        rw [if_neg (by omega), Nat.cast_zero] at a1
        rw [counts_ok (g := gridPoints) fun ns hns => numPoints_ok (hd ns hns) (hp ns hns), ok_bind, a1]; rfl
      · rw [counts_ub (g := gridPoints) (fun ns hns => numPoints_ok (hd ns hns)) (fun ns hns => numPoints_ub (hd ns hns))
          (by push Not at hp; exact hp)]; rfl
    · rw [counts_ub (g := List.prod) (fun ns hns => numCells_ok (hall ns hns).1 (hd ns hns)) (fun ns hns => numCells_ub (hall ns hns).1 (hd ns hns))
        (by push Not at hc; exact hc)]; rfl

/-- A case that meets the hypotheses: a curve and a NURBS surface, with a small and with a large scattering. -/
example : List.Forall₂ (fun s ns => WFSpl s ∧ ns.length = s.ps.knots.length ∧ (∀ n ∈ ns, 0 < n) ∧ Dim123 ns.length)
    [exCurve, exNurbsSurface] [[2], [1, 3]] :=
  .cons ⟨exCurve_wf, rfl, by simp, Or.inl rfl⟩ (.cons ⟨exNurbsSurface_wf, rfl, by simp, Or.inr (Or.inl rfl)⟩ .nil)

example : (I32.writeVtk [exCurve, exNurbsSurface] [[2], [1, 1]]).map (fun f => (f.pointCount, f.cellCount, f.entryCount, f.cells, f.types))
    = .ok (7, 3, 11, [[2, 0, 1], [2, 1, 2], [4, 3, 4, 6, 5]], [3, 3, 9]) := by decide +kernel

/-- **C108, counterexample.** That the points fit into `int` is not enough: for every surface, 21000 times 21000 cells have 441042001 points, but
the number of entries of the section `CELLS` overflows. -/
theorem C108_entries_overflow {s : Spl K} (h : WFSpl s) (h2 : s.ps.knots.length = 2) :
    gridPoints [21000, 21000] = 441042001 ∧ I32.writeVtk [s] [zl [21000, 21000]] = .error .ub := by
  refine ⟨by simp [gridPoints], ?_⟩
  have := C108_file (splines := [s]) (nss := [[21000, 21000]]) (.cons ⟨h, h2.symm, by simp, Or.inr (Or.inl rfl)⟩ .nil)
  rw [if_neg] at this
  · exact this
  · rintro ⟨-, h⟩
    revert h
    decide +kernel

example : WFSpl exNurbsSurface ∧ exNurbsSurface.ps.knots.length = 2 := ⟨exNurbsSurface_wf, rfl⟩

end VtkInt
end SplineLib
