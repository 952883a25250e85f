import Verif.Core.BoxHandler

/-!
# Properties C26, C27: the multi-index handler
-/

namespace SplineLib
open Finset

/-- C26: `Get1DIndex` is the position `Σ_d ix_d Π_{e<d} len_e`, for all lengths and indices whatsoever. -/
theorem C26_get1D_eq_position (h : MIH) : h.get1D = position h.len h.cur := oneD_eq_position _ _

/-- C26: `Get1DLength` is the product of the lengths. -/
theorem C26_length1D_eq_prod (h : MIH) : h.length1D = h.len.prod := by
  simp only [MIH.length1D]; rw [foldl_mul_int, one_mul]

/-- C26: the `k`-th increment of a fresh handler is the index with position `k`; it is inside the box; after
`Get1DLength` increments the handler is back in its initial state. -/
theorem C26_increments_enumerate (len : List ℤ) (hpos : PosLen len) :
    (∀ k : ℕ, (k : ℤ) < (MIH.mk' len).length1D →
      ValidIx len (MIH.incr^[k] (MIH.mk' len)).cur ∧ (MIH.incr^[k] (MIH.mk' len)).get1D = k) ∧
    MIH.incr^[(MIH.mk' len).length1D.toNat] (MIH.mk' len) = MIH.mk' len := by
  obtain ⟨ns, rfl, hn⟩ := exists_zl_of_pos hpos
  rw [C26_length1D_eq_prod]
  have e : (MIH.mk' (zl ns)).len.prod = (ns.prod : ℤ) := zl_prod ns
  rw [e]
  refine ⟨?_, ?_⟩
  · intro k hk
    rw [mk'_iter_zl hn]
    exact ⟨validIx_zl.2 (unlin_inBox hn k), get1D_zl_unlin (by exact_mod_cast hk)⟩
  · rw [Int.toNat_natCast, mk'_iter_zl hn, mk'_zl, unlin_prod, unlin_zero]

/-- C26: every index of the box is visited by exactly one of the `Get1DLength` states of the enumeration loop. -/
theorem C26_every_index_visited_once (len : List ℤ) (hpos : PosLen len) (ix : List ℤ) (hv : ValidIx len ix) :
    ∃! k : ℕ, (k : ℤ) < (MIH.mk' len).length1D ∧ (MIH.incr^[k] (MIH.mk' len)).cur = ix := by
  obtain ⟨ns, k, hn, hk, rfl, rfl⟩ := exists_unlin hpos hv
  rw [C26_length1D_eq_prod]
  have e : (MIH.mk' (zl ns)).len.prod = (ns.prod : ℤ) := zl_prod ns
  rw [e]
  refine ⟨k, ⟨by exact_mod_cast hk, by rw [mk'_iter_zl hn]⟩, ?_⟩
  rintro j ⟨hj, hj2⟩
  rw [mk'_iter_zl hn] at hj2
  have := zl_inj hj2
  rw [← lin_unlin hk, ← this, lin_unlin (by exact_mod_cast hj)]

/-- C26: the 1D index is a bijection from the indices of the box onto `[0, length)`. -/
theorem C26_get1D_bijection (len : List ℤ) (hpos : PosLen len) :
    Set.BijOn (fun ix => (MIH.mk len ix).get1D) {ix | ValidIx len ix} (Set.Ico 0 (MIH.mk' len).length1D) := by
  obtain ⟨ns, rfl, hn⟩ := exists_zl_of_pos hpos
  rw [C26_length1D_eq_prod]
  have e : (MIH.mk' (zl ns)).len.prod = (ns.prod : ℤ) := zl_prod ns
  rw [e]
  refine ⟨?_, ?_, ?_⟩
  · intro ix hix
    obtain ⟨is, rfl, hb⟩ := exists_zl_of_valid hix
    have := lin_lt hb
    simp only [MIH.get1D, Set.mem_Ico, oneD_zl]
    omega
  · intro ix hix jx hjx hEq
    obtain ⟨is, rfl, hb⟩ := exists_zl_of_valid hix
    obtain ⟨js, rfl, hb'⟩ := exists_zl_of_valid hjx
    simp only [MIH.get1D, oneD_zl] at hEq
    rw [lin_inj hb hb' (by exact_mod_cast hEq)]
  · intro k hk
    obtain ⟨k, rfl⟩ := Int.eq_ofNat_of_zero_le hk.1
    refine ⟨zl (unlin ns k), validIx_zl.2 (unlin_inBox hn k), get1D_zl_unlin ?_⟩
    have := hk.2; exact_mod_cast this

/-- C26: in every state inside the box, increment keeps the index inside the box and adds one to the position (modulo
the length), and decrement undoes increment and vice versa. -/
theorem C26_incr_decr (h : MIH) (hpos : PosLen h.len) (hv : ValidIx h.len h.cur) :
    ValidIx h.len h.incr.cur ∧ h.incr.get1D = (h.get1D + 1) % h.length1D ∧
    ValidIx h.len h.decr.cur ∧ h.incr.decr = h ∧ h.decr.incr = h := by
  obtain ⟨len, cur⟩ := h
  obtain ⟨ns, k, hn, hk, rfl, rfl⟩ := exists_unlin hpos hv
  have hpp := prod_pos_of hn
  rw [length1D_zl]
  have hd : (MIH.mk (zl ns) (zl (unlin ns k))).decr = ⟨zl ns, zl (unlin ns (k + ns.prod - 1))⟩ := by
    have : unlin ns k = unlin ns ((k + ns.prod - 1) + 1) := by
      rw [Nat.sub_add_cancel (by omega), unlin_add_prod hn]
    rw [this, decr_zl hn]
  refine ⟨?_, ?_, ?_, ?_, ?_⟩
  · rw [incr_zl hn]; exact validIx_zl.2 (unlin_inBox hn _)
  · rw [incr_zl hn, get1D_zl_unlin hk]
    rcases Nat.lt_or_ge (k + 1) ns.prod with h1 | h1
    · rw [get1D_zl_unlin h1, Int.emod_eq_of_lt (by omega) (by omega)]; push_cast; rfl
    · have h2 : k + 1 = ns.prod := by omega
      have h3 : (k : ℤ) + 1 = ns.prod := by omega
      rw [h2, h3, Int.emod_self, unlin_prod, ← unlin_zero, get1D_zl_unlin hpp]; rfl
  · rw [hd]; exact validIx_zl.2 (unlin_inBox hn _)
  · rw [incr_zl hn, decr_zl hn]
  · rw [hd, incr_zl hn, Nat.sub_add_cancel (by omega), unlin_add_prod hn]

/-- C26: `operator+(i)` and `operator-(i)` move by `i` positions modulo the length (and, as written, change the handler
itself); negative arguments do nothing. -/
theorem C26_plus_get1D (h : MIH) (hpos : PosLen h.len) (hv : ValidIx h.len h.cur) (i : ℤ) :
    (h.plus i).get1D = (h.get1D + max i 0) % h.length1D ∧ (h.plus i).minus i = h ∧ (h.minus i).plus i = h := by
  have step : ∀ (j : ℕ) (h : MIH), PosLen h.len → ValidIx h.len h.cur →
      PosLen (MIH.incr^[j] h).len ∧ ValidIx (MIH.incr^[j] h).len (MIH.incr^[j] h).cur ∧
      (MIH.incr^[j] h).len = h.len ∧
      PosLen (MIH.decr^[j] h).len ∧ ValidIx (MIH.decr^[j] h).len (MIH.decr^[j] h).cur := by
    intro j
    induction j with
    | zero => intro h hp hv; exact ⟨hp, hv, rfl, hp, hv⟩
    | succ j ih =>
      intro h hp hv
      obtain ⟨a1, a2, a3, a4, a5⟩ := ih h hp hv
      rw [Function.iterate_succ_apply', Function.iterate_succ_apply']
      exact ⟨a1, (C26_incr_decr _ a1 a2).1, a3, a4, (C26_incr_decr _ a4 a5).2.2.1⟩
  refine ⟨?_, ?_, ?_⟩
  · have hm : max i 0 = (i.toNat : ℤ) := by omega
    rw [hm]
    simp only [MIH.plus]
    generalize i.toNat = j
    obtain ⟨len, cur⟩ := h
    obtain ⟨ns, k, hn, hk, rfl, rfl⟩ := exists_unlin hpos hv
    rw [length1D_zl]
    induction j with
    | zero => rw [Function.iterate_zero_apply, get1D_zl_unlin hk, Int.emod_eq_of_lt (by omega) (by omega)]; simp
    | succ j ih =>
      obtain ⟨a1, a2, a3, -⟩ := step j _ hpos hv
      rw [Function.iterate_succ_apply', (C26_incr_decr _ a1 a2).2.1, ih, C26_length1D_eq_prod, a3]
      simp only [zl_prod]
      rw [Int.emod_add_emod]; push_cast; congr 1; ring
  · simp only [MIH.plus, MIH.minus]
    generalize i.toNat = j
    induction j generalizing h with
    | zero => rfl
    | succ j ih =>
      rw [Function.iterate_succ_apply MIH.decr, Function.iterate_succ_apply' MIH.incr]
      obtain ⟨a1, a2, -⟩ := step j h hpos hv
      rw [(C26_incr_decr _ a1 a2).2.2.2.1, ih h hpos hv]
  · simp only [MIH.plus, MIH.minus]
    generalize i.toNat = j
    induction j generalizing h with
    | zero => rfl
    | succ j ih =>
      rw [Function.iterate_succ_apply MIH.incr, Function.iterate_succ_apply' MIH.decr]
      obtain ⟨-, -, -, a1, a2⟩ := step j h hpos hv
      rw [(C26_incr_decr _ a1 a2).2.2.2.2, ih h hpos hv]

/-- C26: the difference index mirrors the current index in the box. -/
theorem C26_differenceIndices (h : MIH) (hv : ValidIx h.len h.cur) :
    ValidIx h.len h.differenceIndices ∧ (h.setIndices h.differenceIndices).differenceIndices = h.cur := by
  obtain ⟨len, cur⟩ := h
  simp only [MIH.differenceIndices, MIH.setIndices] at *
  induction len generalizing cur with
  | nil => cases hv; exact ⟨List.Forall₂.nil, rfl⟩
  | cons l ls ih =>
    cases hv with
    | cons h1 h2 =>
      obtain ⟨b1, b2⟩ := ih _ h2
      refine ⟨List.Forall₂.cons (by dsimp only; omega) b1, ?_⟩
      simp only [List.zipWith_cons_cons, b2]
      congr 1; omega

/-- C26: `ExtractDimension(d)` is the position of the remaining indices in the box without direction `d`. -/
theorem C26_extractDimension (h : MIH) (d : ℕ) :
    h.cur.length = h.len.length → h.extractDimension d = position (h.len.eraseIdx d) (h.cur.eraseIdx d) := by
  intro hl
  have key : ∀ a b : List ℤ, b.length = a.length → position (a ++ [0]) (b ++ [0]) = position a b := by
    intro a
    induction a with
    | nil => intro b hb; cases b <;> simp_all [position]
    | cons x xs ih =>
      intro b hb
      cases b with
      | nil => simp at hb
      | cons y ys => simp only [List.cons_append, position_cons]; rw [ih ys (by simpa using hb)]
  simp only [MIH.extractDimension, oneD_eq_position]
  apply key
  simp [List.length_eraseIdx, hl]

/-- C27: for every state inside a box and every target position in `[0, length)`, the `Set1DIndex` loop terminates in
the state of the box whose position is the target; termination is unique (the loop is deterministic). -/
theorem C27_set1DIndex_reaches (h : MIH) (hpos : PosLen h.len) (hv : ValidIx h.len h.cur) (i : ℤ)
    (hi : 0 ≤ i ∧ i < h.length1D) :
    ∃ h', MIH.Set1D h i h' ∧ h'.len = h.len ∧ ValidIx h.len h'.cur ∧ h'.get1D = i ∧
      ∀ h'', MIH.Set1D h i h'' → h'' = h' := by
  obtain ⟨len, cur⟩ := h
  obtain ⟨ns, k, hn, hk, rfl, rfl⟩ := exists_unlin hpos hv
  rw [length1D_zl] at hi
  obtain ⟨i, rfl⟩ := Int.eq_ofNat_of_zero_le hi.1
  have hi' : i < ns.prod := by have := hi.2; exact_mod_cast this
  refine ⟨⟨zl ns, zl (unlin ns i)⟩, ?_, rfl, validIx_zl.2 (unlin_inBox hn i), get1D_zl_unlin hi', ?_⟩
  · rcases Nat.lt_or_ge k i with h1 | h1
    · exact set1D_reaches hn i hi' (i - k - 1) k (by rw [Nat.mod_eq_of_lt] <;> omega)
    · apply set1D_reaches hn i hi' (i + ns.prod - k - 1) k
      have : k + (i + ns.prod - k - 1) + 1 = i + ns.prod := by omega
      rw [this, Nat.add_mod_right, Nat.mod_eq_of_lt hi']
  · intro h'' hs
    obtain ⟨⟨j, rfl⟩, hj⟩ := set1D_range hn hs k rfl
    have hb := unlin_inBox hn j
    simp only [MIH.get1D, oneD_zl] at hj
    have hj' : lin ns (unlin ns j) = i := by exact_mod_cast hj
    rw [← hj', unlin_lin hb]

/-- C27: for a target outside `[0, length)` the `Set1DIndex` loop never terminates. -/
theorem C27_set1DIndex_diverges (h : MIH) (hpos : PosLen h.len) (hv : ValidIx h.len h.cur) (i : ℤ)
    (hi : i < 0 ∨ h.length1D ≤ i) : ¬ ∃ h', MIH.Set1D h i h' := by
  obtain ⟨len, cur⟩ := h
  obtain ⟨ns, k, hn, hk, rfl, rfl⟩ := exists_unlin hpos hv
  rw [length1D_zl] at hi
  rintro ⟨h', hs⟩
  obtain ⟨⟨j, rfl⟩, hj⟩ := set1D_range hn hs k rfl
  have := get1D_zl_range hn j
  omega

/-! ### The hypotheses are satisfiable -/

example : PosLen [3, 2, 4] ∧ ValidIx [3, 2, 4] [2, 1, 0] := by
  refine ⟨by intro l hl; simp at hl; omega, ?_⟩
  simp [ValidIx]

example : (MIH.incr^[5] (MIH.mk' [3, 2, 4])).cur = [2, 1, 0] ∧ (MIH.mk' [3, 2, 4]).length1D = 24 := by decide

end SplineLib
