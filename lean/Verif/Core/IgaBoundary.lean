import Verif.Core.IgaSystem

/-!
# Boundary conditions of the isogeometric example (helper lemmas)
-/

namespace SplineLib
set_option linter.unusedSectionVars false
open Finset

namespace Iga
variable {K : Type} [Field K] [LinearOrder K] [IsStrictOrderedRing K]

/-- A control point on the boundary of the net: some index is the first or the last one of its direction. -/
def BoundaryIx (ns I : List ℕ) : Prop := ∃ d n i : ℕ, ns[d]? = some n ∧ I[d]? = some i ∧ (i = 0 ∨ i + 1 = n)

instance (ns I : List ℕ) : Decidable (BoundaryIx ns I) :=
  decidable_of_iff ((List.zip I ns).any fun p => decide (p.1 = 0 ∨ p.1 + 1 = p.2)) (by
    simp only [List.any_eq_true, decide_eq_true_eq]
    constructor
    · rintro ⟨⟨i, n⟩, h1, h2⟩
      obtain ⟨d, hd⟩ := List.getElem?_of_mem h1
      rw [List.getElem?_zip_eq_some] at hd
      exact ⟨d, n, i, hd.2, hd.1, h2⟩
    · rintro ⟨d, n, i, h1, h2, h3⟩
      exact ⟨(i, n), List.mem_of_getElem? (List.getElem?_zip_eq_some.2 ⟨h2, h1⟩), h3⟩)

theorem boundaryIx_cons {n i : ℕ} {ns I : List ℕ} : BoundaryIx (n :: ns) (i :: I) ↔ (i = 0 ∨ i + 1 = n) ∨ BoundaryIx ns I := by
  constructor
  · rintro ⟨d, n', i', h1, h2, h3⟩
    cases d with
    | zero => simp only [List.getElem?_cons_zero, Option.some.injEq] at h1 h2; subst h1; subst h2; exact Or.inl h3
    | succ d => exact Or.inr ⟨d, n', i', by simpa using h1, by simpa using h2, h3⟩
  · rintro (h | ⟨d, n', i', h1, h2, h3⟩)
    · exact ⟨0, n, i, by simp, by simp, h⟩
    · exact ⟨d + 1, n', i', by simpa using h1, by simpa using h2, h3⟩

theorem onBoundary_iff : ∀ {ns I : List ℕ}, InBox ns I → (onBoundary ⟨zl ns, zl I⟩ = true ↔ BoundaryIx ns I)
  | [], I, h => by
    obtain rfl := inBox_nil_iff.1 h
    simp [onBoundary, zl, BoundaryIx]
  | n :: ns, [], h => by simp at h
  | n :: ns, i :: I, h => by
    obtain ⟨h1, h2⟩ := inBox_cons.1 h
    rw [boundaryIx_cons, ← onBoundary_iff h2]
    unfold onBoundary MIH.differenceIndices zl
    simp only [List.map_cons, List.zipWith_cons_cons, List.zip_cons_cons, List.any_cons, Bool.or_eq_true]
    have : (!(decide ((i : ℤ) > 0) && decide ((n : ℤ) - i - 1 > 0))) = true ↔ (i = 0 ∨ i + 1 = n) := by
      simp only [Bool.not_eq_true', Bool.and_eq_false_iff, decide_eq_false_iff_not]
      omega
    rw [this]

theorem setVec_eq {n i : ℕ} (hi : i < n) (f : ℕ → K) (v : K) : setVec (vecOf n f) i v = .ok (vecOf n fun a => if a = i then v else f a) := by
  unfold setVec vecOf
  rw [if_pos (by simpa using hi)]
  congr 1
  apply List.ext_getElem?
  intro k
  rw [List.getElem?_set]
  by_cases hk : k < n
  · by_cases e : i = k
    · subst e; simp [hk]
    · simp [hk, e, Ne.symm e]
  · by_cases e : i = k
    · omega
    · simp [hk, e]

theorem unitRow_eq {n i : ℕ} (hi : i < n) (f : ℕ → ℕ → K) :
    unitRow (matOf n f) i = .ok (matOf n fun a b => if a = i then (if a = b then 1 else 0) else f a b) := by
  unfold unitRow
  have e : (matOf n f)[i]? = some ((List.range n).map fun b => f i b) := by simp [matOf, hi]
  rw [e]
  dsimp only
  rw [if_pos (by simpa using hi)]
  congr 1
  unfold matOf
  apply List.ext_getElem?
  intro k
  rw [List.getElem?_set]
  by_cases hk : k < n
  · by_cases e : i = k
    · subst e
      simp only [List.length_map, List.length_range, hi, if_true, List.getElem?_map, List.getElem?_range hi, Option.map_some,
        Option.some.injEq, if_pos]
      apply List.ext_getElem?
      intro j
      rw [List.getElem?_set]
      by_cases hj : j < n
      · by_cases e : i = j
        · subst e; simp [hj]
        · simp [hj, e]
      · by_cases e : i = j
        · omega
        · simp [hj, e]
    · simp [hk, e, Ne.symm e]
  · by_cases e : i = k
    · omega
    · simp [hk, e]

/-- `SetZeroBC`. -/
theorem setZeroBC_eq {s : Spl K} (h : WFSpl s) (hsz : (npts s).prod < 2 ^ 64) (f : ℕ → ℕ → K) (g : ℕ → K) :
    setZeroBC s (matOf (npts s).prod f) (vecOf (npts s).prod g) =
      .ok (matOf (npts s).prod fun a b => if BoundaryIx (npts s) (unlin (npts s) a) then (if a = b then 1 else 0) else f a b,
        vecOf (npts s).prod fun a => if BoundaryIx (npts s) (unlin (npts s) a) then 0 else g a) := by
  unfold setZeroBC
  rw [h.num]
  dsimp only
  have := upLoop_fun (ns := npts s) (body := zeroBody (K := K)) (fun k =>
    (matOf (npts s).prod fun a b => if a < k ∧ BoundaryIx (npts s) (unlin (npts s) a) then (if a = b then 1 else 0) else f a b,
        vecOf (npts s).prod fun a => if a < k ∧ BoundaryIx (npts s) (unlin (npts s) a) then 0 else g a)) (by
    intro k hk
    have hb := onBoundary_iff (unlin_inBox (npts_pos h) k)
    unfold zeroBody
    by_cases hB : BoundaryIx (npts s) (unlin (npts s) k)
    · rw [if_pos (hb.2 hB), get1D_zl_unlin hk, toSizeT_nat (by omega)]
      dsimp only
      rw [setVec_eq hk, ok_bind, unitRow_eq hk, ok_bind, pure_ok]
      congr 2
      · apply matOf_congr
        intro a _ b _
        by_cases e : a = k
        · subst e; simp [hB]
        · rw [if_neg e]
          have : a < k + 1 ↔ a < k := by omega
          simp only [this]
      · apply vecOf_congr
        intro a _
        by_cases e : a = k
        · subst e; simp [hB]
        · rw [if_neg e]
          have : a < k + 1 ↔ a < k := by omega
          simp only [this]
    · rw [if_neg (by rw [hb]; exact hB)]
      have e : ∀ a, (a < k ∧ BoundaryIx (npts s) (unlin (npts s) a)) ↔ (a < k + 1 ∧ BoundaryIx (npts s) (unlin (npts s) a)) := by
        intro a
        constructor
        · rintro ⟨h1, h2⟩; exact ⟨by omega, h2⟩
        · rintro ⟨h1, h2⟩
          refine ⟨?_, h2⟩
          by_contra hc
          obtain rfl : a = k := by omega
          exact hB h2
      simp only [e])
  simp only [Nat.not_lt_zero, false_and, if_false] at this
  rw [this]
  congr 2
  · apply matOf_congr
    intro a ha b _
    simp only [ha, true_and]
  · apply vecOf_congr
    intro a ha
    simp only [ha, true_and]

/-- The number of boundary control points before the one with number `k`. -/
def boundaryRank (ns : List ℕ) (k : ℕ) : ℕ := ((range k).filter fun a => BoundaryIx ns (unlin ns a)).card

theorem boundaryRank_succ (ns : List ℕ) (k : ℕ) :
    boundaryRank ns (k + 1) = boundaryRank ns k + if BoundaryIx ns (unlin ns k) then 1 else 0 := by
  unfold boundaryRank
  rw [range_add_one, Finset.filter_insert]
  split
  · rw [Finset.card_insert_of_notMem (by simp)]
  · rfl

theorem boundaryRank_mono (ns : List ℕ) {a b : ℕ} (h : a ≤ b) : boundaryRank ns a ≤ boundaryRank ns b :=
  Finset.card_le_card (Finset.filter_subset_filter _ (Finset.range_subset_range.2 h))

/-- `SetDirichletBC` with as many values as there are boundary points. -/
theorem setDirichletBC_eq {s : Spl K} (h : WFSpl s) (hsz : (npts s).prod < 2 ^ 64) (f : ℕ → ℕ → K) (g : ℕ → K) (d : Option (List K))
    (v : List K) (hv : v = d.getD ((vecOf (npts s).prod g).map fun _ => 0)) (hl : boundaryRank (npts s) (npts s).prod ≤ v.length) :
    setDirichletBC s (matOf (npts s).prod f) (vecOf (npts s).prod g) d =
      .ok (matOf (npts s).prod fun a b => if BoundaryIx (npts s) (unlin (npts s) a) then (if a = b then 1 else 0) else f a b,
        vecOf (npts s).prod fun a => if BoundaryIx (npts s) (unlin (npts s) a) then v.getD (boundaryRank (npts s) a) 0 else g a) := by
  unfold setDirichletBC
  rw [h.num, ← hv]
  dsimp only
  have := upLoop_fun (ns := npts s) (body := dirichletBody v) (fun k =>
    ((matOf (npts s).prod fun a b => if a < k ∧ BoundaryIx (npts s) (unlin (npts s) a) then (if a = b then 1 else 0) else f a b,
        vecOf (npts s).prod fun a => if a < k ∧ BoundaryIx (npts s) (unlin (npts s) a) then v.getD (boundaryRank (npts s) a) 0 else g a),
      boundaryRank (npts s) k)) (by
    intro k hk
    have hb := onBoundary_iff (unlin_inBox (npts_pos h) k)
    unfold dirichletBody
    by_cases hB : BoundaryIx (npts s) (unlin (npts s) k)
    · have hr : boundaryRank (npts s) k < v.length := by
        have h1 := boundaryRank_succ (npts s) k
        rw [if_pos hB] at h1
        have h2 := boundaryRank_mono (npts s) (show k + 1 ≤ (npts s).prod by omega)
        omega
      have hg : getVec v (boundaryRank (npts s) k) = .ok (v.getD (boundaryRank (npts s) k) 0) := by
        unfold getVec
        rw [List.getElem?_eq_getElem hr]
        simp [List.getD, hr]
      rw [if_pos (hb.2 hB), get1D_zl_unlin hk, toSizeT_nat (by omega)]
      dsimp only
      rw [hg, ok_bind, setVec_eq hk, ok_bind, unitRow_eq hk, ok_bind, pure_ok, boundaryRank_succ, if_pos hB]
      congr 3
      · apply matOf_congr
        intro a _ b _
        by_cases e : a = k
        · subst e; simp [hB]
        · rw [if_neg e]
          have : a < k + 1 ↔ a < k := by omega
          simp only [this]
      · apply vecOf_congr
        intro a _
        by_cases e : a = k
        · subst e; simp [hB]
        · rw [if_neg e]
          have : a < k + 1 ↔ a < k := by omega
          simp only [this]
    · rw [if_neg (by rw [hb]; exact hB)]
      have e : ∀ a, (a < k ∧ BoundaryIx (npts s) (unlin (npts s) a)) ↔ (a < k + 1 ∧ BoundaryIx (npts s) (unlin (npts s) a)) := by
        intro a
        constructor
        · rintro ⟨h1, h2⟩; exact ⟨by omega, h2⟩
        · rintro ⟨h1, h2⟩
          refine ⟨?_, h2⟩
          by_contra hc
          obtain rfl : a = k := by omega
          exact hB h2
      simp only [e]
      rw [boundaryRank_succ, if_neg hB, add_zero])
  have z : boundaryRank (npts s) 0 = 0 := rfl
  simp only [Nat.not_lt_zero, false_and, if_false, z] at this
  rw [this, ok_bind, pure_ok]
  dsimp only
  congr 2
  · apply matOf_congr
    intro a ha b _
    simp only [ha, true_and]
  · apply vecOf_congr
    intro a ha
    simp only [ha, true_and]

/-- `x` lies on the boundary of the parameter domain. -/
def OnEdge (Us : List (List K)) (x : List K) : Prop := ∃ (d : ℕ) (U : List K) (a : K), Us[d]? = some U ∧ x[d]? = some a ∧ (a = knot U 0 ∨ a = lastKnot U)

/-- The functions of the inner control points vanish on the boundary. -/
theorem inner_vanish {Us : List (List K)} {ps : List ℕ} (h : List.Forall₂ WFKnots Us ps) :
    List.Forall₂ ExactEnds Us ps → ∀ {x : List K} {I : List ℕ}, Dom Us x → InBox (nptsOf Us ps) I → OnEdge Us x →
      ¬ BoundaryIx (nptsOf Us ps) I → dprod (basisFns Us ps x) I = 0 := by
  induction h with
  | nil =>
    rintro - x I hx - ⟨d, U, a, h1, -⟩
    simp at h1
  | @cons U p Us ps hU hUs ih =>
    intro he x I hx hI hE hB
    cases he with
    | cons he1 he2 =>
      cases x with
      | nil => cases hx
      | cons a x =>
        obtain ⟨hx1, hx2⟩ := List.forall₂_cons.1 hx
        cases I with
        | nil => simp [nptsOf] at hI
        | cons i I =>
          have hI' : i < U.length - p - 1 ∧ InBox (nptsOf Us ps) I := by simpa [nptsOf] using hI
          have hB' : ¬ ((i = 0 ∨ i + 1 = U.length - p - 1) ∨ BoundaryIx (nptsOf Us ps) I) := by
            rw [← boundaryIx_cons]; exact hB
          have hs := hU.size
          simp only [basisFns, dprod]
          obtain ⟨d, V, c, h1, h2, h3⟩ := hE
          cases d with
          | zero =>
            simp only [List.getElem?_cons_zero, Option.some.injEq] at h1 h2
            subst h1; subst h2
            rcases h3 with rfl | rfl
            · rw [cox_first hU he1.1 (by omega), if_neg (by tauto), zero_mul]
            · rw [cox_last hU he1.2 (by omega), if_neg (by intro e; apply hB'; left; right; omega), zero_mul]
          | succ d =>
            rw [ih he2 hx2 hI'.2 ⟨d, V, c, by simpa using h1, by simpa using h2, h3⟩ (by tauto), mul_zero]

end Iga
end SplineLib
