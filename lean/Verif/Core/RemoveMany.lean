import Verif.Core.RemoveBack

/-!
# `RemoveKnot`: insertion followed by removal, and the number of removed knots (helper lemmas)
-/

namespace SplineLib
set_option linter.unusedSectionVars false
open Finset

section
variable {K : Type} [Field K] [LinearOrder K] [IsStrictOrderedRing K]
variable [HasSqrt K]

/-- Inserting `m` copies and removing `m` copies gives back the same object. -/
theorem insert_remove (h0 : HasSqrt.sqrt (0 : K) = 0) {s : Spl K} (h : WFSpl s) {d : ℕ} {U : List K} {p : ℕ}
    (hU : s.ps.knots[d]? = some U) (hp : s.ps.degree[d]? = some p) {t : K} (ht : Admissible U t) {tol : K} (htol : 0 ≤ tol) :
    ∀ (m : ℕ), U.length + m < 2 ^ 63 → kvMult U t + m ≤ p → ∃ s', s.insertKnot t d m = .ok s' ∧ WFSpl s' ∧
      s'.ps.degree = s.ps.degree ∧ s'.ps.knots = s.ps.knots.set d (insMany U t m) ∧
      ∀ c, Spl.removeRounds t d tol m c s' = .ok (s, c + m) := by
  have hw := forall₂_get h.knots hU hp
  intro m
  induction m with
  | zero =>
    intro _ _
    refine ⟨s, ?_, h, rfl, (set_same hU).symm, fun c => rfl⟩
    simp only [Spl.insertKnot, getN_some hU, ok_bind, getN_some hp, ht.span_eq hw, Spl.insertRounds, Spl.insertKnotsPS]
    rfl
  | succ m ih =>
    intro hsz hm
    obtain ⟨s1, e1, w1, d1, k1, r1⟩ := ih (by omega) (by omega)
    have hf := insMany_facts hw ht m
    have hk1 : s1.ps.knots[d]? = some (insMany U t m) := by
      rw [k1, List.getElem?_set]; simp [lt_of_some hU]
    have hd1 : s1.ps.degree[d]? = some p := by rw [d1]; exact hp
    obtain ⟨s2, e2, w2, d2, k2, g2, b2⟩ := insertKnot_one_blend w1 hk1 hd1 hf.adm (by rw [hf.length]; omega)
    have hk2 : s2.ps.knots = s.ps.knots.set d (insMany U t (m + 1)) := by rw [k2, k1, List.set_set]; rfl
    refine ⟨s2, ?_, w2, d2.trans d1, hk2, ?_⟩
    · rw [insertKnot_succ hw hU hp ht (by omega) e1 hk1 hd1, e2]
    · intro c
      have hr := removed_of_insert hf.wf hf.adm
      have hlen := hr.length
      have hU2 : s2.ps.knots[d]? = some (insMany U t (m + 1)) := by
        rw [hk2, List.getElem?_set]; simp [lt_of_some hU]
      have hp2 : s2.ps.degree[d]? = some p := by rw [d2]; exact hd1
      obtain ⟨scaling, hs, hstep⟩ := removeRounds_step w2.wfps hU2 hp2 hr (by have := (insMany_facts hw ht (m + 1)).length; omega)
      obtain ⟨b1, b2', b3, b4, _⟩ := hr.bounds (by rw [hf.mult]; omega)
      have hpos : ∀ n ∈ npts s1, 0 < n := nptsOf_pos w1.knots
      have hix : ixd (npts s1) d = (insMany U t m).length - p - 1 := nptsOf_ixd hk1 hd1
      have hdn : d < (npts s1).length := lt_of_some (nptsOf_get hk1 hd1)
      have hsize := hf.wf.size
      have hns : npts s2 = (npts s1).set d (ixd (npts s1) d + 1) := by
        rw [npts_eq, k2, d2, nptsOf_set _ hd1, hix, hlen, npts_eq]
        congr 1; omega
      have hB : Blended s1.ph s2.ph (npts s1) d (spanIx (insMany U t m) t + 1 - p)
          (spanIx (insMany U t m) t - kvMult (insMany U t m) t) (insα (insMany U t m) p t) := by
        refine ⟨w1.phys, hns ▸ w2.phys, g2.dim, g2.kind, ?_, ?_⟩
        · intro I hI
          rw [← hns] at hI ⊢
          exact (b2 I hI).1
        · intro I hI c hc
          rw [← hns] at hI ⊢
          exact (b2 I hI).2 c hc
      rw [hstep, removeControlPoints_blended h0 hB hpos hdn b1 b2' (by rw [hlen] at b3; omega) hs b4 htol, ok_bind]
      dsimp only
      have hspl : (⟨⟨s2.ps.knots.set d (insMany U t m), s2.ps.degree, mkTable (s2.ps.knots.set d (insMany U t m)) s2.ps.degree⟩, s1.ph⟩ : Spl K) = s1 := by
        have a1 : s2.ps.knots.set d (insMany U t m) = s1.ps.knots := by rw [hk2, k1, List.set_set]
        have a3 := w1.wfps.table
        rw [a1, d2, ← a3]
      rw [hspl, r1]
      congr 2; omega

/-- A spline whose weights (if any) need not be positive. -/
structure ShapeSpl (s : Spl K) : Prop where
  ps : WFPS s.ps
  ph : ShapePhys s.ph (npts s)

theorem WFSpl.shape {s : Spl K} (h : WFSpl s) : ShapeSpl s := ⟨h.wfps, h.phys.shape⟩

/-- What `k` removals of `t` do to the shape of a spline. -/
structure Shrunk (s s' : Spl K) (d : ℕ) (U V : List K) (t : K) (k : ℕ) : Prop where
  shape : ShapeSpl s'
  knots : s'.ps.knots = s.ps.knots.set d V
  degree : s'.ps.degree = s.ps.degree
  length : V.length + k = U.length
  count : ∀ y, V.count y + (if y = t then k else 0) = U.count y
  num : s'.ph.num = s.ph.num.modify d (· - (k : ℤ))
  dim : s'.ph.dim = s.ph.dim
  kind : s.ph.weights = none ↔ s'.ph.weights = none
  same : k = 0 → s' = s

/-- One round: the outcome in terms of `removeControlPoints`. -/
theorem removeRounds_outcome {s : Spl K} (h : ShapeSpl s) {d : ℕ} {U V : List K} {p : ℕ} {t : K} (hU : s.ps.knots[d]? = some U)
    (hp : s.ps.degree[d]? = some p) (hr : Removed U V p t) (hm : kvMult U t ≤ p) (hsz : U.length < 2 ^ 63) (tol : K) :
    ∃ T, effTol s.ph tol = .ok T ∧ ∀ n c,
      (∃ er, Spl.removeRounds t d tol (n + 1) c s = .error er ∧ IsNurbs s) ∨
      ((¬ ∀ e < ((npts s).set d 1).prod, LineOK s.ph (npts s) d (spanIx V t + 1 - p) (spanIx V t - kvMult V t)
          ((p - kvMult V t) / 2) (insα V p t) T e) ∧ Spl.removeRounds t d tol (n + 1) c s = .ok (s, c)) ∨
      ((∀ e < ((npts s).set d 1).prod, LineOK s.ph (npts s) d (spanIx V t + 1 - p) (spanIx V t - kvMult V t)
          ((p - kvMult V t) / 2) (insα V p t) T e) ∧ ∃ s1, Spl.removeRounds t d tol (n + 1) c s = Spl.removeRounds t d tol n (c + 1) s1 ∧
        Shrunk s s1 d U V t 1 ∧ npts s1 = (npts s).set d (ixd (npts s) d - 1) ∧
        RemResult s.ph s1.ph (npts s) d (spanIx V t + 1 - p) (spanIx V t - kvMult V t) ((p - kvMult V t) / 2) (insα V p t)) := by
  obtain ⟨scaling, hs, hstep⟩ := removeRounds_step h.ps hU hp hr hsz
  have hmul := hr.mult
  obtain ⟨b1, b2, b3, b4, _⟩ := hr.bounds (by omega)
  have hlo := (hr.adm.pos hr.wf).1.lo
  have hmk := (hr.adm.pos hr.wf).2.2.1
  have hpos : ∀ n ∈ npts s, 0 < n := nptsOf_pos h.ps.knots
  have hix : ixd (npts s) d = U.length - p - 1 := nptsOf_ixd hU hp
  have hdn : d < (npts s).length := lt_of_some (nptsOf_get hU hp)
  have hmm : (p - kvMult V t) / 2 = (spanIx V t - kvMult V t + 1 - (spanIx V t + 1 - p)) / 2 := by congr 1; omega
  obtain ⟨T, hT, hTb, _⟩ := effTol_ok h.ph hpos tol
  refine ⟨T, hT, ?_⟩
  intro n c
  have key : (∃ er, Spl.removeControlPoints s.ph scaling ((spanIx V t + 1 - p : ℕ) : ℤ) ((spanIx V t - kvMult V t : ℕ) : ℤ) d tol = .error er ∧ IsNurbs s) ∨
      (∃ r, Spl.removeControlPoints s.ph scaling ((spanIx V t + 1 - p : ℕ) : ℤ) ((spanIx V t - kvMult V t : ℕ) : ℤ) d tol = .ok r ∧
        ((∀ e < ((npts s).set d 1).prod, LineOK s.ph (npts s) d (spanIx V t + 1 - p) (spanIx V t - kvMult V t)
          ((p - kvMult V t) / 2) (insα V p t) T e) → ∃ ph', r = some ph' ∧
            RemResult s.ph ph' (npts s) d (spanIx V t + 1 - p) (spanIx V t - kvMult V t) ((p - kvMult V t) / 2) (insα V p t)) ∧
        ((¬ ∀ e < ((npts s).set d 1).prod, LineOK s.ph (npts s) d (spanIx V t + 1 - p) (spanIx V t - kvMult V t)
          ((p - kvMult V t) / 2) (insα V p t) T e) → r = none)) := by
    cases hw : s.ph.weights with
    | none =>
      right
      rw [hTb hw]
      exact removeControlPoints_bspline h.ph hpos hdn b1 b2 (by omega) hs b4 hmm hw tol
    | some w =>
      obtain ⟨a1, a2⟩ := removeControlPoints_nurbs h.ph hpos hdn b1 b2 (by omega) hs b4 hmm hw hT
      by_cases hz : NoZero s.ph (npts s) d (spanIx V t + 1 - p) (spanIx V t - kvMult V t) ((p - kvMult V t) / 2) (insα V p t)
      · exact Or.inr (a1 hz)
      · obtain ⟨er, he⟩ := a2 hz
        exact Or.inl ⟨er, he, w, hw⟩
  rcases key with ⟨er, he, hn⟩ | ⟨r, he, hy, hno⟩
  · left
    exact ⟨er, by rw [hstep, he]; rfl, hn⟩
  · right
    by_cases hall : ∀ e < ((npts s).set d 1).prod, LineOK s.ph (npts s) d (spanIx V t + 1 - p) (spanIx V t - kvMult V t)
          ((p - kvMult V t) / 2) (insα V p t) T e
    · right
      obtain ⟨ph', hr', hR⟩ := hy hall
      refine ⟨hall, ⟨⟨s.ps.knots.set d V, s.ps.degree, mkTable (s.ps.knots.set d V) s.ps.degree⟩, ph'⟩, ?_, ?_, ?_, hR⟩
      · rw [hstep, he, hr']; rfl
      · have hns : nptsOf (s.ps.knots.set d V) s.ps.degree = (npts s).set d (ixd (npts s) d - 1) := by
          rw [nptsOf_set _ hp, hix, npts_eq]
          have := hr.length
          congr 1; omega
        have hsh := hR.shape
        rw [← hns] at hsh
        refine ⟨⟨(psRemove h.ps hU hp hr).2, hsh⟩, rfl, rfl, hr.length.symm, ?_, ?_, hR.sameDim, hR.kind, fun h => by omega⟩
        · intro y
          have := count_insertIdx (U := V) (k := spanIx V t + 1) (by have := (hr.adm.pos hr.wf).1.hi; omega) t y
          rw [← hr.back] at this
          exact this.symm
        · rw [hsh.num, hns, h.ph.num]
          symm
          apply modify_zl hdn
          have := ixd_pos hpos hdn
          omega
      · rw [npts_eq]
        simp only
        rw [nptsOf_set _ hp, hix, npts_eq]
        have := hr.length
        congr 1; omega
    · left
      refine ⟨hall, ?_⟩
      rw [hstep, he, hno hall]; rfl

theorem Shrunk.refl {s : Spl K} (h : ShapeSpl s) {d : ℕ} {U : List K} {t : K} (hU : s.ps.knots[d]? = some U) : Shrunk s s d U U t 0 :=
  ⟨h, (set_same hU).symm, rfl, rfl, fun y => by split_ifs <;> rfl, by
    simp only [Nat.cast_zero, sub_zero]; exact (List.modify_id _ _).symm, rfl, Iff.rfl, fun _ => rfl⟩

theorem Shrunk.trans {s s1 s2 : Spl K} {d : ℕ} {U V W : List K} {t : K} {k : ℕ} (h : Shrunk s s1 d U V t 1)
    (g : Shrunk s1 s2 d V W t k) : Shrunk s s2 d U W t (k + 1) := by
  refine ⟨g.shape, ?_, g.degree.trans h.degree, by have := h.length; have := g.length; omega, ?_, ?_, g.dim.trans h.dim,
    h.kind.trans g.kind, fun h => by omega⟩
  · rw [g.knots, h.knots, List.set_set]
  · intro y
    have a := h.count y
    have b := g.count y
    split_ifs at a b ⊢ <;> omega
  · rw [g.num, h.num, List.modify_modify_eq]
    congr 1
    funext x
    simp only [Function.comp_apply]; push_cast; ring

/-- The number reported by `RemoveKnot` is the number of removed knots. -/
theorem removeRounds_counts {d : ℕ} {p : ℕ} {t : K} (tol : K) : ∀ (n : ℕ) {s : Spl K} (_ : ShapeSpl s) {U : List K} (_ : s.ps.knots[d]? = some U)
    (_ : s.ps.degree[d]? = some p) (_ : knot U 0 < t) (_ : t < lastKnot U) (_ : n ≤ kvMult U t) (_ : kvMult U t ≤ p)
    (_ : U.length < 2 ^ 63) (c : ℕ),
    (∃ er, Spl.removeRounds t d tol n c s = .error er ∧ IsNurbs s) ∨
    (∃ s' k V, Spl.removeRounds t d tol n c s = .ok (s', c + k) ∧ k ≤ n ∧ Shrunk s s' d U V t k ∧ WFKnots V p) := by
  intro n
  induction n with
  | zero =>
    intro s h U hU hp _ _ _ _ _ c
    exact Or.inr ⟨s, 0, U, rfl, le_refl _, Shrunk.refl h hU, forall₂_get h.ps.knots hU hp⟩
  | succ n ih =>
    intro s h U hU hp h0 h1 hn hm hsz c
    have hw := forall₂_get h.ps.knots hU hp
    obtain ⟨hadm, hr⟩ := removed_of_mem hw h0 h1 (List.one_le_count_iff.1 (by unfold kvMult at hn; omega))
    obtain ⟨T, _, hout⟩ := removeRounds_outcome h hU hp hr hm hsz tol
    rcases hout n c with ⟨er, he, hN⟩ | ⟨_, he⟩ | ⟨_, s1, he, hS, hns, hR⟩
    · exact Or.inl ⟨er, he, hN⟩
    · exact Or.inr ⟨s, 0, U, he, by omega, Shrunk.refl h hU, hw⟩
    · have hU1 : s1.ps.knots[d]? = some (U.eraseIdx (spanIx U t)) := by
        rw [hS.knots, List.getElem?_set]; simp [lt_of_some hU]
      have hmul := hr.mult
      have hlen := hr.length
      rcases ih hS.shape hU1 (by rw [hS.degree]; exact hp) hr.adm.lo hr.adm.hi (by omega) (by omega) (by omega) (c + 1) with
        ⟨er, he', hN⟩ | ⟨s', k, W, he', hk, hS', hW⟩
      · refine Or.inl ⟨er, by rw [he, he'], isNurbs_iff.2 fun hc => isNurbs_iff.1 hN (hS.kind.1 hc)⟩
      · refine Or.inr ⟨s', k + 1, W, ?_, by omega, hS.trans hS', hW⟩
        rw [he, he']
        congr 2; omega

theorem bind_fails {α β : Type} {r : M α} {f : α → M β} (h : ∀ a, ∃ e, f a = .error e) : ∃ e, (r >>= f) = .error e := by
  cases r with
  | error e => exact ⟨e, rfl⟩
  | ok a => exact h a

/-- A knot of full multiplicity cannot be removed. -/
theorem removeRounds_full {s : Spl K} (h : ShapeSpl s) {d : ℕ} {U : List K} {p : ℕ} {t : K} (hU : s.ps.knots[d]? = some U)
    (hp : s.ps.degree[d]? = some p) (h0 : knot U 0 < t) (h1 : t < lastKnot U) (hm : p < kvMult U t) (hsz : U.length < 2 ^ 63)
    (tol : K) (n c : ℕ) : ∃ er, Spl.removeRounds t d tol (n + 1) c s = .error er := by
  have hw := forall₂_get h.ps.knots hU hp
  obtain ⟨hadm, hr⟩ := removed_of_mem hw h0 h1 (List.one_le_count_iff.1 (by unfold kvMult at hm; omega))
  obtain ⟨hi, hlt, hmk, hl1, hl2⟩ := hadm.pos hw
  have hh := hi.hi
  unfold Spl.removeRounds
  rw [getN_some hU, ok_bind, getN_some hp, ok_bind, hadm.span_eq hw, ok_bind]
  dsimp only
  rw [toSizeT_of (i := (spanIx U t : ℤ) - (kvMult U t : ℤ)) (n := spanIx U t - kvMult U t) (by omega) (by omega),
    toSizeT_of (i := (spanIx U t : ℤ) - (p : ℤ)) (n := spanIx U t - p) (by omega) (by omega),
    show Spl.stepCount (spanIx U t - p) (spanIx U t - kvMult U t) = 0 by unfold Spl.stepCount; omega]
  simp only [Spl.scalingLoop, ok_bind]
  have hgi : ∀ i : ℤ, getI ([] : List K) i = .error .ub := by
    intro i
    simp [getI]
  have : ∃ er, Spl.removeControlPoints s.ph [] ((spanIx U t : ℤ) - (p : ℤ)) (Spl.intOfSizeT (spanIx U t - kvMult U t)) d tol = .error er := by
    unfold Spl.removeControlPoints
    dsimp only
    split
    · apply bind_fails
      intro temp
      simp only [pure_ok, ok_bind, hgi, error_bind]
      exact ⟨_, rfl⟩
    · apply bind_fails
      intro tw
      apply bind_fails
      intro temp
      simp only [pure_ok, ok_bind, hgi, error_bind]
      exact ⟨_, rfl⟩
  obtain ⟨er, he⟩ := this
  exact ⟨er, by rw [he]; rfl⟩

end
end SplineLib
