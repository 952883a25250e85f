import Verif.Core.InsertMany
import Verif.Core.RemoveOne

/-!
# One round of `RemoveKnot` (helper lemmas)
-/

namespace SplineLib
set_option linter.unusedSectionVars false
open Finset

section
variable {K : Type} [Field K] [LinearOrder K] [IsStrictOrderedRing K]

/-- The knot vector `U` without one copy of its interior knot `t`. -/
structure Removed (U V : List K) (p : ℕ) (t : K) : Prop where
  wf : WFKnots V p
  adm : Admissible V t
  back : U = V.insertIdx (spanIx V t + 1) t
  span : spanIx U t = spanIx V t + 1
  mult : kvMult U t = kvMult V t + 1
  length : U.length = V.length + 1
  erase : U.eraseIdx (spanIx U t) = V

/-- Every interior knot can be taken out of the knot vector. -/
theorem removed_of_mem {U : List K} {p : ℕ} {t : K} (h : WFKnots U p) (h0 : knot U 0 < t) (h1 : t < lastKnot U) (hm : t ∈ U) :
    Admissible U t ∧ Removed U (U.eraseIdx (spanIx U t)) p t := by
  have ht : Admissible U t := by
    refine ⟨h0, h1, ?_⟩
    intro a ha b hb hab
    refine h.sep a ?_ b ?_ hab
    · rcases List.mem_cons.1 ha with rfl | ha <;> assumption
    · rcases List.mem_cons.1 hb with rfl | hb <;> assumption
  refine ⟨ht, ?_⟩
  obtain ⟨hi, hlt, hmk, hl1, hl2⟩ := ht.pos h
  have hh := hi.hi
  have hm1 : 1 ≤ kvMult U t := List.one_le_count_iff.2 hm
  have hkt : knot U (spanIx U t) = t := hl2 _ (by omega) (le_refl _)
  have hkp : p < spanIx U t := by
    by_contra hc
    have e1 := h.first (spanIx U t) (by omega)
    rw [hkt] at e1
    rw [e1] at h0
    exact lt_irrefl _ h0
  generalize hk : spanIx U t = k at *
  have hlen : (U.eraseIdx k).length + 1 = U.length := by rw [List.length_eraseIdx_of_lt (by omega)]; omega
  have hkn := knot_eraseIdx U k
  have hf : knot (U.eraseIdx k) 0 = knot U 0 := by rw [hkn, if_pos (by omega)]
  have hla : lastKnot (U.eraseIdx k) = lastKnot U := by
    unfold lastKnot
    rw [hkn, if_neg (by omega)]
    congr 1; omega
  have hwf : WFKnots (U.eraseIdx k) p := by
    refine ⟨sorted_eraseIdx h.sorted k, by omega, ?_, ?_, by rw [hf, hla]; exact h.range, ?_⟩
    · intro j hj
      rw [hf, hkn, if_pos (by omega)]
      exact h.first j hj
    · intro j hj
      rw [hla, hkn, if_neg (by omega), ← h.last j hj]
      congr 1; omega
    · intro a ha b hb hab
      exact h.sep a (List.mem_of_mem_eraseIdx ha) b (List.mem_of_mem_eraseIdx hb) hab
  have hadm : Admissible (U.eraseIdx k) t := by
    refine ⟨by rw [hf]; exact h0, by rw [hla]; exact h1, ?_⟩
    intro a ha b hb hab
    refine ht.sep a ?_ b ?_ hab
    · rcases List.mem_cons.1 ha with rfl | ha
      · simp
      · simp [List.mem_of_mem_eraseIdx ha]
    · rcases List.mem_cons.1 hb with rfl | hb
      · simp
      · simp [List.mem_of_mem_eraseIdx hb]
  have hsp : spanIx (U.eraseIdx k) t = k - 1 := by
    apply spanIx_unique hwf hadm.lo.le hadm.hi.le (by omega)
    left
    rw [hkn, hkn, if_pos (by omega), if_neg (by omega), show k - 1 + 1 + 1 = k + 1 by omega]
    refine ⟨?_, hlt⟩
    rw [← hkt]
    exact h.sorted.mono (by omega) (by omega)
  refine ⟨hwf, hadm, ?_, ?_, ?_, by omega, ?_⟩
  · rw [hsp, show k - 1 + 1 = k by omega]
    have := List.insertIdx_eraseIdx_getElem (l := U) (n := k) (by omega)
    rw [← knot_eq (by omega), hkt] at this
    exact this.symm
  · rw [hsp]; omega
  · have := count_eraseIdx (U := U) (k := k) (by omega) t
    rw [hkt, if_pos rfl] at this
    unfold kvMult
    exact this.symm
  · rw [hk]

theorem removed_of_insert {V : List K} {p : ℕ} {t : K} (h : WFKnots V p) (ht : Admissible V t) :
    Removed (V.insertIdx (spanIx V t + 1) t) V p t := by
  refine ⟨h, ht, rfl, ht.next_span h, ht.next_mult h, (ht.pos h).1.length, ?_⟩
  rw [ht.next_span h]
  exact List.eraseIdx_insertIdx_self t

variable {U V : List K} {p : ℕ} {t : K}

theorem Removed.wfU (h : Removed U V p t) : WFKnots U p := by rw [h.back]; exact (h.adm.pos h.wf).1.wf'

theorem Removed.admU (h : Removed U V p t) : Admissible U t := by rw [h.back]; exact h.adm.next h.wf

theorem Removed.knot (h : Removed U V p t) (i : ℕ) : knot U i =
    if i ≤ spanIx V t then SplineLib.knot V i else if i = spanIx V t + 1 then t else SplineLib.knot V (i - 1) := by
  conv_lhs => rw [h.back]
  exact (h.adm.pos h.wf).1.knot i

theorem Removed.firstKnot (h : Removed U V p t) : SplineLib.knot U 0 = SplineLib.knot V 0 := by
  rw [h.back]; exact (h.adm.pos h.wf).1.firstKnot

theorem Removed.lastKnot (h : Removed U V p t) : SplineLib.lastKnot U = SplineLib.lastKnot V := by
  rw [h.back]; exact (h.adm.pos h.wf).1.lastKnot

/-- The bounds that the removal of control points needs. -/
theorem Removed.bounds (h : Removed U V p t) (hm : kvMult V t < p) :
    1 ≤ spanIx V t + 1 - p ∧ spanIx V t + 1 - p ≤ spanIx V t - kvMult V t ∧ spanIx V t - kvMult V t + 1 < U.length - p - 1 ∧
      Strict (spanIx V t + 1 - p) (spanIx V t - kvMult V t) (insα V p t) ∧
      ∀ j, spanIx V t + 1 - p ≤ j → j ≤ spanIx V t - kvMult V t → 0 < insα V p t j ∧ insα V p t j < 1 := by
  obtain ⟨hi, hlt, hmk, hl1, hl2⟩ := h.adm.pos h.wf
  have hh := hi.hi
  have hlo := hi.lo
  have hlen := h.length
  have hb : ∀ j, spanIx V t + 1 - p ≤ j → j ≤ spanIx V t - kvMult V t → 0 < insα V p t j ∧ insα V p t j < 1 := by
    intro j h1 h2
    have a1 : SplineLib.knot V j ≤ SplineLib.knot V (spanIx V t - kvMult V t) := h.wf.sorted.mono h2 (by omega)
    have a2 : SplineLib.knot V (spanIx V t + 1) ≤ SplineLib.knot V (j + p) := h.wf.sorted.mono (by omega) (by omega)
    have p1 : 0 < t - SplineLib.knot V j := by linarith
    have p2 : 0 < SplineLib.knot V (j + p) - SplineLib.knot V j := by linarith
    refine ⟨div_pos p1 p2, ?_⟩
    unfold insα; rw [div_lt_one p2]; linarith
  refine ⟨by omega, by omega, by omega, fun i h1 h2 => ⟨(hb i h1 h2).1.ne', ?_⟩, hb⟩
  exact sub_ne_zero.2 (hb i h1 h2).2.ne'

theorem scalingAt_map {α : ℕ → K} {first last : ℕ} :
    ScalingAt ((List.range (Spl.stepCount first last)).map fun q => α (first + q)) first last α := by
  intro i h1 h2
  rw [show (i : ℤ) - (first : ℤ) = ((i - first : ℕ) : ℤ) by omega, getI_map_range (by unfold Spl.stepCount; omega)]
  congr 2; omega

/-- The parameter space part of a removal. -/
theorem psRemove {ps : PS K} (h : WFPS ps) {d : ℕ} (hU : ps.knots[d]? = some U) (hp : ps.degree[d]? = some p)
    (hr : Removed U V p t) :
    ps.removeKnot t d = .ok ⟨ps.knots.set d V, ps.degree, mkTable (ps.knots.set d V) ps.degree⟩ ∧
      WFPS (⟨ps.knots.set d V, ps.degree, mkTable (ps.knots.set d V) ps.degree⟩ : PS K) := by
  have hk : List.Forall₂ WFKnots (ps.knots.set d V) ps.degree := forall₂_set h.knots hp hr.wf
  refine ⟨?_, hk, basisTable_eq (forall₂_size hk)⟩
  have hh := (hr.admU.pos hr.wfU).1.hi
  have e1 : kvRemove U t = .ok V := by
    simp only [kvRemove, hr.admU.span_eq hr.wfU, ok_bind, hr.admU.notLast hr.wfU, Bool.false_eq_true, if_false]
    rw [if_pos (by omega), Int.toNat_natCast, hr.erase]
    rfl
  simp only [PS.removeKnot, getN_some hU, ok_bind, e1, PS.recreate, basisTable_eq (forall₂_size hk)]
  rfl

variable [HasSqrt K]

/-- One round of `RemoveKnot`. -/
theorem removeRounds_step {s : Spl K} (hps : WFPS s.ps) {d : ℕ} (hU : s.ps.knots[d]? = some U) (hp : s.ps.degree[d]? = some p)
    (hr : Removed U V p t) (hsz : U.length < 2 ^ 63) :
    ∃ scaling, ScalingAt scaling (spanIx V t + 1 - p) (spanIx V t - kvMult V t) (insα V p t) ∧ ∀ tol n c,
      Spl.removeRounds t d tol (n + 1) c s =
        (Spl.removeControlPoints s.ph scaling ((spanIx V t + 1 - p : ℕ) : ℤ) ((spanIx V t - kvMult V t : ℕ) : ℤ) d tol >>= fun r =>
          match r with
          | none => .ok (s, c)
          | some ph => Spl.removeRounds t d tol n (c + 1)
              ⟨⟨s.ps.knots.set d V, s.ps.degree, mkTable (s.ps.knots.set d V) s.ps.degree⟩, ph⟩) := by
  obtain ⟨hi, hlt, hmk, hl1, hl2⟩ := hr.adm.pos hr.wf
  have hh := hi.hi
  have hlo := hi.lo
  have hlen := hr.length
  refine ⟨_, scalingAt_map, ?_⟩
  intro tol n c
  conv_lhs => unfold Spl.removeRounds
  rw [getN_some hU, ok_bind, getN_some hp, ok_bind, hr.admU.span_eq hr.wfU, ok_bind, hr.span, hr.mult]
  dsimp only
  rw [toSizeT_of (i := ((spanIx V t + 1 : ℕ) : ℤ) - ((kvMult V t + 1 : ℕ) : ℤ)) (n := spanIx V t - kvMult V t) (by omega) (by omega),
    toSizeT_of (i := ((spanIx V t + 1 : ℕ) : ℤ) - (p : ℤ)) (n := spanIx V t + 1 - p) (by omega) (by omega)]
  rw [scalingLoop_eq (α := insα V p t)]
  · rw [ok_bind, intOfSizeT_nat (by omega), show ((spanIx V t + 1 : ℕ) : ℤ) - (p : ℤ) = ((spanIx V t + 1 - p : ℕ) : ℤ) by omega]
    generalize Spl.removeControlPoints s.ph _ _ _ d tol = r
    cases r with
    | error e => rfl
    | ok r =>
      cases r with
      | none => rfl
      | some ph => simp only [ok_bind, (psRemove hps hU hp hr).1]
  · intro q hq
    simp only [Spl.stepCount] at hq
    have hb := insα_bounds hi (j := spanIx V t + 1 - p + q) (Nat.sub_le _ _) hl1 (by omega) (by omega)
    have k1 : SplineLib.knot U (spanIx V t + 1 - p + q) = SplineLib.knot V (spanIx V t + 1 - p + q) := by
      rw [hr.knot, if_pos (by omega)]
    have k2 : SplineLib.knot U (spanIx V t + 1 - p + q + p + 1) = SplineLib.knot V (spanIx V t + 1 - p + q + p) := by
      rw [hr.knot, if_neg (by omega), if_neg (by omega)]; rfl
    refine ⟨by omega, spanIx V t + 1 - p + q + p + 1, by omega, by push_cast; omega, by omega, ?_, ?_⟩
    · rw [k1, k2]; linarith [hb.1, hb.2.1]
    · rw [k1, k2]; rfl

end
end SplineLib
