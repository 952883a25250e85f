import Verif.Core.InsertOne

/-!
# Repeated insertion of a knot (helper lemmas)
-/

namespace SplineLib
set_option linter.unusedSectionVars false
open Finset

section
variable {K : Type} [Field K] [LinearOrder K] [IsStrictOrderedRing K]

/-- The knot vector after `m` insertions of `t`. -/
def insMany (U : List K) (t : K) : ℕ → List K
  | 0 => U
  | m + 1 => (insMany U t m).insertIdx (spanIx (insMany U t m) t + 1) t

structure InsManyFacts (U : List K) (p : ℕ) (t : K) (m : ℕ) : Prop where
  wf : WFKnots (insMany U t m) p
  adm : Admissible (insMany U t m) t
  span : spanIx (insMany U t m) t = spanIx U t + m
  mult : kvMult (insMany U t m) t = kvMult U t + m
  length : (insMany U t m).length = U.length + m
  knot : ∀ i, knot (insMany U t m) i =
    if i ≤ spanIx U t then SplineLib.knot U i else if i ≤ spanIx U t + m then t else SplineLib.knot U (i - m)
  first : SplineLib.knot (insMany U t m) 0 = SplineLib.knot U 0
  last : lastKnot (insMany U t m) = lastKnot U
  count : ∀ y, (insMany U t m).count y = U.count y + if y = t then m else 0

theorem insMany_facts {U : List K} {p : ℕ} {t : K} (h : WFKnots U p) (ht : Admissible U t) (m : ℕ) : InsManyFacts U p t m := by
  induction m with
  | zero =>
    refine ⟨h, ht, rfl, rfl, rfl, ?_, rfl, rfl, fun y => by simp [insMany]⟩
    intro i
    simp only [insMany]
    split_ifs <;> first | rfl | omega
  | succ m ih =>
    obtain ⟨hi, _⟩ := ih.adm.pos ih.wf
    have hh := hi.hi
    refine ⟨hi.wf', ih.adm.next ih.wf, ?_, ?_, ?_, ?_, ?_, ?_, ?_⟩
    · simp only [insMany]; rw [ih.adm.next_span ih.wf, ih.span]; ring
    · simp only [insMany]; rw [ih.adm.next_mult ih.wf, ih.mult]; ring
    · simp only [insMany]; rw [hi.length, ih.length]; ring
    · intro i
      simp only [insMany]
      rw [hi.knot, ih.span]
      by_cases c1 : i ≤ spanIx U t
      · rw [if_pos (by omega), ih.knot, if_pos c1, if_pos c1]
      · by_cases c2 : i ≤ spanIx U t + m
        · rw [if_pos c2, ih.knot, if_neg c1, if_pos c2, if_neg c1, if_pos (by omega)]
        · rw [if_neg c2, if_neg c1]
          by_cases c3 : i = spanIx U t + m + 1
          · rw [if_pos c3, if_pos (by omega)]
          · rw [if_neg c3, if_neg (by omega), ih.knot, if_neg (by omega), if_neg (by omega)]
            congr 1; omega
    · simp only [insMany]; rw [hi.firstKnot, ih.first]
    · simp only [insMany]; rw [hi.lastKnot, ih.last]
    · intro y
      simp only [insMany]
      rw [count_insertIdx (by omega), ih.count]
      split_ifs <;> ring

theorem scalingLoop_congr {U V : List K} {x : K} {sh sh' : ℤ} : ∀ (n j : ℕ),
    (∀ q < n, kvGet U (j + q) = kvGet V (j + q) ∧ kvGet U (toSizeT (((j + q : ℕ) : ℤ) + sh)) = kvGet V (toSizeT (((j + q : ℕ) : ℤ) + sh'))) →
    Spl.scalingLoop U x sh n j = Spl.scalingLoop V x sh' n j := by
  intro n
  induction n with
  | zero => intro j _; rfl
  | succ n ih =>
    intro j h
    obtain ⟨h1, h2⟩ := h 0 (by omega)
    simp only [Nat.add_zero] at h1 h2
    unfold Spl.scalingLoop
    rw [h1, h2, ih (j + 1) (fun q hq => by have := h (q + 1) (by omega); rwa [show j + (q + 1) = j + 1 + q by ring] at this)]

theorem insertRounds_append {U : List K} {p : ℕ} {x : K} (hl : kvIsLast U x = .ok false) (d : ℕ) (span : ℤ) : ∀ (n i : ℕ) (ph : Phys K),
    Spl.insertRounds U p x d (n + 1) i span ph = (Spl.insertRounds U p x d n i span ph >>= fun ph' => Spl.insertRounds U p x d 1 (i + n) span ph') := by
  intro n
  induction n with
  | zero => intro i ph; simp only [Spl.insertRounds, ok_bind]; rfl
  | succ n ih =>
    intro i ph
    rw [Spl.insertRounds]
    conv_rhs => rw [Spl.insertRounds]
    simp only [hl, ok_bind, Bool.false_eq_true, if_false]
    simp only [bind_assoc]
    congr 1; funext sc; congr 1; funext ph'
    rw [ih, show i + 1 + n = i + (n + 1) by ring]

theorem insertKnotsPS_append (x : K) (d : ℕ) : ∀ (n : ℕ) (ps : PS K),
    Spl.insertKnotsPS x d (n + 1) ps = (Spl.insertKnotsPS x d n ps >>= fun ps' => Spl.insertKnotsPS x d 1 ps') := by
  intro n
  induction n with
  | zero => intro ps; simp only [Spl.insertKnotsPS, ok_bind]
  | succ n ih =>
    intro ps
    rw [Spl.insertKnotsPS]
    conv_rhs => rw [Spl.insertKnotsPS]
    simp only [bind_assoc]
    congr 1; funext ps'
    rw [ih]

/-- Round `m+1` on the original knot vector does the same as the first round on the knot vector with `m` copies inserted. -/
theorem insertRounds_shift {U : List K} {p : ℕ} {t : K} (h : WFKnots U p) (ht : Admissible U t) {m : ℕ} (hsz : U.length + m < 2 ^ 63) (d : ℕ)
    (ph : Phys K) :
    Spl.insertRounds U p t d 1 (1 + m) (spanIx U t : ℤ) ph =
      Spl.insertRounds (insMany U t m) p t d 1 1 (spanIx (insMany U t m) t : ℤ) ph := by
  have hf := insMany_facts h ht m
  obtain ⟨hi, hlt, hm, hl1, hl2⟩ := ht.pos h
  have hh := hi.hi
  have hlo := hi.lo
  unfold Spl.insertRounds
  rw [ht.notLast h, hf.adm.notLast hf.wf, ok_bind, ok_bind, hf.span, hf.mult]
  simp only [Bool.false_eq_true, if_false]
  rw [toSizeT_of (i := (spanIx U t : ℤ) - (kvMult U t : ℤ)) (n := spanIx U t - kvMult U t) (by omega) (by omega),
    toSizeT_of (i := (spanIx U t : ℤ) - (p : ℤ) + ((1 + m : ℕ) : ℤ)) (n := spanIx U t + m + 1 - p) (by omega) (by omega),
    toSizeT_of (i := ((spanIx U t + m : ℕ) : ℤ) - ((kvMult U t + m : ℕ) : ℤ)) (n := spanIx U t - kvMult U t) (by omega) (by omega),
    toSizeT_of (i := ((spanIx U t + m : ℕ) : ℤ) - (p : ℤ) + ((1 : ℕ) : ℤ)) (n := spanIx U t + m + 1 - p) (by omega) (by omega)]
  rw [scalingLoop_congr (V := insMany U t m) (sh' := (p : ℤ) - ((1 : ℕ) : ℤ) + 1)]
  · rfl
  · intro q hq
    simp only [Spl.stepCount] at hq
    have hl := hf.length
    constructor
    · rw [kvGet_eq (by omega), kvGet_eq (by omega), hf.knot, if_pos (by omega)]
    · rw [toSizeT_of (n := spanIx U t + m + 1 - p + q + p - m) (by omega) (by omega),
        toSizeT_of (n := spanIx U t + m + 1 - p + q + p) (by omega) (by omega), kvGet_eq (by omega), kvGet_eq (by omega), hf.knot,
        if_neg (by omega), if_neg (by omega)]

/-- Inserting `m+1` copies is inserting `m` copies and then one more. -/
theorem insertKnot_succ {s : Spl K} {d : ℕ} {U : List K} {p : ℕ} (hw : WFKnots U p) (hU : s.ps.knots[d]? = some U)
    (hp : s.ps.degree[d]? = some p) {t : K} (ht : Admissible U t) {m : ℕ} (hsz : U.length + m < 2 ^ 63) {s' : Spl K}
    (hs : s.insertKnot t d m = .ok s') (hk : s'.ps.knots[d]? = some (insMany U t m)) (hd : s'.ps.degree[d]? = some p) :
    s.insertKnot t d (m + 1) = s'.insertKnot t d 1 := by
  have hf := insMany_facts hw ht m
  unfold Spl.insertKnot at hs ⊢
  rw [getN_some hU, ok_bind, getN_some hp, ok_bind, ht.span_eq hw, ok_bind] at hs ⊢
  rw [getN_some hk, ok_bind, getN_some hd, ok_bind, hf.adm.span_eq hf.wf, ok_bind]
  rw [insertRounds_append (ht.notLast hw), insertKnotsPS_append]
  cases h1 : Spl.insertRounds U p t d m 1 (spanIx U t : ℤ) s.ph with
  | error e => rw [h1, error_bind] at hs; simp at hs
  | ok ph1 =>
    rw [h1, ok_bind] at hs
    cases h2 : Spl.insertKnotsPS t d m s.ps with
    | error e => rw [h2, error_bind] at hs; simp at hs
    | ok ps1 =>
      rw [h2, ok_bind] at hs
      obtain rfl := Except.ok.inj hs
      simp only [ok_bind]
      rw [insertRounds_shift hw ht hsz]

/-- `InsertKnot` with any multiplicity. -/
theorem insertKnot_many {s : Spl K} (h : WFSpl s) {d : ℕ} {U : List K} {p : ℕ} (hU : s.ps.knots[d]? = some U)
    (hp : s.ps.degree[d]? = some p) {t : K} (ht : Admissible U t) : ∀ (m : ℕ), U.length + m < 2 ^ 63 →
    ∃ s', s.insertKnot t d m = .ok s' ∧ WFSpl s' ∧ s'.ps.degree = s.ps.degree ∧
      s'.ps.knots = s.ps.knots.set d (insMany U t m) ∧ SameSums s s' := by
  have hw := forall₂_get h.knots hU hp
  intro m
  induction m with
  | zero =>
    intro _
    refine ⟨s, ?_, h, rfl, (set_same hU).symm, SameSums.refl s⟩
    simp only [Spl.insertKnot, getN_some hU, ok_bind, getN_some hp, ht.span_eq hw, Spl.insertRounds, Spl.insertKnotsPS]
    rfl
  | succ m ih =>
    intro hsz
    obtain ⟨s1, e1, w1, d1, k1, g1⟩ := ih (by omega)
    have hf := insMany_facts hw ht m
    have hk1 : s1.ps.knots[d]? = some (insMany U t m) := by
      rw [k1, List.getElem?_set]; simp [lt_of_some hU]
    have hd1 : s1.ps.degree[d]? = some p := by rw [d1]; exact hp
    obtain ⟨s2, e2, w2, d2, k2, g2⟩ := insertKnot_one w1 hk1 hd1 hf.adm (by rw [hf.length]; omega)
    refine ⟨s2, ?_, w2, d2.trans d1, ?_, g1.trans g2⟩
    · rw [insertKnot_succ hw hU hp ht (by omega) e1 hk1 hd1, e2]
    · rw [k2, k1, List.set_set]; rfl

end
end SplineLib
