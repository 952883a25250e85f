import Verif.Core.RemoveTemp

/-!
# The temporary points of knot removal: all rounds (helper lemmas)
-/

namespace SplineLib
set_option linter.unusedSectionVars false
open Finset

section
variable {K : Type} [Field K] [LinearOrder K] [IsStrictOrderedRing K]

/-- A physical space with point numbers `ns` (nothing is said about the weights except their number). -/
structure ShapePhys (ph : Phys K) (ns : List ℕ) : Prop where
  num : ph.num = zl ns
  dim : 0 < ph.dim
  cps : ph.cps.length = ph.dim * ns.prod
  weights : ∀ w, ph.weights = some w → w.length = ns.prod

theorem WFPhys.shape {ph : Phys K} {ns : List ℕ} (h : WFPhys ph ns) : ShapePhys ph ns :=
  ⟨h.num, h.dim, h.cps, fun w hw => (h.weights w hw).1⟩

theorem ShapePhys.cpsPer {ph : Phys K} {ns : List ℕ} {d : ℕ} (h : ShapePhys ph ns) (hpos : ∀ n ∈ ns, 0 < n) (hd : d < ns.length) :
    ph.cpsPer (ixd ns d : ℤ) = .ok ((ns.set d 1).prod : ℤ) := by
  have := ixd_pos hpos hd
  have h0 := h.dim
  simp only [Phys.cpsPer, Phys.numCPs, if_neg h0.ne', ok_bind]
  rw [if_neg (by omega), h.cps]
  rw [show (((ph.dim * ns.prod : ℕ) : ℤ)) = (ph.dim : ℤ) * (ns.prod : ℤ) by push_cast; rfl,
    Int.mul_tdiv_cancel_left _ (by omega), prod_eq_ixd hd]
  push_cast
  rw [Int.mul_tdiv_cancel_left _ (by omega)]
  rfl

/-- The array after `r` rounds. -/
def tempVal (vL vR : ℕ → ℕ → ℕ → K) (len r e x c : ℕ) : K :=
  if x ≤ r then vL e x c else if len - 1 - x ≤ r then vR e (len - 1 - x) c else 0

/-- What one call of `set` does at the four kinds of places; `G I` tells when it succeeds. -/
structure SetSpec (set : MIH → K → ℤ → ℤ → List K → M (List K)) (ns : List ℕ) (d b first last m : ℕ) (α : ℕ → K)
    (vL vR : ℕ → ℕ → ℕ → K) (G : List ℕ → Prop) : Prop where
  atFirst : ∀ I, InBox ns I → ixd I d = first - 1 → ∀ T : List K, T.length = (ns.set d 1).prod * (last + 3 - first) * b →
    (∀ T', set ⟨zl ns, zl I⟩ 1 ((first : ℤ) - 1) 0 T = .ok T' → G I ∧
      Upd (ns.set d 1).prod (last + 3 - first) b T T' (row ns d I) 0 (vL (row ns d I) 0)) ∧
    (G I → ∃ T', set ⟨zl ns, zl I⟩ 1 ((first : ℤ) - 1) 0 T = .ok T')
  atLast : ∀ I, InBox ns I → ixd I d = last + 1 → ∀ T : List K, T.length = (ns.set d 1).prod * (last + 3 - first) * b →
    (∀ T', set ⟨zl ns, zl I⟩ 1 ((last : ℤ) + 1) 0 T = .ok T' → G I ∧
      Upd (ns.set d 1).prod (last + 3 - first) b T T' (row ns d I) (last + 2 - first) (vR (row ns d I) 0)) ∧
    (G I → ∃ T', set ⟨zl ns, zl I⟩ 1 ((last : ℤ) + 1) 0 T = .ok T')
  left : ∀ I t, InBox ns I → ixd I d = first + t → t < m →
    ∀ T : List K, T.length = (ns.set d 1).prod * (last + 3 - first) * b →
    (∀ c < b, cell T (last + 3 - first) b (row ns d I) t c = vL (row ns d I) t c) →
    (∀ T', set ⟨zl ns, zl I⟩ (α (first + t)) ((first + t : ℕ) : ℤ) (-1) T = .ok T' → G I ∧
      Upd (ns.set d 1).prod (last + 3 - first) b T T' (row ns d I) (t + 1) (vL (row ns d I) (t + 1))) ∧
    (G I → ∃ T', set ⟨zl ns, zl I⟩ (α (first + t)) ((first + t : ℕ) : ℤ) (-1) T = .ok T')
  right : ∀ I t, InBox ns I → ixd I d = last - t → t < m →
    ∀ T : List K, T.length = (ns.set d 1).prod * (last + 3 - first) * b →
    (∀ c < b, cell T (last + 3 - first) b (row ns d I) (last + 2 - first - t) c = vR (row ns d I) t c) →
    (∀ T', set ⟨zl ns, zl I⟩ (1 - α (last - t)) ((last - t : ℕ) : ℤ) 1 T = .ok T' → G I ∧
      Upd (ns.set d 1).prod (last + 3 - first) b T T' (row ns d I) (last + 1 - first - t) (vR (row ns d I) (t + 1))) ∧
    (G I → ∃ T', set ⟨zl ns, zl I⟩ (1 - α (last - t)) ((last - t : ℕ) : ℤ) 1 T = .ok T')

variable {set : MIH → K → ℤ → ℤ → List K → M (List K)} {ns : List ℕ} {d b first last m : ℕ} {α : ℕ → K}
  {vL vR : ℕ → ℕ → ℕ → K} {G : List ℕ → Prop} {scaling : List K}

/-- The scaling factors that knot removal reads. -/
def ScalingAt (scaling : List K) (first last : ℕ) (α : ℕ → K) : Prop :=
  ∀ i, first ≤ i → i ≤ last → getI scaling ((i : ℤ) - (first : ℤ)) = .ok (α i)

theorem at_zl {I : List ℕ} (hd : d < ns.length) (hI : InBox ns I) : MIH.at' ⟨zl ns, zl I⟩ d = .ok (ixd I d : ℤ) :=
  getN_zl (by rw [hI.length]; exact hd)

/-- The first loop. -/
theorem tempEnds_spec (hS : SetSpec set ns d b first last m α vL vR G) (hpos : ∀ n ∈ ns, 0 < n) (hd : d < ns.length)
    (hf : 1 ≤ first) (hfl : first ≤ last) (hl : last + 1 < ixd ns d) {T0 : List K}
    (hT0 : T0.length = (ns.set d 1).prod * (last + 3 - first) * b) (hz : ∀ e x c, cell T0 (last + 3 - first) b e x c = 0) :
    (∀ T', upLoop (Spl.tempEnds set d ((first : ℤ) - 1) last) (MIH.mk' (zl ns)).length1D.toNat (MIH.mk' (zl ns)) T0 = .ok T' →
      (∀ I, InBox ns I → (ixd I d = first - 1 ∨ ixd I d = last + 1) → G I) ∧
      T'.length = (ns.set d 1).prod * (last + 3 - first) * b ∧ ∀ e x c, e < (ns.set d 1).prod → x < last + 3 - first → c < b →
        cell T' (last + 3 - first) b e x c = tempVal vL vR (last + 3 - first) 0 e x c) ∧
    ((∀ I, InBox ns I → (ixd I d = first - 1 ∨ ixd I d = last + 1) → G I) →
      ∃ T', upLoop (Spl.tempEnds set d ((first : ℤ) - 1) last) (MIH.mk' (zl ns)).length1D.toNat (MIH.mk' (zl ns)) T0 = .ok T') := by
  have key := pass_spec (ns := ns) (d := d) (a := first - 1) (b' := last + 1) (xa := 0) (xb := last + 2 - first)
    (len := last + 3 - first) (b := b) (va := fun e c => vL e 0 c) (vb := fun e c => vR e 0 c)
    (body := Spl.tempEnds set d ((first : ℤ) - 1) last) (T0 := T0)
    (Good := fun I => (ixd I d = first - 1 ∨ ixd I d = last + 1) → G I) hpos hd (by omega) (by omega) (by omega) (by omega) (by
      intro I hI T hT _
      rw [hT0] at hT
      unfold Spl.tempEnds
      rw [at_zl hd hI, ok_bind]
      by_cases h1 : ixd I d = first - 1
      · obtain ⟨p1, p2⟩ := hS.atFirst I hI h1 T hT
        rw [if_pos (Or.inl (by omega)), if_pos (by omega)]
        refine ⟨fun T' hT' => ?_, fun hg => p2 (hg (Or.inl h1))⟩
        obtain ⟨g, u⟩ := p1 T' hT'
        exact ⟨fun _ => g, fun _ => u, fun h => absurd h (by omega), fun h => absurd h1 h⟩
      · by_cases h2 : ixd I d = last + 1
        · obtain ⟨p1, p2⟩ := hS.atLast I hI h2 T hT
          rw [if_pos (Or.inr (by omega)), if_neg (by omega)]
          refine ⟨fun T' hT' => ?_, fun hg => p2 (hg (Or.inr h2))⟩
          obtain ⟨g, u⟩ := p1 T' hT'
          exact ⟨fun _ => g, fun h => absurd h h1, fun _ => u, fun _ h => absurd h2 h⟩
        · rw [if_neg (by omega)]
          refine ⟨fun T' hT' => ?_, fun _ => ⟨T, rfl⟩⟩
          simp only [pure_ok, Except.ok.injEq] at hT'
          exact ⟨fun h => absurd h (by omega), fun h => absurd h h1, fun h => absurd h h2, fun _ _ => hT'.symm⟩)
  refine ⟨fun T' hT' => ?_, key.2⟩
  obtain ⟨g, l, v⟩ := key.1 T' hT'
  refine ⟨g, by rw [l, hT0], ?_⟩
  intro e x c he hx hc
  rw [v e x c he hx hc, hz]
  unfold tempVal
  by_cases h1 : x = 0
  · rw [if_pos h1, if_pos (by omega), h1]
  · rw [if_neg h1]
    by_cases h2 : x = last + 2 - first
    · rw [if_pos h2, if_neg (by omega), if_pos (by omega), show last + 3 - first - 1 - x = 0 by omega]
    · rw [if_neg h2, if_neg (by omega), if_neg (by omega)]

/-- One round of the second loop. -/
theorem tempInner_spec (hS : SetSpec set ns d b first last m α vL vR G) (hpos : ∀ n ∈ ns, 0 < n) (hd : d < ns.length)
    (hf : 1 ≤ first) (hl : last + 1 < ixd ns d) (hs : ScalingAt scaling first last α) {r : ℕ} (hr : r < m)
    (hrm : first + r < last - r) {T0 : List K} (hT0 : T0.length = (ns.set d 1).prod * (last + 3 - first) * b)
    (hv : ∀ e x c, e < (ns.set d 1).prod → x < last + 3 - first → c < b →
      cell T0 (last + 3 - first) b e x c = tempVal vL vR (last + 3 - first) r e x c) :
    (∀ T', upLoop (Spl.tempInner set scaling d ((first : ℤ) - 1) ((first + r : ℕ) : ℤ) ((last - r : ℕ) : ℤ))
        (MIH.mk' (zl ns)).length1D.toNat (MIH.mk' (zl ns)) T0 = .ok T' →
      (∀ I, InBox ns I → (ixd I d = first + r ∨ ixd I d = last - r) → G I) ∧
      T'.length = (ns.set d 1).prod * (last + 3 - first) * b ∧ ∀ e x c, e < (ns.set d 1).prod → x < last + 3 - first → c < b →
        cell T' (last + 3 - first) b e x c = tempVal vL vR (last + 3 - first) (r + 1) e x c) ∧
    ((∀ I, InBox ns I → (ixd I d = first + r ∨ ixd I d = last - r) → G I) →
      ∃ T', upLoop (Spl.tempInner set scaling d ((first : ℤ) - 1) ((first + r : ℕ) : ℤ) ((last - r : ℕ) : ℤ))
        (MIH.mk' (zl ns)).length1D.toNat (MIH.mk' (zl ns)) T0 = .ok T') := by
  have key := pass_spec (ns := ns) (d := d) (a := first + r) (b' := last - r) (xa := r + 1) (xb := last + 1 - first - r)
    (len := last + 3 - first) (b := b) (va := fun e c => vL e (r + 1) c) (vb := fun e c => vR e (r + 1) c)
    (body := Spl.tempInner set scaling d ((first : ℤ) - 1) ((first + r : ℕ) : ℤ) ((last - r : ℕ) : ℤ)) (T0 := T0)
    (Good := fun I => (ixd I d = first + r ∨ ixd I d = last - r) → G I) hpos hd (by omega) (by omega) (by omega) (by omega) (by
      intro I hI T hT hfr
      rw [hT0] at hT
      have he := row_lt (d := d) hI
      unfold Spl.tempInner
      rw [at_zl hd hI, ok_bind]
      by_cases h1 : ixd I d = first + r
      · obtain ⟨p1, p2⟩ := hS.left I r hI h1 hr T hT (by
          intro c hc
          rw [hfr _ r c he (by omega) hc (by omega) (by omega), hv _ r c he (by omega) hc, tempVal, if_pos (le_refl _)])
        rw [if_pos (by omega),
          show (((first + r : ℕ) : ℤ) - ((first : ℤ) - 1) - 1) = ((first + r : ℕ) : ℤ) - (first : ℤ) by ring,
          hs _ (by omega) (by omega), ok_bind]
        constructor
        · intro T' hT'
          cases hset : set ⟨zl ns, zl I⟩ (α (first + r)) ((first + r : ℕ) : ℤ) (-1) T with
          | error e => rw [hset] at hT'; simp at hT'
          | ok T1 =>
            rw [hset, ok_bind] at hT'
            beta_reduce at hT'
            rw [if_neg (by omega)] at hT'
            simp only [pure_ok, Except.ok.injEq] at hT'
            subst hT'
            obtain ⟨g, u⟩ := p1 T1 hset
            exact ⟨fun _ => g, fun _ => u, fun h => absurd h (by omega), fun h => absurd h1 h⟩
        · intro hg
          obtain ⟨T1, hT1⟩ := p2 (hg (Or.inl h1))
          rw [hT1, ok_bind]
          beta_reduce
          rw [if_neg (by omega)]
          exact ⟨T1, rfl⟩
      · rw [if_neg (by omega)]
        simp only [pure_ok, ok_bind]
        by_cases h2 : ixd I d = last - r
        · obtain ⟨p1, p2⟩ := hS.right I r hI h2 hr T hT (by
            intro c hc
            rw [hfr _ _ c he (by omega) hc (by omega) (by omega), hv _ _ c he (by omega) hc, tempVal, if_neg (by omega),
              if_pos (by omega)]
            congr 1; omega)
          rw [if_pos (by omega),
            show (((last - r : ℕ) : ℤ) - ((first : ℤ) - 1) - 1) = ((last - r : ℕ) : ℤ) - (first : ℤ) by ring,
            hs _ (by omega) (by omega), ok_bind]
          refine ⟨fun T' hT' => ?_, fun hg => p2 (hg (Or.inr h2))⟩
          obtain ⟨g, u⟩ := p1 T' hT'
          exact ⟨fun _ => g, fun h => absurd h h1, fun _ => u, fun _ h => absurd h2 h⟩
        · rw [if_neg (by omega)]
          refine ⟨fun T' hT' => ?_, fun _ => ⟨T, rfl⟩⟩
          simp only [Except.ok.injEq] at hT'
          exact ⟨fun h => absurd h (by omega), fun h => absurd h h1, fun h => absurd h h2, fun _ _ => hT'.symm⟩)
  refine ⟨fun T' hT' => ?_, key.2⟩
  obtain ⟨g, l, v⟩ := key.1 T' hT'
  refine ⟨g, by rw [l, hT0], ?_⟩
  intro e x c he hx hc
  rw [v e x c he hx hc, hv e x c he hx hc]
  unfold tempVal
  by_cases h1 : x = r + 1
  · rw [if_pos h1, if_pos (by omega), h1]
  · rw [if_neg h1]
    by_cases h2 : x = last + 1 - first - r
    · rw [if_pos h2, if_neg (by omega), if_pos (by omega), show last + 3 - first - 1 - x = r + 1 by omega]
    · rw [if_neg h2]
      by_cases h3 : x ≤ r
      · rw [if_pos h3, if_pos (by omega)]
      · rw [if_neg h3]
        by_cases h4 : last + 3 - first - 1 - x ≤ r
        · rw [if_pos h4, if_neg (by omega), if_pos (by omega)]
        · rw [if_neg h4, if_neg (by omega), if_neg (by omega)]

/-- The second loop from round `r` on. -/
theorem tempRounds_spec (hS : SetSpec set ns d b first last m α vL vR G) (hpos : ∀ n ∈ ns, 0 < n) (hd : d < ns.length)
    (hf : 1 ≤ first) (hl : last + 1 < ixd ns d) (hs : ScalingAt scaling first last α) (hm : m + m ≤ last + 1 - first) :
    ∀ (n r : ℕ), r + n = m → ∀ T0 : List K, T0.length = (ns.set d 1).prod * (last + 3 - first) * b →
    (∀ e x c, e < (ns.set d 1).prod → x < last + 3 - first → c < b →
      cell T0 (last + 3 - first) b e x c = tempVal vL vR (last + 3 - first) r e x c) →
    (∀ T', Spl.tempRounds set (zl ns) scaling d ((first : ℤ) - 1) n ((first + r : ℕ) : ℤ) ((last - r : ℕ) : ℤ) T0 = .ok T' →
      (∀ I, InBox ns I → (first + r ≤ ixd I d ∧ ixd I d < first + m ∨ last - m < ixd I d ∧ ixd I d ≤ last - r) → G I) ∧
      T'.length = (ns.set d 1).prod * (last + 3 - first) * b ∧ ∀ e x c, e < (ns.set d 1).prod → x < last + 3 - first → c < b →
        cell T' (last + 3 - first) b e x c = tempVal vL vR (last + 3 - first) m e x c) ∧
    ((∀ I, InBox ns I → (first + r ≤ ixd I d ∧ ixd I d < first + m ∨ last - m < ixd I d ∧ ixd I d ≤ last - r) → G I) →
      ∃ T', Spl.tempRounds set (zl ns) scaling d ((first : ℤ) - 1) n ((first + r : ℕ) : ℤ) ((last - r : ℕ) : ℤ) T0 = .ok T') := by
  intro n
  induction n with
  | zero =>
    intro r hr T0 hT0 hv
    obtain rfl : r = m := by omega
    refine ⟨fun T' hT' => ?_, fun _ => ⟨T0, rfl⟩⟩
    simp only [Spl.tempRounds, Except.ok.injEq] at hT'
    subst hT'
    exact ⟨fun I _ h => absurd h (by omega), hT0, hv⟩
  | succ n ih =>
    intro r hr T0 hT0 hv
    have key := tempInner_spec (r := r) hS hpos hd hf hl hs (by omega) (by omega) hT0 hv
    have e1 : ((first + r : ℕ) : ℤ) + 1 = ((first + (r + 1) : ℕ) : ℤ) := by push_cast; ring
    have e2 : ((last - r : ℕ) : ℤ) - 1 = ((last - (r + 1) : ℕ) : ℤ) := by omega
    constructor
    · intro T' hT'
      simp only [Spl.tempRounds] at hT'
      cases h1 : upLoop (Spl.tempInner set scaling d ((first : ℤ) - 1) ((first + r : ℕ) : ℤ) ((last - r : ℕ) : ℤ))
        (MIH.mk' (zl ns)).length1D.toNat (MIH.mk' (zl ns)) T0 with
      | error e => rw [h1] at hT'; simp at hT'
      | ok T1 =>
        rw [h1, ok_bind, e1, e2] at hT'
        obtain ⟨g1, l1, v1⟩ := key.1 T1 h1
        obtain ⟨g2, l2, v2⟩ := (ih (r + 1) (by omega) T1 l1 v1).1 T' hT'
        refine ⟨?_, l2, v2⟩
        intro I hI h
        by_cases hc : ixd I d = first + r ∨ ixd I d = last - r
        · exact g1 I hI hc
        · exact g2 I hI (by omega)
    · intro hg
      simp only [Spl.tempRounds]
      obtain ⟨T1, h1⟩ := key.2 (fun I hI h => hg I hI (by omega))
      obtain ⟨_, l1, v1⟩ := key.1 T1 h1
      rw [h1, ok_bind, e1, e2]
      exact (ih (r + 1) (by omega) T1 l1 v1).2 (fun I hI h => hg I hI (by omega))

/-- The temporary array. -/
theorem getTemp_spec {ph : Phys K} (hph : ShapePhys ph ns) (hS : SetSpec set ns d b first last m α vL vR G)
    (hpos : ∀ n ∈ ns, 0 < n) (hd : d < ns.length) (hf : 1 ≤ first) (hfl : first ≤ last) (hl : last + 1 < ixd ns d)
    (hs : ScalingAt scaling first last α) (hm : m = (last + 1 - first) / 2) :
    (∀ T', Spl.getTemp set (b : ℤ) ph scaling ((first : ℤ) - 1) (last : ℤ) (first : ℤ) (last : ℤ) d = .ok T' →
      (∀ I, InBox ns I → (first - 1 ≤ ixd I d ∧ ixd I d < first + m ∨ last - m < ixd I d ∧ ixd I d ≤ last + 1) → G I) ∧
      T'.length = (ns.set d 1).prod * (last + 3 - first) * b ∧ ∀ e x c, e < (ns.set d 1).prod → x < last + 3 - first → c < b →
        cell T' (last + 3 - first) b e x c = tempVal vL vR (last + 3 - first) m e x c) ∧
    ((∀ I, InBox ns I → (first - 1 ≤ ixd I d ∧ ixd I d < first + m ∨ last - m < ixd I d ∧ ixd I d ≤ last + 1) → G I) →
      ∃ T', Spl.getTemp set (b : ℤ) ph scaling ((first : ℤ) - 1) (last : ℤ) (first : ℤ) (last : ℤ) d = .ok T') := by
  have hsz : (((ns.set d 1).prod : ℕ) : ℤ) * (b : ℤ) * ((last : ℤ) - ((first : ℤ) - 1) + 2) =
      (((ns.set d 1).prod * (last + 3 - first) * b : ℕ) : ℤ) := by
    have : ((last : ℤ) - ((first : ℤ) - 1) + 2) = ((last + 3 - first : ℕ) : ℤ) := by omega
    rw [this]; push_cast; ring
  have hcnt : (((last : ℤ) - (first : ℤ) + 1) / 2).toNat = m := by omega
  have hrun : Spl.getTemp set (b : ℤ) ph scaling ((first : ℤ) - 1) (last : ℤ) (first : ℤ) (last : ℤ) d = (do
      let t ← upLoop (Spl.tempEnds set d ((first : ℤ) - 1) last) (MIH.mk' (zl ns)).length1D.toNat (MIH.mk' (zl ns))
        (List.replicate ((ns.set d 1).prod * (last + 3 - first) * b) 0)
      Spl.tempRounds set (zl ns) scaling d ((first : ℤ) - 1) m ((first + 0 : ℕ) : ℤ) ((last - 0 : ℕ) : ℤ) t) := by
    unfold Spl.getTemp
    rw [hph.num]
    simp only
    rw [getN_zl hd, ok_bind, hph.cpsPer hpos hd, ok_bind, hsz, if_neg (by omega), Int.toNat_natCast, hcnt]
    simp
  have hz : ∀ e x c, cell (List.replicate ((ns.set d 1).prod * (last + 3 - first) * b) (0 : K)) (last + 3 - first) b e x c = 0 := by
    intro e x c
    unfold cell
    rw [List.getD_eq_getElem?_getD, List.getElem?_replicate]
    split <;> rfl
  have k1 := tempEnds_spec hS hpos hd hf hfl hl (T0 := List.replicate ((ns.set d 1).prod * (last + 3 - first) * b) 0)
    (by simp) hz
  rw [hrun]
  constructor
  · intro T' hT'
    cases h1 : upLoop (Spl.tempEnds set d ((first : ℤ) - 1) last) (MIH.mk' (zl ns)).length1D.toNat (MIH.mk' (zl ns))
        (List.replicate ((ns.set d 1).prod * (last + 3 - first) * b) 0) with
    | error e => rw [h1] at hT'; simp at hT'
    | ok T1 =>
      rw [h1, ok_bind] at hT'
      obtain ⟨g1, l1, v1⟩ := k1.1 T1 h1
      obtain ⟨g2, l2, v2⟩ := (tempRounds_spec hS hpos hd hf hl hs (by omega) m 0 (by omega) T1 l1 v1).1 T' hT'
      refine ⟨?_, l2, v2⟩
      intro I hI h
      by_cases hc : ixd I d = first - 1 ∨ ixd I d = last + 1
      · exact g1 I hI hc
      · exact g2 I hI (by omega)
  · intro hg
    obtain ⟨T1, h1⟩ := k1.2 (fun I hI h => hg I hI (by omega))
    obtain ⟨_, l1, v1⟩ := k1.1 T1 h1
    rw [h1, ok_bind]
    exact (tempRounds_spec hS hpos hd hf hl hs (by omega) m 0 (by omega) T1 l1 v1).2 (fun I hI h => hg I hI (by omega))

end
end SplineLib
