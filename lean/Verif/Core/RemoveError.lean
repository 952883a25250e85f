import Verif.Core.Sqrt
import Verif.Core.RemoveMany

/-!
# The error of an accepted knot removal (helper lemmas)
-/

namespace SplineLib
set_option linter.unusedSectionVars false
open Finset

section
variable {K : Type} [Field K] [LinearOrder K] [IsStrictOrderedRing K]
variable {first last m d : ℕ} {α : ℕ → K} {ns : List ℕ}

/-- Inserting the knot again gives back all control points except those with index `first + m`. -/
theorem blend_rem {F : List ℕ → K} (hα : Strict first last α) (hf : 1 ≤ first) (hfl : first ≤ last)
    (hm : m = (last + 1 - first) / 2) {I : List ℕ} (hd : d < I.length) :
    blendDir d first last α (remDir d first last m α F) I =
      if ixd I d = first + m then α (first + m) * TR last α (fun k => F (I.set d k)) (last - first - m) +
        (1 - α (first + m)) * TL first α (fun k => F (I.set d k)) m else F I := by
  obtain ⟨f, hfd⟩ : ∃ f : ℕ → K, f = fun k => F (I.set d k) := ⟨_, rfl⟩
  have hrem : ∀ k, remDir d first last m α F (I.set d k) =
      if k < first then f k else if k < first + m then TL first α f (k + 1 - first)
        else if k ≤ last then TR last α f (last - k) else f (k + 1) := by
    intro k
    unfold remDir
    rw [ixd_set_self hd]
    simp only [List.set_set]
    rw [hfd]
  have hself : I.set d (ixd I d) = I := set_ixd hd
  have hI : F I = f (ixd I d) := by rw [hfd]; simp only [hself]
  have hremI : remDir d first last m α F I = remDir d first last m α F (I.set d (ixd I d)) := by rw [hself]
  rw [← hfd, hI]
  unfold blendDir
  rw [hremI]
  generalize ixd I d = k
  rw [hrem, hrem]
  by_cases c1 : last < k
  · rw [if_pos c1, if_neg (by omega : ¬ k = first + m), if_neg (by omega), if_neg (by omega)]
    by_cases c2 : k - 1 ≤ last
    · rw [if_pos c2, show last - (k - 1) = 0 by omega, TR, show last + 1 = k by omega]
    · rw [if_neg c2, show k - 1 + 1 = k by omega]
  · rw [if_neg c1]
    by_cases c2 : first ≤ k
    · rw [if_pos c2, if_neg (by omega)]
      by_cases c3 : k < first + m
      · rw [if_pos c3, if_neg (by omega : ¬ k = first + m)]
        have ha := (hα k c2 (by omega)).1
        have e : TL first α f (k + 1 - first) = (f k - (1 - α k) * TL first α f (k - first)) / α k := by
          rw [show k + 1 - first = (k - first) + 1 by omega, TL, show first + (k - first) = k by omega]
        rw [e]
        by_cases c4 : k - 1 < first
        · rw [if_pos c4]
          by_cases c5 : k = first
          · subst c5
            rw [Nat.sub_self, TL]
            field_simp
            ring
          · omega
        · rw [if_neg c4, if_pos (by omega), show k - 1 + 1 - first = k - first by omega]
          field_simp
          ring
      · rw [if_neg c3, if_pos (by omega)]
        by_cases c4 : k = first + m
        · rw [if_pos c4]
          subst c4
          rw [show last - (first + m) = last - first - m by omega]
          congr 2
          by_cases c5 : first + m - 1 < first
          · rw [if_pos c5]
            have : m = 0 := by omega
            subst this
            rfl
          · rw [if_neg c5, if_pos (by omega)]
            congr 1; omega
        · rw [if_neg c4, if_neg (by omega), if_neg (by omega), if_pos (by omega)]
          have ha := (hα k c2 (by omega)).2
          have e : TR last α f (last - (k - 1)) = (f k - α k * TR last α f (last - k)) / (1 - α k) := by
            rw [show last - (k - 1) = (last - k) + 1 by omega, TR, show last - (last - k) = k by omega]
          rw [e]
          field_simp
          ring
    · rw [if_neg c2, if_pos (by omega), if_neg (by omega)]

/-- The square of an average is at most the average of the squares. -/
theorem msum_sq_le {N a : List ℕ → K} (hN : ∀ I, InBox ns I → 0 ≤ N I) (h1 : msum ns N = 1) :
    msum ns (fun I => N I * a I) * msum ns (fun I => N I * a I) ≤ msum ns (fun I => N I * (a I * a I)) := by
  set A := msum ns (fun I => N I * a I) with hA
  have h0 : 0 ≤ msum ns (fun I => N I * ((a I - A) * (a I - A))) := msum_nonneg fun I hI => mul_nonneg (hN I hI) (mul_self_nonneg _)
  have e : msum ns (fun I => N I * ((a I - A) * (a I - A))) = msum ns (fun I => N I * (a I * a I)) - 2 * A * A + A * A := by
    rw [msum_congr (g := fun I => (N I * (a I * a I) - 2 * A * (N I * a I)) + A * A * N I) (fun I _ => by ring),
      msum_add, msum_sub, msum_mul_left, msum_mul_left, h1, ← hA]
    ring
  rw [e] at h0
  linarith

variable [HasSqrt K] [LawfulSqrt K]

theorem homVec_distance {ph : Phys K} {f g : ℕ → K} {w v T : K} (hT : 0 ≤ T) : Phys.distance (homVec ph f w) (homVec ph g v) ≤ T ↔
    ∑ c ∈ range ph.dim, (f c - g c) * (f c - g c) + (w - v) * (w - v) ≤ T * T := by
  have e : ∀ (f : ℕ → K) (w : K), homVec ph f w = (List.range (ph.dim + 1)).map fun c => if c = ph.dim then w else f c := by
    intro f w
    unfold homVec
    rw [List.range_succ, List.map_append]
    congr 1
    · apply List.map_congr_left
      intro c hc
      rw [if_neg (by have := List.mem_range.1 hc; omega)]
    · simp
  rw [e, e, distance_map_le_iff hT, sum_range_succ]
  simp only [if_true]
  rw [sum_congr rfl (g := fun c => (f c - g c) * (f c - g c))]
  intro c hc
  rw [if_neg (by have := mem_range.1 hc; omega), if_neg (by have := mem_range.1 hc; omega)]

/-- The difference at the one index where a control point is lost, for an even number of changed points. -/
theorem lineOK_bound {ph : Phys K} {T : K} {e : ℕ} (hα : Strict first last α) (hα1 : 0 ≤ α (first + m) ∧ α (first + m) ≤ 1)
    (hm : last + 1 = first + 2 * m) (hm0 : 0 < m) (h : LineOK ph ns d first last m α T e) :
    0 ≤ T ∧ ∑ c ∈ range ph.dim,
        (lineH ph ns d e c (first + m) - (α (first + m) * TR last α (lineH ph ns d e c) (last - first - m) +
          (1 - α (first + m)) * TL first α (lineH ph ns d e c) m)) *
        (lineH ph ns d e c (first + m) - (α (first + m) * TR last α (lineH ph ns d e c) (last - first - m) +
          (1 - α (first + m)) * TL first α (lineH ph ns d e c) m)) +
      (lineW ph ns d e (first + m) - (α (first + m) * TR last α (lineW ph ns d e) (last - first - m) +
          (1 - α (first + m)) * TL first α (lineW ph ns d e) m)) *
        (lineW ph ns d e (first + m) - (α (first + m) * TR last α (lineW ph ns d e) (last - first - m) +
          (1 - α (first + m)) * TL first α (lineW ph ns d e) m)) ≤ T * T := by
  rcases h with h | h
  · have hT := (distance_nonneg _ _).trans h
    refine ⟨hT, ?_⟩
    rw [homVec_distance hT] at h
    have ha := (hα (first + m) (by omega) (by omega)).2
    have key : ∀ f : ℕ → K, f (first + m) - (α (first + m) * TR last α f (last - first - m) + (1 - α (first + m)) * TL first α f m) =
        (1 - α (first + m)) * (TR last α f m - TL first α f m) := by
      intro f
      have e : TR last α f m = (f (first + m) - α (first + m) * TR last α f (m - 1)) / (1 - α (first + m)) := by
        conv_lhs => rw [show m = (m - 1) + 1 by omega, TR, show last - (m - 1) = first + m by omega]
      rw [e, show last - first - m = m - 1 by omega]
      field_simp
      ring
    have hb : (1 - α (first + m)) * (1 - α (first + m)) ≤ 1 := by nlinarith [hα1.1, hα1.2]
    have hsq : ∀ f : ℕ → K, (f (first + m) - (α (first + m) * TR last α f (last - first - m) + (1 - α (first + m)) * TL first α f m)) *
        (f (first + m) - (α (first + m) * TR last α f (last - first - m) + (1 - α (first + m)) * TL first α f m)) ≤
        (TL first α f m - TR last α f m) * (TL first α f m - TR last α f m) := by
      intro f
      rw [key]
      have h1 := mul_self_nonneg (TL first α f m - TR last α f m)
      calc _ = ((1 - α (first + m)) * (1 - α (first + m))) * ((TL first α f m - TR last α f m) * (TL first α f m - TR last α f m)) := by ring
        _ ≤ 1 * ((TL first α f m - TR last α f m) * (TL first α f m - TR last α f m)) := mul_le_mul_of_nonneg_right hb h1
        _ = _ := one_mul _
    refine le_trans (add_le_add (sum_le_sum fun c _ => hsq _) (hsq _)) h
  · have hT := (distance_nonneg _ _).trans h
    refine ⟨hT, ?_⟩
    rw [homVec_distance hT] at h
    exact h

/-- The homogeneous coordinates of the spline change by at most the (scaled) tolerance if the number of changed points is even. -/
theorem remove_hom_error {s s1 : Spl K} (h : ShapeSpl s) {U V : List K} {p : ℕ} {t : K} (hU : s.ps.knots[d]? = some U)
    (hp : s.ps.degree[d]? = some p) (hr : Removed U V p t) (hm : kvMult U t ≤ p) (hpar : (p - kvMult U t) % 2 = 1) {T : K}
    (hok : ∀ e < ((npts s).set d 1).prod, LineOK s.ph (npts s) d (spanIx V t + 1 - p) (spanIx V t - kvMult V t)
      ((p - kvMult V t) / 2) (insα V p t) T e)
    (hS : Shrunk s s1 d U V t 1) (hns : npts s1 = (npts s).set d (ixd (npts s) d - 1))
    (hR : RemResult s.ph s1.ph (npts s) d (spanIx V t + 1 - p) (spanIx V t - kvMult V t) ((p - kvMult V t) / 2) (insα V p t))
    {x : List K} (hx : InDomain s x) :
    InDomain s1 x ∧ 0 ≤ T ∧
    ∑ c ∈ range s.ph.dim, (tensorSum s x (fun I => wgt s I * cpt s I c) - tensorSum s1 x (fun I => wgt s1 I * cpt s1 I c)) *
        (tensorSum s x (fun I => wgt s I * cpt s I c) - tensorSum s1 x (fun I => wgt s1 I * cpt s1 I c)) +
      (tensorSum s x (wgt s) - tensorSum s1 x (wgt s1)) * (tensorSum s x (wgt s) - tensorSum s1 x (wgt s1)) ≤ T * T := by
  have hmul := hr.mult
  obtain ⟨b1, b2, b3, b4, b5⟩ := hr.bounds (by omega)
  obtain ⟨hi, hlt, hmk, hl1, hl2⟩ := hr.adm.pos hr.wf
  have hlo := hi.lo
  have hpos : ∀ n ∈ npts s, 0 < n := nptsOf_pos h.ps.knots
  have hix : ixd (npts s) d = U.length - p - 1 := nptsOf_ixd hU hp
  have hdn : d < (npts s).length := lt_of_some (nptsOf_get hU hp)
  have hV1 : s1.ps.knots[d]? = some V := by rw [hS.knots, List.getElem?_set]; simp [lt_of_some hU]
  have hp1 : s1.ps.degree[d]? = some p := by rw [hS.degree]; exact hp
  have hx1 : InDomain s1 x := by
    unfold InDomain
    rw [hS.knots]
    exact (dom_set hU hr.firstKnot.symm hr.lastKnot.symm).2 hx
  have hback : s1.ps.knots.set d (V.insertIdx (spanIx V t + 1) t) = s.ps.knots := by
    rw [hS.knots, List.set_set, ← hr.back]; exact set_same hU
  have hnsV : (nptsOf s1.ps.knots s1.ps.degree).set d (V.length - p - 1 + 1) = npts s := by
    rw [← npts_eq, hns, List.set_set]
    have hlen := hr.length
    have := hr.wf.size
    rw [show V.length - p - 1 + 1 = ixd (npts s) d by omega]
    exact set_ixd hdn
  set first := spanIx V t + 1 - p with hfirst
  set last := spanIx V t - kvMult V t with hlast
  set m := (p - kvMult V t) / 2 with hmdef
  have hme : last + 1 = first + 2 * m := by omega
  have hm0 : 0 < m := by omega
  have hmm : m = (last + 1 - first) / 2 := by omega
  have hα1 := b5 (first + m) (by omega) (by omega)
  -- sums of the reduced spline over the old basis functions
  have hsum : ∀ (F G : List ℕ → K), (∀ J, InBox (npts s1) J → G J = remDir d first last m (insα V p t) F J) →
      tensorSum s1 x G = msum (npts s) (fun I => dprod (basisFns s.ps.knots s.ps.degree x) I *
        blendDir d first last (insα V p t) (remDir d first last m (insα V p t) F) I) := by
    intro F G hG
    have := blend_sums hV1 hp1 (xs := x) hx1 hi (last := last) (by omega) hl1 hl2 (remDir d first last m (insα V p t) F)
    rw [hnsV, hback, hS.degree] at this
    rw [this]
    unfold tensorSum
    rw [npts_eq, hS.degree]
    apply msum_congr
    intro J hJ
    rw [hG J (by rw [npts_eq, hS.degree]; exact hJ)]
  have hwG : ∀ J, InBox (npts s1) J → wgt s1 J = remDir d first last m (insα V p t) (wgt s) J := by
    intro J hJ
    have := hR.wgt J (by rw [← hns]; exact hJ)
    rw [← hns] at this
    exact this
  have hcG : ∀ c < s.ph.dim, ∀ J, InBox (npts s1) J → wgt s1 J * cpt s1 J c =
      remDir d first last m (insα V p t) (fun I => wgt s I * cpt s I c) J := by
    intro c hc J hJ
    have := hR.hom J (by rw [← hns]; exact hJ) c hc
    rw [← hns] at this
    exact this
  set N := dprod (basisFns s.ps.knots s.ps.degree x) with hN
  have hNn : ∀ I, InBox (npts s) I → 0 ≤ N I := fun I hI => tensor_nonneg h.ps.knots hx hI
  have hN1 : msum (npts s) N = 1 := tensor_unity h.ps.knots hx
  -- the error at one index
  obtain ⟨E, hE⟩ : ∃ E : (List ℕ → K) → List ℕ → K, E = fun F I => F I - blendDir d first last (insα V p t) (remDir d first last m (insα V p t) F) I :=
    ⟨_, rfl⟩
  have hdiff : ∀ (F G : List ℕ → K), (∀ J, InBox (npts s1) J → G J = remDir d first last m (insα V p t) F J) →
      tensorSum s x F - tensorSum s1 x G = msum (npts s) (fun I => N I * E F I) := by
    intro F G hG
    rw [hsum F G hG, hE]
    unfold tensorSum
    rw [← msum_sub]
    apply msum_congr
    intro I _
    ring
  have hT0 : 0 ≤ T := by
    have hR0 : 0 < ((npts s).set d 1).prod := prod_pos_of (set_pos hpos Nat.one_pos)
    exact (lineOK_bound b4 ⟨hα1.1.le, hα1.2.le⟩ hme hm0 (hok 0 hR0)).1
  have hpt : ∀ I, InBox (npts s) I → ∑ c ∈ range s.ph.dim, E (fun I => wgt s I * cpt s I c) I * E (fun I => wgt s I * cpt s I c) I +
      E (wgt s) I * E (wgt s) I ≤ T * T := by
    intro I hI
    have hdI : d < I.length := by rw [hI.length]; exact hdn
    by_cases hk : ixd I d = first + m
    · have hb := (lineOK_bound b4 ⟨hα1.1.le, hα1.2.le⟩ hme hm0 (hok (row (npts s) d I) (row_lt hI))).2
      have hIset : I.set d (first + m) = I := by rw [← hk]; exact set_ixd hdI
      have eW : E (wgt s) I = lineW s.ph (npts s) d (row (npts s) d I) (first + m) -
          (insα V p t (first + m) * TR last (insα V p t) (lineW s.ph (npts s) d (row (npts s) d I)) (last - first - m) +
          (1 - insα V p t (first + m)) * TL first (insα V p t) (lineW s.ph (npts s) d (row (npts s) d I)) m) := by
        rw [hE, lineW_row hdn hI]
        simp only
        rw [blend_rem b4 b1 b2 hmm hdI, if_pos hk, hIset]
        rfl
      have eH : ∀ c, E (fun I => wgt s I * cpt s I c) I = lineH s.ph (npts s) d (row (npts s) d I) c (first + m) -
          (insα V p t (first + m) * TR last (insα V p t) (lineH s.ph (npts s) d (row (npts s) d I) c) (last - first - m) +
          (1 - insα V p t (first + m)) * TL first (insα V p t) (lineH s.ph (npts s) d (row (npts s) d I) c) m) := by
        intro c
        rw [hE, lineH_row hdn hI]
        simp only
        rw [blend_rem b4 b1 b2 hmm hdI, if_pos hk, hIset]
        rfl
      rw [eW]
      simp only [eH]
      exact hb
    · have e0 : ∀ F, E F I = 0 := by
        intro F
        rw [hE]
        simp only
        rw [blend_rem b4 b1 b2 hmm hdI, if_neg hk, sub_self]
      simp only [e0, mul_zero, sum_const_zero, add_zero]
      exact mul_nonneg hT0 hT0
  refine ⟨hx1, hT0, ?_⟩
  rw [hdiff _ _ hwG, sum_congr rfl (fun c hc => by rw [hdiff _ _ (hcG c (mem_range.1 hc))])]
  refine le_trans (add_le_add (sum_le_sum fun c _ => msum_sq_le hNn hN1) (msum_sq_le hNn hN1)) ?_
  rw [← msum_sum_comm, ← msum_add]
  calc _ ≤ msum (npts s) (fun I => T * T * N I) := by
        apply msum_le
        intro I hI
        rw [← mul_sum, ← mul_add, mul_comm]
        exact mul_le_mul_of_nonneg_right (hpt I hI) (hNn I hI)
    _ = T * T := by rw [msum_mul_left, hN1, mul_one]

end
end SplineLib
