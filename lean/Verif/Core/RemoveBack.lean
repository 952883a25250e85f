import Verif.Core.RemoveKnot

/-!
# Removing a knot that was just inserted (helper lemmas)
-/

namespace SplineLib
set_option linter.unusedSectionVars false
open Finset

section
variable {K : Type} [Field K] [LinearOrder K] [IsStrictOrderedRing K]
variable {first last m d : ℕ} {α : ℕ → K} {ns : List ℕ}

/-- The values from the left are the values before blending. -/
theorem TL_blend {P F : ℕ → K} (hα : Strict first last α) (hf : 1 ≤ first)
    (h : ∀ j, first - 1 ≤ j → j ≤ last + 1 → P j = blend1 first last α F j) :
    ∀ t, first + t ≤ last + 1 → TL first α P t = F (first - 1 + t)
  | 0, ht => by
    rw [TL, h _ (le_refl _) (by omega), blend1, if_neg (by omega), if_neg (by omega), Nat.add_zero]
  | t + 1, ht => by
    have ha := (hα (first + t) (by omega) (by omega)).1
    rw [TL, TL_blend hα hf h t (by omega), h _ (by omega) (by omega), blend1, if_neg (by omega), if_pos (by omega),
      show first - 1 + (t + 1) = first + t by omega, show first - 1 + t = first + t - 1 by omega]
    field_simp
    ring

/-- The values from the right are the values before blending. -/
theorem TR_blend {P F : ℕ → K} (hα : Strict first last α) (hf : 1 ≤ first)
    (h : ∀ j, first - 1 ≤ j → j ≤ last + 1 → P j = blend1 first last α F j) :
    ∀ t, first + t ≤ last + 1 → TR last α P t = F (last - t)
  | 0, ht => by
    rw [TR, h _ (by omega) (by omega), blend1, if_pos (by omega)]; rfl
  | t + 1, ht => by
    have ha := (hα (last - t) (by omega) (by omega)).2
    rw [TR, TR_blend hα hf h t (by omega), h _ (by omega) (by omega), blend1, if_neg (by omega), if_pos (by omega),
      show last - (t + 1) = last - t - 1 by omega, add_sub_cancel_left, mul_div_cancel_left₀ _ ha]

/-- `remDir` undoes `blendDir`. -/
theorem remDir_blend {G F : List ℕ → K} (hα : Strict first last α) (hf : 1 ≤ first) (hfl : first ≤ last)
    (hm : m + m ≤ last + 1 - first) (hd : d < ns.length) (hl : last < ixd ns d)
    (h : ∀ I, InBox (ns.set d (ixd ns d + 1)) I → G I = blendDir d first last α F I) {J : List ℕ} (hJ : InBox ns J) :
    remDir d first last m α G J = F J := by
  have hdJ : d < J.length := by rw [hJ.length]; exact hd
  have hJd : ixd J d < ixd ns d := hJ.getD_lt (d := d) hd
  have hline : ∀ j, j ≤ ixd ns d → G (J.set d j) = blend1 first last α (fun i => F (J.set d i)) j := by
    intro j hj
    rw [h _ (inBox_set hJ (by omega)), blendDir_line hdJ]
  have hself : F (J.set d (ixd J d)) = F J := by rw [set_ixd hdJ]
  unfold remDir
  by_cases c1 : ixd J d < first
  · rw [if_pos c1]
    have := hline (ixd J d) hJd.le
    rw [set_ixd hdJ, blend1, if_neg (by omega), if_neg (by omega), hself] at this
    exact this
  · rw [if_neg c1]
    by_cases c2 : ixd J d < first + m
    · rw [if_pos c2, TL_blend (F := fun i => F (J.set d i)) hα hf (fun j _ hj => hline j (by omega)) _ (by omega),
        show first - 1 + (ixd J d + 1 - first) = ixd J d by omega, hself]
    · rw [if_neg c2]
      by_cases c3 : ixd J d ≤ last
      · rw [if_pos c3, TR_blend (F := fun i => F (J.set d i)) hα hf (fun j _ hj => hline j (by omega)) _ (by omega),
          show last - (last - ixd J d) = ixd J d by omega, hself]
      · rw [if_neg c3, hline _ (by omega), blend1, if_pos (by omega)]
        exact hself

/-- Two physical spaces with the same weights and homogeneous coordinates are equal. -/
theorem phys_ext {ph ph' : Phys K} (hpos : ∀ n ∈ ns, 0 < n) (h : WFPhys ph ns) (h' : ShapePhys ph' ns) (hdim : ph'.dim = ph.dim)
    (hk : ph.weights = none ↔ ph'.weights = none) (hw : ∀ J, InBox ns J → pwgt ph' ns J = pwgt ph ns J)
    (hc : ∀ J, InBox ns J → ∀ c < ph.dim, pwgt ph' ns J * pcpt ph' ns J c = pwgt ph ns J * pcpt ph ns J c) : ph' = ph := by
  have hcps : ph'.cps = ph.cps := by
    apply List.ext_getElem
    · rw [h.cps, h'.cps, hdim]
    · intro i h1 h2
      have hd0 := h.dim
      rw [h.cps] at h2
      have hq : i / ph.dim < ns.prod := Nat.div_lt_of_lt_mul h2
      have hr : i % ph.dim < ph.dim := Nat.mod_lt _ hd0
      have hJ := unlin_inBox hpos (i / ph.dim)
      have e := hc _ hJ (i % ph.dim) hr
      rw [hw _ hJ] at e
      have e := mul_left_cancel₀ (pwgt_pos h hJ).ne' e
      unfold pcpt at e
      rw [hdim, lin_unlin hq, Nat.div_add_mod] at e
      rw [← h.cps] at h2
      simpa [List.getD_eq_getElem?_getD, h1, h2] using e
  have hws : ph'.weights = ph.weights := by
    cases h1 : ph.weights with
    | none => exact hk.1 h1
    | some w =>
      cases h2 : ph'.weights with
      | none => rw [hk.2 h2] at h1; simp at h1
      | some w' =>
        congr 1
        have l1 := (h.weights w h1).1
        have l2 := h'.weights w' h2
        apply List.ext_getElem
        · rw [l1, l2]
        · intro i h3 h4
          have hJ := unlin_inBox hpos i
          have e := hw _ hJ
          unfold pwgt at e
          rw [h1, h2] at e
          simp only at e
          rw [lin_unlin (by omega)] at e
          simpa [List.getD_eq_getElem?_getD, h3, h4] using e
  have hnum : ph'.num = ph.num := by rw [h.num, h'.num]
  cases ph; cases ph'
  simp_all

variable [HasSqrt K]

theorem distance_self (h0 : HasSqrt.sqrt (0 : K) = 0) (v : List K) : Phys.distance v v = 0 := by
  unfold Phys.distance Phys.twoNorm
  have : ∀ (v : List K), (List.zipWith (· - ·) v v).foldl (fun s a => s + a * a) 0 = 0 := by
    intro v
    induction v with
    | nil => rfl
    | cons a v ih => simpa using ih
  rw [this, h0]

/-- What is needed of the control points after an insertion. -/
structure Blended (ph0 ph : Phys K) (ns : List ℕ) (d first last : ℕ) (α : ℕ → K) : Prop where
  wf0 : WFPhys ph0 ns
  wf : WFPhys ph (ns.set d (ixd ns d + 1))
  sameDim : ph.dim = ph0.dim
  kind : ph0.weights = none ↔ ph.weights = none
  wgt : ∀ I, InBox (ns.set d (ixd ns d + 1)) I → pwgt ph (ns.set d (ixd ns d + 1)) I = blendDir d first last α (pwgt ph0 ns) I
  hom : ∀ I, InBox (ns.set d (ixd ns d + 1)) I → ∀ c < ph0.dim,
    pwgt ph (ns.set d (ixd ns d + 1)) I * pcpt ph (ns.set d (ixd ns d + 1)) I c =
      blendDir d first last α (fun J => pwgt ph0 ns J * pcpt ph0 ns J c) I

/-- Removing the inserted knot succeeds and gives back the control points. -/
theorem removeControlPoints_blended (h0 : HasSqrt.sqrt (0 : K) = 0) {ph0 ph : Phys K} (hB : Blended ph0 ph ns d first last α)
    (hpos : ∀ n ∈ ns, 0 < n) (hd : d < ns.length) (hf : 1 ≤ first) (hfl : first ≤ last) (hl : last < ixd ns d) {scaling : List K}
    (hs : ScalingAt scaling first last α) (hα : Strict first last α) {tol : K} (htol : 0 ≤ tol) :
    Spl.removeControlPoints ph scaling (first : ℤ) (last : ℤ) d tol = .ok (some ph0) := by
  set ns' := ns.set d (ixd ns d + 1) with hns'
  have hpos' : ∀ n ∈ ns', 0 < n := set_pos hpos (by omega)
  have hd' : d < ns'.length := by simpa [hns'] using hd
  have hix : ixd ns' d = ixd ns d + 1 := ixd_set_self hd
  have hback : ns'.set d (ixd ns' d - 1) = ns := by
    rw [hix, hns', List.set_set]; simpa using set_ixd hd
  have hset1 : ns'.set d 1 = ns.set d 1 := by rw [hns', List.set_set]
  have hl2 : last + 1 < ixd ns' d := by omega
  obtain ⟨m, hm⟩ : ∃ m, m = (last + 1 - first) / 2 := ⟨_, rfl⟩
  -- the values along lines
  have hbox : ∀ e k, k ≤ ixd ns d → InBox ns' (lineIx ns' d e k) := fun e k hk => lineIx_inBox hpos' (by omega)
  have hlen : ∀ e, d < (unlin (ns'.set d 1) e).length := by intro e; rw [unlin_length]; simpa using hd'
  have hWl : ∀ e j, first - 1 ≤ j → j ≤ last + 1 →
      lineW ph ns' d e j = blend1 first last α (fun i => pwgt ph0 ns (lineIx ns' d e i)) j := by
    intro e j _ hj
    unfold lineW
    rw [hB.wgt _ (hbox e j (by omega))]
    exact blendDir_line (hlen e) j
  have hHl : ∀ e c, c < ph0.dim → ∀ j, first - 1 ≤ j → j ≤ last + 1 →
      lineH ph ns' d e c j = blend1 first last α (fun i => pwgt ph0 ns (lineIx ns' d e i) * pcpt ph0 ns (lineIx ns' d e i) c) j := by
    intro e c hc j _ hj
    unfold lineH
    rw [hB.hom _ (hbox e j (by omega)) c hc]
    exact blendDir_line (hlen e) j
  have hOK : ∀ T : K, 0 ≤ T → ∀ e, LineOK ph ns' d first last m α T e := by
    intro T hT e
    right
    have hvec : homVec ph (fun c => lineH ph ns' d e c (first + m)) (lineW ph ns' d e (first + m)) =
        homVec ph (fun c => α (first + m) * TR last α (lineH ph ns' d e c) (last - first - m) +
          (1 - α (first + m)) * TL first α (lineH ph ns' d e c) m)
        (α (first + m) * TR last α (lineW ph ns' d e) (last - first - m) + (1 - α (first + m)) * TL first α (lineW ph ns' d e) m) := by
      unfold homVec
      congr 1
      · apply List.map_congr_left
        intro c hc
        have hc : c < ph0.dim := by have := List.mem_range.1 hc; rw [hB.sameDim] at this; exact this
        rw [TL_blend hα hf (hHl e c hc) _ (by omega), TR_blend hα hf (hHl e c hc) _ (by omega), hHl e c hc _ (by omega) (by omega),
          blend1, if_neg (by omega), if_pos (by omega), show last - (last - first - m) = first + m by omega,
          show first - 1 + m = first + m - 1 by omega]
      · rw [TL_blend hα hf (hWl e) _ (by omega), TR_blend hα hf (hWl e) _ (by omega), hWl e _ (by omega) (by omega),
          blend1, if_neg (by omega), if_pos (by omega), show last - (last - first - m) = first + m by omega,
          show first - 1 + m = first + m - 1 by omega]
    rw [hvec, distance_self h0]
    exact hT
  have hfinal : ∀ ph', RemResult ph ph' ns' d first last m α → ph' = ph0 := by
    intro ph' hR
    have hsh := hR.shape
    have hwt := hR.wgt
    have hhm := hR.hom
    rw [hback] at hsh hwt hhm
    apply phys_ext hpos hB.wf0 hsh (hR.sameDim.trans hB.sameDim) (hB.kind.trans hR.kind)
    · intro J hJ
      rw [hwt J hJ]
      exact remDir_blend hα hf hfl (by omega) hd (by omega) hB.wgt hJ
    · intro J hJ c hc
      rw [hhm J hJ c (by rw [hB.sameDim]; exact hc)]
      exact remDir_blend hα hf hfl (by omega) hd (by omega) (fun I hI => hB.hom I hI c hc) hJ
  cases hw : ph.weights with
  | none =>
    obtain ⟨r, h1, h2, _⟩ := removeControlPoints_bspline hB.wf.shape hpos' hd' hf hfl hl2 hs hα hm hw tol
    obtain ⟨ph', h3, h4⟩ := h2 (fun e _ => hOK tol htol e)
    rw [h1, h3, hfinal ph' h4]
  | some w =>
    obtain ⟨T0, hT, _, hT2⟩ := effTol_ok hB.wf.shape hpos' tol
    have hT0 := hT2 htol (fun w' hw' a ha => ((hB.wf.weights w' hw').2 a ha).le)
    have hNZ : NoZero ph ns' d first last m α := by
      intro e he t ht
      have hbx : ∀ k, k < ixd ns d → InBox ns (lineIx ns' d e k) := by
        intro k hk
        unfold lineIx
        rw [hset1]
        exact inBox_set_of (unlin_inBox (set_pos hpos (by omega)) e) hk
      rw [TL_blend hα hf (hWl e) _ (by omega), TR_blend hα hf (hWl e) _ (by omega)]
      exact ⟨(pwgt_pos hB.wf0 (hbx _ (by omega))).ne', (pwgt_pos hB.wf0 (hbx _ (by omega))).ne'⟩
    obtain ⟨r, h1, h2, _⟩ := (removeControlPoints_nurbs hB.wf.shape hpos' hd' hf hfl hl2 hs hα hm hw hT).1 hNZ
    obtain ⟨ph', h3, h4⟩ := h2 (fun e _ => hOK T0 hT0 e)
    rw [h1, h3, hfinal ph' h4]

end
end SplineLib
