import Verif.Core.Phys

/-!
# `AdjustControlPoints` (helper lemmas)
-/

namespace SplineLib
set_option linter.unusedSectionVars false
open Finset

section
variable {K : Type} [Field K] [LinearOrder K] [IsStrictOrderedRing K]

/-- The new coefficients of one round of knot insertion in direction `d`. -/
def blendDir (d first last : ℕ) (α : ℕ → K) (F : List ℕ → K) (I : List ℕ) : K :=
  if last < ixd I d then F (I.set d (ixd I d - 1))
  else if first ≤ ixd I d then α (ixd I d) * F I + (1 - α (ixd I d)) * F (I.set d (ixd I d - 1))
  else F I

/-- The new control points; `w` are the weights. -/
def newP (d first last : ℕ) (α : ℕ → K) (w : List ℕ → K) (P : List ℕ → K) (I : List ℕ) : K :=
  if last < ixd I d then P (I.set d (ixd I d - 1))
  else if first ≤ ixd I d then
    (α (ixd I d) * (w I * P I) + (1 - α (ixd I d)) * (w (I.set d (ixd I d - 1)) * P (I.set d (ixd I d - 1)))) /
      blendDir d first last α w I
  else P I

/-- The scaling factors that the loop body reads. -/
def ScalingOK (scaling : List K) (first last : ℕ) (α : ℕ → K) : Prop :=
  ∀ i, first ≤ i → i ≤ last → getI scaling ((i : ℤ) - (first : ℤ)) = .ok (α i) ∧ 0 ≤ α i ∧ α i ≤ 1

variable {ph : Phys K} {ns I : List ℕ} {d first last : ℕ} {scaling : List K} {α : ℕ → K}

theorem blend_eq {a : K} {u l : List K} (h : u.length = l.length) :
    Spl.blend a u l = .ok ((List.range u.length).map fun c => a * u.getD c 0 + (1 - a) * l.getD c 0) := by
  unfold Spl.blend
  apply buildList_eq
  intro i hi
  rw [getN_getD hi 0, getN_getD (by omega : i < l.length) 0]
  rfl

theorem getD_map_range {f : ℕ → K} {n c : ℕ} (h : c < n) : ((List.range n).map f).getD c 0 = f c := by
  simp [List.getD_eq_getElem?_getD, h]

theorem newCP_bspline (hn : ph.num = zl ns) (hd0 : 0 < ph.dim) (hdI : d < I.length) (hf : 1 ≤ first)
    (hs : ScalingOK scaling first last α)
    (h1 : 1 ≤ ixd I d → ph.dim * (lin ns (I.set d (ixd I d - 1)) + 1) ≤ ph.cps.length)
    (h2 : ixd I d ≤ last → ph.dim * (lin ns I + 1) ≤ ph.cps.length) :
    Spl.newCPBSpline ph (zl I) d scaling (ixd I d : ℤ) first last =
      .ok ((List.range ph.dim).map fun c => newP d first last α (fun _ => 1) (fun J => pcpt ph ns J c) I) := by
  unfold Spl.newCPBSpline newP
  have hmod : 1 ≤ ixd I d → (zl I).modify d (· - 1) = zl (I.set d (ixd I d - 1)) := fun h => modify_zl hdI (by omega)
  by_cases c1 : last < ixd I d
  · simp only [if_pos c1]
    rw [if_pos (by omega), hmod (by omega), pgetCP hn (h1 (by omega))]
  · simp only [if_neg c1]
    rw [if_neg (by omega)]
    by_cases c2 : first ≤ ixd I d
    · simp only [if_pos c2]
      rw [if_pos (by omega), hmod (by omega), pgetCP hn (h1 (by omega)), pgetCP hn (h2 (by omega))]
      have hα := (hs (ixd I d) c2 (by omega)).1
      simp only [ok_bind, List.length_map, List.length_range, if_neg hd0.ne']
      rw [hα, ok_bind, blend_eq (by simp)]
      simp only [List.length_map, List.length_range]
      congr 1
      apply List.map_congr_left
      intro c hc
      have hc := List.mem_range.1 hc
      rw [getD_map_range hc, getD_map_range hc]
      simp [blendDir, if_neg c1, if_pos c2]
    · simp only [if_neg c2]
      rw [if_neg (by omega), pgetCP hn (h2 (by omega))]

theorem newWeight_eq (hn : ph.num = zl ns) (hdI : d < I.length) (hf : 1 ≤ first) (hs : ScalingOK scaling first last α)
    (h1 : 1 ≤ ixd I d → ∀ w, ph.weights = some w → lin ns (I.set d (ixd I d - 1)) < w.length)
    (h2 : ixd I d ≤ last → ∀ w, ph.weights = some w → lin ns I < w.length) :
    Spl.newWeight ph (zl I) d scaling (ixd I d : ℤ) first last = .ok (blendDir d first last α (pwgt ph ns) I) := by
  unfold Spl.newWeight blendDir
  have hmod : 1 ≤ ixd I d → (zl I).modify d (· - 1) = zl (I.set d (ixd I d - 1)) := fun h => modify_zl hdI (by omega)
  by_cases c1 : last < ixd I d
  · rw [if_pos c1, if_pos (by omega), hmod (by omega), pgetWeight hn (h1 (by omega))]
  · rw [if_neg c1, if_neg (by omega)]
    by_cases c2 : first ≤ ixd I d
    · rw [if_pos c2, if_pos (by omega), hmod (by omega), pgetWeight hn (h1 (by omega)), pgetWeight hn (h2 (by omega))]
      have hα := (hs (ixd I d) c2 (by omega)).1
      simp only [ok_bind]
      rw [hα]; rfl
    · rw [if_neg c2, if_neg (by omega), pgetWeight hn (h2 (by omega))]

theorem newCP_nurbs (hn : ph.num = zl ns) (hd0 : 0 < ph.dim) (hdI : d < I.length) (hf : 1 ≤ first)
    (hs : ScalingOK scaling first last α) {w : List K} (hw : ph.weights = some w)
    (h1 : 1 ≤ ixd I d → ph.dim * (lin ns (I.set d (ixd I d - 1)) + 1) ≤ ph.cps.length)
    (h2 : ixd I d ≤ last → ph.dim * (lin ns I + 1) ≤ ph.cps.length)
    (h1w : 1 ≤ ixd I d → lin ns (I.set d (ixd I d - 1)) < w.length)
    (h2w : ixd I d ≤ last → lin ns I < w.length)
    (hnz : first ≤ ixd I d → ixd I d ≤ last → blendDir d first last α (pwgt ph ns) I ≠ 0) :
    ∃ l, Spl.newCPNurbs ph (zl I) d scaling (ixd I d : ℤ) first last = .ok l ∧ ph.dim ≤ l.length ∧
      ∀ c < ph.dim, l.getD c 0 = newP d first last α (pwgt ph ns) (fun J => pcpt ph ns J c) I := by
  unfold Spl.newCPNurbs newP
  have hmod : 1 ≤ ixd I d → (zl I).modify d (· - 1) = zl (I.set d (ixd I d - 1)) := fun h => modify_zl hdI (by omega)
  by_cases c1 : last < ixd I d
  · simp only [if_pos c1]
    rw [if_pos (by omega), hmod (by omega), pgetCP hn (h1 (by omega))]
    exact ⟨_, rfl, by simp, fun c hc => getD_map_range hc⟩
  · simp only [if_neg c1]
    rw [if_neg (by omega)]
    by_cases c2 : first ≤ ixd I d
    · simp only [if_pos c2]
      have hα := (hs (ixd I d) c2 (by omega)).1
      rw [if_pos (by omega), hmod (by omega), pgetHomCP hn hd0 (h1 (by omega)) hw (h1w (by omega)),
        pgetHomCP hn hd0 (h2 (by omega)) hw (h2w (by omega)),
        newWeight_eq hn hdI hf hs
          (fun h w' hw' => by rw [hw] at hw'; obtain rfl := Option.some.inj hw'; exact h1w h)
          (fun h w' hw' => by rw [hw] at hw'; obtain rfl := Option.some.inj hw'; exact h2w h)]
      simp only [ok_bind]
      rw [hα]
      simp only [ok_bind]
      have hnz' := hnz c2 (by omega)
      rw [buildList_eq (g := fun j => (α (ixd I d) *
          ((List.range ph.dim).map (fun c => pcpt ph ns I c * pwgt ph ns I) ++ [pwgt ph ns I]).getD j 0 +
          (1 - α (ixd I d)) * ((List.range ph.dim).map (fun c => pcpt ph ns (I.set d (ixd I d - 1)) c *
            pwgt ph ns (I.set d (ixd I d - 1))) ++ [pwgt ph ns (I.set d (ixd I d - 1))]).getD j 0) /
          blendDir d first last α (pwgt ph ns) I)]
      · refine ⟨_, rfl, by simp, ?_⟩
        intro c hc
        rw [getD_map_range (by simp; omega)]
        simp only [List.getD_eq_getElem?_getD, List.getElem?_append, List.length_map, List.length_range, if_pos hc,
          List.getElem?_map, List.getElem?_range hc, Option.map_some, Option.getD_some]
        ring
      · intro j hj
        simp only [List.length_append, List.length_map, List.length_range, List.length_singleton] at hj
        rw [getN_getD (by simp; omega) 0, getN_getD (by simp; omega) 0]
        simp only [ok_bind, fdiv, if_neg hnz']
    · simp only [if_neg c2]
      rw [if_neg (by omega), pgetCP hn (h2 (by omega))]
      exact ⟨_, rfl, by simp, fun c hc => getD_map_range hc⟩

/-- Loop invariant of `AdjustControlPoints`: positions `≥ k` hold the new values, the others the old ones. -/
structure AdjInv (ph0 : Phys K) (ns : List ℕ) (d first last : ℕ) (α : ℕ → K) (k : ℕ) (ph : Phys K) : Prop where
  num : ph.num = zl ns
  dim : ph.dim = ph0.dim
  len : ph.cps.length = ph0.dim * (ns.set d (ixd ns d + 1)).prod
  val : ∀ m < (ns.set d (ixd ns d + 1)).prod, ∀ c < ph0.dim, ph.cps.getD (ph0.dim * m + c) 0 =
    if k ≤ m then newP d first last α (pwgt ph0 ns) (fun J => pcpt ph0 ns J c) (unlin (ns.set d (ixd ns d + 1)) m)
    else ph0.cps.getD (ph0.dim * m + c) 0
  wnone : ph0.weights = none → ph.weights = none
  wsome : ∀ w0, ph0.weights = some w0 → ∃ w, ph.weights = some w ∧ w.length = (ns.set d (ixd ns d + 1)).prod ∧
    ∀ m < (ns.set d (ixd ns d + 1)).prod, w.getD m 0 =
      if k ≤ m then blendDir d first last α (pwgt ph0 ns) (unlin (ns.set d (ixd ns d + 1)) m) else w0.getD m 0

theorem blendDir_pos {w : List ℕ → K} (hl : last < ixd ns d) (hs : ScalingOK scaling first last α) (hf : 1 ≤ first)
    (hw : ∀ J, InBox ns J → 0 < w J) (hdn : d < ns.length) {I : List ℕ} (hI : InBox (ns.set d (ixd ns d + 1)) I) :
    0 < blendDir d first last α w I := by
  have hlt : ixd I d < ixd ns d + 1 := by
    have : ixd I d < ixd (ns.set d (ixd ns d + 1)) d := hI.getD_lt (d := d) (by simpa using hdn)
    rwa [ixd_set_self hdn] at this
  have hIl : d < I.length := by rw [hI.length]; simpa using hdn
  unfold blendDir
  split_ifs with c1 c2
  · exact hw _ (inBox_set_of hI (by omega))
  · obtain ⟨_, h1, h2⟩ := hs (ixd I d) c2 (by omega)
    have p1 := hw (I.set d (ixd I d - 1)) (inBox_set_of hI (by omega))
    have p2 := hw I (by have := inBox_set_of (i := ixd I d) hI (by omega); rwa [set_ixd hIl] at this)
    rcases eq_or_lt_of_le h1 with h | h
    · rw [← h]; simpa using p1
    · have := mul_pos h p2
      have := mul_nonneg (sub_nonneg.2 h2) p1.le
      linarith
  · have := inBox_set_of (i := ixd I d) hI (by omega)
    rw [set_ixd hIl] at this
    exact hw I this

theorem adjust_step {ph0 : Phys K} (h0 : WFPhys ph0 ns) (hpos : ∀ n ∈ ns, 0 < n) (hdn : d < ns.length) (hf : 1 ≤ first)
    (hl : last < ixd ns d) (hs : ScalingOK scaling first last α) {k : ℕ} (hk : k < (ns.set d (ixd ns d + 1)).prod) {ph : Phys K}
    (hi : AdjInv ph0 ns d first last α (k + 1) ph) :
    ∃ ph', Spl.adjustBody scaling (first : ℤ) (last : ℤ) d ⟨zl (ns.set d (ixd ns d + 1)), zl (unlin (ns.set d (ixd ns d + 1)) k)⟩ ph = .ok ph' ∧
      AdjInv ph0 ns d first last α k ph' := by
  have hpos' : ∀ n ∈ ns.set d (ixd ns d + 1), 0 < n := set_pos hpos (by omega)
  have hlinNS := lin_unlin hk
  obtain ⟨I, hIdef⟩ : ∃ I, I = unlin (ns.set d (ixd ns d + 1)) k := ⟨_, rfl⟩
  have hIb : InBox (ns.set d (ixd ns d + 1)) I := hIdef ▸ unlin_inBox hpos' k
  rw [← hIdef] at hlinNS ⊢
  have hIl : d < I.length := by rw [hIb.length]; simpa using hdn
  have hlt : ixd I d < ixd ns d + 1 := by
    have : ixd I d < ixd (ns.set d (ixd ns d + 1)) d := hIb.getD_lt (d := d) (by simpa using hdn)
    rwa [ixd_set_self hdn] at this
  have hlen : ns.prod ≤ (ns.set d (ixd ns d + 1)).prod := by
    have := prod_eq_ixd hdn
    have h2 := prod_set (m := ixd ns d + 1) hdn
    rw [Nat.add_mul] at h2; omega
  -- positions that are read
  have hm : 1 ≤ ixd I d → InBox ns (I.set d (ixd I d - 1)) ∧ lin ns (I.set d (ixd I d - 1)) ≤ k := by
    intro h
    refine ⟨inBox_set_of hIb (by omega), ?_⟩
    rw [← hlinNS]
    exact lin_mono (forall₂_le_set (by omega)) (forall₂_set_le (by omega))
  have hu : ixd I d ≤ last → InBox ns I ∧ lin ns I ≤ k := by
    intro h
    refine ⟨?_, ?_⟩
    · have := inBox_set_of (i := ixd I d) hIb (by omega); rwa [set_ixd hIl] at this
    · rw [← hlinNS]
      exact lin_mono (forall₂_le_set (by omega)) (forall₂_le_refl _)
  have rd : ∀ J, InBox ns J → lin ns J ≤ k → ∀ c < ph0.dim, pcpt ph ns J c = pcpt ph0 ns J c := by
    intro J hJ hJk c hc
    unfold pcpt
    rw [hi.dim, hi.val _ (by omega) c hc, if_neg (by omega)]
  have rw' : ∀ J, InBox ns J → lin ns J ≤ k → pwgt ph ns J = pwgt ph0 ns J := by
    intro J hJ hJk
    unfold pwgt
    cases hw : ph0.weights with
    | none => rw [hi.wnone hw]
    | some w0 =>
      obtain ⟨w, e1, e2, e3⟩ := hi.wsome w0 hw
      rw [e1]
      show w.getD _ 0 = w0.getD _ 0
      rw [e3 _ (by omega), if_neg (by omega)]
  have cbound : ∀ J, lin ns J ≤ k → ph.dim * (lin ns J + 1) ≤ ph.cps.length := by
    intro J hJ
    rw [hi.len, hi.dim]; exact Nat.mul_le_mul_left _ (by omega)
  have hd0 : 0 < ph.dim := by rw [hi.dim]; exact h0.dim
  have hat : MIH.at' ⟨zl (ns.set d (ixd ns d + 1)), zl I⟩ d = .ok (ixd I d : ℤ) := getN_zl hIl
  have hnum' : ph.num.modify d (· + 1) = zl (ns.set d (ixd ns d + 1)) := by
    rw [hi.num]; exact modify_zl hdn (by push_cast; ring)
  have hWeq : blendDir d first last α (pwgt ph ns) I = blendDir d first last α (pwgt ph0 ns) I := by
    unfold blendDir
    split_ifs with c1 c2
    · rw [rw' _ (hm (by omega)).1 (hm (by omega)).2]
    · rw [rw' _ (hm (by omega)).1 (hm (by omega)).2, rw' _ (hu (by omega)).1 (hu (by omega)).2]
    · rw [rw' _ (hu (by omega)).1 (hu (by omega)).2]
  have hPeq : ∀ c < ph0.dim, newP d first last α (pwgt ph ns) (fun J => pcpt ph ns J c) I =
      newP d first last α (pwgt ph0 ns) (fun J => pcpt ph0 ns J c) I := by
    intro c hc
    unfold newP
    rw [hWeq]
    beta_reduce
    split_ifs with c1 c2
    · rw [rd _ (hm (by omega)).1 (hm (by omega)).2 c hc]
    · rw [rw' _ (hm (by omega)).1 (hm (by omega)).2, rw' _ (hu (by omega)).1 (hu (by omega)).2,
        rd _ (hm (by omega)).1 (hm (by omega)).2 c hc, rd _ (hu (by omega)).1 (hu (by omega)).2 c hc]
    · rw [rd _ (hu (by omega)).1 (hu (by omega)).2 c hc]
  have stored : ∀ (cp : List K), ph.dim ≤ cp.length →
      (∀ c < ph.dim, cp.getD c 0 = newP d first last α (pwgt ph ns) (fun J => pcpt ph ns J c) I) →
      ∃ cps', ph.setCP (zl I) cp (zl (ns.set d (ixd ns d + 1))) = .ok { ph with cps := cps' } ∧
        cps'.length = ph0.dim * (ns.set d (ixd ns d + 1)).prod ∧
        ∀ m < (ns.set d (ixd ns d + 1)).prod, ∀ c < ph0.dim, cps'.getD (ph0.dim * m + c) 0 =
          if k ≤ m then newP d first last α (pwgt ph0 ns) (fun J => pcpt ph0 ns J c) (unlin (ns.set d (ixd ns d + 1)) m)
          else ph0.cps.getD (ph0.dim * m + c) 0 := by
    intro cp hcp hv
    obtain ⟨cps', e1, e2, e3⟩ := setCP_eq (ph := ph) (ns' := ns.set d (ixd ns d + 1)) (I := I) hcp (by
      rw [hi.len, hi.dim, hlinNS]; exact Nat.mul_le_mul_left _ (by omega))
    refine ⟨cps', e1, by rw [e2, hi.len], ?_⟩
    intro m hmm c hc
    rw [← hi.dim, e3 m c (by rw [hi.dim]; exact hc), hlinNS]
    by_cases hmk : m = k
    · subst hmk
      rw [if_pos rfl, if_pos (le_refl _), hv c (by rw [hi.dim]; exact hc), hPeq c hc, ← hIdef]
    · rw [if_neg hmk, hi.dim, hi.val m hmm c hc]
      by_cases h : k ≤ m
      · rw [if_pos h, if_pos (by omega)]
      · rw [if_neg h, if_neg (by omega)]
  unfold Spl.adjustBody
  rw [hat, ok_bind]
  cases hw0 : ph0.weights with
  | none =>
    have hw := hi.wnone hw0
    have hone : pwgt ph ns = fun _ => (1 : K) := by funext J; unfold pwgt; rw [hw]
    simp only [hw]
    rw [newCP_bspline hi.num hd0 hIl hf hs (fun h => cbound _ (hm h).2) (fun h => cbound _ (hu h).2), ok_bind, hnum']
    obtain ⟨cps', e1, e2, e3⟩ := stored ((List.range ph.dim).map fun c => newP d first last α (fun _ => 1) (fun J => pcpt ph ns J c) I) (by simp)
      (fun c hc => by rw [getD_map_range hc, hone])
    refine ⟨_, e1, ⟨hi.num, hi.dim, e2, e3, fun _ => hw, fun w0 hc => by rw [hw0] at hc; simp at hc⟩⟩
  | some w0 =>
    obtain ⟨w, hw, hwl, hwv⟩ := hi.wsome w0 hw0
    have wpos : ∀ J, InBox ns J → 0 < pwgt ph0 ns J := fun J hJ => pwgt_pos h0 hJ
    simp only [hw]
    obtain ⟨l, f1, f2, f3⟩ := newCP_nurbs (w := w) hi.num hd0 hIl hf hs hw (fun h => cbound _ (hm h).2)
      (fun h => cbound _ (hu h).2) (fun h => by have := (hm h).2; omega) (fun h => by have := (hu h).2; omega)
      (fun _ _ => by rw [hWeq]; exact (blendDir_pos hl hs hf wpos hdn hIb).ne')
    rw [f1, ok_bind, newWeight_eq hi.num hIl hf hs
      (fun h w' hw' => by rw [hw] at hw'; obtain rfl := Option.some.inj hw'; have := (hm h).2; omega)
      (fun h w' hw' => by rw [hw] at hw'; obtain rfl := Option.some.inj hw'; have := (hu h).2; omega), ok_bind, hnum']
    obtain ⟨cps', e1, e2, e3⟩ := stored l f2 f3
    rw [e1, ok_bind]
    simp only [Phys.setWeight, Phys.theWeights, hw, ok_bind]
    rw [oneD_zl, hlinNS, setI_nat (by omega), ok_bind]
    refine ⟨_, rfl, ⟨hi.num, hi.dim, e2, e3, fun hc => by rw [hw0] at hc; simp at hc, ?_⟩⟩
    intro w0' hw0'
    rw [hw0] at hw0'
    obtain rfl := Option.some.inj hw0'
    refine ⟨_, rfl, by simp [hwl], ?_⟩
    intro m hmm
    by_cases hmk : m = k
    · subst hmk
      rw [if_pos (le_refl _), ← hIdef, ← hWeq]
      simp [List.getD_eq_getElem?_getD, show m < w.length by omega]
    · have : (w.set k (blendDir d first last α (pwgt ph ns) I)).getD m 0 = w.getD m 0 := by
        simp only [List.getD_eq_getElem?_getD, List.getElem?_set, if_neg (Ne.symm hmk)]
      rw [this, hwv m hmm]
      by_cases h : k ≤ m
      · rw [if_pos h, if_pos (by omega)]
      · rw [if_neg h, if_neg (by omega)]

/-- `AdjustControlPoints` computes the blended homogeneous control points. -/
theorem adjustCPs_spec {ph0 : Phys K} (h0 : WFPhys ph0 ns) (hpos : ∀ n ∈ ns, 0 < n) (hdn : d < ns.length) (hf : 1 ≤ first)
    (hl : last < ixd ns d) (hs : ScalingOK scaling first last α) :
    ∃ ph', Spl.adjustCPs ph0 scaling (first : ℤ) (last : ℤ) d = .ok ph' ∧ WFPhys ph' (ns.set d (ixd ns d + 1)) ∧
      ph'.dim = ph0.dim ∧ (ph0.weights = none ↔ ph'.weights = none) ∧
      (∀ I, InBox (ns.set d (ixd ns d + 1)) I →
        pwgt ph' (ns.set d (ixd ns d + 1)) I = blendDir d first last α (pwgt ph0 ns) I ∧
        ∀ c < ph0.dim, pwgt ph' (ns.set d (ixd ns d + 1)) I * pcpt ph' (ns.set d (ixd ns d + 1)) I c =
          blendDir d first last α (fun J => pwgt ph0 ns J * pcpt ph0 ns J c) I) := by
  have hpos' : ∀ n ∈ ns.set d (ixd ns d + 1), 0 < n := set_pos hpos (by omega)
  have hn0 := ixd_pos hpos hdn
  have hnum' : ph0.num.modify d (· + 1) = zl (ns.set d (ixd ns d + 1)) := by
    rw [h0.num]; exact modify_zl hdn (by push_cast; ring)
  have hmaxeq : ph0.maxIndex.modify d (· + 1) = zl ((ns.set d (ixd ns d + 1)).map (· - 1)) := by
    have : ph0.maxIndex = zl (ns.map (· - 1)) := by
      simp only [Phys.maxIndex, h0.num, zl, List.map_map]
      apply List.map_congr_left
      intro n hn
      have := hpos n hn
      simp only [Function.comp_apply]; omega
    rw [this, modify_zl (b := ixd ns d) (by simpa using hdn)]
    · congr 1
      rw [List.map_set]; simp
    · have : ixd (ns.map (· - 1)) d = ixd ns d - 1 := by
        simp [ixd, List.getD_eq_getElem?_getD, hdn]
      rw [this]; omega
  have hmaxd : getN (zl ((ns.set d (ixd ns d + 1)).map (· - 1))) d = .ok (ixd ns d : ℤ) := by
    rw [getN_zl (by simpa using hdn)]
    simp [ixd, List.getD_eq_getElem?_getD, hdn]
  have hcp : ph0.cpsPer (ixd ns d : ℤ) = .ok ((ns.set d 1).prod : ℤ) := by
    simp only [Phys.cpsPer, Phys.numCPs, if_neg h0.dim.ne', ok_bind]
    rw [if_neg (by omega), h0.cps]
    rw [show (((ph0.dim * ns.prod : ℕ) : ℤ)) = (ph0.dim : ℤ) * (ns.prod : ℤ) by push_cast; rfl,
      Int.mul_tdiv_cancel_left _ (by have := h0.dim; omega), prod_eq_ixd hdn]
    push_cast
    rw [Int.mul_tdiv_cancel_left _ (by omega)]
    rfl
  have hprod : (ns.set d (ixd ns d + 1)).prod = ns.prod + (ns.set d 1).prod := by
    rw [prod_set hdn, prod_eq_ixd hdn]; ring
  have hinit : AdjInv ph0 ns d first last α (ns.set d (ixd ns d + 1)).prod (ph0.addCPs ((ns.set d 1).prod : ℤ)) := by
    refine ⟨h0.num, rfl, ?_, ?_, ?_, ?_⟩
    · simp only [Phys.addCPs, List.length_append, List.length_replicate, h0.cps, Int.toNat_natCast]
      rw [hprod]; ring
    · intro m hm c hc
      rw [if_neg (by omega)]
      simp only [Phys.addCPs, List.getD_eq_getElem?_getD, List.getElem?_append]
      split
      · rfl
      · rename_i hge
        rw [List.getElem?_eq_none (l := ph0.cps) (by omega)]
        rw [List.getElem?_replicate]; split <;> rfl
    · intro hw; simp [Phys.addCPs, hw]
    · intro w0 hw
      refine ⟨w0 ++ List.replicate (ns.set d 1).prod 0, by simp only [Phys.addCPs, hw, Option.map_some, Int.toNat_natCast], ?_, ?_⟩
      · simp only [List.length_append, List.length_replicate, (h0.weights w0 hw).1]; rw [hprod]
      · intro m hm
        rw [if_neg (by omega)]
        simp only [List.getD_eq_getElem?_getD, List.getElem?_append]
        split
        · rfl
        · rw [List.getElem?_eq_none (l := w0) (by omega)]
          rw [List.getElem?_replicate]; split <;> rfl
  obtain ⟨ph2, e1, e2⟩ := downLoop_inv hpos' (body := Spl.adjustBody scaling (first : ℤ) (last : ℤ) d)
    (fun k ph => AdjInv ph0 ns d first last α k ph) hinit (fun k hk ph hi => adjust_step h0 hpos hdn hf hl hs hk hi)
  have hlen : (MIH.mk (zl (ns.set d (ixd ns d + 1))) (zl ((ns.set d (ixd ns d + 1)).map (· - 1)))).length1D.toNat =
      (ns.set d (ixd ns d + 1)).prod := by rw [length1D_zl, Int.toNat_natCast]
  have hrun : Spl.adjustCPs ph0 scaling (first : ℤ) (last : ℤ) d = .ok { ph2 with num := ph2.num.modify d (· + 1) } := by
    unfold Spl.adjustCPs
    simp only [hnum', hmaxeq, hmaxd, ok_bind, hcp, MIH.mk', MIH.setIndices]
    rw [hlen, e1]; rfl
  have wpos : ∀ J, InBox ns J → 0 < pwgt ph0 ns J := fun J hJ => pwgt_pos h0 hJ
  have hW : ∀ I, InBox (ns.set d (ixd ns d + 1)) I →
      pwgt { ph2 with num := ph2.num.modify d (· + 1) } (ns.set d (ixd ns d + 1)) I = blendDir d first last α (pwgt ph0 ns) I := by
    intro I hI
    cases hw0 : ph0.weights with
    | none =>
      have hw := e2.wnone hw0
      have hone : pwgt ph0 ns = fun _ => (1 : K) := by funext J; unfold pwgt; rw [hw0]
      rw [hone]
      simp only [pwgt, hw, blendDir]
      split_ifs <;> ring
    | some w0 =>
      obtain ⟨w, hw, hwl, hwv⟩ := e2.wsome w0 hw0
      simp only [pwgt, hw]
      rw [hwv _ (lin_lt hI), if_pos (by omega), unlin_lin hI]
  refine ⟨_, hrun, ⟨?_, ?_, ?_, ?_⟩, e2.dim, ?_, ?_⟩
  · show ph2.num.modify d (· + 1) = _
    rw [e2.num]; exact modify_zl hdn (by push_cast; ring)
  · show 0 < ph2.dim
    rw [e2.dim]; exact h0.dim
  · show ph2.cps.length = ph2.dim * _
    rw [e2.len, e2.dim]
  · intro w' hw'
    cases hw0 : ph0.weights with
    | none => have := e2.wnone hw0; simp only at hw'; rw [this] at hw'; simp at hw'
    | some w0 =>
      obtain ⟨w, hw, hwl, hwv⟩ := e2.wsome w0 hw0
      simp only at hw'
      rw [hw] at hw'
      obtain rfl := Option.some.inj hw'
      refine ⟨hwl, ?_⟩
      intro a ha
      obtain ⟨m, hm, rfl⟩ := List.getElem_of_mem ha
      have := hwv m (by omega)
      rw [List.getD_eq_getElem?_getD, List.getElem?_eq_getElem hm, if_pos (by omega)] at this
      simp only [Option.getD_some] at this
      rw [this]
      exact blendDir_pos hl hs hf wpos hdn (unlin_inBox hpos' m)
  · constructor
    · intro hw; exact e2.wnone hw
    · intro hw
      cases hw0 : ph0.weights with
      | none => rfl
      | some w0 =>
        obtain ⟨w, hw2, _⟩ := e2.wsome w0 hw0
        simp only at hw
        rw [hw2] at hw; simp at hw
  · intro I hI
    refine ⟨hW I hI, ?_⟩
    intro c hc
    rw [hW I hI]
    have hP : pcpt { ph2 with num := ph2.num.modify d (· + 1) } (ns.set d (ixd ns d + 1)) I c =
        newP d first last α (pwgt ph0 ns) (fun J => pcpt ph0 ns J c) I := by
      unfold pcpt
      simp only
      rw [e2.dim, e2.val _ (lin_lt hI) c hc, if_pos (by omega), unlin_lin hI]
      rfl
    rw [hP]
    have hne := (blendDir_pos hl hs hf wpos hdn hI).ne'
    simp only [newP]
    by_cases c1 : last < ixd I d
    · simp only [blendDir, if_pos c1]
    · by_cases c2 : first ≤ ixd I d
      · rw [if_neg c1, if_pos c2]
        conv_rhs => rw [blendDir, if_neg c1, if_pos c2]
        field_simp
      · simp only [blendDir, if_neg c1, if_neg c2]

end
end SplineLib
