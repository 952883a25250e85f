import Verif.Core.RemoveCheck

/-!
# One round of knot removal (helper lemmas)
-/

namespace SplineLib
set_option linter.unusedSectionVars false
open Finset

section
variable {K : Type} [Field K] [LinearOrder K] [IsStrictOrderedRing K]
variable {ns : List ℕ} {d : ℕ}
variable {ph : Phys K} {first last m : ℕ} {α : ℕ → K} {scaling : List K}

/-- The coefficients after one round of knot removal in direction `d`. -/
def remDir (d first last m : ℕ) (α : ℕ → K) (F : List ℕ → K) (J : List ℕ) : K :=
  if ixd J d < first then F J
  else if ixd J d < first + m then TL first α (fun k => F (J.set d k)) (ixd J d + 1 - first)
  else if ixd J d ≤ last then TR last α (fun k => F (J.set d k)) (last - ixd J d)
  else F (J.set d (ixd J d + 1))

theorem TL_one (hα : Strict first last α) : ∀ {t : ℕ}, first + t ≤ last + 1 → TL first α (fun _ => (1 : K)) t = 1
  | 0, _ => rfl
  | t + 1, h => by
    have h1 := (hα (first + t) (by omega) (by omega)).1
    rw [TL, TL_one hα (by omega), mul_one, sub_sub_cancel, div_self h1]

theorem TR_one (hα : Strict first last α) : ∀ {t : ℕ}, first + t ≤ last + 1 → TR last α (fun _ => (1 : K)) t = 1
  | 0, _ => rfl
  | t + 1, h => by
    have h1 := (hα (last - t) (by omega) (by omega)).2
    rw [TR, TR_one hα (by omega), mul_one, div_self h1]

theorem lineW_one (hw : ph.weights = none) (e : ℕ) : lineW ph ns d e = fun _ => 1 := by
  funext k; simp [lineW, pwgt, hw]

theorem lineW_row (hd : d < ns.length) {I : List ℕ} (hI : InBox ns I) :
    lineW ph ns d (row ns d I) = fun k => pwgt ph ns (I.set d k) := by
  funext k; rw [lineW, lineIx_row hd hI]

theorem lineH_row (hd : d < ns.length) {I : List ℕ} (hI : InBox ns I) (c : ℕ) :
    lineH ph ns d (row ns d I) c = fun k => pwgt ph ns (I.set d k) * pcpt ph ns (I.set d k) c := by
  funext k; rw [lineH, lineIx_row hd hI]

theorem lineP_row (hd : d < ns.length) {I : List ℕ} (hI : InBox ns I) (c : ℕ) :
    lineP ph ns d (row ns d I) c = fun k => pcpt ph ns (I.set d k) c := by
  funext k; rw [lineP, lineIx_row hd hI]

/-- `GoodW` everywhere is `NoZero`. -/
theorem goodW_iff (hpos : ∀ n ∈ ns, 0 < n) (hd : d < ns.length) (hf : 1 ≤ first) (hfl : first ≤ last) (hl : last + 1 < ixd ns d)
    (hm : m + m ≤ last + 1 - first) :
    (∀ I, InBox ns I → (first - 1 ≤ ixd I d ∧ ixd I d < first + m ∨ last - m < ixd I d ∧ ixd I d ≤ last + 1) →
      GoodW ph ns d first last m α I) ↔ NoZero ph ns d first last m α := by
  constructor
  · intro h e he t ht
    constructor
    · have := (h (lineIx ns d e (first - 1 + t)) (lineIx_inBox hpos (by omega)) (by rw [lineIx_ixd hd]; omega)).1
        (by rw [lineIx_ixd hd]; omega)
      rw [lineIx_ixd hd, row_lineIx hd he, show first - 1 + t + 1 - first = t by omega] at this
      exact this
    · have := (h (lineIx ns d e (last + 1 - t)) (lineIx_inBox hpos (by omega)) (by rw [lineIx_ixd hd]; omega)).2
        (by rw [lineIx_ixd hd]; omega)
      rw [lineIx_ixd hd, row_lineIx hd he, show last + 1 - (last + 1 - t) = t by omega] at this
      exact this
  · intro h I hI hr
    refine ⟨fun h1 => ?_, fun h1 => ?_⟩
    · exact (h _ (row_lt hI) _ (by omega)).1
    · exact (h _ (row_lt hI) _ (by omega)).2

/-- The result of `SetNewControlPoints` in terms of lines. -/
theorem newVal_eq {b : ℕ} {l0 : List K} {vL vR : ℕ → ℕ → ℕ → K} {J : List ℕ} {c : ℕ} (hfl : first ≤ last)
    (hm : m = (last + 1 - first) / 2) :
    newVal b ns d first last m l0 (tempVal vL vR (last + 3 - first) m) J c =
      if ixd J d < first then l0.getD (b * lin ns J + c) 0
      else if ixd J d < first + m then vL (row ns d J) (ixd J d + 1 - first) c
      else if ixd J d < last then vR (row ns d J) (last - ixd J d) c
      else l0.getD (b * lin ns (J.set d (ixd J d + 1)) + c) 0 := by
  unfold newVal
  by_cases c1 : ixd J d < first
  · rw [if_pos c1, if_pos c1]
  · rw [if_neg c1, if_neg c1]
    by_cases c2 : ixd J d < first + m
    · rw [if_pos c2, if_pos c2, tempVal, if_pos (by omega)]
    · rw [if_neg c2, if_neg c2]
      by_cases c3 : ixd J d < last
      · rw [if_pos c3, if_pos c3, tempVal, if_neg (by omega), if_pos (by omega)]
        congr 1; omega
      · rw [if_neg c3, if_neg c3]

/-- `SetNewControlPoints`. -/
theorem setNewCPs_eq (hph : ShapePhys ph ns) (hpos : ∀ n ∈ ns, 0 < n) (hd : d < ns.length) (hf : 1 ≤ first)
    (hfl : first ≤ last) (hl : last + 1 < ixd ns d) (hm : m + m ≤ last + 1 - first)
    {T : List K} (hT : T.length = (ns.set d 1).prod * (last + 3 - first) * ph.dim) {tv : ℕ → ℕ → ℕ → K}
    (hv : ∀ e x c, e < (ns.set d 1).prod → x < last + 3 - first → c < ph.dim → cell T (last + 3 - first) ph.dim e x c = tv e x c) :
    ∃ l', Spl.setNewCPs ph T (last : ℤ) ((m : ℤ) + 1) ((first : ℤ) - 1) d = .ok { ph with cps := l' } ∧
      l'.length = ph.cps.length ∧ ∀ J, InBox (ns.set d (ixd ns d - 1)) J → ∀ c < ph.dim,
        l'.getD (ph.dim * lin (ns.set d (ixd ns d - 1)) J + c) 0 = newVal ph.dim ns d first last m ph.cps tv J c := by
  have hnum' : ph.num.modify d (· - 1) = zl (ns.set d (ixd ns d - 1)) := by
    rw [hph.num]; exact modify_zl hd (by omega)
  have hbig : ∀ J, InBox (ns.set d (ixd ns d - 1)) J → lin (ns.set d (ixd ns d - 1)) J + 1 ≤ ns.prod := by
    intro J hJ
    have h1 := lin_lt hJ
    have h2 := prod_set (m := ixd ns d - 1) hd
    have h3 := prod_eq_ixd hd
    have h4 : (ixd ns d - 1) * (ns.set d 1).prod ≤ ixd ns d * (ns.set d 1).prod := Nat.mul_le_mul_right _ (by omega)
    omega
  unfold Spl.setNewCPs
  simp only
  rw [show MIH.mk' ph.num = MIH.mk' (zl ns) by rw [hph.num]]
  have := setNew_spec (b := ph.dim) (m := m) (mk := fun l => ({ ph with cps := l } : Phys K)) (l0 := ph.cps) (tv := tv)
    (fromTemp := fun h ix ph => do
      let k ← h.at' d
      let coords ← buildList (fun c => getI T ((h.extractDimension d * ((last : ℤ) - ((first : ℤ) - 1) + 2) + k - ((first : ℤ) - 1)) * ph.dim + c)) ph.dim
      ph.setCP ix coords (ph.num.modify d (· - 1)))
    (keep := fun h ix ph => do
      let p ← ph.getCP h.cur
      ph.setCP ix p (ph.num.modify d (· - 1))) hpos hd hf hfl hl hm (fun l => hph.num)
    (by
      intro I J l hI hJ hlen h1 h2 h3
      dsimp only
      rw [at_zl hd hI, ok_bind, extractDimension_zl hd hI]
      have hlen' : ((last : ℤ) - ((first : ℤ) - 1) + 2) = ((last + 3 - first : ℕ) : ℤ) := by omega
      rw [hlen', buildList_eq (g := fun c => tv (row ns d I) (ixd I d + 1 - first) c), ok_bind, hnum']
      · obtain ⟨cps', e1, e2, e3⟩ := setCP_eq (ph := { ph with cps := l }) (ns' := ns.set d (ixd ns d - 1)) (I := J)
          (cp := (List.range ph.dim).map fun c => tv (row ns d I) (ixd I d + 1 - first) c) (by simp) (by
            show ph.dim * _ ≤ l.length
            rw [hlen, hph.cps]
            exact Nat.mul_le_mul_left _ (hbig J hJ))
        refine ⟨cps', e1, e2, ?_⟩
        intro q c hc
        have := e3 q c hc
        rw [getD_map_range hc] at this
        exact this
      · intro c hc
        rw [getI_cell (x := ixd I d + 1 - first) (c := c) hT (row_lt hI) (by omega) hc, hv _ _ _ (row_lt hI) (by omega) hc]
        have : ((ixd I d : ℕ) : ℤ) = ((ixd I d + 1 - first : ℕ) : ℤ) + (first : ℤ) - 1 := by omega
        rw [this]; push_cast; ring)
    (by
      intro I J l hI hJ hlen
      dsimp only
      rw [pgetCP (ph := { ph with cps := l }) hph.num (by
        show ph.dim * _ ≤ l.length
        rw [hlen, hph.cps]
        exact Nat.mul_le_mul_left _ (lin_lt hI)), ok_bind, hnum']
      obtain ⟨cps', e1, e2, e3⟩ := setCP_eq (ph := { ph with cps := l }) (ns' := ns.set d (ixd ns d - 1)) (I := J)
          (cp := (List.range ph.dim).map fun c => pcpt { ph with cps := l } ns I c) (by simp) (by
            show ph.dim * _ ≤ l.length
            rw [hlen, hph.cps]
            exact Nat.mul_le_mul_left _ (hbig J hJ))
      refine ⟨cps', e1, e2, ?_⟩
      intro q c hc
      have := e3 q c hc
      rw [getD_map_range hc] at this
      exact this)
  exact this

/-- `SetNewWeights`. -/
theorem setNewWeights_eq {w : List K} (hn : ph.num = zl ns) (hw : ph.weights = some w) (hwl : w.length = ns.prod)
    (hpos : ∀ n ∈ ns, 0 < n) (hd : d < ns.length) (hf : 1 ≤ first)
    (hfl : first ≤ last) (hl : last + 1 < ixd ns d) (hm : m + m ≤ last + 1 - first)
    {T : List K} (hT : T.length = (ns.set d 1).prod * (last + 3 - first) * 1) {tv : ℕ → ℕ → ℕ → K}
    (hv : ∀ e x c, e < (ns.set d 1).prod → x < last + 3 - first → c < 1 → cell T (last + 3 - first) 1 e x c = tv e x c) :
    ∃ l', Spl.setNewWeights ph T (last : ℤ) ((m : ℤ) + 1) ((first : ℤ) - 1) d = .ok { ph with weights := some l' } ∧
      l'.length = w.length ∧ ∀ J, InBox (ns.set d (ixd ns d - 1)) J →
        l'.getD (lin (ns.set d (ixd ns d - 1)) J) 0 = newVal 1 ns d first last m w tv J 0 := by
  have hnum' : ph.num.modify d (· - 1) = zl (ns.set d (ixd ns d - 1)) := by
    rw [hn]; exact modify_zl hd (by omega)
  have hbig : ∀ J, InBox (ns.set d (ixd ns d - 1)) J → lin (ns.set d (ixd ns d - 1)) J + 1 ≤ ns.prod := by
    intro J hJ
    have h1 := lin_lt hJ
    have h2 := prod_set (m := ixd ns d - 1) hd
    have h3 := prod_eq_ixd hd
    have h4 : (ixd ns d - 1) * (ns.set d 1).prod ≤ ixd ns d * (ns.set d 1).prod := Nat.mul_le_mul_right _ (by omega)
    omega
  have put : ∀ (l : List K) (pos : ℕ) (v : ℕ → K), pos < l.length → Put 1 l (l.set pos (v 0)) pos v := by
    intro l pos v hp
    refine ⟨by simp, ?_⟩
    intro q c hc
    obtain rfl : c = 0 := by omega
    simp only [one_mul, add_zero, List.getD_eq_getElem?_getD, List.getElem?_set]
    by_cases h : q = pos
    · subst h; simp [hp]
    · rw [if_neg (Ne.symm h), if_neg h]
  unfold Spl.setNewWeights
  simp only
  rw [show MIH.mk' ph.num = MIH.mk' (zl ns) by rw [hn]]
  have := setNew_spec (b := 1) (m := m) (mk := fun l => ({ ph with weights := some l } : Phys K)) (l0 := w) (tv := tv)
    (fromTemp := fun h ix ph => do
      let k ← h.at' d
      let w ← getI T (h.extractDimension d * ((last : ℤ) - ((first : ℤ) - 1) + 2) + k - ((first : ℤ) - 1))
      ph.setWeight ix w (ph.num.modify d (· - 1)))
    (keep := fun h ix ph => do
      let w ← ph.getWeight h.cur
      ph.setWeight ix w (ph.num.modify d (· - 1))) hpos hd hf hfl hl hm (fun l => hn)
    (by
      intro I J l hI hJ hlen h1 h2 h3
      dsimp only
      rw [at_zl hd hI, ok_bind, extractDimension_zl hd hI]
      have hlen' : ((last : ℤ) - ((first : ℤ) - 1) + 2) = ((last + 3 - first : ℕ) : ℤ) := by omega
      rw [hlen', getI_cell (x := ixd I d + 1 - first) (c := 0) hT (row_lt hI) (by omega) (by omega),
        hv _ _ _ (row_lt hI) (by omega) (by omega), ok_bind, hnum']
      · simp only [Phys.setWeight, Phys.theWeights, ok_bind]
        have hb := hbig J hJ
        rw [oneD_zl, setI_nat (by omega), ok_bind]
        exact ⟨_, rfl, put _ _ (fun c => tv (row ns d I) (ixd I d + 1 - first) c) (by omega)⟩
      · have : ((ixd I d : ℕ) : ℤ) = ((ixd I d + 1 - first : ℕ) : ℤ) + (first : ℤ) - 1 := by omega
        rw [this]; push_cast; ring)
    (by
      intro I J l hI hJ hlen
      dsimp only
      have hI' := lin_lt hI
      rw [pgetWeight (ph := { ph with weights := some l }) hn (by
        intro w' hw'
        simp only [Option.some.injEq] at hw'
        subst hw'
        omega), ok_bind, hnum']
      simp only [Phys.setWeight, Phys.theWeights, ok_bind]
      have hb := hbig J hJ
      rw [oneD_zl, setI_nat (by omega), ok_bind]
      refine ⟨_, rfl, ?_⟩
      have := put l (lin (ns.set d (ixd ns d - 1)) J) (fun c => l.getD (1 * lin ns I + c) 0) (by omega)
      simpa [pwgt] using this)
  obtain ⟨l', e1, e2, e3⟩ := this
  refine ⟨l', ?_, e2, ?_⟩
  · have h : ({ ph with weights := some w } : Phys K) = ph := by rw [← hw]
    rw [h] at e1
    exact e1
  · intro J hJ
    have := e3 J hJ 0 (by omega)
    simpa using this

end
end SplineLib
