import Verif.Core.RemoveStep

/-!
# `RemoveControlPoints` (helper lemmas)
-/

namespace SplineLib
set_option linter.unusedSectionVars false
open Finset

section
variable {K : Type} [Field K] [LinearOrder K] [IsStrictOrderedRing K]
variable {ns : List ℕ} {d : ℕ}
variable {ph : Phys K} {first last m : ℕ} {α : ℕ → K} {scaling : List K}

/-- What a successful round of knot removal does to the control points. -/
structure RemResult (ph ph' : Phys K) (ns : List ℕ) (d first last m : ℕ) (α : ℕ → K) : Prop where
  shape : ShapePhys ph' (ns.set d (ixd ns d - 1))
  sameDim : ph'.dim = ph.dim
  kind : ph.weights = none ↔ ph'.weights = none
  wgt : ∀ J, InBox (ns.set d (ixd ns d - 1)) J → pwgt ph' (ns.set d (ixd ns d - 1)) J = remDir d first last m α (pwgt ph ns) J
  hom : ∀ J, InBox (ns.set d (ixd ns d - 1)) J → ∀ c < ph.dim,
    pwgt ph' (ns.set d (ixd ns d - 1)) J * pcpt ph' (ns.set d (ixd ns d - 1)) J c =
      remDir d first last m α (fun I => pwgt ph ns I * pcpt ph ns I c) J

theorem eraseEnd_eq {v : List K} {n : ℕ} (h : n ≤ v.length) : Phys.eraseEnd v (n : ℤ) = .ok (v.take (v.length - n)) := by
  unfold Phys.eraseEnd
  rw [if_pos (by omega), Int.toNat_natCast]

theorem getD_take {v : List K} {n i : ℕ} (h : i < n) : (v.take n).getD i 0 = v.getD i 0 := by
  simp [List.getD_eq_getElem?_getD, h]

theorem sub_ns (hd : d < ns.length) (hn : 0 < ixd ns d) :
    (ns.set d (ixd ns d - 1)).prod + (ns.set d 1).prod = ns.prod := by
  have h2 := prod_set (m := ixd ns d - 1) hd
  have h3 := prod_eq_ixd hd
  obtain ⟨k, hk⟩ : ∃ k, ixd ns d = k + 1 := ⟨ixd ns d - 1, by omega⟩
  rw [hk] at h2 h3
  rw [hk, h2, h3]
  simp only [Nat.add_sub_cancel, Nat.add_mul, one_mul]

theorem inBox_sub (hd : d < ns.length) {J : List ℕ} (hJ : InBox (ns.set d (ixd ns d - 1)) J) : InBox ns J ∧ ixd J d + 1 < ixd ns d := by
  have h1 : d < J.length := by rw [hJ.length]; simpa using hd
  have h2 : ixd J d < ixd (ns.set d (ixd ns d - 1)) d := hJ.getD_lt (d := d) (by simpa using hd)
  rw [ixd_set_self hd] at h2
  have := inBox_set_of (i := ixd J d) hJ (by omega)
  rw [set_ixd h1] at this
  exact ⟨this, by omega⟩

theorem set_twice_ixd {J : List ℕ} (h : d < J.length) : J.set d (ixd J d) = J := set_ixd h

variable [HasSqrt K]

/-- `RemoveControlPoints` of a B-spline. -/
theorem removeControlPoints_bspline (hph : ShapePhys ph ns) (hpos : ∀ n ∈ ns, 0 < n) (hd : d < ns.length) (hf : 1 ≤ first)
    (hfl : first ≤ last) (hl : last + 1 < ixd ns d) (hs : ScalingAt scaling first last α) (hα : Strict first last α)
    (hm : m = (last + 1 - first) / 2) (hw : ph.weights = none) (tol : K) :
    ∃ r, Spl.removeControlPoints ph scaling (first : ℤ) (last : ℤ) d tol = .ok r ∧
      ((∀ e < (ns.set d 1).prod, LineOK ph ns d first last m α tol e) → ∃ ph', r = some ph' ∧ RemResult ph ph' ns d first last m α) ∧
      (¬ (∀ e < (ns.set d 1).prod, LineOK ph ns d first last m α tol e) → r = none) := by
  have hR : 0 < (ns.set d 1).prod := prod_pos_of (set_pos hpos Nat.one_pos)
  have hm2 : m + m ≤ last + 1 - first := by omega
  obtain ⟨hA, hB⟩ := getTemp_spec hph (setTempCPBSpline_spec hph hd hf hfl hα hm2) hpos hd hf hfl hl hs hm
  obtain ⟨T, hT⟩ := hB (fun _ _ _ => trivial)
  obtain ⟨_, hTl, hTv⟩ := hA T hT
  have hdiff : ((last : ℤ) - (first : ℤ) + 1) / 2 = (m : ℤ) := by omega
  have hi : (first : ℤ) + (m : ℤ) = ((first + m : ℕ) : ℤ) := by push_cast; rfl
  have hj : (last : ℤ) - (m : ℤ) = ((last - m : ℕ) : ℤ) := by omega
  have hone : ∀ e, TL first α (lineW ph ns d e) m = 1 ∧ TR last α (lineW ph ns d e) m = 1 ∧
      TR last α (lineW ph ns d e) (last - first - m) = 1 := by
    intro e
    rw [lineW_one hw]
    exact ⟨TL_one hα (by omega), TR_one hα (by omega), TR_one hα (by omega)⟩
  have hcheck : Spl.isKnotRemovable ph (α (first + m)) T [] tol ((first + m : ℕ) : ℤ) ((last - m : ℕ) : ℤ) ((first : ℤ) - 1) d =
      .ok (decide (∀ e < (ns.set d 1).prod, LineOK ph ns d first last m α tol e)) := by
    unfold Spl.isKnotRemovable
    rw [show getN ph.num d = .ok (ixd ns d : ℤ) by rw [hph.num]; exact getN_zl hd, ok_bind, hph.cpsPer hpos hd, ok_bind,
      if_neg (by omega)]
    simp only [hw]
    rw [Int.toNat_natCast, hph.num, allLines_eq hd hpos (g := fun e => decide (LineOK ph ns d first last m α tol e))]
    · simp only [decide_eq_true_eq]
    · intro e he
      exact removableBSpline_eq hph hpos hd hf hfl hl hm hw hTl hTv tol he (hone e)
  unfold Spl.removeControlPoints
  simp only [hw, hT, ok_bind, pure_ok]
  rw [hdiff, hi, hj]
  rw [show ((first + m : ℕ) : ℤ) - ((first : ℤ) - 1) - 1 = ((first + m : ℕ) : ℤ) - (first : ℤ) by ring, hs (first + m) (by omega) (by omega),
    ok_bind, hcheck, ok_bind]
  by_cases hall : ∀ e < (ns.set d 1).prod, LineOK ph ns d first last m α tol e
  · rw [decide_eq_true hall, if_pos rfl]
    rw [show ((first + m : ℕ) : ℤ) - ((first : ℤ) - 1) = (m : ℤ) + 1 by push_cast; ring]
    obtain ⟨l', e1, e2, e3⟩ := setNewCPs_eq hph hpos hd hf hfl hl hm2 hTl hTv
    have hph' : ShapePhys ({ ph with cps := l' } : Phys K) ns := ⟨hph.num, hph.dim, by rw [e2]; exact hph.cps, hph.weights⟩
    rw [e1, ok_bind]
    have hn1 : getN ({ ph with cps := l' } : Phys K).num d = .ok (ixd ns d : ℤ) := by
      show getN ph.num d = _
      rw [hph.num]; exact getN_zl hd
    rw [hn1, ok_bind, hph'.cpsPer hpos hd, ok_bind]
    have hsub := sub_ns hd (ixd_pos hpos hd)
    have hcl : l'.length - (ns.set d 1).prod * ph.dim = ph.dim * (ns.set d (ixd ns d - 1)).prod := by
      rw [e2, hph.cps, ← hsub, Nat.mul_add, mul_comm (ns.set d 1).prod]; omega
    have hle : (ns.set d 1).prod * ph.dim ≤ l'.length := by
      rw [e2, hph.cps, ← hsub, Nat.mul_add, mul_comm (ns.set d 1).prod]; omega
    simp only [Phys.removeCPs, hw]
    rw [show (((ns.set d 1).prod : ℕ) : ℤ) * (ph.dim : ℤ) = (((ns.set d 1).prod * ph.dim : ℕ) : ℤ) by push_cast; rfl,
      eraseEnd_eq hle, hcl, ok_bind, pure_ok, ok_bind]
    refine ⟨_, rfl, fun _ => ⟨_, rfl, ?_⟩, fun h => absurd hall h⟩
    have hnum' : ph.num.modify d (· - 1) = zl (ns.set d (ixd ns d - 1)) := by
      rw [hph.num]; exact modify_zl hd (by omega)
    refine ⟨⟨hnum', hph.dim, ?_, ?_⟩, rfl, by simp [hw], ?_, ?_⟩
    · show (l'.take _).length = _
      rw [List.length_take]
      exact min_eq_left (by rw [← hcl]; exact Nat.sub_le _ _)
    · intro w' hw'
      simp at hw'
    · intro J hJ
      obtain ⟨hJb, hJd⟩ := inBox_sub hd hJ
      simp only [pwgt, hw, remDir]
      split_ifs
      · rfl
      · rw [TL_one hα (by omega)]
      · rw [TR_one hα (by omega)]
      · rfl
    · intro J hJ c hc
      obtain ⟨hJb, hJd⟩ := inBox_sub hd hJ
      have hJl : d < J.length := by rw [hJb.length]; exact hd
      have hv := e3 J hJ c hc
      rw [newVal_eq hfl hm] at hv
      simp only [pwgt, hw, one_mul]
      unfold pcpt
      dsimp only
      rw [getD_take (by
        have := Nat.mul_le_mul_left ph.dim (lin_lt hJ)
        rw [Nat.mul_succ] at this; omega), hv]
      unfold remDir
      by_cases c1 : ixd J d < first
      · rw [if_pos c1, if_pos c1]
      · rw [if_neg c1, if_neg c1]
        by_cases c2 : ixd J d < first + m
        · rw [if_pos c2, if_pos c2, lineP_row hd hJb]; rfl
        · rw [if_neg c2, if_neg c2]
          by_cases c3 : ixd J d < last
          · rw [if_pos c3, if_pos (by omega), lineP_row hd hJb]; rfl
          · rw [if_neg c3]
            by_cases c4 : ixd J d ≤ last
            · have : ixd J d = last := by omega
              rw [if_pos c4, this, Nat.sub_self]; rfl
            · rw [if_neg c4]
  · rw [decide_eq_false hall]
    exact ⟨none, rfl, fun h => absurd h hall, fun _ => rfl⟩

/-- `RemoveControlPoints` of a NURBS. -/
theorem removeControlPoints_nurbs (hph : ShapePhys ph ns) (hpos : ∀ n ∈ ns, 0 < n) (hd : d < ns.length) (hf : 1 ≤ first)
    (hfl : first ≤ last) (hl : last + 1 < ixd ns d) (hs : ScalingAt scaling first last α) (hα : Strict first last α)
    (hm : m = (last + 1 - first) / 2) {w : List K} (hw : ph.weights = some w) {tol T0 : K} (hT0 : effTol ph tol = .ok T0) :
    (NoZero ph ns d first last m α → ∃ r, Spl.removeControlPoints ph scaling (first : ℤ) (last : ℤ) d tol = .ok r ∧
      ((∀ e < (ns.set d 1).prod, LineOK ph ns d first last m α T0 e) → ∃ ph', r = some ph' ∧ RemResult ph ph' ns d first last m α) ∧
      (¬ (∀ e < (ns.set d 1).prod, LineOK ph ns d first last m α T0 e) → r = none)) ∧
    (¬ NoZero ph ns d first last m α → ∃ er, Spl.removeControlPoints ph scaling (first : ℤ) (last : ℤ) d tol = .error er) := by
  have hR : 0 < (ns.set d 1).prod := prod_pos_of (set_pos hpos Nat.one_pos)
  have hm2 : m + m ≤ last + 1 - first := by omega
  obtain ⟨hAw, hBw⟩ := getTemp_spec hph (setTempWeight_spec hph hd hf hfl hα hm2) hpos hd hf hfl hl hs hm
  obtain ⟨tw, htw⟩ := hBw (fun _ _ _ => trivial)
  obtain ⟨_, hwl', hwv⟩ := hAw tw htw
  obtain ⟨hA, hB⟩ := getTemp_spec hph (setTempCPNurbs_spec hph hd hf hfl hα hm2 hw hwl' hwv) hpos hd hf hfl hl hs hm
  rw [goodW_iff hpos hd hf hfl hl hm2] at hB
  have hdiff : ((last : ℤ) - (first : ℤ) + 1) / 2 = (m : ℤ) := by omega
  have hi : (first : ℤ) + (m : ℤ) = ((first + m : ℕ) : ℤ) := by push_cast; rfl
  have hj : (last : ℤ) - (m : ℤ) = ((last - m : ℕ) : ℤ) := by omega
  rw [Nat.cast_one] at htw
  constructor
  · intro hnz
    obtain ⟨T, hT⟩ := hB hnz
    obtain ⟨_, hTl, hTv⟩ := hA T hT
    have hcheck : Spl.isKnotRemovable ph (α (first + m)) T tw tol ((first + m : ℕ) : ℤ) ((last - m : ℕ) : ℤ) ((first : ℤ) - 1) d =
        .ok (decide (∀ e < (ns.set d 1).prod, LineOK ph ns d first last m α T0 e)) := by
      unfold Spl.isKnotRemovable
      rw [show getN ph.num d = .ok (ixd ns d : ℤ) by rw [hph.num]; exact getN_zl hd, ok_bind, hph.cpsPer hpos hd, ok_bind,
        if_neg (by omega)]
      simp only [hw]
      unfold effTol at hT0
      simp only [hw] at hT0
      cases h1 : ph.maxDistance with
      | error e => rw [h1] at hT0; simp at hT0
      | ok md =>
        rw [h1, ok_bind] at hT0
        cases h2 : ph.minWeight with
        | error e => rw [h2] at hT0; simp at hT0
        | ok mw =>
          rw [h2, ok_bind] at hT0
          rw [ok_bind, ok_bind, hT0, ok_bind, Int.toNat_natCast, hph.num,
            allLines_eq hd hpos (g := fun e => decide (LineOK ph ns d first last m α T0 e))]
          · simp only [decide_eq_true_eq]
          · intro e he
            exact removableNurbs_eq hph hpos hd hf hfl hl hm hw hTl hwl' hwv hTv hnz T0 he
    unfold Spl.removeControlPoints
    simp only [hw, htw, hT, ok_bind, pure_ok]
    rw [hdiff, hi, hj]
    rw [show ((first + m : ℕ) : ℤ) - ((first : ℤ) - 1) - 1 = ((first + m : ℕ) : ℤ) - (first : ℤ) by ring, hs (first + m) (by omega) (by omega),
      ok_bind, hcheck, ok_bind]
    by_cases hall : ∀ e < (ns.set d 1).prod, LineOK ph ns d first last m α T0 e
    · rw [decide_eq_true hall, if_pos rfl]
      rw [show ((first + m : ℕ) : ℤ) - ((first : ℤ) - 1) = (m : ℤ) + 1 by push_cast; ring]
      obtain ⟨l', e1, e2, e3⟩ := setNewCPs_eq hph hpos hd hf hfl hl hm2 hTl hTv
      obtain ⟨w', f1, f2, f3⟩ := setNewWeights_eq (ph := { ph with cps := l' }) hph.num hw (hph.weights w hw) hpos hd hf hfl hl hm2 hwl' hwv
      have hwlen := hph.weights w hw
      have hph' : ShapePhys ({ ph with cps := l', weights := some w' } : Phys K) ns :=
        ⟨hph.num, hph.dim, by rw [e2]; exact hph.cps, by
          intro w2 hw2
          simp only [Option.some.injEq] at hw2
          subst hw2
          rw [f2, hwlen]⟩
      rw [e1, ok_bind]
      beta_reduce
      rw [f1, ok_bind]
      have hn1 : getN ({ ph with cps := l', weights := some w' } : Phys K).num d = .ok (ixd ns d : ℤ) := by
        show getN ph.num d = _
        rw [hph.num]; exact getN_zl hd
      rw [hn1, ok_bind, hph'.cpsPer hpos hd, ok_bind]
      have hsub := sub_ns hd (ixd_pos hpos hd)
      have hcl : l'.length - (ns.set d 1).prod * ph.dim = ph.dim * (ns.set d (ixd ns d - 1)).prod := by
        rw [e2, hph.cps, ← hsub, Nat.mul_add, mul_comm (ns.set d 1).prod]; omega
      have hle : (ns.set d 1).prod * ph.dim ≤ l'.length := by
        rw [e2, hph.cps, ← hsub, Nat.mul_add, mul_comm (ns.set d 1).prod]; omega
      simp only [Phys.removeCPs]
      rw [show (((ns.set d 1).prod : ℕ) : ℤ) * (ph.dim : ℤ) = (((ns.set d 1).prod * ph.dim : ℕ) : ℤ) by push_cast; rfl,
        eraseEnd_eq hle, hcl, ok_bind, eraseEnd_eq (by omega), ok_bind, pure_ok, ok_bind]
      refine ⟨_, rfl, fun _ => ⟨_, rfl, ?_⟩, fun h => absurd hall h⟩
      have hnum' : ph.num.modify d (· - 1) = zl (ns.set d (ixd ns d - 1)) := by
        rw [hph.num]; exact modify_zl hd (by omega)
      have hnewW : ∀ J, InBox (ns.set d (ixd ns d - 1)) J → pwgt (⟨ph.dim, ph.num.modify d (· - 1),
          l'.take (ph.dim * (ns.set d (ixd ns d - 1)).prod), some (w'.take (w'.length - (ns.set d 1).prod))⟩ : Phys K)
          (ns.set d (ixd ns d - 1)) J = remDir d first last m α (pwgt ph ns) J := by
        intro J hJ
        obtain ⟨hJb, hJd⟩ := inBox_sub hd hJ
        have hv := f3 J hJ
        rw [newVal_eq hfl hm] at hv
        have hlt := lin_lt hJ
        unfold pwgt
        dsimp only
        rw [getD_take (by omega), hv]
        simp only [hw, one_mul, add_zero]
        unfold remDir
        by_cases c1 : ixd J d < first
        · rw [if_pos c1, if_pos c1]
        · rw [if_neg c1, if_neg c1]
          by_cases c2 : ixd J d < first + m
          · rw [if_pos c2, if_pos c2, lineW_row hd hJb]; simp only [pwgt, hw]
          · rw [if_neg c2, if_neg c2]
            by_cases c3 : ixd J d < last
            · rw [if_pos c3, if_pos (by omega), lineW_row hd hJb]; simp only [pwgt, hw]
            · rw [if_neg c3]
              by_cases c4 : ixd J d ≤ last
              · have : ixd J d = last := by omega
                rw [if_pos c4, this, Nat.sub_self]; rfl
              · rw [if_neg c4]
      refine ⟨⟨hnum', hph.dim, ?_, ?_⟩, rfl, by simp [hw], hnewW, ?_⟩
      · show (l'.take _).length = _
        rw [List.length_take]
        exact min_eq_left (by rw [← hcl]; exact Nat.sub_le _ _)
      · intro w2 hw2
        simp only [Option.some.injEq] at hw2
        subst hw2
        rw [List.length_take]
        omega
      · intro J hJ c hc
        obtain ⟨hJb, hJd⟩ := inBox_sub hd hJ
        have hJl : d < J.length := by rw [hJb.length]; exact hd
        have hv := e3 J hJ c hc
        rw [newVal_eq hfl hm] at hv
        have hre := row_lt (d := d) hJb
        rw [hnewW J hJ]
        unfold pcpt
        dsimp only
        rw [getD_take (by
          have := Nat.mul_le_mul_left ph.dim (lin_lt hJ)
          rw [Nat.mul_succ] at this; omega), hv]
        unfold remDir
        by_cases c1 : ixd J d < first
        · rw [if_pos c1, if_pos c1, if_pos c1]
        · rw [if_neg c1, if_neg c1, if_neg c1]
          by_cases c2 : ixd J d < first + m
          · rw [if_pos c2, if_pos c2, if_pos c2]
            have := TLn_mul (first := first) (α := α) (P := lineH ph ns d (row ns d J) c) (t := ixd J d + 1 - first)
              (fun s hs => (hnz _ hre s (by omega)).1)
            rw [lineH_row hd hJb, lineW_row hd hJb] at this
            rw [lineH_row hd hJb, lineW_row hd hJb, mul_comm, this]; rfl
          · rw [if_neg c2, if_neg c2, if_neg c2]
            by_cases c3 : ixd J d < last
            · rw [if_pos c3, if_pos (by omega), if_pos (by omega)]
              have := TRn_mul (last := last) (α := α) (P := lineH ph ns d (row ns d J) c) (t := last - ixd J d)
                (fun s hs => (hnz _ hre s (by omega)).2)
              rw [lineH_row hd hJb, lineW_row hd hJb] at this
              rw [lineH_row hd hJb, lineW_row hd hJb, mul_comm, this]; rfl
            · rw [if_neg c3]
              by_cases c4 : ixd J d ≤ last
              · have : ixd J d = last := by omega
                rw [if_pos c4, if_pos c4, this, Nat.sub_self]; rfl
              · rw [if_neg c4, if_neg c4]
    · rw [decide_eq_false hall]
      exact ⟨none, rfl, fun h => absurd h hall, fun _ => rfl⟩
  · intro hnz
    unfold Spl.removeControlPoints
    simp only [hw, htw, ok_bind, pure_ok]
    cases hT : Spl.getTemp (Spl.setTempCPNurbs ph tw d ((first : ℤ) - 1) (last : ℤ)) (ph.dim : ℤ) ph scaling ((first : ℤ) - 1) (last : ℤ)
        (first : ℤ) (last : ℤ) d with
    | error er => exact ⟨er, rfl⟩
    | ok T => exact absurd ((goodW_iff hpos hd hf hfl hl hm2).1 (hA T hT).1) hnz

end
end SplineLib
