import Verif.Core.RemoveSet

/-!
# Storing the new control points of knot removal (helper lemmas)
-/

namespace SplineLib
set_option linter.unusedSectionVars false
open Finset

/-- A multi-index one lower in direction `d` has a strictly smaller position, even for smaller point numbers. -/
theorem lin_lt_pred : ∀ {ms ns I : List ℕ} {d : ℕ}, List.Forall₂ (· ≤ ·) ms ns → (∀ n ∈ ns, 0 < n) → ns.length = I.length →
    d < ns.length → 1 ≤ ixd I d → lin ms (I.set d (ixd I d - 1)) < lin ns I
  | m :: ms, n :: ns, i :: I, 0, h, hpos, hl, hd, hi => by
    cases h with
    | cons h1 h2 =>
      have := lin_mono h2 (forall₂_le_refl I)
      have h3 := Nat.mul_le_mul h1 this
      simp only [ixd, List.getD_cons_zero] at hi
      simp only [ixd, List.getD_cons_zero, List.set_cons_zero, lin]
      omega
  | m :: ms, n :: ns, i :: I, d + 1, h, hpos, hl, hd, hi => by
    cases h with
    | cons h1 h2 =>
      have ih := lin_lt_pred (d := d) h2 (fun n hn => hpos n (by simp [hn])) (by simpa using hl) (by simpa using hd)
        (by simpa [ixd] using hi)
      have hn := hpos n (by simp)
      simp only [ixd, List.getD_cons_succ, List.set_cons_succ, lin] at ih ⊢
      have := Nat.mul_le_mul_right (lin ms (I.set d (I.getD d 0 - 1))) h1
      have := Nat.mul_lt_mul_of_pos_left ih hn
      omega
  | [], ns, _, d, h, _, _, hd, _ => by
    have := h.length_eq
    simp only [List.length_nil] at this
    omega

section
variable {K : Type} [Field K] [LinearOrder K] [IsStrictOrderedRing K]

/-- `l'` is `l` with the block number `pos` replaced by `v`. -/
structure Put (b : ℕ) (l l' : List K) (pos : ℕ) (v : ℕ → K) : Prop where
  size : l'.length = l.length
  val : ∀ q c, c < b → l'.getD (b * q + c) 0 = if q = pos then v c else l.getD (b * q + c) 0

variable {ns : List ℕ} {d b first last m : ℕ}

/-- The values stored by `SetNewControlPoints` / `SetNewWeights`; `tv` is the temporary array. -/
def newVal (b : ℕ) (ns : List ℕ) (d first last m : ℕ) (l0 : List K) (tv : ℕ → ℕ → ℕ → K) (J : List ℕ) (c : ℕ) : K :=
  if ixd J d < first then l0.getD (b * lin ns J + c) 0
  else if ixd J d < first + m then tv (row ns d J) (ixd J d + 1 - first) c
  else if ixd J d < last then tv (row ns d J) (ixd J d + 2 - first) c
  else l0.getD (b * lin ns (J.set d (ixd J d + 1)) + c) 0

theorem setNew_spec {fromTemp keep : MIH → List ℤ → Phys K → M (Phys K)} {mk : List K → Phys K} {l0 : List K}
    {tv : ℕ → ℕ → ℕ → K} (hpos : ∀ n ∈ ns, 0 < n) (hd : d < ns.length) (hf : 1 ≤ first) (hfl : first ≤ last)
    (hl : last + 1 < ixd ns d) (hm : m + m ≤ last + 1 - first) (hnum : ∀ l, (mk l).num = zl ns)
    (hT : ∀ I J l, InBox ns I → InBox (ns.set d (ixd ns d - 1)) J → l.length = l0.length → first ≤ ixd I d → ixd I d ≤ last + 1 →
      ixd I d ≠ first + m →
      ∃ l', fromTemp ⟨zl ns, zl I⟩ (zl J) (mk l) = .ok (mk l') ∧
        Put b l l' (lin (ns.set d (ixd ns d - 1)) J) (fun c => tv (row ns d I) (ixd I d + 1 - first) c))
    (hK : ∀ I J l, InBox ns I → InBox (ns.set d (ixd ns d - 1)) J → l.length = l0.length →
      ∃ l', keep ⟨zl ns, zl I⟩ (zl J) (mk l) = .ok (mk l') ∧
        Put b l l' (lin (ns.set d (ixd ns d - 1)) J) (fun c => l.getD (b * lin ns I + c) 0)) :
    ∃ l', upLoop (Spl.setNewBody fromTemp keep (last : ℤ) ((m : ℤ) + 1) ((first : ℤ) - 1) d) (MIH.mk' (zl ns)).length1D.toNat
        (MIH.mk' (zl ns)) (mk l0) = .ok (mk l') ∧ l'.length = l0.length ∧
      ∀ J, InBox (ns.set d (ixd ns d - 1)) J → ∀ c < b,
        l'.getD (b * lin (ns.set d (ixd ns d - 1)) J + c) 0 = newVal b ns d first last m l0 tv J c := by
  let src : List ℕ → List ℕ := fun J => if ixd J d < first + m then J else J.set d (ixd J d + 1)
  let Inv : ℕ → Phys K → Prop := fun k ph => ∃ l, ph = mk l ∧ l.length = l0.length ∧
    (∀ J, InBox (ns.set d (ixd ns d - 1)) J → lin ns (src J) < k → ∀ c < b,
      l.getD (b * lin (ns.set d (ixd ns d - 1)) J + c) 0 = newVal b ns d first last m l0 tv J c) ∧
    ∀ q, k ≤ q → ∀ c < b, l.getD (b * q + c) 0 = l0.getD (b * q + c) 0
  have hle : List.Forall₂ (· ≤ ·) (ns.set d (ixd ns d - 1)) ns := forall₂_set_le (by omega)
  have dlen : ∀ {J}, InBox (ns.set d (ixd ns d - 1)) J → d < J.length ∧ ixd J d < ixd ns d - 1 := by
    intro J hJ
    have h1 : d < J.length := by rw [hJ.length]; simpa using hd
    have : ixd J d < ixd (ns.set d (ixd ns d - 1)) d := hJ.getD_lt (d := d) (by simpa using hd)
    rw [ixd_set_self hd] at this
    exact ⟨h1, this⟩
  have srcBox : ∀ {J}, InBox (ns.set d (ixd ns d - 1)) J → InBox ns (src J) := by
    intro J hJ
    obtain ⟨h1, h2⟩ := dlen hJ
    simp only [src]
    split_ifs
    · have := inBox_set_of (i := ixd J d) hJ (by omega)
      rwa [set_ixd h1] at this
    · exact inBox_set_of hJ (by omega)
  have start : Inv 0 (mk l0) := ⟨l0, rfl, rfl, fun J _ h => absurd h (by omega), fun _ _ _ _ => rfl⟩
  obtain ⟨ph', e1, l', e2, e3, e4, _⟩ := upLoop_inv (ns := ns)
    (body := Spl.setNewBody fromTemp keep (last : ℤ) ((m : ℤ) + 1) ((first : ℤ) - 1) d) Inv start (by
      intro k hk ph ⟨l, hph, hlen, hval, hfr⟩
      subst hph
      have hI := unlin_inBox hpos k
      have hlin := lin_unlin hk
      generalize unlin ns k = I at hI hlin
      have hIl : d < I.length := by rw [hI.length]; exact hd
      have hId : ixd I d < ixd ns d := hI.getD_lt (d := d) hd
      have hget : ∀ l, getN (mk l).num d = .ok (ixd ns d : ℤ) := fun l => by rw [hnum]; exact getN_zl hd
      have hsetz : ∀ x : ℕ, (zl I).set d (x : ℤ) = zl (I.set d x) := fun x => by simp [zl, List.map_set]
      -- every `J` whose source is `I`
      have srcI : ∀ J, InBox (ns.set d (ixd ns d - 1)) J → src J = I →
          (J = I ∧ ixd I d < first + m) ∨ (J = I.set d (ixd I d - 1) ∧ first + m < ixd I d) := by
        intro J hJ hs
        obtain ⟨h1, h2⟩ := dlen hJ
        simp only [src] at hs
        split_ifs at hs with c
        · left; subst hs; exact ⟨rfl, c⟩
        · right
          have : ixd I d = ixd J d + 1 := by rw [← hs, ixd_set_self h1]
          refine ⟨?_, by omega⟩
          rw [← hs, ixd_set_self h1, List.set_set, Nat.add_sub_cancel, set_ixd h1]
      -- one write at the place of `J`
      have finish : ∀ (J : List ℕ) (l' : List K), InBox (ns.set d (ixd ns d - 1)) J → src J = I → l'.length = l.length →
          (∀ q c, c < b → l'.getD (b * q + c) 0 =
            if q = lin (ns.set d (ixd ns d - 1)) J then newVal b ns d first last m l0 tv J c else l.getD (b * q + c) 0) →
          Inv (k + 1) (mk l') := by
        intro J l' hJ hs hl' hv
        have hJk : lin (ns.set d (ixd ns d - 1)) J ≤ k := by
          rw [← hlin, ← hs]
          apply lin_mono hle
          simp only [src]
          split_ifs
          · exact forall₂_le_refl _
          · exact forall₂_le_set (by omega)
        refine ⟨l', rfl, by rw [hl', hlen], ?_, ?_⟩
        · intro J' hJ' hlt c hc
          rw [hv _ c hc]
          by_cases h : lin (ns.set d (ixd ns d - 1)) J' = lin (ns.set d (ixd ns d - 1)) J
          · rw [if_pos h, lin_inj hJ' hJ h]
          · rw [if_neg h]
            apply hval J' hJ' _ c hc
            by_contra hc2
            apply h
            have : src J' = I := lin_inj (srcBox hJ') hI (by omega)
            have h3 := srcI J' hJ' this
            have h4 := srcI J hJ hs
            rcases h3 with ⟨a, b⟩ | ⟨a, b⟩ <;> rcases h4 with ⟨a', b'⟩ | ⟨a', b'⟩
            · rw [a, a']
            · omega
            · omega
            · rw [a, a']
        · intro q hq c hc
          rw [hv q c hc, if_neg (by omega)]
          exact hfr q (by omega) c hc
      unfold Spl.setNewBody
      rw [at_zl hd hI, ok_bind]
      by_cases c1 : ixd I d < first
      · -- kept, below
        rw [if_neg (by omega), pure_ok, ok_bind]
        beta_reduce
        rw [hget, ok_bind, if_pos (by omega), if_pos (by omega), hsetz, set_ixd hIl]
        have hJ : InBox (ns.set d (ixd ns d - 1)) I := by
          have := inBox_set (d := d) (n := ixd ns d - 1) (i := ixd I d) hI (by omega)
          rwa [set_ixd hIl] at this
        obtain ⟨l1, h1, u1⟩ := hK I I l hI hJ hlen
        refine ⟨mk l1, h1, finish I l1 hJ (by simp only [src]; rw [if_pos (by omega)]) u1.size ?_⟩
        intro q c hc
        rw [u1.val q c hc]
        congr 1
        rw [newVal, if_pos c1]
        exact hfr _ (by omega) c hc
      · by_cases c2 : ixd I d < first + m
        · -- temporary values from the left
          rw [if_pos (by omega), if_pos (by omega), hsetz, set_ixd hIl]
          have hJ : InBox (ns.set d (ixd ns d - 1)) I := by
            have := inBox_set (d := d) (n := ixd ns d - 1) (i := ixd I d) hI (by omega)
            rwa [set_ixd hIl] at this
          obtain ⟨l1, h1, u1⟩ := hT I I l hI hJ hlen (by omega) (by omega) (by omega)
          rw [h1, ok_bind]
          beta_reduce
          rw [hget, ok_bind, if_neg (by omega)]
          refine ⟨mk l1, rfl, finish I l1 hJ (by simp only [src]; rw [if_pos (by omega)]) u1.size ?_⟩
          intro q c hc
          rw [u1.val q c hc]
          congr 1
          rw [newVal, if_neg c1, if_pos c2]
        · by_cases c3 : ixd I d = first + m
          · -- the control point that disappears
            rw [if_neg (by omega), pure_ok, ok_bind]
            beta_reduce
            rw [hget, ok_bind, if_neg (by omega)]
            refine ⟨mk l, rfl, l, rfl, hlen, ?_, fun q hq c hc => hfr q (by omega) c hc⟩
            intro J hJ hlt c hc
            apply hval J hJ _ c hc
            by_contra hc2
            have : src J = I := lin_inj (srcBox hJ) hI (by omega)
            rcases srcI J hJ this with ⟨_, h⟩ | ⟨_, h⟩ <;> omega
          · -- above
            have hsetp : (zl I).set d ((ixd I d : ℤ) - 1) = zl (I.set d (ixd I d - 1)) := by
              rw [← hsetz]; congr 1; omega
            have hJ : InBox (ns.set d (ixd ns d - 1)) (I.set d (ixd I d - 1)) := inBox_set hI (by omega)
            have hJd : ixd (I.set d (ixd I d - 1)) d = ixd I d - 1 := ixd_set_self hIl
            have hsrc : src (I.set d (ixd I d - 1)) = I := by
              simp only [src]
              rw [if_neg (by omega), hJd, List.set_set, show ixd I d - 1 + 1 = ixd I d by omega, set_ixd hIl]
            have hlt : lin (ns.set d (ixd ns d - 1)) (I.set d (ixd I d - 1)) < k := by
              rw [← hlin]
              exact lin_lt_pred hle hpos hI.length.symm hd (by omega)
            have hback : (I.set d (ixd I d - 1)).set d (ixd (I.set d (ixd I d - 1)) d + 1) = I := by
              rw [hJd, List.set_set, show ixd I d - 1 + 1 = ixd I d by omega, set_ixd hIl]
            by_cases c4 : ixd I d ≤ last
            · rw [if_pos (by omega), if_neg (by omega), hsetp]
              obtain ⟨l1, h1, u1⟩ := hT I _ l hI hJ hlen (by omega) (by omega) (by omega)
              rw [h1, ok_bind]
              beta_reduce
              rw [hget, ok_bind, if_neg (by omega)]
              refine ⟨mk l1, rfl, finish _ l1 hJ hsrc u1.size ?_⟩
              intro q c hc
              rw [u1.val q c hc]
              congr 1
              rw [newVal, if_neg (by omega), if_neg (by omega), if_pos (by omega), row_set]
              congr 1; omega
            · have keepStep : ∀ l1 : List K, l1.length = l0.length → (∀ q c, c < b → l1.getD (b * q + c) 0 =
                  l.getD (b * q + c) 0 ∨ q = lin (ns.set d (ixd ns d - 1)) (I.set d (ixd I d - 1))) →
                  ∃ l2, keep ⟨zl ns, zl I⟩ (zl (I.set d (ixd I d - 1))) (mk l1) = .ok (mk l2) ∧ Inv (k + 1) (mk l2) := by
                intro l1 hl1 hv1
                obtain ⟨l2, h2, u2⟩ := hK I _ l1 hI hJ hl1
                refine ⟨l2, h2, finish _ l2 hJ hsrc (by rw [u2.size, hl1, hlen]) ?_⟩
                intro q c hc
                rw [u2.val q c hc]
                split_ifs with hq
                · rw [newVal, if_neg (by omega), if_neg (by omega), if_neg (by omega), hback]
                  rcases hv1 (lin ns I) c hc with h | h
                  · rw [h]; exact hfr _ (by omega) c hc
                  · omega
                · rcases hv1 q c hc with h | h
                  · exact h
                  · exact absurd h hq
              by_cases c5 : ixd I d = last + 1
              · rw [if_pos (by omega), if_neg (by omega), hsetp]
                obtain ⟨l1, h1, u1⟩ := hT I _ l hI hJ hlen (by omega) (by omega) (by omega)
                rw [h1, ok_bind]
                beta_reduce
                rw [hget, ok_bind, if_pos (by omega), if_neg (by omega), hsetp]
                obtain ⟨l2, h2, hi⟩ := keepStep l1 (by rw [u1.size, hlen]) (by
                  intro q c hc
                  rw [u1.val q c hc]
                  split_ifs with hq
                  · right; exact hq
                  · left; rfl)
                exact ⟨mk l2, h2, hi⟩
              · rw [if_neg (by omega), pure_ok, ok_bind]
                beta_reduce
                rw [hget, ok_bind, if_pos (by omega), if_neg (by omega), hsetp]
                obtain ⟨l2, h2, hi⟩ := keepStep l hlen (fun q c hc => Or.inl rfl)
                exact ⟨mk l2, h2, hi⟩)
  subst e2
  exact ⟨l', e1, e3, fun J hJ c hc => e4 J hJ (lin_lt (srcBox hJ)) c hc⟩

end
end SplineLib
