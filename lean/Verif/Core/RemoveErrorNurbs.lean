import Verif.Core.RemoveError
import Verif.Core.EvalShape

/-!
# The error of an accepted knot removal of a NURBS (helper lemmas)
-/

namespace SplineLib
set_option linter.unusedSectionVars false
open Finset

section
variable {K : Type} [Field K] [LinearOrder K] [IsStrictOrderedRing K]

/-- The rational error in terms of the homogeneous error. -/
theorem rational_error {n : ℕ} {D C : ℕ → K} {δ M T : K} (hD : ∑ c ∈ range n, D c * D c + δ * δ ≤ T * T)
    (hC : ∑ c ∈ range n, C c * C c ≤ M * M) :
    ∑ c ∈ range n, (D c - C c * δ) * (D c - C c * δ) ≤ (1 + M * M) * (T * T) := by
  set DD := ∑ c ∈ range n, D c * D c with hDD
  set CC := ∑ c ∈ range n, C c * C c with hCC
  set DC := ∑ c ∈ range n, D c * C c with hDC
  have hcs : DC * DC ≤ DD * CC := by
    have := Finset.sum_mul_sq_le_sq_mul_sq (range n) D C
    simpa [hDD, hCC, hDC, pow_two] using this
  have e : ∑ c ∈ range n, (D c - C c * δ) * (D c - C c * δ) = DD - 2 * δ * DC + δ * δ * CC := by
    rw [hDD, hCC, hDC, mul_sum, mul_sum, ← sum_sub_distrib, ← sum_add_distrib]
    exact sum_congr rfl fun c _ => by ring
  have h0 : 0 ≤ CC := sum_nonneg fun c _ => mul_self_nonneg _
  have h1 : 0 ≤ DD := sum_nonneg fun c _ => mul_self_nonneg _
  have h2 : DD - 2 * δ * DC + δ * δ * CC ≤ (1 + CC) * (DD + δ * δ) := by
    nlinarith [mul_self_nonneg (δ + DC)]
  rw [e]
  refine h2.trans ?_
  have h3 : 0 ≤ DD + δ * δ := add_nonneg h1 (mul_self_nonneg δ)
  calc (1 + CC) * (DD + δ * δ) ≤ (1 + M * M) * (DD + δ * δ) := mul_le_mul_of_nonneg_right (by linarith) h3
    _ ≤ (1 + M * M) * (T * T) := mul_le_mul_of_nonneg_left hD (by nlinarith [mul_self_nonneg M])

variable {ns : List ℕ} {ph : Phys K}

theorem foldl_min_le : ∀ (w : List K) (a : K), w.foldl (fun m b => if b < m then b else m) a ≤ a ∧
    ∀ b ∈ w, w.foldl (fun m b => if b < m then b else m) a ≤ b
  | [], a => ⟨le_refl _, by simp⟩
  | c :: w, a => by
    obtain ⟨h1, h2⟩ := foldl_min_le w (if c < a then c else a)
    simp only [List.foldl_cons]
    refine ⟨h1.trans ?_, ?_⟩
    · split_ifs with h
      · exact h.le
      · exact le_refl _
    · intro b hb
      rcases List.mem_cons.1 hb with rfl | hb
      · refine h1.trans ?_
        split_ifs with h
        · exact le_refl _
        · exact not_lt.1 h
      · exact h2 b hb

theorem foldl_min_mem : ∀ (w : List K) (a : K), w.foldl (fun m b => if b < m then b else m) a = a ∨
    w.foldl (fun m b => if b < m then b else m) a ∈ w
  | [], a => Or.inl rfl
  | c :: w, a => by
    simp only [List.foldl_cons]
    rcases foldl_min_mem w (if c < a then c else a) with h | h
    · rw [h]
      split_ifs
      · exact Or.inr (by simp)
      · exact Or.inl rfl
    · exact Or.inr (by simp [h])

theorem minWeight_spec (hph : ShapePhys ph ns) (hpos : ∀ n ∈ ns, 0 < n) {w : List K} (hw : ph.weights = some w) :
    ∃ mw, ph.minWeight = .ok mw ∧ mw ∈ w ∧ ∀ b ∈ w, mw ≤ b := by
  have hwl := hph.weights w hw
  have hp := prod_pos_of hpos
  simp only [Phys.minWeight, Phys.theWeights, hw, ok_bind]
  rw [getN_getD (by omega) 0]
  refine ⟨_, rfl, ?_, (foldl_min_le w _).2⟩
  have h0 : w.getD 0 0 ∈ w := by
    rw [List.getD_eq_getElem?_getD, List.getElem?_eq_getElem (by omega)]
    exact List.getElem_mem _
  rcases foldl_min_mem w (w.getD 0 0) with h | h
  · rw [h]; exact h0
  · exact h

variable [HasSqrt K] [LawfulSqrt K]

theorem zipWith_replicate_zero : ∀ (n : ℕ) (l : List K), l.length = n →
    ((List.zipWith (· - ·) (List.replicate n 0) l).map fun x => x * x).sum = (l.map fun x => x * x).sum
  | 0, l, h => by rw [List.length_eq_zero_iff.1 h]; simp
  | n + 1, [], h => by simp at h
  | n + 1, a :: l, h => by
    rw [List.replicate_succ, List.zipWith_cons_cons, List.map_cons, List.sum_cons, List.map_cons, List.sum_cons,
      zipWith_replicate_zero n l (by simpa using h)]
    ring

theorem maxDistLoop_spec : ∀ n : ℕ, ph.dim * n ≤ ph.cps.length → ∃ x, ph.maxDistLoop n = .ok x ∧ 0 ≤ x ∧
    ∀ k < n, ∑ c ∈ range ph.dim, ph.cps.getD (ph.dim * k + c) 0 * ph.cps.getD (ph.dim * k + c) 0 ≤ x * x := by
  intro n
  induction n with
  | zero => intro _; exact ⟨0, rfl, le_refl _, fun k hk => by omega⟩
  | succ n ih =>
    intro hn
    have hn' : ph.dim * n ≤ ph.cps.length := le_trans (Nat.mul_le_mul_left _ (by omega)) hn
    obtain ⟨x, h1, h2, h3⟩ := ih hn'
    rw [Phys.maxDistLoop, h1, ok_bind, buildList_eq (g := fun c => ph.cps.getD (ph.dim * n + c) 0)]
    · simp only [ok_bind, pure_ok]
      refine ⟨_, rfl, ?_⟩
      have hd : ∀ y, 0 ≤ y → (Phys.distance (List.replicate ph.dim 0) ((List.range ph.dim).map fun c => ph.cps.getD (ph.dim * n + c) 0) ≤ y ↔
          ∑ c ∈ range ph.dim, ph.cps.getD (ph.dim * n + c) 0 * ph.cps.getD (ph.dim * n + c) 0 ≤ y * y) := by
        intro y hy
        unfold Phys.distance
        rw [twoNorm_le_iff hy, zipWith_replicate_zero _ _ (by simp), List.map_map, list_sum_map_range]
        rfl
      have key : ∀ y, x ≤ y → Phys.distance (List.replicate ph.dim 0) ((List.range ph.dim).map fun c => ph.cps.getD (ph.dim * n + c) 0) ≤ y →
          0 ≤ y ∧ ∀ k < n + 1, ∑ c ∈ range ph.dim, ph.cps.getD (ph.dim * k + c) 0 * ph.cps.getD (ph.dim * k + c) 0 ≤ y * y := by
        intro y hxy hdy
        have hy := h2.trans hxy
        refine ⟨hy, fun k hk => ?_⟩
        rcases Nat.lt_succ_iff_lt_or_eq.1 hk with hk | rfl
        · exact (h3 k hk).trans (mul_le_mul hxy hxy h2 hy)
        · exact (hd y hy).1 hdy
      split_ifs with hc
      · exact key _ hc.le (le_refl _)
      · exact key _ (le_refl _) (not_lt.1 hc)
    · intro c hc
      rw [show ((n : ℤ) * (ph.dim : ℤ) + (c : ℤ)) = ((ph.dim * n + c : ℕ) : ℤ) by push_cast; ring]
      apply getI_getD
      rw [Nat.mul_add] at hn
      omega

theorem maxDistance_spec (hph : ShapePhys ph ns) :
    ∃ x, ph.maxDistance = .ok x ∧ 0 ≤ x ∧
      ∀ k < ns.prod, ∑ c ∈ range ph.dim, ph.cps.getD (ph.dim * k + c) 0 * ph.cps.getD (ph.dim * k + c) 0 ≤ x * x := by
  have h0 := hph.dim
  obtain ⟨x, h1, h2, h3⟩ := maxDistLoop_spec (ph := ph) ns.prod (by rw [hph.cps])
  refine ⟨x, ?_, h2, h3⟩
  simp only [Phys.maxDistance, Phys.numCPs, if_neg h0.ne', ok_bind]
  rw [hph.cps, show (((ph.dim * ns.prod : ℕ) : ℤ)) = (ph.dim : ℤ) * (ns.prod : ℤ) by push_cast; rfl,
    Int.mul_tdiv_cancel_left _ (by omega), Int.toNat_natCast, h1]

/-- The scaled tolerance of a NURBS. -/
theorem effTol_nurbs (hph : ShapePhys ph ns) (hpos : ∀ n ∈ ns, 0 < n) {w : List K} (hw : ph.weights = some w) {tol T M mw : K}
    (hT : effTol ph tol = .ok T) (hM : ph.maxDistance = .ok M) (hmw : ph.minWeight = .ok mw) : T * (1 + M) = tol * mw := by
  obtain ⟨x, h1, h2, _⟩ := maxDistance_spec hph
  have e : x = M := by rw [h1] at hM; exact Except.ok.inj hM
  subst e
  have hne : 1 + x ≠ 0 := by
    have : (0 : K) < 1 + x := by linarith
    exact this.ne'
  simp only [effTol, hw, hM, hmw, ok_bind, fdiv_ok hne] at hT
  rw [← Except.ok.inj hT, div_mul_cancel₀ _ hne]

/-- A NURBS lies within the maximal distance of its control points from the origin. -/
theorem nurbs_norm_le {s : Spl K} (h : WFSpl s) (hn : IsNurbs s) {M : K} (hM : s.ph.maxDistance = .ok M) {x : List K} (hx : InDomain s x) :
    ∑ c ∈ range s.ph.dim, nurbsValue s x c * nurbsValue s x c ≤ M * M := by
  obtain ⟨y, h1, h2, h3⟩ := maxDistance_spec h.phys.shape
  have e : y = M := by rw [h1] at hM; exact Except.ok.inj hM
  subst e
  obtain ⟨l, l1, l2, l3⟩ := evaluate_convex h hx
  have hval : ∀ c < s.ph.dim, nurbsValue s x c = msum (npts s) fun I => l I * cpt s I c := by
    intro c hc
    have a := l3 [c] (by simpa using hc)
    rw [evaluate_nurbs h hn hx [c] (by simpa using hc.le)] at a
    have a := Except.ok.inj a
    simpa [show c ≠ s.ph.dim by omega] using a
  calc ∑ c ∈ range s.ph.dim, nurbsValue s x c * nurbsValue s x c
      ≤ ∑ c ∈ range s.ph.dim, msum (npts s) (fun I => l I * (cpt s I c * cpt s I c)) := by
        apply sum_le_sum
        intro c hc
        rw [hval c (mem_range.1 hc)]
        exact msum_sq_le l1 l2
    _ = msum (npts s) (fun I => l I * ∑ c ∈ range s.ph.dim, cpt s I c * cpt s I c) := by
        rw [← msum_sum_comm]
        apply msum_congr
        intro I _
        rw [mul_sum]
    _ ≤ msum (npts s) (fun I => y * y * l I) := by
        apply msum_le
        intro I hI
        rw [mul_comm]
        exact mul_le_mul_of_nonneg_right (h3 _ (lin_lt hI)) (l1 I hI)
    _ = y * y := by rw [msum_mul_left, l2, mul_one]

theorem minWeight_le {s : Spl K} (h : WFSpl s) {w : List K} (hw : s.ph.weights = some w) {mw : K} (hmw : s.ph.minWeight = .ok mw)
    {x : List K} (hx : InDomain s x) : 0 < mw ∧ mw ≤ weightValue s x := by
  have hpos : ∀ n ∈ npts s, 0 < n := nptsOf_pos h.knots
  obtain ⟨y, h1, h2, h3⟩ := minWeight_spec h.phys.shape hpos hw
  have e : y = mw := by rw [h1] at hmw; exact Except.ok.inj hmw
  subst e
  refine ⟨(h.weights w hw).2 y h2, ?_⟩
  have hN1 : msum (npts s) (dprod (basisFns s.ps.knots s.ps.degree x)) = 1 := tensor_unity h.knots hx
  calc y = msum (npts s) (fun I => y * dprod (basisFns s.ps.knots s.ps.degree x) I) := by rw [msum_mul_left, hN1, mul_one]
    _ ≤ weightValue s x := by
      apply msum_le
      intro I hI
      rw [mul_comm]
      apply mul_le_mul_of_nonneg_left _ (tensor_nonneg h.knots hx hI)
      unfold wgt
      rw [hw]
      simp only
      have hl := (h.weights w hw).1
      have := lin_lt hI
      rw [List.getD_eq_getElem?_getD, List.getElem?_eq_getElem (by omega)]
      exact h3 _ (List.getElem_mem _)

/-- From the homogeneous error to the error of the rational values. -/
theorem nurbs_error {s s1 : Spl K} (h : WFSpl s) (hn : IsNurbs s) (hdim : s1.ph.dim = s.ph.dim) {tol T M : K} (htol : 0 ≤ tol)
    (hT : effTol s.ph tol = .ok T) (hM : s.ph.maxDistance = .ok M) (hsmall : tol * (1 + M) ≤ M) {x : List K} (hx : InDomain s x)
    (hT0 : 0 ≤ T) (hE : ∑ c ∈ range s.ph.dim,
        (tensorSum s x (fun I => wgt s I * cpt s I c) - tensorSum s1 x (fun I => wgt s1 I * cpt s1 I c)) *
        (tensorSum s x (fun I => wgt s I * cpt s I c) - tensorSum s1 x (fun I => wgt s1 I * cpt s1 I c)) +
      (tensorSum s x (wgt s) - tensorSum s1 x (wgt s1)) * (tensorSum s x (wgt s) - tensorSum s1 x (wgt s1)) ≤ T * T) :
    0 < weightValue s1 x ∧
      ∑ c ∈ range s.ph.dim, (nurbsValue s x c - nurbsValue s1 x c) * (nurbsValue s x c - nurbsValue s1 x c) ≤ tol * tol := by
  have hpos : ∀ n ∈ npts s, 0 < n := nptsOf_pos h.knots
  obtain ⟨w, hw⟩ := hn
  obtain ⟨mw, hmw, _, _⟩ := minWeight_spec h.phys.shape hpos hw
  obtain ⟨m0, m1⟩ := minWeight_le h hw hmw hx
  have hTe := effTol_nurbs h.phys.shape hpos hw hT hM hmw
  have hM0 : 0 ≤ M := by
    obtain ⟨y, h1, h2, _⟩ := maxDistance_spec h.phys.shape
    rw [h1] at hM
    rw [← Except.ok.inj hM]; exact h2
  have hW : 0 < weightValue s x := weightValue_pos h hx
  have hC := nurbs_norm_le h ⟨w, hw⟩ hM hx
  set W := weightValue s x with hWd
  set W1 := weightValue s1 x with hW1d
  have hW' : tensorSum s x (wgt s) = W := rfl
  have hW1' : tensorSum s1 x (wgt s1) = W1 := rfl
  rw [hW', hW1'] at hE
  have h1M : (0 : K) < 1 + M := by linarith
  have hδ : (W - W1) * (W - W1) ≤ T * T := by
    refine le_trans ?_ hE
    linarith [sum_nonneg fun c (_ : c ∈ range s.ph.dim) => mul_self_nonneg (tensorSum s x (fun I => wgt s I * cpt s I c) - tensorSum s1 x (fun I => wgt s1 I * cpt s1 I c))]
  have hδ1 : W - W1 ≤ T := abs_le_of_sq_le_sq' (by rw [pow_two, pow_two]; exact hδ) hT0 |>.2
  -- mw - T ≥ mw * (1 + M - tol) / (1 + M)
  have hlow : mw - T ≤ W1 := by linarith
  have htol1 : tol ≤ M / (1 + M) := by rw [le_div_iff₀ h1M]; exact hsmall
  have hposlow : 0 < mw - T := by
    have : (mw - T) * (1 + M) = mw * (1 + M - tol) := by rw [sub_mul, hTe]; ring
    have h2 : 0 < mw * (1 + M - tol) := by
      apply mul_pos m0
      have : tol ≤ tol * (1 + M) := by nlinarith
      linarith
    rw [← this] at h2
    exact pos_of_mul_pos_left h2 h1M.le
  have hW1 : 0 < W1 := lt_of_lt_of_le hposlow hlow
  refine ⟨hW1, ?_⟩
  have hr := rational_error (n := s.ph.dim) hE hC
  have e : ∀ c, (nurbsValue s x c - nurbsValue s1 x c) * (nurbsValue s x c - nurbsValue s1 x c) * (W1 * W1) =
      (tensorSum s x (fun I => wgt s I * cpt s I c) - tensorSum s1 x (fun I => wgt s1 I * cpt s1 I c) - nurbsValue s x c * (W - W1)) *
      (tensorSum s x (fun I => wgt s I * cpt s I c) - tensorSum s1 x (fun I => wgt s1 I * cpt s1 I c) - nurbsValue s x c * (W - W1)) := by
    intro c
    unfold nurbsValue
    rw [← hWd, ← hW1d]
    field_simp
    ring
  have hle : (∑ c ∈ range s.ph.dim, (nurbsValue s x c - nurbsValue s1 x c) * (nurbsValue s x c - nurbsValue s1 x c)) * (W1 * W1) ≤
      (1 + M * M) * (T * T) := by
    rw [sum_mul]
    simp only [e]
    exact hr
  -- (1 + M²) T² ≤ tol² (mw - T)²
  have hfin : (1 + M * M) * (T * T) ≤ tol * tol * (W1 * W1) := by
    have h2 : (mw - T) * (mw - T) ≤ W1 * W1 := mul_le_mul hlow hlow hposlow.le hW1.le
    refine le_trans ?_ (mul_le_mul_of_nonneg_left h2 (mul_self_nonneg tol))
    have hs : T = tol * mw / (1 + M) := by rw [eq_div_iff h1M.ne']; exact hTe
    have h3 : mw - T = mw * (1 + M - tol) / (1 + M) := by rw [hs]; field_simp
    rw [h3, hs]
    have h4 : (1 + M * M) ≤ (1 + M - tol) * (1 + M - tol) := by
      -- tol ≤ M / (1+M)
      have h5 : 1 + M - M / (1 + M) ≤ 1 + M - tol := by linarith
      have h6 : 0 ≤ 1 + M - M / (1 + M) := by
        have : M / (1 + M) ≤ 1 := by rw [div_le_one h1M]; linarith
        linarith
      refine le_trans ?_ (mul_le_mul h5 h5 h6 (h6.trans h5))
      have h7 : 1 + M - M / (1 + M) = (1 + M + M * M) / (1 + M) := by field_simp; ring
      rw [h7, div_mul_div_comm, le_div_iff₀ (mul_pos h1M h1M)]
      nlinarith [mul_nonneg hM0 hM0, mul_nonneg hM0 (mul_nonneg hM0 hM0)]
    rw [div_mul_div_comm, div_mul_div_comm, ← mul_div_assoc, ← mul_div_assoc]
    apply div_le_div_of_nonneg_right _ (mul_pos h1M h1M).le
    calc (1 + M * M) * (tol * mw * (tol * mw)) = (tol * tol * (mw * mw)) * (1 + M * M) := by ring
      _ ≤ (tol * tol * (mw * mw)) * ((1 + M - tol) * (1 + M - tol)) :=
        mul_le_mul_of_nonneg_left h4 (mul_nonneg (mul_self_nonneg _) (mul_self_nonneg _))
      _ = _ := by ring
  exact le_of_mul_le_mul_right (hle.trans hfin) (mul_pos hW1 hW1)

end
end SplineLib
