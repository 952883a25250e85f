import Verif.Core.Construct
import Verif.Core.EvalProps
import Verif.Model.Generators

/-!
# The translational surface
-/

namespace SplineLib
set_option linter.unusedSectionVars false
open Finset

theorem grid_getD {α : Type} (f : ℕ → ℕ → α) (n m : ℕ) (d : α) {i j : ℕ} (hi : i < m) (hj : j < n) :
    (((List.range m).map fun i => (List.range n).map fun j => f i j).flatten).getD (j + n * i) d = f i j := by
  induction m with
  | zero => omega
  | succ m ih =>
    rw [List.range_succ, List.map_append, List.flatten_append]
    have hl : (((List.range m).map fun i => (List.range n).map fun j => f i j).flatten).length = n * m := by
      rw [List.length_flatten, List.map_map]
      simp [Function.comp_def, Nat.mul_comm]
    rw [List.getD_eq_getElem?_getD, List.getElem?_append, hl]
    by_cases h : i < m
    · have : j + n * i < n * m := by
        calc j + n * i < n + n * i := by omega
          _ = n * (i + 1) := by ring
          _ ≤ n * m := Nat.mul_le_mul_left _ h
      rw [if_pos this, ← List.getD_eq_getElem?_getD, ih h]
    · obtain rfl : i = m := by omega
      rw [if_neg (by omega), show j + n * i - n * i = j by omega]
      simp [hj]

theorem grid_length {α : Type} (f : ℕ → ℕ → α) (n m : ℕ) :
    (((List.range m).map fun i => (List.range n).map fun j => f i j).flatten).length = n * m := by
  rw [List.length_flatten, List.map_map]
  simp [Function.comp_def, Nat.mul_comm]

theorem mem_grid {α : Type} {f : ℕ → ℕ → α} {n m : ℕ} {a : α}
    (h : a ∈ ((List.range m).map fun i => (List.range n).map fun j => f i j).flatten) : ∃ i < m, ∃ j < n, f i j = a := by
  simp only [List.mem_flatten, List.mem_map, List.mem_range] at h
  obtain ⟨l, ⟨i, hi, rfl⟩, h⟩ := h
  simp only [List.mem_map, List.mem_range] at h
  obtain ⟨j, hj, e⟩ := h
  exact ⟨i, hi, j, hj, e⟩

section
variable {K : Type} [Field K] [LinearOrder K] [IsStrictOrderedRing K]

theorem addPoints_eq (f g : ℕ → K) {n m : ℕ} (h : n ≤ m) :
    Gen.addPoints ((List.range n).map f) ((List.range m).map g) = .ok ((List.range n).map fun c => f c + g c) := by
  unfold Gen.addPoints
  rw [List.length_map, List.length_range]
  apply buildList_eq
  intro i hi
  rw [getN_of_lt (by simpa using hi), getN_of_lt (by simp; omega)]
  simp

/-- A spline with one direction. -/
theorem curve_data {s : Spl K} (h : WFSpl s) (hl : s.ps.knots.length = 1) : ∃ U p, s.ps.knots = [U] ∧ s.ps.degree = [p] ∧
    WFKnots U p ∧ npts s = [U.length - p - 1] := by
  have hk := h.knots
  unfold npts
  generalize s.ps.knots = Us at hl hk ⊢
  generalize s.ps.degree = ps at hk ⊢
  match Us, ps, hl, hk with
  | [U], [p], _, .cons hw .nil => exact ⟨U, p, rfl, rfl, hw, rfl⟩

theorem numCPs_eq {s : Spl K} (h : WFSpl s) : s.ph.numCPs = .ok ((npts s).prod : ℤ) := by
  have hd := h.dim
  unfold Phys.numCPs
  rw [if_neg (by omega), h.cps, Int.tdiv_eq_ediv_of_nonneg (by positivity)]
  congr 1
  rw [Nat.cast_mul]
  exact Int.mul_ediv_cancel_left _ (by omega)

theorem inBox_one {n i : ℕ} (h : i < n) : InBox [n] [i] := .cons h .nil

theorem translationalSurface_eq {T C : Spl K} (hT : WFSpl T) (hC : WFSpl C) (hT1 : T.ps.knots.length = 1)
    (hC1 : C.ps.knots.length = 1) (hd : T.ph.dim ≤ C.ph.dim) (hsz : (npts T).prod * (npts C).prod < 2 ^ 64) :
    ∃ s, Gen.translationalSurface T C = .ok s ∧
      Built s (T.ps.knots ++ C.ps.knots) (T.ps.degree ++ C.ps.degree)
        (((List.range (npts C).prod).map fun i => (List.range (npts T).prod).map fun j =>
          (List.range T.ph.dim).map fun c => cpt T [j] c + cpt C [i] c).flatten)
        (some ((List.range (npts C).prod).map fun i => (List.range (npts T).prod).map fun j => wgt T [j] * wgt C [i]).flatten) := by
  obtain ⟨UT, pT, hTU, hTp, hTk, hTn⟩ := curve_data hT hT1
  obtain ⟨UC, pC, hCU, hCp, hCk, hCn⟩ := curve_data hC hC1
  have hnT : (npts T).prod = UT.length - pT - 1 := by rw [hTn]; simp
  have hnC : (npts C).prod = UC.length - pC - 1 := by rw [hCn]; simp
  have posT : 0 < (npts T).prod := by have := hTk.size; omega
  have posC : 0 < (npts C).prod := by have := hCk.size; omega
  have hcl : List.Forall₂ (fun U p => PS.clamped U p = true) [UT, UC] [pT, pC] := .cons hTk.clamped (.cons hCk.clamped .nil)
  obtain ⟨e1, e2⟩ := psNew_copy hcl
  have e3 : buildList (fun i => buildList (fun j => do
      let a ← T.ph.getCP [(j : ℤ)]
      let b ← C.ph.getCP [(i : ℤ)]
      Gen.addPoints a b) (npts T).prod) (npts C).prod = .ok ((List.range (npts C).prod).map fun i =>
        (List.range (npts T).prod).map fun j => (List.range T.ph.dim).map fun c => cpt T [j] c + cpt C [i] c) := by
    apply buildList_eq
    intro i hi
    apply buildList_eq
    intro j hj
    have bT : InBox (npts T) [j] := by rw [hTn]; rw [hTn] at hj; exact inBox_one (by simpa using hj)
    have bC : InBox (npts C) [i] := by rw [hCn]; rw [hCn] at hi; exact inBox_one (by simpa using hi)
    have g1 := getCP_eq hT.num hT.cps bT
    have g2 := getCP_eq hC.num hC.cps bC
    simp only [List.map_cons, List.map_nil] at g1 g2
    rw [g1, ok_bind, g2, ok_bind, addPoints_eq _ _ hd]; rfl
  have e4 : buildList (fun i => buildList (fun j => do
      let a ← T.ph.getWeight [(j : ℤ)]
      let b ← C.ph.getWeight [(i : ℤ)]
      return a * b) (npts T).prod) (npts C).prod = .ok ((List.range (npts C).prod).map fun i =>
        (List.range (npts T).prod).map fun j => wgt T [j] * wgt C [i]) := by
    apply buildList_eq
    intro i hi
    apply buildList_eq
    intro j hj
    have bT : InBox (npts T) [j] := by rw [hTn]; rw [hTn] at hj; exact inBox_one (by simpa using hj)
    have bC : InBox (npts C) [i] := by rw [hCn]; rw [hCn] at hi; exact inBox_one (by simpa using hi)
    have g1 := getWeight_eq hT bT
    have g2 := getWeight_eq hC bC
    simp only [List.map_cons, List.map_nil] at g1 g2
    rw [g1, ok_bind, g2, ok_bind]; rfl
  have hpl := grid_length (fun i j => (List.range T.ph.dim).map fun c => cpt T [j] c + cpt C [i] c) (npts T).prod (npts C).prod
  have hwl := grid_length (fun i j => wgt T [j] * wgt C [i]) (npts T).prod (npts C).prod
  have hm : ∀ q ∈ ((List.range (npts C).prod).map fun i => (List.range (npts T).prod).map fun j =>
          (List.range T.ph.dim).map fun c => cpt T [j] c + cpt C [i] c).flatten, q.length = T.ph.dim := by
    intro q hq
    obtain ⟨i, _, j, _, rfl⟩ := mem_grid hq
    simp
  generalize ((List.range (npts C).prod).map fun i => (List.range (npts T).prod).map fun j =>
          (List.range T.ph.dim).map fun c => cpt T [j] c + cpt C [i] c) = P at *
  generalize ((List.range (npts C).prod).map fun i => (List.range (npts T).prod).map fun j => wgt T [j] * wgt C [i]) = W at *
  have hne : P.flatten ≠ [] := by
    intro h0; rw [h0] at hpl; simp only [List.length_nil] at hpl
    have := Nat.mul_pos posT posC; omega
  have hns : nptsOf [UT, UC] [pT, pC] = [(npts T).prod, (npts C).prod] := by rw [hnT, hnC]; rfl
  have e5 := (physNew_eq (points := P.flatten) (ns := [(npts T).prod, (npts C).prod]) hne (by simpa using hsz)).1
    ⟨by rw [hpl]; simp, T.ph.dim, hm⟩
  simp only [List.map_cons, List.map_nil] at e5
  refine ⟨⟨⟨[UT, UC], [pT, pC], mkTable [UT, UC] [pT, pC]⟩,
    ⟨(P.flatten.head hne).length, [((npts T).prod : ℤ), ((npts C).prod : ℤ)], P.flatten.flatten, some W.flatten⟩⟩, ?_, ?_⟩
  · unfold Gen.translationalSurface
    have q1 : getN T.ps.knots 0 = .ok UT := by rw [hTU]; rfl
    have q2 : getN C.ps.knots 0 = .ok UC := by rw [hCU]; rfl
    have q3 : getN T.ps.degree 0 = .ok pT := by rw [hTp]; rfl
    have q4 : getN C.ps.degree 0 = .ok pC := by rw [hCp]; rfl
    simp only [q1, q2, q3, q4, e1, e2, ok_bind, numCPs_eq hT, numCPs_eq hC, Int.toNat_natCast]
    simp only [e3, e4, ok_bind, Phys.newWeighted, e5, hpl, hwl, ne_eq, not_true_eq_false, if_false]
    rfl
  · rw [hTU, hCU, hTp, hCp]
    refine ⟨rfl, rfl, rfl, head_dim hne ⟨_, hm⟩, ?_, rfl, rfl⟩
    show _ = zl (nptsOf [UT, UC] [pT, pC])
    rw [hns]; rfl

/-- The sum over a translational surface splits. -/
theorem sum_split (a b f g : ℕ → K) (n m : ℕ) :
    ∑ j ∈ range n, ∑ i ∈ range m, a j * (b i * (f j * g i)) = (∑ j ∈ range n, a j * f j) * ∑ i ∈ range m, b i * g i := by
  rw [Finset.sum_mul]
  apply Finset.sum_congr rfl
  intro j _
  rw [Finset.mul_sum]
  apply Finset.sum_congr rfl
  intro i _
  ring

structure Swept (T C s : Spl K) : Prop where
  wf : WFSpl s
  nurbs : IsNurbs s
  dim : s.ph.dim = T.ph.dim
  knots : s.ps.knots = T.ps.knots ++ C.ps.knots
  degree : s.ps.degree = T.ps.degree ++ C.ps.degree
  cpt : ∀ j < (npts T).prod, ∀ i < (npts C).prod, ∀ c < T.ph.dim, cpt s [j, i] c = cpt T [j] c + cpt C [i] c
  wgt : ∀ j < (npts T).prod, ∀ i < (npts C).prod, wgt s [j, i] = wgt T [j] * wgt C [i]

theorem wgt_pos' {s : Spl K} (h : WFSpl s) {I : List ℕ} (hI : InBox (npts s) I) : 0 < wgt s I := by
  unfold wgt
  cases hw : s.ph.weights with
  | none => exact one_pos
  | some w =>
    have := h.weights w hw
    dsimp only
    have hlt : lin (npts s) I < w.length := by rw [this.1]; exact lin_lt hI
    rw [List.getD_eq_getElem?_getD, List.getElem?_eq_getElem hlt]
    exact this.2 _ (List.getElem_mem hlt)

theorem translationalSurface_swept {T C : Spl K} (hT : WFSpl T) (hC : WFSpl C) (hT1 : T.ps.knots.length = 1)
    (hC1 : C.ps.knots.length = 1) (hd : T.ph.dim ≤ C.ph.dim) (hsz : (npts T).prod * (npts C).prod < 2 ^ 64) :
    ∃ s, Gen.translationalSurface T C = .ok s ∧ Swept T C s := by
  obtain ⟨s, hs, hb⟩ := translationalSurface_eq hT hC hT1 hC1 hd hsz
  refine ⟨s, hs, ?_⟩
  obtain ⟨UT, pT, hTU, hTp, hTk, hTn⟩ := curve_data hT hT1
  obtain ⟨UC, pC, hCU, hCp, hCk, hCn⟩ := curve_data hC hC1
  have hnT : (npts T).prod = UT.length - pT - 1 := by rw [hTn]; simp
  have hnC : (npts C).prod = UC.length - pC - 1 := by rw [hCn]; simp
  have posT : 0 < (npts T).prod := by have := hTk.size; omega
  have posC : 0 < (npts C).prod := by have := hCk.size; omega
  have hpl := grid_length (fun i j => (List.range T.ph.dim).map fun c => cpt T [j] c + cpt C [i] c) (npts T).prod (npts C).prod
  have hwl := grid_length (fun i j => wgt T [j] * wgt C [i]) (npts T).prod (npts C).prod
  have hm : ∀ q ∈ ((List.range (npts C).prod).map fun i => (List.range (npts T).prod).map fun j =>
          (List.range T.ph.dim).map fun c => cpt T [j] c + cpt C [i] c).flatten, q.length = T.ph.dim := by
    intro q hq
    obtain ⟨i, _, j, _, rfl⟩ := mem_grid hq
    simp
  have hns : nptsOf (T.ps.knots ++ C.ps.knots) (T.ps.degree ++ C.ps.degree) = [(npts T).prod, (npts C).prod] := by
    rw [hnT, hnC, hTU, hCU, hTp, hCp]; rfl
  have hne : ((List.range (npts C).prod).map fun i => (List.range (npts T).prod).map fun j =>
          (List.range T.ph.dim).map fun c => cpt T [j] c + cpt C [i] c).flatten ≠ [] := by
    intro h0; rw [h0] at hpl; simp only [List.length_nil] at hpl
    have := Nat.mul_pos posT posC; omega
  have hdim : s.ph.dim = T.ph.dim := by rw [hb.dim _ (List.head_mem hne)]; exact hm _ (List.head_mem hne)
  have hnp : npts s = [(npts T).prod, (npts C).prod] := by rw [npts_eq, hb.knots, hb.degree, hns]
  refine ⟨hb.wf ?_ hne (by rw [hpl, hns]; simp) hT.dim hm ?_, ⟨_, hb.weights⟩, hdim, hb.knots, hb.degree, ?_, ?_⟩
  · rw [hTU, hCU, hTp, hCp]; exact .cons hTk (.cons hCk .nil)
  · intro w hw
    cases hw
    refine ⟨by rw [hpl, hwl], ?_⟩
    intro a ha
    obtain ⟨i, hi, j, hj, rfl⟩ := mem_grid ha
    exact mul_pos (wgt_pos' hT (by rw [hTn]; exact inBox_one (by omega))) (wgt_pos' hC (by rw [hCn]; exact inBox_one (by omega)))
  · intro j hj i hi c hc
    show s.ph.cps.getD (s.ph.dim * lin (npts s) [j, i] + c) 0 = _
    rw [hb.cps, hdim, flatten_getD hm hc, hnp]
    simp only [lin, Nat.mul_zero, Nat.add_zero]
    rw [grid_getD _ _ _ _ hi hj]
    simp [hc]
  · intro j hj i hi
    conv_lhs => unfold SplineLib.wgt
    rw [hb.weights]
    dsimp only
    rw [hnp]
    simp only [lin, Nat.mul_zero, Nat.add_zero]
    rw [grid_getD _ _ _ _ hi hj]

theorem swept_values {T C s : Spl K} (hT : WFSpl T) (hC : WFSpl C) (hT1 : T.ps.knots.length = 1)
    (hC1 : C.ps.knots.length = 1) (h : Swept T C s) {u v : K} (hu : InDomain T [u]) (hv : InDomain C [v]) :
    InDomain s [u, v] ∧ weightValue s [u, v] = weightValue T [u] * weightValue C [v] ∧
      ∀ c < T.ph.dim, nurbsValue s [u, v] c = nurbsValue T [u] c + nurbsValue C [v] c := by
  obtain ⟨UT, pT, hTU, hTp, hTk, hTn⟩ := curve_data hT hT1
  obtain ⟨UC, pC, hCU, hCp, hCk, hCn⟩ := curve_data hC hC1
  have hdom : InDomain s [u, v] := by
    unfold InDomain at *
    rw [h.knots, hTU, hCU]
    rw [hTU] at hu
    rw [hCU] at hv
    cases hu with | cons a _ => cases hv with | cons b _ => exact .cons a (.cons b .nil)
  have hs : ∀ a : List ℕ → K, tensorSum s [u, v] a = ∑ j ∈ range (npts T).prod, ∑ i ∈ range (npts C).prod,
      coxDeBoor UT pT j u * (coxDeBoor UC pC i v * a [j, i]) := by
    intro a
    unfold tensorSum
    rw [hTn, hCn]
    unfold npts
    rw [h.knots, h.degree, hTU, hCU, hTp, hCp]
    simp [msum, dprod, basisFns, mul_assoc]
  have hTs : ∀ a : List ℕ → K, tensorSum T [u] a = ∑ j ∈ range (npts T).prod, coxDeBoor UT pT j u * a [j] := by
    intro a
    unfold tensorSum
    rw [hTn, hTU, hTp]; simp [msum, dprod, basisFns]
  have hCs : ∀ a : List ℕ → K, tensorSum C [v] a = ∑ j ∈ range (npts C).prod, coxDeBoor UC pC j v * a [j] := by
    intro a
    unfold tensorSum
    rw [hCn, hCU, hCp]; simp [msum, dprod, basisFns]
  have hw : weightValue s [u, v] = weightValue T [u] * weightValue C [v] := by
    unfold weightValue
    rw [hs, hTs, hCs, ← sum_split]
    refine Finset.sum_congr rfl fun j hj => Finset.sum_congr rfl fun i hi => ?_
    rw [h.wgt j (Finset.mem_range.1 hj) i (Finset.mem_range.1 hi)]
  refine ⟨hdom, hw, ?_⟩
  intro c hc
  have pT' := weightValue_pos hT hu
  have pC' := weightValue_pos hC hv
  unfold nurbsValue
  rw [hw]
  have hnum : tensorSum s [u, v] (fun I => wgt s I * cpt s I c) =
      tensorSum T [u] (fun I => wgt T I * cpt T I c) * weightValue C [v] +
        weightValue T [u] * tensorSum C [v] (fun I => wgt C I * cpt C I c) := by
    unfold weightValue
    rw [hs, hTs, hTs, hCs, hCs, ← sum_split, ← sum_split, ← Finset.sum_add_distrib]
    refine Finset.sum_congr rfl fun j hj => ?_
    rw [← Finset.sum_add_distrib]
    refine Finset.sum_congr rfl fun i hi => ?_
    rw [h.wgt j (Finset.mem_range.1 hj) i (Finset.mem_range.1 hi), h.cpt j (Finset.mem_range.1 hj) i (Finset.mem_range.1 hi) c hc]
    ring
  rw [hnum]
  field_simp

end
end SplineLib
