import Verif.Core.Permute
import Verif.Core.Unity
import Verif.Core.InsertOne
import Verif.Props.Descriptions

/-!
# C92: the directions in any order
-/

namespace SplineLib
set_option linter.unusedSectionVars false

section
variable {K : Type} [Field K] [LinearOrder K] [IsStrictOrderedRing K]

/-- `s'` is `s` with the directions in the order `σ`. -/
structure Reordered (s s' : Spl K) (σ : List ℕ) : Prop where
  order : σ.Perm (List.range s.ps.knots.length)
  knots : s'.ps.knots = reorder σ s.ps.knots
  degree : s'.ps.degree = reorder σ s.ps.degree
  dim : s'.ph.dim = s.ph.dim
  kind : s'.ph.weights = none ↔ s.ph.weights = none
  points : ∀ I, InBox (npts s) I → ∀ c < s.ph.dim, cpt s' (reorder σ I) c = cpt s I c
  weights : ∀ I, InBox (npts s) I → wgt s' (reorder σ I) = wgt s I
  wf : WFSpl s'

/-- **C92** The directions in any order: points and derivatives are those of the original spline, with the parameters and orders in the new order. -/
theorem C92_reordered {s s' : Spl K} (h : WFSpl s) {σ : List ℕ} (hs : Reordered s s' σ) {x : List K} (hx : InDomain s x) (dims : List ℕ)
    (hd : ∀ c ∈ dims, c < s.ph.dim) :
    InDomain s' (reorder σ x) ∧ s'.evaluate (reorder σ x) (zl dims) = s.evaluate x (zl dims) ∧
    ∀ k : List ℕ, k.length = s.ps.knots.length →
      s'.evaluateDerivative (reorder σ x) (zl dims) (zl (reorder σ k)) = s.evaluateDerivative x (zl dims) (zl k) := by
  obtain ⟨ds, hds⟩ := reorder_swaps hs.order
  have hl := h.knots.length_eq
  have hxl : x.length = s.ps.knots.length := (List.Forall₂.length_eq hx).symm
  have hnl : (npts s).length = s.ps.knots.length := by
    rw [npts_eq, nptsOf, List.length_zipWith, hl]; simp
  have hR := Redesc.swaps h hs.wf ds (by rw [hs.knots, hds _ rfl]) (by rw [hs.degree, hds _ hl.symm]) hs.dim hs.kind hx
    (fun I hI c hc => by rw [← hds I (by rw [hI.length, hnl]), hs.points I hI c hc]) (fun I hI => by rw [← hds I (by rw [hI.length, hnl]), hs.weights I hI])
  rw [hds x hxl]
  refine ⟨hR.dom', hR.evaluate dims hd, fun k hk => ?_⟩
  rw [hds k hk]
  obtain ⟨v, e1, e2⟩ := hR.derivative dims hd hk trivial
  rw [e1, e2]
  simp

/-- **C92** Every order of the directions is possible: the reordered spline exists. -/
theorem C92_exists {s : Spl K} (h : WFSpl s) {σ : List ℕ} (ho : σ.Perm (List.range s.ps.knots.length)) : ∃ s', Reordered s s' σ := by
  obtain ⟨ds, hds⟩ := reorder_swaps ho
  have hl := h.knots.length_eq
  have hnl : (npts s).length = s.ps.knots.length := by
    rw [npts_eq, nptsOf, List.length_zipWith, hl]; simp
  have hW : List.Forall₂ WFKnots (swaps ds s.ps.knots) (swaps ds s.ps.degree) := forall₂_swaps ds h.knots
  let ns := swaps ds (npts s)
  let s' : Spl K := ⟨⟨swaps ds s.ps.knots, swaps ds s.ps.degree, mkTable (swaps ds s.ps.knots) (swaps ds s.ps.degree)⟩,
    ⟨s.ph.dim, zl ns, (List.range (s.ph.dim * ns.prod)).map fun a => cpt s (swaps ds.reverse (unlin ns (a / s.ph.dim))) (a % s.ph.dim),
      s.ph.weights.map fun _ => (List.range ns.prod).map fun a => wgt s (swaps ds.reverse (unlin ns a))⟩⟩
  have hn : npts s' = ns := by
    show nptsOf (swaps ds s.ps.knots) (swaps ds s.ps.degree) = _
    rw [nptsOf, swaps_zipWith _ _ hl]; rfl
  have hpos : ∀ n ∈ ns, 0 < n := by
    rw [← hn]
    exact nptsOf_pos hW
  have hback : ∀ a, InBox (npts s) (swaps ds.reverse (unlin ns a)) := fun a => by
    have := swaps_inBox ds.reverse (unlin_inBox hpos a)
    rwa [swaps_back] at this
  have hlin : ∀ I, InBox (npts s) I → lin ns (swaps ds I) < ns.prod ∧ swaps ds.reverse (unlin ns (lin ns (swaps ds I))) = I := fun I hI => by
    have hI' : InBox ns (swaps ds I) := swaps_inBox ds hI
    exact ⟨lin_lt hI', by rw [unlin_lin hI', swaps_back]⟩
  refine ⟨s', ho, (hds _ rfl).symm, (hds _ hl.symm).symm, rfl, by simp [s'], fun I hI c hc => ?_, fun I hI => ?_, hW, ?_, ?_, h.dim, ?_, ?_⟩
  · rw [hds I (by rw [hI.length, hnl])]
    obtain ⟨h1, h2⟩ := hlin I hI
    unfold cpt
    rw [hn]
    have h3 : s.ph.dim * lin ns (swaps ds I) + c < s.ph.dim * ns.prod := mul_add_lt h1 hc
    have h4 : (s.ph.dim * lin ns (swaps ds I) + c) / s.ph.dim = lin ns (swaps ds I) := by
      rw [Nat.mul_add_div h.dim, Nat.div_eq_of_lt hc, add_zero]
    have h5 : (s.ph.dim * lin ns (swaps ds I) + c) % s.ph.dim = c := by
      rw [Nat.mul_add_mod, Nat.mod_eq_of_lt hc]
    simp only [s', List.getD_eq_getElem?_getD, List.getElem?_map, List.getElem?_range h3, Option.map_some, Option.getD_some, h4, h5, h2, cpt]
  · rw [hds I (by rw [hI.length, hnl])]
    obtain ⟨h1, h2⟩ := hlin I hI
    cases hw : s.ph.weights with
    | none => simp [wgt, s', hw]
    | some w =>
      have e : wgt s' (swaps ds I) = ((List.range ns.prod).map fun a => wgt s (swaps ds.reverse (unlin ns a))).getD (lin (npts s') (swaps ds I)) 0 := by
        simp [wgt, s', hw]
      rw [e, hn, List.getD_eq_getElem?_getD, List.getElem?_map, List.getElem?_range h1, Option.map_some, Option.getD_some, h2]
  · exact basisTable_eq (hW.imp fun _ _ hk => by have := hk.size; omega)
  · rw [hn]
  · rw [hn]; simp [s']
  · intro w hw
    obtain ⟨w0, h0, rfl⟩ := Option.map_eq_some_iff.1 hw
    rw [hn]
    refine ⟨by simp, fun b hb => ?_⟩
    obtain ⟨a, _, rfl⟩ := List.mem_map.1 hb
    exact wgt_pos h (hback a)

end

/-- A volume of degrees 1, 1 and 2. -/
def exVolume : Spl ℚ :=
  ⟨⟨[[0, 0, 1, 1], [-1, -1, 3, 3], [0, 0, 0, 1/2, 1, 1, 1]], [1, 1, 2], mkTable [[0, 0, 1, 1], [-1, -1, 3, 3], [0, 0, 0, 1/2, 1, 1, 1]] [1, 1, 2]⟩,
   ⟨1, [2, 2, 4], [0, 1, 2, 5, 3, 1, 4, 7, 2, 8, 6, 1, 9, 3, 5, 4], some [1, 2, 1, 3, 2, 1, 1, 4, 1, 2, 3, 1, 2, 2, 1, 5]⟩⟩

/-- `exVolume` with the last direction in front. -/
def exVolumeTurned : Spl ℚ :=
  ⟨⟨[[0, 0, 0, 1/2, 1, 1, 1], [0, 0, 1, 1], [-1, -1, 3, 3]], [2, 1, 1], mkTable [[0, 0, 0, 1/2, 1, 1, 1], [0, 0, 1, 1], [-1, -1, 3, 3]] [2, 1, 1]⟩,
   ⟨1, [4, 2, 2], [0, 3, 2, 9, 1, 1, 8, 3, 2, 4, 6, 5, 5, 7, 1, 4], some [1, 2, 1, 2, 2, 1, 2, 2, 1, 1, 3, 1, 3, 4, 1, 5]⟩⟩

theorem exVolume_wf : WFSpl exVolume where
  knots := by simp only [exVolume]; exact .cons (by decide +kernel) (.cons (by decide +kernel) (.cons (by decide +kernel) .nil))
  basis := by decide +kernel
  num := by decide +kernel
  dim := by decide +kernel
  cps := by decide +kernel
  weights := by
    intro w h
    obtain rfl : [1, 2, 1, 3, 2, 1, 1, 4, 1, 2, 3, 1, 2, 2, 1, 5] = w := by simpa [exVolume] using h
    exact ⟨by decide +kernel, by decide +kernel⟩

theorem exVolumeTurned_wf : WFSpl exVolumeTurned where
  knots := by simp only [exVolumeTurned]; exact .cons (by decide +kernel) (.cons (by decide +kernel) (.cons (by decide +kernel) .nil))
  basis := by decide +kernel
  num := by decide +kernel
  dim := by decide +kernel
  cps := by decide +kernel
  weights := by
    intro w h
    obtain rfl : [1, 2, 1, 2, 2, 1, 2, 2, 1, 1, 3, 1, 3, 4, 1, 5] = w := by simpa [exVolumeTurned] using h
    exact ⟨by decide +kernel, by decide +kernel⟩

theorem exVolume_box {I : List ℕ} (hI : InBox (npts exVolume) I) : ∃ i < 2, ∃ j < 2, ∃ k < 4, I = [i, j, k] := by
  match I, hI with
  | [i, j, k], hI =>
    have h1 := hI.getD_lt (d := 0) (by decide)
    have h2 := hI.getD_lt (d := 1) (by decide)
    have h3 := hI.getD_lt (d := 2) (by decide)
    exact ⟨i, h1, j, h2, k, h3, rfl⟩
  | [], hI => exact absurd hI.length (by decide)
  | [_], hI => exact absurd hI.length (by simp [npts, exVolume])
  | [_, _], hI => exact absurd hI.length (by simp [npts, exVolume])
  | _ :: _ :: _ :: _ :: _, hI => exact absurd hI.length (by simp [npts, exVolume])

theorem exVolume_turned : Reordered exVolume exVolumeTurned [2, 0, 1] where
  order := by decide
  knots := by decide +kernel
  degree := by decide +kernel
  dim := rfl
  kind := by simp [exVolume, exVolumeTurned]
  points := by
    intro I hI c hc
    obtain ⟨i, hi, j, hj, k, hk, rfl⟩ := exVolume_box hI
    obtain rfl : c = 0 := by have : c < 1 := hc; omega
    have : ∀ i < 2, ∀ j < 2, ∀ k < 4, cpt exVolumeTurned (reorder [2, 0, 1] [i, j, k]) 0 = cpt exVolume [i, j, k] 0 := by decide +kernel
    exact this i hi j hj k hk
  weights := by
    intro I hI
    obtain ⟨i, hi, j, hj, k, hk, rfl⟩ := exVolume_box hI
    have : ∀ i < 2, ∀ j < 2, ∀ k < 4, wgt exVolumeTurned (reorder [2, 0, 1] [i, j, k]) = wgt exVolume [i, j, k] := by decide +kernel
    exact this i hi j hj k hk
  wf := exVolumeTurned_wf

/-- Satisfiable. -/
example : exVolumeTurned.evaluateDerivative [3/4, 1/3, 1] [0] [2, 0, 1] = exVolume.evaluateDerivative [1/3, 1, 3/4] [0] [0, 1, 2] :=
  (C92_reordered exVolume_wf exVolume_turned (x := [1/3, 1, 3/4]) (.cons (by decide +kernel) (.cons (by decide +kernel) (.cons (by decide +kernel) .nil)))
    [0] (by decide)).2.2 [0, 1, 2] rfl

end SplineLib
