import Verif.Core.EvalProps
import Verif.Core.RoundedInsert
import Verif.Props.Files

/-!
# C106: small changes of the data change the spline little

What changing control points and weights does to the values of a spline, and what this means for splines that are written to a file and
read back: the file holds six decimals, so the values are off by half a unit of the sixth decimal, plus what the weights contribute.
-/

namespace SplineLib
set_option linter.unusedSectionVars false
open Str Prn
variable {K : Type} [LinearOrder K] [Field K] [IsStrictOrderedRing K]

/-- Both kinds of splines evaluate to `Σ N w P / Σ N w`. -/
theorem evaluate_rational {s : Spl K} (h : WFSpl s) {x : List K} (hx : InDomain s x) {c : ℕ} (hc : c < s.ph.dim) :
    s.evaluate x [(c : ℤ)] = .ok [nurbsValue s x c] := by
  cases hw : s.ph.weights with
  | none =>
    have e := evaluate_bspline h hw hx [c] (by simpa using hc)
    have e1 : ∀ I, wgt s I = 1 := fun I => by unfold wgt; rw [hw]
    have e2 : weightValue s x = 1 := by
      unfold weightValue tensorSum
      simp only [e1, mul_one]
      exact tensor_unity h.knots hx
    have e3 : nurbsValue s x c = bsplineValue s x c := by
      unfold nurbsValue bsplineValue
      simp only [e1, e2, one_mul, div_one]
    rw [e3]; exact e
  | some w =>
    have e := evaluate_nurbs h ⟨w, hw⟩ hx [c] (by simpa using hc.le)
    simpa [hc.ne] using e

/-- Values of two quotients of sums with the same basis functions. -/
theorem quotient_perturbed {ns : List ℕ} {N w v p q : List ℕ → K} {δ ε D : K} (hN : ∀ I, InBox ns I → 0 ≤ N I)
    (hw : ∀ I, InBox ns I → 0 < w I) (hW : 0 < msum ns fun I => N I * w I) (hε0 : 0 ≤ ε) (hε : ε < 1)
    (hv : ∀ I, InBox ns I → |v I - w I| ≤ ε * w I) (hp : ∀ I, InBox ns I → |q I - p I| ≤ δ)
    (hD : ∀ I, InBox ns I → ∀ J, InBox ns J → |p I - p J| ≤ D) :
    |msum ns (fun I => N I * (v I * q I)) / msum ns (fun I => N I * v I) -
      msum ns (fun I => N I * (w I * p I)) / msum ns (fun I => N I * w I)| ≤ δ + ε / (1 - ε) * D := by
  set W := msum ns fun I => N I * w I with hWd
  set V := msum ns fun I => N I * v I with hVd
  set C := msum ns (fun I => N I * (w I * p I)) / W with hC
  have h1ε : 0 < 1 - ε := by linarith
  -- the new denominator
  have hVW : (1 - ε) * W ≤ V := by
    rw [hWd, hVd, ← msum_mul_left]
    refine msum_le fun I hI => ?_
    have := mul_le_mul_of_nonneg_left (abs_le.1 (hv I hI)).1 (hN I hI)
    nlinarith
  have hV : 0 < V := lt_of_lt_of_le (mul_pos h1ε hW) hVW
  have hvp : ∀ I, InBox ns I → 0 ≤ v I := fun I hI => by
    have h1 := (abs_le.1 (hv I hI)).1
    have h2 := mul_nonneg h1ε.le (hw I hI).le
    nlinarith
  -- the old value lies within the control points
  have hCp : ∀ J, InBox ns J → |p J - C| ≤ D := by
    intro J hJ
    have e : p J - C = msum ns (fun I => N I * w I * (p J - p I)) / W := by
      rw [eq_div_iff hW.ne', sub_mul, hC, div_mul_cancel₀ _ hW.ne', hWd, ← msum_mul_left, ← msum_sub]
      exact msum_congr fun I _ => by ring
    have up : msum ns (fun I => N I * w I * (p J - p I)) ≤ D * W := by
      rw [hWd, ← msum_mul_left]
      exact msum_le fun I hI => by
        have := mul_le_mul_of_nonneg_left (abs_le.1 (hD J hJ I hI)).2 (mul_nonneg (hN I hI) (hw I hI).le)
        linarith
    have lo : -(D * W) ≤ msum ns (fun I => N I * w I * (p J - p I)) := by
      rw [hWd, ← msum_mul_left, ← neg_one_mul, ← msum_mul_left]
      exact msum_le fun I hI => by
        have := mul_le_mul_of_nonneg_left (abs_le.1 (hD J hJ I hI)).1 (mul_nonneg (hN I hI) (hw I hI).le)
        linarith
    rw [e, abs_div, abs_of_pos hW, div_le_iff₀ hW]
    exact abs_le.2 ⟨lo, up⟩
  -- the difference
  have hzero : msum ns (fun I => N I * w I * (p I - C)) = 0 := by
    have : msum ns (fun I => N I * w I * (p I - C)) = msum ns (fun I => N I * (w I * p I)) - C * W := by
      rw [hWd, ← msum_mul_left, ← msum_sub]
      exact msum_congr fun I _ => by ring
    rw [this, hC, div_mul_cancel₀ _ hW.ne', sub_self]
  have e : msum ns (fun I => N I * (v I * q I)) / V - C =
      msum ns (fun I => N I * v I * (q I - p I) + N I * (v I - w I) * (p I - C)) / V := by
    rw [eq_div_iff hV.ne', sub_mul, div_mul_cancel₀ _ hV.ne', hVd, ← msum_mul_left, ← msum_sub]
    rw [← sub_zero (msum ns fun I => N I * v I * (q I - p I) + N I * (v I - w I) * (p I - C)), ← neg_zero, ← hzero, sub_neg_eq_add,
      ← msum_add]
    exact msum_congr fun I _ => by ring
  have hb : |msum ns (fun I => N I * v I * (q I - p I) + N I * (v I - w I) * (p I - C))| ≤ δ * V + ε * D * W := by
    have key : ∀ I, InBox ns I → |N I * v I * (q I - p I) + N I * (v I - w I) * (p I - C)| ≤ δ * (N I * v I) + ε * D * (N I * w I) := by
      intro I hI
      refine (abs_add_le _ _).trans (add_le_add ?_ ?_)
      · rw [abs_mul, abs_of_nonneg (mul_nonneg (hN I hI) (hvp I hI)), mul_comm]
        exact mul_le_mul_of_nonneg_right (hp I hI) (mul_nonneg (hN I hI) (hvp I hI))
      · rw [abs_mul, abs_mul, abs_of_nonneg (hN I hI)]
        have h1 : N I * |v I - w I| ≤ N I * (ε * w I) := mul_le_mul_of_nonneg_left (hv I hI) (hN I hI)
        have h2 : 0 ≤ N I * (ε * w I) := mul_nonneg (hN I hI) (mul_nonneg hε0 (hw I hI).le)
        calc N I * |v I - w I| * |p I - C| ≤ N I * (ε * w I) * D := mul_le_mul h1 (hCp I hI) (abs_nonneg _) h2
          _ = _ := by ring
    have hr : δ * V + ε * D * W = msum ns fun I => δ * (N I * v I) + ε * D * (N I * w I) := by
      rw [msum_add, msum_mul_left, msum_mul_left]
    rw [hr, abs_le]
    refine ⟨?_, msum_le fun I hI => (abs_le.1 (key I hI)).2⟩
    rw [← neg_one_mul, ← msum_mul_left]
    exact msum_le fun I hI => by have := (abs_le.1 (key I hI)).1; linarith
  rw [e, abs_div, abs_of_pos hV, div_le_iff₀ hV]
  refine hb.trans ?_
  have hne : ∃ I, InBox ns I := by
    by_contra hno
    have : W ≤ msum ns fun _ => (0 : K) := msum_le fun I hI => absurd ⟨I, hI⟩ hno
    have h0 : msum ns (fun _ => (0 : K)) = 0 := by
      have := msum_mul_left (0 : K) ns fun _ => (0 : K)
      simpa using this
    linarith
  obtain ⟨I, hI⟩ := hne
  have hD0 : 0 ≤ D := (abs_nonneg _).trans (hD I hI I hI)
  have h3 : ε * D * W ≤ ε / (1 - ε) * D * V := by
    have h4 : 0 ≤ ε / (1 - ε) * D := mul_nonneg (div_nonneg hε0 h1ε.le) hD0
    calc ε * D * W = ε / (1 - ε) * D * ((1 - ε) * W) := by field_simp
      _ ≤ _ := mul_le_mul_of_nonneg_left hVW h4
  linarith

/-- **C106** Two splines with the same knots and degrees: if the control points differ by at most `δ` and the weights by a fraction
`ε < 1`, then the values at every parameter differ by at most `δ + ε / (1 - ε) · D`, where `D` is the largest difference between control
points. For splines with the same weights, in particular B-splines, `ε = 0`: the values differ by no more than the control points. -/
theorem C106_stability {s t : Spl K} (hs : WFSpl s) (ht : WFSpl t) (hk : t.ps.knots = s.ps.knots) (hp : t.ps.degree = s.ps.degree)
    (hd : t.ph.dim = s.ph.dim) {c : ℕ} (hc : c < s.ph.dim) {δ ε D : K} (hε0 : 0 ≤ ε) (hε : ε < 1)
    (hδ : ∀ I, InBox (npts s) I → |cpt t I c - cpt s I c| ≤ δ) (hw : ∀ I, InBox (npts s) I → |wgt t I - wgt s I| ≤ ε * wgt s I)
    (hD : ∀ I, InBox (npts s) I → ∀ J, InBox (npts s) J → |cpt s I c - cpt s J c| ≤ D) {x : List K} (hx : InDomain s x) :
    ∃ a b, s.evaluate x [(c : ℤ)] = .ok [a] ∧ t.evaluate x [(c : ℤ)] = .ok [b] ∧ |b - a| ≤ δ + ε / (1 - ε) * D := by
  have hx' : InDomain t x := by unfold InDomain; rw [hk]; exact hx
  refine ⟨_, _, evaluate_rational hs hx hc, evaluate_rational ht hx' (by rw [hd]; exact hc), ?_⟩
  have hn : npts t = npts s := by rw [npts_eq, npts_eq, hk, hp]
  unfold nurbsValue weightValue tensorSum
  rw [hn, hk, hp]
  exact quotient_perturbed (fun I hI => tensor_nonneg hs.knots hx hI) (fun I hI => wgt_pos hs hI) (weightValue_pos hs hx) hε0 hε hw hδ hD

/-- The B-spline case: the values differ by no more than the control points. -/
theorem C106_bspline {s t : Spl K} (hs : WFSpl s) (ht : WFSpl t) (hsb : IsBSpline s) (htb : IsBSpline t)
    (hk : t.ps.knots = s.ps.knots) (hp : t.ps.degree = s.ps.degree) (hd : t.ph.dim = s.ph.dim) {c : ℕ} (hc : c < s.ph.dim) {δ : K}
    (hδ : ∀ I, InBox (npts s) I → |cpt t I c - cpt s I c| ≤ δ) {x : List K} (hx : InDomain s x) :
    ∃ a b, s.evaluate x [(c : ℤ)] = .ok [a] ∧ t.evaluate x [(c : ℤ)] = .ok [b] ∧ |b - a| ≤ δ := by
  have hx' : InDomain t x := by unfold InDomain; rw [hk]; exact hx
  have hn : npts t = npts s := by rw [npts_eq, npts_eq, hk, hp]
  refine ⟨bsplineValue s x c, bsplineValue t x c, evaluate_bspline hs hsb hx [c] (by simpa using hc),
    evaluate_bspline ht htb hx' [c] (by simpa [hd] using hc), ?_⟩
  unfold bsplineValue tensorSum
  rw [hn, hk, hp]
  exact msum_abs_le (fun I hI => tensor_nonneg hs.knots hx hI) (tensor_unity hs.knots hx) hδ

/-! ## Splines in files -/

section
variable [LawfulPrinter K] [FloorRing K]

/-- The values of `r` differ from those of `s` by at most `e`, everywhere in the parameter range and in every coordinate. -/
def ValuesWithin (e : K) (s r : Spl K) : Prop := ∀ x, InDomain s x → ∀ c < s.ph.dim,
  ∃ a b, s.evaluate x [(c : ℤ)] = .ok [a] ∧ r.evaluate x [(c : ℤ)] = .ok [b] ∧ |b - a| ≤ e

theorem near_getD {l l' : List K} (h : List.Forall₂ Near l l') (i : ℕ) : |l'.getD i 0 - l.getD i 0| ≤ 1 / (2 * 10 ^ 6) := by
  by_cases hi : i < l.length
  · have h1 := List.forall₂_iff_get.1 h
    have := h1.2 i hi (by rw [← h1.1]; exact hi)
    simpa [List.getD_eq_getElem?_getD, hi, h1.1 ▸ hi, Near] using this
  · have hi' : ¬ i < l'.length := by rw [← h.length_eq]; exact hi
    simp [List.getD_eq_getElem?_getD, List.getElem?_eq_none (not_lt.1 hi), List.getElem?_eq_none (not_lt.1 hi')]

theorem cps_index {s : Spl K} (h : WFSpl s) {I : List ℕ} (hI : InBox (npts s) I) {c : ℕ} (hc : c < s.ph.dim) :
    s.ph.dim * lin (npts s) I + c < s.ph.cps.length := by
  rw [h.cps]
  calc s.ph.dim * lin (npts s) I + c < s.ph.dim * lin (npts s) I + s.ph.dim := by omega
    _ = s.ph.dim * (lin (npts s) I + 1) := by ring
    _ ≤ _ := Nat.mul_le_mul_left _ (lin_lt hI)

theorem map_rd_id {l : List K} (h : ∀ x ∈ l, SixDecimals x) : l.map rd = l := by
  conv_rhs => rw [← List.map_id l]
  exact List.map_congr_left fun x hx => rd_eq_of_sixDecimals (h x hx)

theorem knots_rd_id {Us : List (List K)} (h : ∀ U ∈ Us, ∀ x ∈ U, SixDecimals x) : (Us.map fun U => U.map rd) = Us := by
  conv_rhs => rw [← List.map_id Us]
  exact List.map_congr_left fun U hU => map_rd_id (h U hU)

/-- What is read from an XML file, if the knots have six decimals. -/
theorem back_xml_wf {s : Spl K} (h : WFSpl s) (hsz : (npts s).prod < 2 ^ 64) (hk : ∀ U ∈ s.ps.knots, ∀ x ∈ U, SixDecimals x)
    (hw : ∀ w, s.ph.weights = some w → ∀ a ∈ w, 1 / 10 ^ 6 ≤ a) :
    ∃ r, backXml s = .ok r ∧ SameUpToDecimals s r ∧ WFSpl r ∧ r.ps.knots = s.ps.knots := by
  obtain ⟨r, h1, h2⟩ := backXml_ok h hsz
  refine ⟨r, h1, built_same h h2, h2.wf (by rw [knots_rd_id hk]; exact h.knots) ?_ ?_ h.dim ?_ ?_, by rw [h2.knots, knots_rd_id hk]⟩
  · have e1 := cpRows_length s
    have e2 := npts_prod_pos h
    intro h0
    rw [List.map_eq_nil_iff] at h0
    rw [h0, List.length_nil] at e1; omega
  · rw [nptsOf_rd, List.length_map]; exact cpRows_length s
  · intro q hq
    obtain ⟨k, hk, rfl⟩ := List.mem_map.1 hq
    rw [List.length_map]; exact cpRows_dims s k hk
  · intro w hw1
    obtain ⟨v, hv, rfl⟩ := Option.map_eq_some_iff.1 hw1
    refine ⟨by rw [List.length_map, List.length_map, cpRows_length]; exact (h.weights v hv).1, fun a ha => ?_⟩
    obtain ⟨b, hb, rfl⟩ := List.mem_map.1 ha
    exact rd_pos (hw v hv b hb)

/-- What is read from an IRIT file, if the knots have six decimals. -/
theorem back_irit_wf {s : Spl K} (h : WFSpl s) (hsz : (npts s).prod < 2 ^ 64) (hk : ∀ U ∈ s.ps.knots, ∀ x ∈ U, SixDecimals x)
    (hw : ∀ w, s.ph.weights = some w → ∀ a ∈ w, 1 / 10 ^ 6 ≤ a) :
    ∃ r, backSpline s = .ok r ∧ ReadBack s r ∧ WFSpl r ∧ r.ps.knots = s.ps.knots := by
  obtain ⟨r, h1, h2⟩ := backSpline_ok h hsz
  refine ⟨r, h1, built_readBack h (fun w hw1 a ha => (rd_pos (hw w hw1 a ha)).ne') h2,
    h2.wf (by rw [knots_rd_id hk]; exact h.knots) ?_ ?_ h.dim (backPoints_dims s) ?_, by rw [h2.knots, knots_rd_id hk]⟩
  · have e1 := backPoints_length s
    have e2 := npts_prod_pos h
    intro h0; rw [h0, List.length_nil] at e1; omega
  · rw [nptsOf_rd, backPoints_length]; rfl
  · intro w hw1
    obtain ⟨v, hv, rfl⟩ := Option.map_eq_some_iff.1 hw1
    obtain ⟨hvl, _⟩ := h.weights v hv
    refine ⟨by rw [backPoints_length]; simp [backWeights], fun a ha => ?_⟩
    obtain ⟨k, hk, rfl⟩ := List.mem_map.1 ha
    refine rd_pos (hw v hv _ ?_)
    rw [List.mem_range] at hk
    rw [List.getD_eq_getElem?_getD, List.getElem?_eq_getElem (by omega)]; simp

theorem getD_abs_le {l : List K} {B : K} (hB : ∀ a ∈ l, |a| ≤ B) {i : ℕ} (hi : i < l.length) : |l.getD i 0| ≤ B := by
  rw [List.getD_eq_getElem?_getD, List.getElem?_eq_getElem hi]
  exact hB _ (List.getElem_mem hi)

/-- Weights that differ by half a unit of the sixth decimal, relative to the smallest weight. -/
theorem wgt_relative {s r : Spl K} (h : WFSpl s) (hn : npts r = npts s) (hr : Option.Rel (List.Forall₂ Near) s.ph.weights r.ph.weights) {m : K}
    (hm0 : 1 / 10 ^ 6 ≤ m) (hm : ∀ w, s.ph.weights = some w → ∀ a ∈ w, m ≤ a) {I : List ℕ} (hI : InBox (npts s) I) :
    |wgt r I - wgt s I| ≤ 1 / (2 * 10 ^ 6) / m * wgt s I := by
  have hmp : 0 < m := lt_of_lt_of_le (by positivity) hm0
  unfold wgt
  rw [hn]
  generalize hw : s.ph.weights = a, r.ph.weights = b at hr
  cases hr with
  | none => simp; positivity
  | @some w w' hr =>
    dsimp only
    refine (near_getD hr _).trans ?_
    have hi : lin (npts s) I < w.length := by rw [(h.weights w hw).1]; exact lin_lt hI
    have : m ≤ w.getD (lin (npts s) I) 0 := by
      rw [List.getD_eq_getElem?_getD, List.getElem?_eq_getElem hi]
      exact hm w hw _ (List.getElem_mem hi)
    rw [div_mul_eq_mul_div, le_div_iff₀ hmp]
    exact mul_le_mul_of_nonneg_left this (by positivity)

theorem weight_error {m B : K} (hm0 : 1 / 10 ^ 6 ≤ m) :
    1 / (2 * 10 ^ 6) / m < 1 ∧ 1 / (2 * 10 ^ 6) / m / (1 - 1 / (2 * 10 ^ 6) / m) * (2 * B) = 1 / (2 * 10 ^ 6) * (2 * B) / (m - 1 / (2 * 10 ^ 6)) := by
  have hη : (0 : K) < 1 / (2 * 10 ^ 6) := by positivity
  have h2 : (1 : K) / 10 ^ 6 = 2 * (1 / (2 * 10 ^ 6)) := by field_simp
  generalize (1 : K) / (2 * 10 ^ 6) = η at *
  have hm : 0 < m := by linarith
  have hd : 0 < m - η := by linarith
  refine ⟨by rw [div_lt_one hm]; linarith, ?_⟩
  have e : 1 - η / m = (m - η) / m := by field_simp
  rw [e, div_div_div_cancel_right₀ hm.ne', div_mul_eq_mul_div]

theorem weights_rel {s r : Spl K} (hb : ReadBack s r) : Option.Rel (List.Forall₂ Near) s.ph.weights r.ph.weights := by
  have h1 := hb.kind
  have h2 := hb.weights
  generalize s.ph.weights = a, r.ph.weights = b at *
  cases a <;> cases b <;> simp_all

/-- **C106** XML files: splines whose knots have six decimals, with weights at least `m ≥ 10⁻⁶` and coordinates at most `B` in absolute
value, are read back with the same parameter range, and the values at every parameter are off by at most `η + 2 η B / (m - η)`, where
`η = 5·10⁻⁷` is half a unit of the last printed decimal. -/
theorem C106_xml {ss : List (Spl K)} (h : ∀ s ∈ ss, WFSpl s ∧ InDoubleRange s)
    (hd : ∀ s ∈ ss, 1 ≤ s.ps.knots.length ∧ s.ps.knots.length ≤ 4) (hi : ∀ s ∈ ss, (npts s).prod < 2 ^ 31 ∧ s.ph.dim < 2 ^ 31)
    (h6 : ∀ s ∈ ss, ∀ U ∈ s.ps.knots, ∀ x ∈ U, SixDecimals x) {m B : K} (hm0 : 1 / 10 ^ 6 ≤ m)
    (hm : ∀ s ∈ ss, ∀ w, s.ph.weights = some w → ∀ a ∈ w, m ≤ a) (hB : ∀ s ∈ ss, ∀ a ∈ s.ph.cps, |a| ≤ B) :
    ∃ doc, Xml.writeFile ss = .ok doc ∧ ∃ rs, Xml.readFile K doc = .ok rs ∧
      List.Forall₂ (fun s r => r.ps.knots = s.ps.knots ∧
        ValuesWithin (1 / (2 * 10 ^ 6) + 1 / (2 * 10 ^ 6) * (2 * B) / (m - 1 / (2 * 10 ^ 6))) s r) ss rs := by
  refine readAll_xml fun s hs => ?_
  obtain ⟨h1, h2⟩ := h s hs
  obtain ⟨r, h3, h4, h5, h7⟩ := back_xml_wf h1 (by have := (hi s hs).1; omega) (h6 s hs)
    fun w hw a ha => hm0.trans (hm s hs w hw a ha)
  refine ⟨h1, fitsSpl_of_double h2 (hi s hs).1 (hi s hs).2, hd s hs, r, h3, h7, fun x hx c hc => ?_⟩
  have hn : npts r = npts s := by rw [npts_eq, npts_eq, h7, h4.degree]
  have hη := weight_error (B := B) hm0
  rw [← hη.2]
  refine C106_stability h1 h5 h7 h4.degree h4.dim hc ?_ hη.1 (fun I hI => ?_) (fun I hI => wgt_relative h1 hn h4.weights hm0 (hm s hs) hI)
    (fun I hI J hJ => ?_) hx
  · have : 0 < m := lt_of_lt_of_le (by positivity) hm0
    positivity
  · unfold cpt; rw [hn, h4.dim]; exact near_getD h4.cps _
  · have e1 := abs_le.1 (getD_abs_le (hB s hs) (cps_index h1 hI hc))
    have e2 := abs_le.1 (getD_abs_le (hB s hs) (cps_index h1 hJ hc))
    unfold cpt
    exact abs_le.2 ⟨by linarith [e1.1, e2.2], by linarith [e1.2, e2.1]⟩

/-- **C106** XML files with B-splines: the values are off by at most half a unit of the sixth decimal, however large the coordinates. -/
theorem C106_xml_bspline {ss : List (Spl K)} (h : ∀ s ∈ ss, WFSpl s ∧ InDoubleRange s) (hb : ∀ s ∈ ss, IsBSpline s)
    (hd : ∀ s ∈ ss, 1 ≤ s.ps.knots.length ∧ s.ps.knots.length ≤ 4) (hi : ∀ s ∈ ss, (npts s).prod < 2 ^ 31 ∧ s.ph.dim < 2 ^ 31)
    (h6 : ∀ s ∈ ss, ∀ U ∈ s.ps.knots, ∀ x ∈ U, SixDecimals x) :
    ∃ doc, Xml.writeFile ss = .ok doc ∧ ∃ rs, Xml.readFile K doc = .ok rs ∧
      List.Forall₂ (fun s r => r.ps.knots = s.ps.knots ∧ ValuesWithin (1 / (2 * 10 ^ 6)) s r) ss rs := by
  refine readAll_xml fun s hs => ?_
  obtain ⟨h1, h2⟩ := h s hs
  obtain ⟨r, h3, h4, h5, h7⟩ := back_xml_wf h1 (by have := (hi s hs).1; omega) (h6 s hs)
    fun w hw => by rw [hb s hs] at hw; cases hw
  refine ⟨h1, fitsSpl_of_double h2 (hi s hs).1 (hi s hs).2, hd s hs, r, h3, h7, fun x hx c hc => ?_⟩
  have hn : npts r = npts s := by rw [npts_eq, npts_eq, h7, h4.degree]
  have hrb : IsBSpline r := by
    have := h4.weights
    rw [hb s hs] at this
    unfold IsBSpline
    generalize r.ph.weights = v at this
    cases this; rfl
  exact C106_bspline h1 h5 (hb s hs) hrb h7 h4.degree h4.dim hc (fun I hI => by unfold cpt; rw [hn, h4.dim]; exact near_getD h4.cps _) hx

/-- **C106** IRIT files hold coordinates times weights: the values are off by at most `η (1 + 3 B) / (m - η)`, if `m ≤ 1`. -/
theorem C106_irit {ss : List (Spl K)} (h : ∀ s ∈ ss, WFSpl s ∧ (npts s).prod < 2 ^ 64)
    (hd : ∀ s ∈ ss, 1 ≤ s.ps.knots.length ∧ s.ps.knots.length ≤ 3)
    (h6 : ∀ s ∈ ss, ∀ U ∈ s.ps.knots, ∀ x ∈ U, SixDecimals x) {m B : K} (hm0 : 1 / 10 ^ 6 ≤ m) (hm1 : m ≤ 1)
    (hm : ∀ s ∈ ss, ∀ w, s.ph.weights = some w → ∀ a ∈ w, m ≤ a) (hB : ∀ s ∈ ss, ∀ a ∈ s.ph.cps, |a| ≤ B) :
    ∃ text, Irit.writeFile ss = .ok text ∧ (text.length < 2 ^ 31 → ∃ rs, Irit.readFile K text = .ok rs ∧
      List.Forall₂ (fun s r => r.ps.knots = s.ps.knots ∧
        ValuesWithin (1 / (2 * 10 ^ 6) * (1 + 3 * B) / (m - 1 / (2 * 10 ^ 6))) s r) ss rs) := by
  obtain ⟨rs, hrs⟩ := forall₂_choose (R := fun s r => (Writable s ∧ backSpline s = .ok r) ∧ r.ps.knots = s.ps.knots ∧
      ValuesWithin (1 / (2 * 10 ^ 6) * (1 + 3 * B) / (m - 1 / (2 * 10 ^ 6))) s r) ss fun s hs => by
    obtain ⟨h1, hsz⟩ := h s hs
    have hw6 : ∀ w, s.ph.weights = some w → ∀ a ∈ w, 1 / 10 ^ 6 ≤ a := fun w hw a ha => hm0.trans (hm s hs w hw a ha)
    obtain ⟨r, h3, h4, h5, h7⟩ := back_irit_wf h1 hsz (h6 s hs) hw6
    refine ⟨r, ⟨⟨h1, hd s hs, fun w hw a ha => (rd_pos (hw6 w hw a ha)).ne'⟩, h3⟩, h7, fun x hx c hc => ?_⟩
    have hn : npts r = npts s := by rw [npts_eq, npts_eq, h7, h4.degree]
    have hη := weight_error (B := B) hm0
    have hηp : (0 : K) < 1 / (2 * 10 ^ 6) := by positivity
    have hη2 : (1 : K) / 10 ^ 6 = 2 * (1 / (2 * 10 ^ 6)) := by field_simp
    have hmη : 0 < m - 1 / (2 * 10 ^ 6) := by linarith
    have hcp : ∀ I, InBox (npts s) I → |cpt r I c - cpt s I c| ≤ 1 / (2 * 10 ^ 6) * (1 + B) / (m - 1 / (2 * 10 ^ 6)) := by
      intro I hI
      have hix := cps_index h1 hI hc
      have hxB := getD_abs_le (hB s hs) hix
      have hB0 : 0 ≤ B := (abs_nonneg _).trans hxB
      have hdiv : (s.ph.dim * lin (npts s) I + c) / s.ph.dim = lin (npts s) I := by
        rw [Nat.mul_add_div (by omega), Nat.div_eq_of_lt hc, Nat.add_zero]
      unfold cpt
      rw [hn, h4.dim]
      cases hw : s.ph.weights with
      | none =>
        have hrw : r.ph.weights = none := by
          have := h4.kind; rw [hw] at this
          simpa using this
        have := h4.coords _ hix
        unfold Near homCoord at this
        rw [hw, hrw] at this
        simp only [one_mul] at this
        refine this.trans ?_
        rw [le_div_iff₀ hmη]
        nlinarith
      | some w =>
        have hl : lin (npts s) I < w.length := by rw [(h1.weights w hw).1]; exact lin_lt hI
        have hmw : m ≤ w.getD (lin (npts s) I) 0 := by
          rw [List.getD_eq_getElem?_getD, List.getElem?_eq_getElem hl]
          exact hm s hs w hw _ (List.getElem_mem hl)
        have := C36_nurbs_coordinates h1 h4 hw hix (by rw [hdiv]; exact hm0.trans hmw)
        rw [hdiv] at this
        refine this.trans ?_
        exact div_le_div₀ (by positivity) (mul_le_mul_of_nonneg_left (by linarith) hηp.le) hmη (by linarith)
    obtain ⟨a, b, e1, e2, e3⟩ := C106_stability h1 h5 h7 h4.degree h4.dim hc
      (by have : 0 < m := lt_of_lt_of_le (by positivity) hm0
          positivity) hη.1 hcp (fun I hI => wgt_relative h1 hn (weights_rel h4) hm0 (hm s hs) hI) (D := 2 * B)
      (fun I hI J hJ => by
        have e1 := abs_le.1 (getD_abs_le (hB s hs) (cps_index h1 hI hc))
        have e2 := abs_le.1 (getD_abs_le (hB s hs) (cps_index h1 hJ hc))
        unfold cpt
        exact abs_le.2 ⟨by linarith [e1.1, e2.2], by linarith [e1.2, e2.1]⟩) hx
    refine ⟨a, b, e1, e2, e3.trans (le_of_eq ?_)⟩
    rw [hη.2, ← add_div]
    congr 1
    ring
  obtain ⟨t, h1, h2⟩ := readFile_eq (hrs.imp fun _ _ h => h.1)
  exact ⟨t, h1, fun hl => ⟨rs, h2 (by omega), hrs.imp fun _ _ h => h.2⟩⟩

end

/-! ### Examples -/

section
attribute [local instance] halfUp

/-- The two NURBS differ in a control point by 1/100 and in a weight by a hundredth. -/
example : ∃ a b, exNurbs.evaluate [1 / 3] [0] = .ok [a] ∧
    (⟨exNurbs.ps, ⟨2, [4], [0, 0, 1 + 1 / 100, 2, 3, 2, 4, 0], some [1, 2 + 2 / 100, 1 / 2, 3]⟩⟩ : Spl ℚ).evaluate [1 / 3] [0] = .ok [b] ∧
      |b - a| ≤ 1 / 100 + 1 / 100 / (1 - 1 / 100) * 4 := by
  refine C106_stability (s := exNurbs) (t := ⟨exNurbs.ps, ⟨2, [4], [0, 0, 1 + 1 / 100, 2, 3, 2, 4, 0], some [1, 2 + 2 / 100, 1 / 2, 3]⟩⟩) (c := 0)
    exNurbs_wf ⟨exNurbs_wf.knots, exNurbs_wf.basis, by decide +kernel, by decide +kernel, by decide +kernel, fun w h => ?_⟩ rfl rfl rfl
    (by decide +kernel) (by decide +kernel) (by decide +kernel) (fun I hI => ?_) (fun I hI => ?_) (fun I hI J hJ => ?_)
    (.cons (by decide +kernel) .nil)
  · obtain rfl : [1, 2 + 2 / 100, 1 / 2, 3] = w := by simpa using h
    exact ⟨by decide +kernel, by decide +kernel⟩
  · rw [← unlin_lin hI]
    exact (by decide +kernel : ∀ k < 4, |cpt (⟨exNurbs.ps, ⟨2, [4], [0, 0, 1 + 1 / 100, 2, 3, 2, 4, 0],
      some [1, 2 + 2 / 100, 1 / 2, 3]⟩⟩ : Spl ℚ) (unlin (npts exNurbs) k) 0 - cpt exNurbs (unlin (npts exNurbs) k) 0| ≤ 1 / 100) _ (lin_lt hI)
  · rw [← unlin_lin hI]
    exact (by decide +kernel : ∀ k < 4, |wgt (⟨exNurbs.ps, ⟨2, [4], [0, 0, 1 + 1 / 100, 2, 3, 2, 4, 0],
      some [1, 2 + 2 / 100, 1 / 2, 3]⟩⟩ : Spl ℚ) (unlin (npts exNurbs) k) - wgt exNurbs (unlin (npts exNurbs) k)| ≤
        1 / 100 * wgt exNurbs (unlin (npts exNurbs) k)) _ (lin_lt hI)
  · rw [← unlin_lin hI, ← unlin_lin hJ]
    exact (by decide +kernel : ∀ k < 4, ∀ l < 4, |cpt exNurbs (unlin (npts exNurbs) k) 0 - cpt exNurbs (unlin (npts exNurbs) l) 0| ≤ 4)
      _ (lin_lt hI) _ (lin_lt hJ)

theorem six_of {x : ℚ} (h : (x * 10 ^ 6).den = 1) : SixDecimals x :=
  ⟨(x * 10 ^ 6).num, by
    have := Rat.num_div_den (x * 10 ^ 6)
    rw [h, Nat.cast_one, div_one] at this
    rw [this, mul_div_cancel_right₀ _ (by norm_num)]⟩

/-- A polygon and a NURBS with coordinates that have more than six decimals are covered. -/
example : ∃ text, Irit.writeFile [(⟨exNurbs.ps, ⟨2, [4], [1 / 3, 0, 1, 2, 3, 2, 4, 0], some [1, 2, 1 / 2, 3]⟩⟩ : Spl ℚ)] = .ok text ∧
    (text.length < 2 ^ 31 → ∃ rs, Irit.readFile ℚ text = .ok rs ∧
      List.Forall₂ (fun s r => r.ps.knots = s.ps.knots ∧ ValuesWithin (1 / (2 * 10 ^ 6) * (1 + 3 * 4) / (1 / 2 - 1 / (2 * 10 ^ 6))) s r)
        [(⟨exNurbs.ps, ⟨2, [4], [1 / 3, 0, 1, 2, 3, 2, 4, 0], some [1, 2, 1 / 2, 3]⟩⟩ : Spl ℚ)] rs) := by
  refine C106_irit ?_ (by decide +kernel) ?_ (by decide +kernel) (by decide +kernel) ?_ (by decide +kernel)
  · simp only [List.mem_cons, List.not_mem_nil, or_false, forall_eq]
    refine ⟨⟨exNurbs_wf.knots, exNurbs_wf.basis, by decide +kernel, by decide +kernel, by decide +kernel, fun w h => ?_⟩, by decide +kernel⟩
    obtain rfl : [1, 2, 1 / 2, 3] = w := by simpa using h
    exact ⟨by decide +kernel, by decide +kernel⟩
  · intro s hs U hU x hx
    refine six_of ?_
    revert x; revert U; revert s; decide +kernel
  · simp only [List.mem_cons, List.not_mem_nil, or_false, forall_eq]
    intro w h
    obtain rfl : [1, 2, 1 / 2, 3] = w := by simpa using h
    decide +kernel

/-- The same for XML files. -/
example : ∃ doc, Xml.writeFile [Conv.exPolygon, exNurbs] = .ok doc ∧ ∃ rs, Xml.readFile ℚ doc = .ok rs ∧
    List.Forall₂ (fun s r => r.ps.knots = s.ps.knots ∧
      ValuesWithin (1 / (2 * 10 ^ 6) + 1 / (2 * 10 ^ 6) * (2 * 100) / (1 / 2 - 1 / (2 * 10 ^ 6))) s r) [Conv.exPolygon, exNurbs] rs := by
  have hle : (100 : ℚ) ≤ 2 ^ 1024 := le_trans (by norm_num) (pow_le_pow_right₀ (by norm_num) (by norm_num : 7 ≤ 1024))
  refine C106_xml ?_ (by decide +kernel) (by decide +kernel) ?_ (by decide +kernel) ?_ (by decide +kernel)
  · simp only [List.mem_cons, List.not_mem_nil, or_false, forall_eq_or_imp, forall_eq]
    refine ⟨⟨Conv.exPolygon_wf, fun U hU x hx => le_trans ?_ hle, fun x hx => le_trans ?_ hle, fun w h => ?_⟩,
      exNurbs_wf, fun U hU x hx => le_trans ?_ hle, fun x hx => le_trans ?_ hle, fun w h x hx => le_trans ?_ hle⟩
    · revert x; revert U; decide +kernel
    · revert x; decide +kernel
    · simp [Conv.exPolygon] at h
    · revert x; revert U; decide +kernel
    · revert x; decide +kernel
    · obtain rfl : [1, 2, 1 / 2, 3] = w := by simpa [exNurbs] using h
      revert x; decide +kernel
  · intro s hs U hU x hx
    refine six_of ?_
    revert x; revert U; revert s; decide +kernel
  · simp only [List.mem_cons, List.not_mem_nil, or_false, forall_eq_or_imp, forall_eq]
    refine ⟨fun w h => ?_, fun w h => ?_⟩
    · simp [Conv.exPolygon] at h
    · obtain rfl : [1, 2, 1 / 2, 3] = w := by simpa [exNurbs] using h
      decide +kernel

/-- A line over the parameters from 0 to 1/3. -/
def exThird : Spl ℚ :=
  ⟨⟨[[0, 0, 1 / 3, 1 / 3]], [1], mkTable [[0, 0, 1 / 3, 1 / 3]] [1]⟩, ⟨1, [2], [0, 1], none⟩⟩

theorem exThird_wf : WFSpl exThird where
  knots := by simp only [exThird]; exact .cons (by decide +kernel) .nil
  basis := by decide +kernel
  num := by decide +kernel
  dim := by decide +kernel
  cps := by decide +kernel
  weights := by intro w h; simp [exThird] at h

/-- Six decimals are needed for the knots: writing a line over [0, 1/3] to an IRIT file and reading it back gives a spline that can no
longer be evaluated at its end 1/3, which is now outside the range. -/
theorem C106_range_changes : exThird.evaluate [1 / 3] [0] = .ok [1] ∧ ∃ text r, Irit.writeFile [exThird] = .ok text ∧
    Irit.readFile ℚ text = .ok [r] ∧ WFSpl r ∧ r.evaluate [1 / 3] [0] = .error (.thrown .rangeError) := by
  refine ⟨by decide +kernel, ?_⟩
  obtain ⟨t, h1, h2⟩ := readFile_eq (K := ℚ) (ss := [exThird])
    (rs := [⟨⟨[[0, 0, 333333 / 10 ^ 6, 333333 / 10 ^ 6]], [1], mkTable [[0, 0, 333333 / 10 ^ 6, 333333 / 10 ^ 6]] [1]⟩, ⟨1, [2], [0, 1], none⟩⟩])
    (.cons ⟨⟨exThird_wf, by decide +kernel, by intro w h; simp [exThird] at h⟩, by decide +kernel⟩ .nil)
  have hl : (Irit.writeFile [exThird]).toOption.elim 0 List.length < 2 ^ 32 := by decide +kernel
  rw [h1] at hl
  refine ⟨t, _, h1, h2 hl, ⟨.cons (by decide +kernel) .nil, by decide +kernel, by decide +kernel, by decide +kernel, by decide +kernel,
    by intro w h; simp at h⟩, by decide +kernel⟩

end
end SplineLib
