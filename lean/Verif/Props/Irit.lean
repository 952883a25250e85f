import Verif.Core.IritBack
import Verif.Props.Construction
import Verif.Spec.Examples

/-!
# C36: writing and reading IRIT files
-/

namespace SplineLib
set_option linter.unusedSectionVars false
open Str Prn
variable {K : Type} [LinearOrder K] [Field K] [IsStrictOrderedRing K]

/-- Two numbers that agree up to the six printed decimals. -/
def Near (a b : K) : Prop := |b - a| ≤ 1 / (2 * 10 ^ 6)

/-- The `i`-th stored coordinate times the weight of its control point. -/
def homCoord (s : Spl K) (i : ℕ) : K :=
  (match s.ph.weights with | none => 1 | some w => w.getD (i / s.ph.dim) 0) * s.ph.cps.getD i 0

/-- `r` is `s` up to the six printed decimals: the same kind, degrees, numbers of points and dimension; knots, weights and
homogeneous coordinates (coordinates times weight; plain coordinates for a B-spline) agree. -/
structure ReadBack (s r : Spl K) : Prop where
  degree : r.ps.degree = s.ps.degree
  knots : List.Forall₂ (List.Forall₂ Near) s.ps.knots r.ps.knots
  basis : PS.basisTable r.ps.knots r.ps.degree = .ok r.ps.basis
  dim : r.ph.dim = s.ph.dim
  num : r.ph.num = s.ph.num
  count : r.ph.cps.length = s.ph.cps.length
  kind : r.ph.weights.isSome = s.ph.weights.isSome
  weights : ∀ w w', s.ph.weights = some w → r.ph.weights = some w' → List.Forall₂ Near w w'
  coords : ∀ i < s.ph.cps.length, Near (homCoord s i) (homCoord r i)

section
variable [LawfulPrinter K] [FloorRing K]

omit [FloorRing K] in
theorem near_rd (x : K) : Near x (rd x) := rd_near x

omit [FloorRing K] in
theorem rd_pos {x : K} (h : 1 / 10 ^ 6 ≤ x) : 0 < rd x := by
  have := abs_le.1 (rd_near x)
  have h2 : (0 : K) < 1 / (2 * 10 ^ 6) := by positivity
  have h3 : (1 : K) / 10 ^ 6 = 2 * (1 / (2 * 10 ^ 6)) := by field_simp
  linarith [this.1]

omit [FloorRing K] in
theorem clamped_rd {U : List K} {p : ℕ} (h : PS.clamped U p = true) : PS.clamped (U.map rd) p = true := by
  obtain ⟨h1, h2, h3⟩ := clamped_iff.1 h
  have hk : ∀ i < U.length, knot (U.map rd) i = rd (knot U i) := by
    intro i hi
    simp [knot, List.getD_eq_getElem?_getD, hi]
  refine clamped_iff.2 ⟨by simpa using h1, fun j hj => ?_, fun j hj => ?_⟩
  · rw [hk j (by omega), hk 0 (by omega), h2 j hj]
  · unfold lastKnot
    rw [List.length_map, hk _ (by omega), hk _ (by omega), h3 j hj]; rfl

omit [FloorRing K] in
theorem clampedAll_rd {Us : List (List K)} {ps : List ℕ} (h : List.Forall₂ (fun U p => PS.clamped U p = true) Us ps) :
    List.Forall₂ (fun U p => PS.clamped U p = true) (Us.map fun U => U.map rd) ps := by
  induction h with
  | nil => exact .nil
  | cons h _ ih => exact .cons (clamped_rd h) ih

omit [FloorRing K] in
theorem nptsOf_rd (Us : List (List K)) (ps : List ℕ) : nptsOf (Us.map fun U => U.map rd) ps = nptsOf Us ps := by
  unfold nptsOf
  rw [List.zipWith_map_left]
  simp

theorem backPoints_length (s : Spl K) : (backPoints s).length = (npts s).prod := by simp [backPoints]

theorem backPoints_dims (s : Spl K) : ∀ q ∈ backPoints s, q.length = s.ph.dim := by
  intro q hq
  obtain ⟨k, _, rfl⟩ := List.mem_map.1 hq
  cases s.ph.weights <;> simp [cpRow]

/-- The constructor accepts what the reader has read. -/
theorem backSpline_ok {s : Spl K} (h : WFSpl s) (hsz : (npts s).prod < 2 ^ 64) :
    ∃ r, backSpline s = .ok r ∧ Built r (s.ps.knots.map fun U => U.map rd) s.ps.degree (backPoints s)
      (s.ph.weights.map fun w => backWeights w (npts s).prod) := by
  have hc := clampedAll_rd (h.knots.imp fun U p h => h.clamped)
  have hn := nptsOf_rd s.ps.knots s.ps.degree
  have hne : backPoints s ≠ [] := by
    have h1 := backPoints_length s
    have h2 := npts_prod_pos h
    intro h0; rw [h0, List.length_nil] at h1; omega
  have hsz' : (nptsOf (s.ps.knots.map fun U => U.map rd) s.ps.degree).prod < 2 ^ 64 := by rw [hn]; exact hsz
  have hl : (backPoints s).length = (nptsOf (s.ps.knots.map fun U => U.map rd) s.ps.degree).prod := by rw [hn]; exact backPoints_length s
  unfold backSpline
  cases hw : s.ph.weights with
  | none => exact newBSpline_ok hne hc hsz' hl ⟨_, backPoints_dims s⟩
  | some w => exact newNurbs_ok hne hc hsz' hl ⟨_, backPoints_dims s⟩ (by rw [backPoints_length]; simp [backWeights])

theorem built_readBack {s r : Spl K} (h : WFSpl s) (hw : ∀ w, s.ph.weights = some w → ∀ a ∈ w, rd a ≠ 0)
    (hb : Built r (s.ps.knots.map fun U => U.map rd) s.ps.degree (backPoints s)
      (s.ph.weights.map fun w => backWeights w (npts s).prod)) : ReadBack s r := by
  have hc := clampedAll_rd (h.knots.imp fun U p h => h.clamped)
  have hn := nptsOf_rd s.ps.knots s.ps.degree
  have hp := npts_prod_pos h
  have hbl := backPoints_length s
  have hbd := backPoints_dims s
  have hdim : r.ph.dim = s.ph.dim := by
    obtain ⟨q, qs, hq⟩ := List.exists_cons_of_length_pos (l := backPoints s) (by omega)
    rw [hb.dim q (by rw [hq]; simp), hbd q (by rw [hq]; simp)]
  refine ⟨hb.degree, ?_, ?_, hdim, ?_, ?_, ?_, ?_, ?_⟩
  · rw [hb.knots, List.forall₂_map_right_iff]
    refine List.forall₂_same.2 fun U _ => ?_
    rw [List.forall₂_map_right_iff]
    exact List.forall₂_same.2 fun x _ => near_rd x
  · rw [hb.knots, hb.degree, hb.basis]; exact basisTable_eq (clamped_sizes hc)
  · rw [hb.num, h.num, hn]; rfl
  · rw [hb.cps, flatten_length' hbd, hbl, h.cps]
  · rw [hb.weights]; cases s.ph.weights <;> rfl
  · intro w w' e1 e2
    obtain ⟨hwl, _⟩ := h.weights w e1
    rw [hb.weights, e1] at e2
    obtain rfl : backWeights w (npts s).prod = w' := by simpa using e2
    refine List.forall₂_iff_get.2 ⟨by simp [backWeights, hwl], fun i h1 h2 => ?_⟩
    simp [backWeights, List.getD_eq_getElem?_getD, h1, near_rd]
  · intro i hi
    rw [h.cps] at hi
    set k := i / s.ph.dim with hk
    have hkl : k < (npts s).prod := Nat.div_lt_of_lt_mul hi
    have hc' : i % s.ph.dim < s.ph.dim := Nat.mod_lt _ h.dim
    have hi' : i = s.ph.dim * k + i % s.ph.dim := (Nat.div_add_mod i s.ph.dim).symm
    have hcp : r.ph.cps.getD i 0 = ((backPoints s).getD k []).getD (i % s.ph.dim) 0 := by
      rw [hb.cps]; conv_lhs => rw [hi']
      exact flatten_getD hbd hc'
    have hrow : (cpRow s.ph k)[i % s.ph.dim]? = some (s.ph.cps.getD i 0) := by
      unfold cpRow
      rw [List.getElem?_map, List.getElem?_range hc', Option.map_some, ← hi']
    unfold homCoord
    rw [hb.weights, hdim, hcp, ← hk]
    cases hwe : s.ph.weights with
    | none =>
      have : ((backPoints s).getD k []).getD (i % s.ph.dim) 0 = rd (s.ph.cps.getD i 0) := by
        simp only [backPoints, hwe, List.getD_eq_getElem?_getD, List.getElem?_map, List.getElem?_range hkl, Option.map_some,
          Option.getD_some]
        rw [hrow]; simp
      rw [this]
      simp only [Option.map_none, one_mul]
      exact near_rd _
    | some w =>
      obtain ⟨hwl, _⟩ := h.weights w hwe
      have hne : rd (w.getD k 0) ≠ 0 := by
        refine hw w hwe _ ?_
        rw [List.getD_eq_getElem?_getD, List.getElem?_eq_getElem (by omega)]; simp
      have : ((backPoints s).getD k []).getD (i % s.ph.dim) 0 = rd (s.ph.cps.getD i 0 * w.getD k 0) / rd (w.getD k 0) := by
        simp only [backPoints, hwe, List.getD_eq_getElem?_getD, List.getElem?_map, List.getElem?_range hkl, Option.map_some,
          Option.getD_some]
        rw [hrow]; simp [List.getD_eq_getElem?_getD]
      rw [this]
      have e2 : (backWeights w (npts s).prod).getD k 0 = rd (w.getD k 0) := by
        simp [backWeights, List.getD_eq_getElem?_getD, hkl]
      simp only [Option.map_some, e2]
      rw [mul_div_cancel₀ _ hne, mul_comm]
      exact near_rd _

theorem forall₂_choose {α β : Type} {R : α → β → Prop} : ∀ (l : List α), (∀ a ∈ l, ∃ b, R a b) → ∃ l', List.Forall₂ R l l'
  | [], _ => ⟨[], .nil⟩
  | a :: l, h => by
    obtain ⟨b, hb⟩ := h a (by simp)
    obtain ⟨l', hl⟩ := forall₂_choose l fun x hx => h x (by simp [hx])
    exact ⟨b :: l', .cons hb hl⟩

/-- **C36** The writer accepts every list of well-formed splines of dimension 1 to 3, and reading the file gives back the same number
of splines, in the same order, each one equal to the written one up to the six printed decimals. Missing: weights below 10⁻⁶ (they
may be printed as zero, see `C36_small_weight`), and for NURBS it is the homogeneous coordinates that agree, not the coordinates
themselves (`C36_nurbs_coordinates_counterexample`). -/
theorem C36_round_trip_partial {ss : List (Spl K)} (h : ∀ s ∈ ss, WFSpl s ∧ (npts s).prod < 2 ^ 64)
    (hd : ∀ s ∈ ss, 1 ≤ s.ps.knots.length ∧ s.ps.knots.length ≤ 3)
    (hw : ∀ s ∈ ss, ∀ w, s.ph.weights = some w → ∀ a ∈ w, 1 / 10 ^ 6 ≤ a) :
    ∃ text, Irit.writeFile ss = .ok text ∧
      (text.length < 2 ^ 31 → ∃ rs, Irit.readFile K text = .ok rs ∧ List.Forall₂ ReadBack ss rs) := by
  have hw' : ∀ s ∈ ss, ∀ w, s.ph.weights = some w → ∀ a ∈ w, rd a ≠ 0 := fun s hs w h1 a h2 => (rd_pos (hw s hs w h1 a h2)).ne'
  obtain ⟨rs, hrs⟩ := forall₂_choose (R := fun s r => (Writable s ∧ backSpline s = .ok r) ∧ ReadBack s r) ss fun s hs => by
    obtain ⟨r, h1, h2⟩ := backSpline_ok (h s hs).1 (h s hs).2
    exact ⟨r, ⟨⟨(h s hs).1, hd s hs, hw' s hs⟩, h1⟩, built_readBack (h s hs).1 (hw' s hs) h2⟩
  obtain ⟨t, h1, h2⟩ := readFile_eq (hrs.imp fun _ _ h => h.1)
  exact ⟨t, h1, fun hl => ⟨rs, h2 (by omega), hrs.imp fun _ _ h => h.2⟩⟩

/-- **C36** for lists of B-splines: all numbers agree up to the six printed decimals. -/
theorem C36_bspline_round_trip {ss : List (Spl K)} (h : ∀ s ∈ ss, WFSpl s ∧ (npts s).prod < 2 ^ 64)
    (hd : ∀ s ∈ ss, 1 ≤ s.ps.knots.length ∧ s.ps.knots.length ≤ 3) (hb : ∀ s ∈ ss, IsBSpline s) :
    ∃ text, Irit.writeFile ss = .ok text ∧ (text.length < 2 ^ 31 → ∃ rs, Irit.readFile K text = .ok rs ∧
      List.Forall₂ (fun s r => IsBSpline r ∧ r.ps.degree = s.ps.degree ∧ r.ph.num = s.ph.num ∧ r.ph.dim = s.ph.dim ∧
        List.Forall₂ (List.Forall₂ Near) s.ps.knots r.ps.knots ∧ List.Forall₂ Near s.ph.cps r.ph.cps) ss rs) := by
  obtain ⟨t, h1, h2⟩ := C36_round_trip_partial h hd fun s hs w hw => by rw [hb s hs] at hw; cases hw
  refine ⟨t, h1, fun hl => ?_⟩
  obtain ⟨rs, h3, h4⟩ := h2 hl
  refine ⟨rs, h3, ?_⟩
  have hall : ∀ s ∈ ss, IsBSpline s := hb
  clear h1 h2 h3 h hd hb
  induction h4 with
  | nil => exact .nil
  | @cons s r ss rs hsr _ ih =>
    refine .cons ?_ (ih fun s hs => hall s (by simp [hs]))
    have hs := hall s (by simp)
    have hr : IsBSpline r := by
      have := hsr.kind
      rw [hs] at this
      unfold IsBSpline
      cases hw : r.ph.weights with
      | none => rfl
      | some w => rw [hw] at this; cases this
    refine ⟨hr, hsr.degree, hsr.num, hsr.dim, hsr.knots, List.forall₂_iff_get.2 ⟨hsr.count.symm, fun i h1 h2 => ?_⟩⟩
    have := hsr.coords i h1
    unfold homCoord at this
    rw [hs, hr] at this
    simpa [List.getD_eq_getElem?_getD, h1, h2] using this

/-- Splines of other dimensions are rejected: nothing but `std::runtime_error` can happen when the list contains one. -/
theorem C36_other_dimensions_rejected {ss : List (Spl K)} (h : ∀ s ∈ ss, WFSpl s)
    (hd : ∃ s ∈ ss, s.ps.knots.length = 0 ∨ 3 < s.ps.knots.length) : Irit.writeFile ss = .error (.thrown .runtimeError) := by
  have key : ∀ (ss : List (Spl K)) (n : ℕ), (∀ s ∈ ss, WFSpl s) → (∃ s ∈ ss, s.ps.knots.length = 0 ∨ 3 < s.ps.knots.length) →
      Irit.splinesText ss n = .error (.thrown .runtimeError) := by
    intro ss
    induction ss with
    | nil => rintro n _ ⟨s, hs, _⟩; cases hs
    | cons s ss ih =>
      intro n hwf hex
      by_cases hs : s.ps.knots.length = 0 ∨ 3 < s.ps.knots.length
      · have e : Irit.addSpline s n = .error (.thrown .runtimeError) := by
          unfold Irit.addSpline
          rw [if_neg (by omega), if_neg (by omega), if_neg (by omega)]; rfl
        cases ss with
        | nil => exact e
        | cons t ss => rw [Irit.splinesText, e]; rfl
      · obtain ⟨x, hx, hx'⟩ := hex
        rcases List.mem_cons.1 hx with rfl | hx
        · exact absurd hx' hs
        · cases ss with
          | nil => cases hx
          | cons t ss =>
            rw [Irit.splinesText, addSpline_eq (hwf s (by simp)) (by omega), ok_bind,
              ih (n + 1) (fun y hy => hwf y (by simp [hy])) ⟨x, hx, hx'⟩]
            rfl
  unfold Irit.writeFile
  rw [key ss 0 h hd]; rfl

/-- Knots with six decimals that are far enough apart stay sorted and separated. -/
theorem wfKnots_rd {U : List K} {p : ℕ} (h : WFKnots U p) (hsep : ∀ a ∈ U, ∀ b ∈ U, a < b → 1 / 10 ^ 5 ≤ b - a) : WFKnots (U.map rd) p := by
  have h5 : (1 : K) / 10 ^ 5 = 20 * (1 / (2 * 10 ^ 6)) := by norm_num
  have hpos : (0 : K) < 1 / (2 * 10 ^ 6) := by positivity
  have hkeps : kEps K ≤ 18 * (1 / (2 * 10 ^ 6)) := by
    unfold kEps
    rw [div_le_iff₀ (by positivity)]
    norm_num
  have hlt : ∀ a ∈ U, ∀ b ∈ U, a < b → 18 * (1 / (2 * 10 ^ 6)) ≤ rd b - rd a := by
    intro a ha b hb hab
    have h1 := hsep a ha b hb hab
    have h2 := abs_le.1 (rd_near a)
    have h3 := abs_le.1 (rd_near b)
    linarith [h2.2, h3.1]
  have hle : ∀ a ∈ U, ∀ b ∈ U, a ≤ b → rd a ≤ rd b := by
    intro a ha b hb hab
    rcases hab.lt_or_eq with hab | rfl
    · have := hlt a ha b hb hab; linarith
    · exact le_refl _
  have hc := clamped_iff.1 (clamped_rd h.clamped)
  have hlen := h.size
  have hmem : ∀ i < U.length, knot U i ∈ U := fun i hi => by
    rw [knot_eq hi]; exact List.getElem_mem hi
  have hk : ∀ i < U.length, knot (U.map rd) i = rd (knot U i) := by
    intro i hi
    simp [knot, List.getD_eq_getElem?_getD, hi]
  refine ⟨?_, hc.1, hc.2.1, hc.2.2, ?_, ?_⟩
  · unfold SortedKnots
    rw [List.pairwise_map]
    exact h.sorted.imp_of_mem fun {a b} ha hb hab => hle a ha b hb hab
  · have := hlt _ (hmem 0 (by omega)) _ (hmem (U.length - 1) (by omega)) h.range
    unfold lastKnot
    rw [List.length_map, hk 0 (by omega), hk _ (by omega)]
    linarith
  · intro a ha b hb hab
    obtain ⟨x, hx, rfl⟩ := List.mem_map.1 ha
    obtain ⟨y, hy, rfl⟩ := List.mem_map.1 hb
    have hxy : x < y := by
      by_contra hxy
      exact absurd hab (not_lt.2 (hle y hy x hx (not_lt.1 hxy)))
    have := hlt x hx y hy hxy
    linarith

/-- If different knots are at least 10⁻⁵ apart and the weights at least 10⁻⁶, the splines that are read are well-formed again: every
other operation of the library can be applied to them. -/
theorem C36_round_trip_wellformed {ss : List (Spl K)} (h : ∀ s ∈ ss, WFSpl s ∧ (npts s).prod < 2 ^ 64)
    (hd : ∀ s ∈ ss, 1 ≤ s.ps.knots.length ∧ s.ps.knots.length ≤ 3)
    (hw : ∀ s ∈ ss, ∀ w, s.ph.weights = some w → ∀ a ∈ w, 1 / 10 ^ 6 ≤ a)
    (hsep : ∀ s ∈ ss, ∀ U ∈ s.ps.knots, ∀ a ∈ U, ∀ b ∈ U, a < b → 1 / 10 ^ 5 ≤ b - a) :
    ∃ text, Irit.writeFile ss = .ok text ∧
      (text.length < 2 ^ 31 → ∃ rs, Irit.readFile K text = .ok rs ∧ List.Forall₂ (fun s r => ReadBack s r ∧ WFSpl r) ss rs) := by
  have hw' : ∀ s ∈ ss, ∀ w, s.ph.weights = some w → ∀ a ∈ w, rd a ≠ 0 := fun s hs w h1 a h2 => (rd_pos (hw s hs w h1 a h2)).ne'
  obtain ⟨rs, hrs⟩ := forall₂_choose (R := fun s r => (Writable s ∧ backSpline s = .ok r) ∧ ReadBack s r ∧ WFSpl r) ss fun s hs => by
    obtain ⟨r, h1, h2⟩ := backSpline_ok (h s hs).1 (h s hs).2
    refine ⟨r, ⟨⟨(h s hs).1, hd s hs, hw' s hs⟩, h1⟩, built_readBack (h s hs).1 (hw' s hs) h2, ?_⟩
    have hk : List.Forall₂ WFKnots (s.ps.knots.map fun U => U.map rd) s.ps.degree := by
      have hk := (h s hs).1.knots
      have hs' := hsep s hs
      generalize s.ps.knots = Us, s.ps.degree = ps at hk hs'
      induction hk with
      | nil => exact .nil
      | cons h1 _ ih => exact .cons (wfKnots_rd h1 (hs' _ (by simp))) (ih fun U hU => hs' U (by simp [hU]))
    refine h2.wf hk ?_ ?_ (h s hs).1.dim (backPoints_dims s) ?_
    · have e1 := backPoints_length s
      have e2 := npts_prod_pos (h s hs).1
      intro h0; rw [h0, List.length_nil] at e1; omega
    · rw [nptsOf_rd, backPoints_length]; rfl
    · intro w hw1
      obtain ⟨v, hv, rfl⟩ := Option.map_eq_some_iff.1 hw1
      obtain ⟨hvl, _⟩ := (h s hs).1.weights v hv
      refine ⟨by rw [backPoints_length]; simp [backWeights], fun a ha => ?_⟩
      obtain ⟨k, hk, rfl⟩ := List.mem_map.1 ha
      refine rd_pos (hw s hs v hv _ ?_)
      rw [List.mem_range] at hk
      rw [List.getD_eq_getElem?_getD, List.getElem?_eq_getElem (by omega)]; simp
  obtain ⟨t, h1, h2⟩ := readFile_eq (hrs.imp fun _ _ h => h.1)
  exact ⟨t, h1, fun hl => ⟨rs, h2 (by omega), hrs.imp fun _ _ h => h.2⟩⟩

theorem rd_zero {a : K} (h0 : 0 < a) (h1 : a < 1 / (2 * 10 ^ 6)) : rd a = 0 := by
  have h := abs_le.1 (rd_near a)
  have hh : (1 : K) / 10 ^ 6 = 2 * (1 / (2 * 10 ^ 6)) := by field_simp
  have hpos : (0 : K) < 1 / 10 ^ 6 := by positivity
  have hlt : |rd a| < 1 / 10 ^ 6 := by
    rw [abs_lt]
    constructor <;> linarith [h.1, h.2]
  have habs : |rd a| = (DecPrinter.mag a : K) / 10 ^ 6 := by
    unfold rd
    rw [abs_mul, abs_of_nonneg (a := (DecPrinter.mag a : K) / 10 ^ 6) (by positivity)]
    split <;> simp
  rw [habs, div_lt_div_iff_of_pos_right (by positivity)] at hlt
  have : DecPrinter.mag a = 0 := by
    have : (DecPrinter.mag a : K) < ((1 : ℕ) : K) := by rw [Nat.cast_one]; exact hlt
    have := Nat.cast_lt.1 this
    omega
  rw [this, Nat.cast_zero, zero_div, abs_eq_zero] at habs
  exact habs

/-- A positive weight below 5·10⁻⁷ is printed as zero; the file that the writer produces cannot be read: the reader divides by zero. -/
theorem C36_small_weight {s : Spl K} (h : WFSpl s) (hd : 1 ≤ s.ps.knots.length ∧ s.ps.knots.length ≤ 3) {w : List K}
    (hw : s.ph.weights = some w) {a : K} (ha : a ∈ w) (ha1 : a < 1 / (2 * 10 ^ 6)) :
    ∃ text, Irit.writeFile [s] = .ok text ∧ (text.length < 2 ^ 31 → Irit.readFile K text = .error .nonfinite) := by
  obtain ⟨t, h1, h2⟩ := writeFile_ok (ss := [s]) (by simpa using ⟨h, hd⟩)
  refine ⟨t, h1, fun hl => ?_⟩
  unfold Irit.readFile
  rw [getlines_flatten]
  dsimp only
  rw [tokens_split h2]
  rw [if_neg (by simp)] at h2 ⊢
  have hs : Short (fileToks [s] 0) := fun u hu => by
    have a := tokens_short h2 u (by simp [hu])
    have b := strip_length t
    omega
  rw [fileToks] at hs ⊢
  have hs1 : Short (splToks s) := fun t ht => hs t (by simp [ht])
  have e := positions_block hs1 (0 + 1) ["[OBJECT".toList, "SPLINES".toList] ["]".toList, "]]".toList]
  have e' := readAll_step (K := K) hd (0 + 1) ["[OBJECT".toList, "SPLINES".toList] ["]".toList, "]]".toList]
  rw [Irit.splinePositions, if_neg (by decide), Irit.splinePositions, if_neg (by decide)]
  refine (congrArg (Irit.readAll K _) e).trans ?_
  refine (e' _).trans ?_
  obtain ⟨hwl, hwp⟩ := h.weights w hw
  rw [readSpline_raw h hd hs1, hw]
  dsimp only
  rw [readPoints_zero]
  · rfl
  · simp [backWeights]
  · obtain ⟨i, hi, rfl⟩ := List.getElem_of_mem ha
    refine List.mem_map.2 ⟨i, by rw [List.mem_range]; omega, ?_⟩
    rw [List.getD_eq_getElem?_getD, List.getElem?_eq_getElem hi]
    exact rd_zero (hwp _ ha) ha1
  · intro U hU
    obtain ⟨k, _, rfl⟩ := List.mem_map.1 hU
    exact homRow_ne h.dim k
  · unfold splToks at hs1; exact hs1.right.right

end

/-! ### Examples -/

section
attribute [local instance] halfUp

example : ∃ text, Irit.writeFile [exCurve, exNurbs, exNurbsSurface] = .ok text ∧ (text.length < 2 ^ 31 → ∃ rs,
    Irit.readFile ℚ text = .ok rs ∧ List.Forall₂ ReadBack [exCurve, exNurbs, exNurbsSurface] rs) := by
  refine C36_round_trip_partial ?_ ?_ ?_
  · simp only [List.mem_cons, List.not_mem_nil, or_false, forall_eq_or_imp, forall_eq]
    exact ⟨⟨exCurve_wf, by decide +kernel⟩, ⟨exNurbs_wf, by decide +kernel⟩, exNurbsSurface_wf, by decide +kernel⟩
  · decide +kernel
  · simp only [List.mem_cons, List.not_mem_nil, or_false, forall_eq_or_imp, forall_eq]
    refine ⟨fun w hw => ?_, fun w hw => ?_, fun w hw => ?_⟩
    · simp [exCurve] at hw
    · obtain rfl : [1, 2, 1/2, 3] = w := by simpa [exNurbs] using hw
      decide +kernel
    · obtain rfl : [1, 2, 3, 1, 1/2, 1, 1, 4] = w := by simpa [exNurbsSurface] using hw
      decide +kernel

/-- A line with small weights. -/
def exSmall : Spl ℚ :=
  ⟨⟨[[0, 0, 1, 1]], [1], mkTable [[0, 0, 1, 1]] [1]⟩, ⟨1, [2], [10, 10], some [14 / 10 ^ 7, 14 / 10 ^ 7]⟩⟩

theorem exSmall_wf : WFSpl exSmall where
  knots := by simp only [exSmall]; exact .cons (by decide +kernel) .nil
  basis := by decide +kernel
  num := by decide +kernel
  dim := by decide +kernel
  cps := by decide +kernel
  weights := by
    intro w h
    obtain rfl : [14 / 10 ^ 7, 14 / 10 ^ 7] = w := by simpa [exSmall] using h
    exact ⟨by decide +kernel, by decide +kernel⟩

/-- The coordinates of a NURBS need not agree up to six decimals, even if all weights are at least 10⁻⁶: the weights 1.4·10⁻⁶ are
printed as 0.000001, the coordinate 10 is read back as 14. -/
theorem C36_nurbs_coordinates_counterexample : ¬ ∀ (s : Spl ℚ), WFSpl s → (npts s).prod < 2 ^ 64 →
    1 ≤ s.ps.knots.length ∧ s.ps.knots.length ≤ 3 → (∀ w, s.ph.weights = some w → ∀ a ∈ w, 1 / 10 ^ 6 ≤ a) →
    ∀ text rs, Irit.writeFile [s] = .ok text → Irit.readFile ℚ text = .ok rs → ∀ r ∈ rs, List.Forall₂ Near s.ph.cps r.ph.cps := by
  intro hall
  obtain ⟨t, h1, h2⟩ := readFile_eq (K := ℚ) (ss := [exSmall])
    (rs := [⟨exSmall.ps, ⟨1, [2], [14, 14], some [1 / 10 ^ 6, 1 / 10 ^ 6]⟩⟩])
    (.cons ⟨⟨exSmall_wf, by decide +kernel, by
      intro w hw
      obtain rfl : [14 / 10 ^ 7, 14 / 10 ^ 7] = w := by simpa [exSmall] using hw
      decide +kernel⟩, by decide +kernel⟩ .nil)
  have hl : (Irit.writeFile [exSmall]).toOption.elim 0 List.length < 2 ^ 32 := by decide +kernel
  rw [h1] at hl
  have := hall exSmall exSmall_wf (by decide +kernel) (by decide +kernel) (by
    intro w hw
    obtain rfl : [14 / 10 ^ 7, 14 / 10 ^ 7] = w := by simpa [exSmall] using hw
    decide +kernel) t _ h1 (h2 hl) _ List.mem_cons_self
  cases this with
  | cons h _ =>
    revert h
    unfold Near
    decide +kernel

/-- The same for the line with the weights 10⁻⁷. -/
example : ∃ text, Irit.writeFile [(⟨exSmall.ps, ⟨1, [2], [10, 10], some [1 / 10 ^ 7, 1]⟩⟩ : Spl ℚ)] = .ok text ∧
    (text.length < 2 ^ 31 → Irit.readFile ℚ text = .error .nonfinite) := by
  refine C36_small_weight (s := ⟨exSmall.ps, ⟨1, [2], [10, 10], some [1 / 10 ^ 7, 1]⟩⟩) ⟨exSmall_wf.knots, exSmall_wf.basis,
    by decide +kernel, by decide +kernel, by decide +kernel, ?_⟩ (by decide +kernel) rfl List.mem_cons_self (by decide +kernel)
  intro w h
  obtain rfl : [1 / 10 ^ 7, 1] = w := by simpa using h
  exact ⟨by decide +kernel, by decide +kernel⟩

end
end SplineLib
