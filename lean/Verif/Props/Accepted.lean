import Verif.Props.Comparison
import Verif.Props.Shape
import Verif.Props.Interpolation
import Verif.Core.Sqrt
import Verif.Core.Independence
import Mathlib.LinearAlgebra.FiniteDimensional.Lemmas
import Mathlib.LinearAlgebra.Matrix.ToLin

/-!
# C103: what it means that `AreGeometricallyEqual` accepts
-/

namespace SplineLib
set_option linter.unusedSectionVars false
open Finset
variable {K : Type} [Field K] [LinearOrder K] [IsStrictOrderedRing K] [HasSqrt K]

theorem geomLoop_true_iff {a b : Spl K} (ha : List.Forall₂ WFKnots a.ps.knots a.ps.degree) {ns : List ℕ} (hpos : ∀ m ∈ ns, 0 < m) {tol : K} {n : ℕ}
    {dims : List ℤ} : ∀ (m k : ℕ), k + m ≤ ns.prod →
    (Spl.geomLoop a b tol n dims m ⟨zl ns, zl (unlin ns k)⟩ = .ok true ↔ ∀ j, k ≤ j → j < k + m →
      ∃ va vb, a.evaluate (sampleParam a.ps.knots n (unlin ns j)) dims = .ok va ∧
        b.evaluate (sampleParam a.ps.knots n (unlin ns j)) dims = .ok vb ∧ Phys.distance va vb ≤ tol) := by
  intro m
  induction m with
  | zero => intro k _; simp only [Spl.geomLoop, true_iff]; intro j h1 h2; omega
  | succ m ih =>
    intro k hk
    rw [Spl.geomLoop, samplePoint_eq ha, ok_bind]
    constructor
    · intro h
      cases hva : a.evaluate (sampleParam a.ps.knots n (unlin ns k)) dims with
      | error e => rw [hva] at h; cases h
      | ok va =>
        cases hvb : b.evaluate (sampleParam a.ps.knots n (unlin ns k)) dims with
        | error e => rw [hva, hvb] at h; cases h
        | ok vb =>
          rw [hva, hvb, ok_bind, ok_bind] at h
          split_ifs at h with hd
          · cases h
          · rw [incr_zl hpos, ih (k + 1) (by omega)] at h
            intro j h1 h2
            rcases Nat.lt_or_ge k j with h3 | h3
            · exact h j h3 (by omega)
            · obtain rfl : j = k := by omega
              exact ⟨va, vb, hva, hvb, not_lt.1 hd⟩
    · intro h
      obtain ⟨va, vb, hva, hvb, hd⟩ := h k le_rfl (by omega)
      rw [hva, hvb, ok_bind, ok_bind, if_neg (not_lt.2 hd), incr_zl hpos, ih (k + 1) (by omega)]
      exact fun j h1 h2 => h j (by omega) (by omega)

/-- **C103**, meaning: `AreGeometricallyEqual` returns `true` exactly if at every sampling parameter both splines can be evaluated and
the points are at most the tolerance apart. For curves the sampling parameters are `T / 100 * i` for `i = 0, …, 100`, where `T` is the length
of the range. -/
theorem C103_accepted_iff {a b : Spl K} (ha : WFSpl a) (tol : K) :
    a.areGeometricallyEqual b tol = .ok true ↔ ∀ I, InBox (sampleBox a) I →
      ∃ va vb, a.evaluate (sampleParam a.ps.knots (Spl.sampleNumber a.ps.knots.length) I) (zl (List.range a.ph.dim)) = .ok va ∧
        b.evaluate (sampleParam a.ps.knots (Spl.sampleNumber a.ps.knots.length) I) (zl (List.range a.ph.dim)) = .ok vb ∧
        Phys.distance va vb ≤ tol := by
  rw [areGeometricallyEqual_unfold, geomLoop_true_iff ha.knots (sampleBox_pos a) _ 0 (by omega)]
  constructor
  · intro h I hI
    have := h (lin (sampleBox a) I) (Nat.zero_le _) (by have := lin_lt hI; omega)
    rwa [unlin_lin hI] at this
  · intro h j _ _
    exact h _ (unlin_inBox (sampleBox_pos a) j)

theorem accepted_curve {a b : Spl K} (ha : WFSpl a) {U : List K} (hU : a.ps.knots = [U]) {tol : K} :
    a.areGeometricallyEqual b tol = .ok true ↔ ∀ i : ℕ, i ≤ 100 → ∃ va vb,
      a.evaluate [(lastKnot U - knot U 0) / 100 * (i : K)] (zl (List.range a.ph.dim)) = .ok va ∧
      b.evaluate [(lastKnot U - knot U 0) / 100 * (i : K)] (zl (List.range a.ph.dim)) = .ok vb ∧ Phys.distance va vb ≤ tol := by
  rw [C103_accepted_iff ha]
  have h1 : Spl.sampleNumber a.ps.knots.length = 100 := by rw [hU]; exact (by decide +kernel : Spl.sampleNumber 1 = 100)
  have h2 : sampleBox a = [101] := by unfold sampleBox; rw [h1, hU]; rfl
  rw [h1, h2, hU]
  constructor
  · intro h i hi
    have := h [i] (by simp; omega)
    simpa [sampleParam] using this
  · intro h I hI
    match I, hI with
    | [i], hI =>
      have := h i (by simp at hI; omega)
      simpa [sampleParam] using this
    | [], hI => simp at hI
    | _ :: _ :: _, hI => simp at hI

/-- A sampling parameter is near. -/
theorem near_sample {t h : K} (hh : 0 ≤ h) : ∀ {n : ℕ}, 0 ≤ t → t ≤ h * n → ∃ i ≤ n, |t - h * (i : K)| ≤ h / 2
  | 0, h0, h1 => ⟨0, le_rfl, by
      have : t = 0 := le_antisymm (by simpa using h1) h0
      simp [this]; positivity⟩
  | n + 1, h0, h1 => by
    rcases le_total t (h * n) with h2 | h2
    · obtain ⟨i, hi, e⟩ := near_sample hh h0 h2
      exact ⟨i, by omega, e⟩
    · push_cast at h1
      rcases le_total (t - h * n) (h / 2) with h3 | h3
      · exact ⟨n, by omega, abs_le.2 ⟨by linarith, h3⟩⟩
      · refine ⟨n + 1, le_rfl, ?_⟩
        push_cast
        exact abs_le.2 ⟨by linarith, by linarith⟩

/-- The coordinate function as a linear function of points. -/
def coordNrm (c : ℕ) : List K := List.replicate c 0 ++ [1]

theorem coordNrm_side : ∀ (c : ℕ) (y : List K) (h : c < y.length), planeSide (coordNrm c) 0 y = y[c]
  | 0, a :: y, _ => by simp [planeSide, coordNrm]
  | c + 1, a :: y, h => by
    have := coordNrm_side c y (by simpa using h)
    simpa [planeSide, coordNrm, List.replicate_succ] using this

/-- The slopes of coordinate `c` of the control polygon, relative to the averages of `p` consecutive knots, are at most `L`. -/
def PolygonSlope (s : Spl K) (U : List K) (p c : ℕ) (L : K) : Prop :=
  ∀ i, i + 1 < U.length - p - 1 → |cpt s [i + 1] c - cpt s [i] c| ≤ L * (greville U p (i + 1) - greville U p i)

theorem slope_lipschitz {s : Spl K} (h : WFSpl s) (hb : IsBSpline s) {U : List K} {p : ℕ} (hU : s.ps.knots = [U]) (hp : s.ps.degree = [p])
    (hp1 : 1 ≤ p) {c : ℕ} (hc : c < s.ph.dim) {L : K} (hL : PolygonSlope s U p c L) {t t' : K} (h0 : knot U 0 ≤ t) (h1 : t ≤ lastKnot U)
    (h0' : knot U 0 ≤ t') (h1' : t' ≤ lastKnot U) : |bsplineValue s [t'] c - bsplineValue s [t] c| ≤ L * |t' - t| := by
  have key : ∀ {t t' : K}, knot U 0 ≤ t → t ≤ t' → t' ≤ lastKnot U → |bsplineValue s [t'] c - bsplineValue s [t] c| ≤ L * (t' - t) := by
    intro t t' h0 htt h1
    have ev : ∀ x, knot U 0 ≤ x → x ≤ lastKnot U →
        s.evaluate [x] (zl (List.range s.ph.dim)) = .ok ((List.range s.ph.dim).map (bsplineValue s [x])) := fun x hx hx' =>
      evaluate_bspline h hb (by unfold InDomain; rw [hU]; exact .cons ⟨hx, hx'⟩ .nil) _ (by simp)
    have := C85_lipschitz h hb hU hp hp1 (coordNrm c) (L := L) (fun i hi => by
      rw [coordNrm_side c _ (by simpa [ctrlPoint] using hc), coordNrm_side c _ (by simpa [ctrlPoint] using hc)]
      simpa [ctrlPoint] using hL i hi) h0 htt h1 (ev t h0 (htt.trans h1)) (ev t' (h0.trans htt) h1)
    rw [coordNrm_side c _ (by simpa using hc), coordNrm_side c _ (by simpa using hc)] at this
    simpa using this
  rcases le_total t t' with htt | htt
  · rw [abs_of_nonneg (sub_nonneg.2 htt)]
    exact key h0 htt h1'
  · rw [abs_sub_comm, abs_sub_comm t' t, abs_of_nonneg (sub_nonneg.2 htt)]
    exact key h0' htt h1

variable [LawfulSqrt K]

theorem coord_le_distance {n : ℕ} {f g : ℕ → K} {tol : K} (h : Phys.distance ((List.range n).map f) ((List.range n).map g) ≤ tol) {c : ℕ} (hc : c < n) :
    |f c - g c| ≤ tol := by
  have hT : 0 ≤ tol := (distance_nonneg _ _).trans h
  rw [distance_map_le_iff hT] at h
  have h1 : (f c - g c) * (f c - g c) ≤ ∑ c ∈ range n, (f c - g c) * (f c - g c) :=
    Finset.single_le_sum (f := fun c => (f c - g c) * (f c - g c)) (fun i _ => mul_self_nonneg _) (mem_range.2 hc)
  exact abs_le_of_sq_le_sq (by nlinarith) hT

/-- **C103**, between the samples: let two B-spline curves of the same dimension over the same range `[0, T]` be accepted. If the slopes of
coordinate `c` of their control polygons are at most `L` and `L'`, then at every parameter of the range this coordinate of the two
curves differs by at most the tolerance plus `(L + L') T / 200`. -/
theorem C103_between_samples {a b : Spl K} (ha : WFSpl a) (hb : WFSpl b) (hab : IsBSpline a) (hbb : IsBSpline b) {U V : List K} {p q : ℕ}
    (hU : a.ps.knots = [U]) (hV : b.ps.knots = [V]) (hp : a.ps.degree = [p]) (hq : b.ps.degree = [q]) (hp1 : 1 ≤ p) (hq1 : 1 ≤ q)
    (hU0 : knot U 0 = 0) (hV0 : knot V 0 = 0) (hT : lastKnot V = lastKnot U) (hdim : b.ph.dim = a.ph.dim) {tol : K}
    (hacc : a.areGeometricallyEqual b tol = .ok true) {c : ℕ} (hc : c < a.ph.dim) {L L' : K} (hL0 : 0 ≤ L) (hL0' : 0 ≤ L')
    (hL : PolygonSlope a U p c L) (hL' : PolygonSlope b V q c L') {t : K} (h0 : 0 ≤ t) (h1 : t ≤ lastKnot U) :
    ∃ u v, a.evaluate [t] [(c : ℤ)] = .ok [u] ∧ b.evaluate [t] [(c : ℤ)] = .ok [v] ∧ |u - v| ≤ tol + (L + L') * lastKnot U / 200 := by
  have eva : ∀ x, 0 ≤ x → x ≤ lastKnot U → InDomain a [x] := fun x hx hx' => by
    unfold InDomain; rw [hU]; exact .cons ⟨hU0 ▸ hx, hx'⟩ .nil
  have evb : ∀ x, 0 ≤ x → x ≤ lastKnot U → InDomain b [x] := fun x hx hx' => by
    unfold InDomain; rw [hV]; exact .cons ⟨hV0 ▸ hx, hT ▸ hx'⟩ .nil
  have e1 := evaluate_bspline ha hab (eva t h0 h1) [c] (by simpa using hc)
  have e2 := evaluate_bspline hb hbb (evb t h0 h1) [c] (by rw [hdim]; simpa using hc)
  refine ⟨_, _, e1, e2, ?_⟩
  have hT0 : 0 ≤ lastKnot U := h0.trans h1
  have hstep : (0 : K) ≤ lastKnot U / 100 := by positivity
  obtain ⟨i, hi, hnear⟩ := near_sample (n := 100) hstep h0 (by push_cast; linarith)
  have hi' : (i : K) ≤ 100 := by exact_mod_cast hi
  have hs0 : 0 ≤ lastKnot U / 100 * (i : K) := by positivity
  have hs1 : lastKnot U / 100 * (i : K) ≤ lastKnot U := by
    calc lastKnot U / 100 * (i : K) ≤ lastKnot U / 100 * 100 := mul_le_mul_of_nonneg_left hi' hstep
      _ = lastKnot U := by field_simp
  obtain ⟨va, vb, k1, k2, k3⟩ := (accepted_curve ha hU).1 hacc i hi
  rw [hU0, sub_zero] at k1 k2
  rw [evaluate_bspline ha hab (eva _ hs0 hs1) _ (by simp)] at k1
  rw [evaluate_bspline hb hbb (evb _ hs0 hs1) _ (by rw [hdim]; simp)] at k2
  cases k1
  cases k2
  have k4 := coord_le_distance k3 hc
  have m1 := slope_lipschitz ha hab hU hp hp1 hc hL (hU0 ▸ hs0) hs1 (hU0 ▸ h0) h1
  have m2 := slope_lipschitz hb hbb hV hq hq1 (hdim ▸ hc) hL' (hV0 ▸ hs0) (hT ▸ hs1) (hV0 ▸ h0) (hT ▸ h1)
  have n1 := m1.trans (mul_le_mul_of_nonneg_left hnear hL0)
  have n2 := m2.trans (mul_le_mul_of_nonneg_left hnear hL0')
  rw [abs_le] at n1 n2 k4 ⊢
  constructor <;> linarith [n1.1, n1.2, n2.1, n2.2, k4.1, k4.2]

theorem sample_range {U : List K} (hT0 : 0 ≤ lastKnot U) {i : ℕ} (hi : i ≤ 100) : 0 ≤ lastKnot U / 100 * (i : K) ∧ lastKnot U / 100 * (i : K) ≤ lastKnot U := by
  have hi' : (i : K) ≤ 100 := by exact_mod_cast hi
  have hstep : (0 : K) ≤ lastKnot U / 100 := by positivity
  refine ⟨by positivity, ?_⟩
  calc lastKnot U / 100 * (i : K) ≤ lastKnot U / 100 * 100 := mul_le_mul_of_nonneg_left hi' hstep
    _ = lastKnot U := by field_simp

/-- Acceptance with tolerance zero of curves with the same knots and the same degree: the coordinates agree at the samples. -/
theorem accepted_zero_iff {a b : Spl K} (ha : WFSpl a) (hb : WFSpl b) (hab : IsBSpline a) (hbb : IsBSpline b) {U : List K}
    (hU : a.ps.knots = [U]) (hU' : b.ps.knots = [U]) (hU0 : knot U 0 = 0) (hdim : b.ph.dim = a.ph.dim) :
    a.areGeometricallyEqual b 0 = .ok true ↔ ∀ i : ℕ, i ≤ 100 → ∀ c < a.ph.dim,
      bsplineValue a [lastKnot U / 100 * (i : K)] c = bsplineValue b [lastKnot U / 100 * (i : K)] c := by
  have hk := ha.knots
  rw [hU] at hk
  have hT0 : 0 ≤ lastKnot U := by
    obtain ⟨p, _, h1, _⟩ := List.forall₂_cons_left_iff.1 hk
    exact hU0 ▸ h1.range.le
  have ea : ∀ i : ℕ, i ≤ 100 → a.evaluate [lastKnot U / 100 * (i : K)] (zl (List.range a.ph.dim)) =
      .ok ((List.range a.ph.dim).map (bsplineValue a [lastKnot U / 100 * (i : K)])) := fun i hi =>
    evaluate_bspline ha hab (by unfold InDomain; rw [hU]; exact .cons ⟨hU0 ▸ (sample_range hT0 hi).1, (sample_range hT0 hi).2⟩ .nil) _ (by simp)
  have eb : ∀ i : ℕ, i ≤ 100 → b.evaluate [lastKnot U / 100 * (i : K)] (zl (List.range a.ph.dim)) =
      .ok ((List.range a.ph.dim).map (bsplineValue b [lastKnot U / 100 * (i : K)])) := fun i hi =>
    evaluate_bspline hb hbb (by unfold InDomain; rw [hU']; exact .cons ⟨hU0 ▸ (sample_range hT0 hi).1, (sample_range hT0 hi).2⟩ .nil) _
      (by rw [hdim]; simp)
  rw [accepted_curve ha hU, hU0, sub_zero]
  constructor
  · intro h i hi c hc
    obtain ⟨va, vb, k1, k2, k3⟩ := h i hi
    rw [ea i hi] at k1
    rw [eb i hi] at k2
    cases k1
    cases k2
    exact sub_eq_zero.1 (abs_nonpos_iff.1 (coord_le_distance k3 hc))
  · intro h i hi
    refine ⟨_, _, ea i hi, eb i hi, ?_⟩
    rw [distance_map_le_iff le_rfl]
    refine le_of_eq ((Finset.sum_eq_zero fun c hc => ?_).trans (by simp))
    rw [h i hi c (mem_range.1 hc)]
    simp

/-- **C103**, exactness: let two B-spline curves have the same knots, from 0 to `T`, and the same degree. If for every basis function an index
`σ j` of a sample can be chosen, increasing with `j`, such that the function does not vanish at this sample, then the two curves are
accepted with tolerance zero only if they are equal. -/
theorem C103_exact {a b : Spl K} (ha : WFSpl a) (hb : WFSpl b) (hab : IsBSpline a) (hbb : IsBSpline b) {U : List K} {p : ℕ}
    (hU : a.ps.knots = [U]) (hU' : b.ps.knots = [U]) (hp : a.ps.degree = [p]) (hp' : b.ps.degree = [p]) (hU0 : knot U 0 = 0)
    (hdim : b.ph.dim = a.ph.dim) {σ : ℕ → ℕ} (hσ : ∀ j, j + 1 < U.length - p - 1 → σ j < σ (j + 1)) (hle : ∀ j < U.length - p - 1, σ j ≤ 100)
    (hsw : ∀ j < U.length - p - 1, coxDeBoor U p j (lastKnot U / 100 * (σ j : K)) ≠ 0) :
    a.areGeometricallyEqual b 0 = .ok true ↔ a = b := by
  have hk : WFKnots U p := by
    have := ha.knots
    rw [hU, hp] at this
    cases this with
    | cons h1 _ => exact h1
  have hT : 0 < lastKnot U := hU0 ▸ hk.range
  rw [accepted_zero_iff ha hb hab hbb hU hU' hU0 hdim]
  constructor
  · intro h
    have hinj := collocation_injective hk (t := fun j => lastKnot U / 100 * (σ j : K))
      (fun j hj => mul_lt_mul_of_pos_left (by exact_mod_cast hσ j hj) (by positivity))
      (fun j hj => ⟨hU0 ▸ (sample_range hT.le (hle j hj)).1, (sample_range hT.le (hle j hj)).2⟩) hsw
    refine interpolates_ext ha hb hU hU' hp hp' hab hbb hdim.symm fun i hi c hc => ?_
    have key : ∀ {s : Spl K}, s.ps.knots = [U] → s.ps.degree = [p] → ∀ j : Fin (U.length - p - 1),
        collocation U p (fun j => lastKnot U / 100 * (σ j : K)) (fun i => cpt s [(i : ℕ)] c) j = bsplineValue s [lastKnot U / 100 * (σ j : K)] c := by
      intro s e1 e2 j
      rw [collocation_apply, bspline_curve e1 e2, ← Fin.sum_univ_eq_sum_range (fun i => coxDeBoor U p i (lastKnot U / 100 * (σ j : K)) * cpt s [i] c)]
    exact congrFun (hinj (a₁ := fun i => cpt a [(i : ℕ)] c) (a₂ := fun i => cpt b [(i : ℕ)] c) (funext fun j => by
      rw [key hU hp, key hU' hp', h (σ j) (hle j j.2) c hc])) ⟨i, hi⟩
  · rintro rfl i _ c _
    rfl

/-- **C103**, Bézier curves: two Bézier curves of the same degree, at most 100, are accepted with tolerance zero only if they are equal. -/
theorem C103_bezier {a b : Spl K} (ha : WFSpl a) (hb : WFSpl b) (hab : IsBSpline a) (hbb : IsBSpline b) {U : List K} {p : ℕ}
    (hU : a.ps.knots = [U]) (hU' : b.ps.knots = [U]) (hp : a.ps.degree = [p]) (hp' : b.ps.degree = [p]) (hU0 : knot U 0 = 0)
    (hdim : b.ph.dim = a.ph.dim) (hlen : U.length = 2 * p + 2) (hp100 : p ≤ 100) :
    a.areGeometricallyEqual b 0 = .ok true ↔ a = b := by
  have hk : WFKnots U p := by
    have := ha.knots
    rw [hU, hp] at this
    cases this with
    | cons h1 _ => exact h1
  have hT : 0 < lastKnot U := hU0 ▸ hk.range
  have hfirst : ∀ j ≤ p, knot U j = 0 := fun j hj => (hk.first j hj).trans hU0
  have hlast : ∀ j, p < j → j < 2 * p + 2 → knot U j = lastKnot U := fun j h1 h2 => by
    have := hk.last (2 * p + 1 - j) (by omega)
    rwa [hlen, show 2 * p + 2 - 1 - (2 * p + 1 - j) = j by omega] at this
  refine C103_exact ha hb hab hbb hU hU' hp hp' hU0 hdim (σ := fun j => if j = 0 then 0 else if j = p then 100 else j) ?_ ?_ ?_
  · intro j hj
    split_ifs <;> first | contradiction | omega
  · intro j hj
    split_ifs <;> omega
  · intro j hj
    split_ifs with h1 h2
    · subst h1
      have := cox_first hk (i := 0) (by rw [hfirst p le_rfl, hlast (p + 1) (by omega) (by omega)]; exact hT) (by omega)
      rw [hU0] at this
      simp [this]
    · subst h2
      have := cox_last hk (i := j) (by rw [hlen, hfirst _ (by omega)]; exact hT) (by omega)
      rw [if_pos (by omega)] at this
      rw [show lastKnot U / 100 * ((100 : ℕ) : K) = lastKnot U by push_cast; field_simp, this]
      exact one_ne_zero
    · have hj1 : (1 : K) ≤ j := by exact_mod_cast Nat.one_le_iff_ne_zero.2 h1
      have hj2 : (j : K) < 100 := by exact_mod_cast (show j < 100 by omega)
      refine (cox_pos hk (by omega) ?_ ?_).ne'
      · rw [hfirst j (by omega)]; positivity
      · rw [hlast _ (by omega) (by omega)]
        calc lastKnot U / 100 * (j : K) < lastKnot U / 100 * 100 := mul_lt_mul_of_pos_left hj2 (by positivity)
          _ = lastKnot U := by field_simp

/-- **C103**, blindness: for every B-spline curve over a range from 0 with more than 101 control points there is a parameter `t` such that for every
number `B` another B-spline curve with the same knots and the same degree is accepted with tolerance zero although its first coordinate at
`t` is larger by `B`. -/
theorem C103_blind {a : Spl K} (ha : WFSpl a) (hab : IsBSpline a) {U : List K} {p : ℕ} (hU : a.ps.knots = [U]) (hp : a.ps.degree = [p])
    (hU0 : knot U 0 = 0) (hnd : NonDegenerate U p) (hmany : 101 < U.length - p - 1) :
    ∃ t, 0 ≤ t ∧ t ≤ lastKnot U ∧ ∀ B : K, ∃ b u, WFSpl b ∧ IsBSpline b ∧ b.ps.knots = [U] ∧ b.ps.degree = [p] ∧ b.ph.dim = a.ph.dim ∧
      a.areGeometricallyEqual b 0 = .ok true ∧ a.evaluate [t] [0] = .ok [u] ∧ b.evaluate [t] [0] = .ok [u + B] := by
  have hk : WFKnots U p := by
    have := ha.knots
    rw [hU, hp] at this
    cases this with
    | cons h1 _ => exact h1
  set n := U.length - p - 1 with hn
  let F : (Fin n → K) →ₗ[K] (Fin 101 → K) := Matrix.mulVecLin (Matrix.of fun (i : Fin 101) (j : Fin n) => coxDeBoor U p j (lastKnot U / 100 * (i : K)))
  have hF : LinearMap.ker F ≠ ⊥ := F.ker_ne_bot_of_finrank_lt (by simpa using hmany)
  obtain ⟨v, hv, hv0⟩ := (Submodule.ne_bot_iff _).1 hF
  let w : ℕ → K := fun i => if hi : i < n then v ⟨i, hi⟩ else 0
  have hzero : ∀ i : ℕ, i ≤ 100 → ∑ j ∈ range n, coxDeBoor U p j (lastKnot U / 100 * (i : K)) * w j = 0 := by
    intro i hi
    have := congrFun (LinearMap.mem_ker.1 hv) ⟨i, by omega⟩
    simp only [F, Matrix.mulVecLin_apply, Matrix.mulVec, dotProduct, Matrix.of_apply, Pi.zero_apply] at this
    rw [← Fin.sum_univ_eq_sum_range (fun j => coxDeBoor U p j (lastKnot U / 100 * (i : K)) * w j), ← this]
    exact Finset.sum_congr rfl fun j _ => by simp [w]
  obtain ⟨t, h0, h1, hne⟩ : ∃ t, knot U 0 ≤ t ∧ t < lastKnot U ∧ ∑ j ∈ range n, coxDeBoor U p j t * w j ≠ 0 := by
    by_contra hc
    push Not at hc
    refine hv0 (funext fun i => ?_)
    have := cox_independent hk.sorted hnd (c := w) hc i i.2
    simpa [w] using this
  refine ⟨t, hU0 ▸ h0, h1.le, fun B => ?_⟩
  set S := ∑ j ∈ range n, coxDeBoor U p j t * w j with hS
  have hd := ha.dim
  let C : ℕ → ℕ → K := fun i c => cpt a [i] c + if c = 0 then B / S * w i else 0
  have hw := curveOf_wf hk hd C
  have hval : ∀ x c, c < a.ph.dim → bsplineValue (curveOf U p a.ph.dim C) [x] c =
      bsplineValue a [x] c + if c = 0 then B / S * ∑ j ∈ range n, coxDeBoor U p j x * w j else 0 := by
    intro x c hc
    rw [bspline_curve rfl rfl, bspline_curve hU hp]
    have : ∀ i ∈ range n, coxDeBoor U p i x * cpt (curveOf U p a.ph.dim C) [i] c =
        coxDeBoor U p i x * cpt a [i] c + (if c = 0 then B / S else 0) * (coxDeBoor U p i x * w i) := by
      intro i hi
      rw [curveOf_cpt C (mem_range.1 hi) hc]
      simp only [C]
      split_ifs <;> ring
    rw [Finset.sum_congr rfl this, Finset.sum_add_distrib, ← Finset.mul_sum]
    split_ifs
    · rfl
    · rw [zero_mul]
  have hx : InDomain a [t] := by unfold InDomain; rw [hU]; exact .cons ⟨h0, h1.le⟩ .nil
  refine ⟨curveOf U p a.ph.dim C, bsplineValue a [t] 0, hw, rfl, rfl, rfl, rfl, ?_, ?_, ?_⟩
  · rw [accepted_zero_iff ha hw hab rfl hU rfl hU0 rfl]
    intro i hi c hc
    rw [hval _ _ hc, hzero i hi]
    simp
  · exact evaluate_bspline ha hab hx [0] (by simpa using hd)
  · have := evaluate_bspline hw rfl (x := [t]) (.cons ⟨h0, h1.le⟩ .nil) [0] (fun c hc => by rw [List.mem_singleton.1 hc]; exact hd)
    rw [List.map_singleton, hval _ _ hd, if_pos rfl, ← hS, div_mul_cancel₀ _ hne] at this
    exact this

/-! ### Inputs that meet the hypotheses -/

/-- The knots `0, 1, …, m`. -/
noncomputable def natKnots (m : ℕ) : List ℝ := (List.range (m + 1)).map (fun i : ℕ => (i : ℝ))

theorem natKnots_knot {m i : ℕ} (h : i ≤ m) : knot (natKnots m) i = i := by
  simp [knot, natKnots, List.getD_eq_getElem?_getD, List.getElem?_range (show i < m + 1 by omega)]

theorem natKnots_wf {m : ℕ} (hm : 1 ≤ m) : WFKnots (natKnots m) 0 := by
  have hl : (natKnots m).length = m + 1 := by simp [natKnots]
  have hlast : lastKnot (natKnots m) = m := by unfold lastKnot; rw [hl]; exact natKnots_knot (by omega)
  refine ⟨?_, by omega, fun j hj => by rw [Nat.le_zero.1 hj], fun j hj => by rw [Nat.le_zero.1 hj]; rfl, ?_, ?_⟩
  · unfold SortedKnots natKnots
    rw [List.pairwise_map]
    exact (List.pairwise_lt_range (n := m + 1)).imp fun h => by exact_mod_cast h.le
  · rw [hlast, natKnots_knot (by omega)]; exact_mod_cast hm
  · intro x hx y hy hxy
    obtain ⟨i, -, rfl⟩ := List.mem_map.1 hx
    obtain ⟨j, -, rfl⟩ := List.mem_map.1 hy
    have : ((i + 1 : ℕ) : ℝ) ≤ j := by exact_mod_cast Nat.succ_le_of_lt (by exact_mod_cast hxy)
    push_cast at this
    have h2 : kEps ℝ ≤ 1 := by unfold kEps; norm_num
    linarith

/-- `C103_blind`: the constant curve with 102 spans. -/
example : WFSpl (curveOf (natKnots 102) 0 1 fun _ _ => 0) ∧ IsBSpline (curveOf (natKnots 102) 0 1 fun _ _ => 0) ∧ knot (natKnots 102) 0 = 0 ∧
    NonDegenerate (natKnots 102) 0 ∧ 101 < (natKnots 102).length - 0 - 1 := by
  refine ⟨curveOf_wf (natKnots_wf (by omega)) one_pos _, rfl, by rw [natKnots_knot (by omega)]; simp, ?_, by simp [natKnots]⟩
  intro i hi
  have hl : (natKnots 102).length = 103 := by simp [natKnots]
  rw [natKnots_knot (by omega), natKnots_knot (by omega)]
  push_cast
  linarith

theorem unitKnots_wf : WFKnots ([0, 0, 1, 1] : List ℝ) 1 := by
  refine ⟨by simp [SortedKnots], by simp, ?_, ?_, by simp [knot, lastKnot], ?_⟩
  · intro j hj
    interval_cases j <;> simp [knot]
  · intro j hj
    interval_cases j <;> simp [knot, lastKnot]
  · have h2 : kEps ℝ ≤ 1 := by unfold kEps; norm_num
    intro x hx y hy hxy
    simp only [List.mem_cons, List.not_mem_nil, or_false] at hx hy
    rcases hx with rfl | rfl | rfl | rfl <;> rcases hy with rfl | rfl | rfl | rfl <;> first | (simpa using h2) | (exact absurd hxy (by norm_num))

/-- `C103_between_samples` and `C103_bezier`: the line from 0 to 1 and itself; the slopes of the control polygon are 1. -/
example : let a := curveOf ([0, 0, 1, 1] : List ℝ) 1 1 fun i _ => (i : ℝ)
    WFSpl a ∧ IsBSpline a ∧ a.areGeometricallyEqual a 0 = .ok true ∧ PolygonSlope a [0, 0, 1, 1] 1 0 1 := by
  intro a
  have hw : WFSpl a := curveOf_wf unitKnots_wf one_pos _
  refine ⟨hw, rfl, (C103_bezier hw hw rfl rfl rfl rfl rfl rfl (by simp [knot]) rfl rfl (by omega)).2 rfl, ?_⟩
  intro i hi
  obtain rfl : i = 0 := by simp at hi; omega
  rw [curveOf_cpt _ (by simp) one_pos, curveOf_cpt _ (by simp) one_pos]
  simp [greville, innerWindow, knot]

end SplineLib
