import Verif.Props.SurfaceSampling

/-!
# How far the hexahedra in VTK files are from the volumes

As for surfaces (`Props/SurfaceSampling.lean`): the trilinear interpolation of the corners of a box of parameters differs from the volume by at most an eighth
of the three pure second derivatives of `EvaluateDerivative` (`/repo/src/spl/spline.h:67-84`) times the squares of the sides. The corners of the cells of
the VTK writer (`/repo/src/io/vtk_writer_utils.h:52-65`) are such corners.
-/

namespace SplineLib
set_option linter.unusedSectionVars false
open Finset Topology

theorem blend_close {p a b a' b' e e' u : ℝ} (u0 : 0 ≤ u) (u1 : u ≤ 1) (h : |p - ((1 - u) * a + u * b)| ≤ e) (ha : |a - a'| ≤ e') (hb : |b - b'| ≤ e') :
    |p - ((1 - u) * a' + u * b')| ≤ e + e' := by
  have h1 := abs_le.1 h
  have h2 := abs_le.1 ha
  have h3 := abs_le.1 hb
  have m1 := mul_le_mul_of_nonneg_left h2.1 (sub_nonneg.2 u1)
  have m2 := mul_le_mul_of_nonneg_left h2.2 (sub_nonneg.2 u1)
  have m3 := mul_le_mul_of_nonneg_left h3.1 u0
  have m4 := mul_le_mul_of_nonneg_left h3.2 u0
  rw [abs_le]
  constructor <;> nlinarith

/-- **C116 (volumes).** A volume differs from the trilinear interpolation of eight of its points by at most
`(Mu (b - a)² + Mv (b' - a')² + Mw (b'' - a'')²) / 8`. -/
theorem C116_volume {s : Spl ℝ} (h : WFSpl s) (hall : SmoothDirections s) {U V W : List ℝ} (hU : s.ps.knots = [U, V, W]) {c : ℕ} (hc : c < s.ph.dim)
    {Mu Mv Mw : ℝ} (hMu : ∀ x y z, InDomain s [x, y, z] → ∃ v, s.evaluateDerivative [x, y, z] [(c : ℤ)] [2, 0, 0] = .ok [v] ∧ |v| ≤ Mu)
    (hMv : ∀ x y z, InDomain s [x, y, z] → ∃ v, s.evaluateDerivative [x, y, z] [(c : ℤ)] [0, 2, 0] = .ok [v] ∧ |v| ≤ Mv)
    (hMw : ∀ x y z, InDomain s [x, y, z] → ∃ v, s.evaluateDerivative [x, y, z] [(c : ℤ)] [0, 0, 2] = .ok [v] ∧ |v| ≤ Mw) {f : ℝ → ℝ → ℝ → ℝ}
    (hf : ∀ x y z, InDomain s [x, y, z] → s.evaluate [x, y, z] [(c : ℤ)] = .ok [f x y z]) {a b a' b' a'' b'' : ℝ}
    (ha : knot U 0 ≤ a) (hab : a ≤ b) (hb : b ≤ lastKnot U) (ha' : knot V 0 ≤ a') (hab' : a' ≤ b') (hb' : b' ≤ lastKnot V)
    (ha'' : knot W 0 ≤ a'') (hab'' : a'' ≤ b'') (hb'' : b'' ≤ lastKnot W) {u v w : ℝ} (u0 : 0 ≤ u) (u1 : u ≤ 1) (v0 : 0 ≤ v) (v1 : v ≤ 1)
    (w0 : 0 ≤ w) (w1 : w ≤ 1) :
    |f (a + u * (b - a)) (a' + v * (b' - a')) (a'' + w * (b'' - a'')) -
      ((1 - u) * ((1 - v) * ((1 - w) * f a a' a'' + w * f a a' b'') + v * ((1 - w) * f a b' a'' + w * f a b' b'')) +
        u * ((1 - v) * ((1 - w) * f b a' a'' + w * f b a' b'') + v * ((1 - w) * f b b' a'' + w * f b b' b'')))| ≤
      (Mu * (b - a) ^ 2 + Mv * (b' - a') ^ 2 + Mw * (b'' - a'') ^ 2) / 8 := by
  have hdom : ∀ x y z, knot U 0 ≤ x → x ≤ lastKnot U → knot V 0 ≤ y → y ≤ lastKnot V → knot W 0 ≤ z → z ≤ lastKnot W → InDomain s [x, y, z] :=
    fun x y z g1 g2 g3 g4 g5 g6 => by unfold InDomain; rw [hU]; exact .cons ⟨g1, g2⟩ (.cons ⟨g3, g4⟩ (.cons ⟨g5, g6⟩ .nil))
  have hv : 0 ≤ v * (b' - a') ∧ v * (b' - a') ≤ b' - a' := ⟨mul_nonneg v0 (by linarith), by nlinarith⟩
  have hw : 0 ≤ w * (b'' - a'') ∧ w * (b'' - a'') ≤ b'' - a'' := ⟨mul_nonneg w0 (by linarith), by nlinarith⟩
  set y := a' + v * (b' - a') with hy
  set z := a'' + w * (b'' - a'') with hz
  have y0 : knot V 0 ≤ y := by linarith
  have y1 : y ≤ lastKnot V := by linarith
  have z0 : knot W 0 ≤ z := by linarith
  have z1 : z ≤ lastKnot W := by linarith
  have e1 := C116_chord h hall (d := 0) (U := U) (by rw [hU]; rfl) (hdom a y z ha (hab.trans hb) y0 y1 z0 z1) hc (M := Mu)
    (fun t g0 g1 => by rw [hU]; exact hMu t y z (hdom t y z g0 g1 y0 y1 z0 z1)) (f := fun t => f t y z)
    (fun t g0 g1 => hf t y z (hdom t y z g0 g1 y0 y1 z0 z1)) ha hab hb u0 u1
  have e2 : ∀ x, knot U 0 ≤ x → x ≤ lastKnot U → |f x y z - ((1 - v) * f x a' z + v * f x b' z)| ≤ Mv * (b' - a') ^ 2 / 8 := fun x g0 g1 =>
    C116_chord h hall (d := 1) (U := V) (by rw [hU]; rfl) (hdom x y z g0 g1 y0 y1 z0 z1) hc (M := Mv)
      (fun t k0 k1 => by rw [hU]; exact hMv x t z (hdom x t z g0 g1 k0 k1 z0 z1)) (f := fun t => f x t z)
      (fun t k0 k1 => hf x t z (hdom x t z g0 g1 k0 k1 z0 z1)) ha' hab' hb' v0 v1
  have e3 : ∀ x, knot U 0 ≤ x → x ≤ lastKnot U → ∀ y, knot V 0 ≤ y → y ≤ lastKnot V →
      |f x y z - ((1 - w) * f x y a'' + w * f x y b'')| ≤ Mw * (b'' - a'') ^ 2 / 8 := fun x g0 g1 y g2 g3 =>
    C116_chord h hall (d := 2) (U := W) (by rw [hU]; rfl) (hdom x y z g0 g1 g2 g3 z0 z1) hc (M := Mw)
      (fun t k0 k1 => by rw [hU]; exact hMw x y t (hdom x y t g0 g1 g2 g3 k0 k1)) (f := fun t => f x y t)
      (fun t k0 k1 => hf x y t (hdom x y t g0 g1 g2 g3 k0 k1)) ha'' hab'' hb'' w0 w1
  have e4 : ∀ x, knot U 0 ≤ x → x ≤ lastKnot U →
      |f x y z - ((1 - v) * ((1 - w) * f x a' a'' + w * f x a' b'') + v * ((1 - w) * f x b' a'' + w * f x b' b''))| ≤
        Mv * (b' - a') ^ 2 / 8 + Mw * (b'' - a'') ^ 2 / 8 := fun x g0 g1 =>
    blend_close v0 v1 (e2 x g0 g1) (e3 x g0 g1 a' ha' (hab'.trans hb')) (e3 x g0 g1 b' (ha'.trans hab') hb')
  refine (blend_close u0 u1 e1 (e4 a ha (hab.trans hb)) (e4 b (ha.trans hab) hb)).trans (le_of_eq ?_)
  ring

namespace Vtk

/-- The points of a volume in a VTK file. -/
theorem volume_points {s : Spl ℝ} (h : WFSpl s) {U V W : List ℝ} (hU : s.ps.knots = [U, V, W]) {n m l : ℕ} (hn : 0 < n) (hm : 0 < m) (hl : 0 < l) :
    ∃ file, writeFile [s] [[(n : ℤ), (m : ℤ), (l : ℤ)]] = .ok file ∧ ∀ i ≤ n, ∀ j ≤ m, ∀ k ≤ l, ∃ P,
      file.points[i + (n + 1) * (j + (m + 1) * k)]? = some P ∧ ∀ c < s.ph.dim, c < 3 →
        s.evaluate [knot U 0 + (i : ℝ) * (lastKnot U - knot U 0) / n, knot V 0 + (j : ℝ) * (lastKnot V - knot V 0) / m,
          knot W 0 + (k : ℝ) * (lastKnot W - knot W 0) / l] [(c : ℤ)] = .ok [P.getD c 0] := by
  obtain ⟨file, e1, e2, -⟩ := C39_file (splines := [s]) (nss := [[n, m, l]]) (.cons ⟨h, by rw [hU]; rfl, by simp; omega, Or.inr (Or.inr rfl)⟩ .nil)
  have e3 : file.points = gridValues s [n, m, l] := by simpa using e2
  have hg : gridPoints [n, m, l] = (n + 1) * ((m + 1) * (l + 1)) := by simp [gridPoints]
  have hrange : ∀ (d : ℕ) (X : List ℝ), s.ps.knots[d]? = some X → knot X 0 < lastKnot X := fun d X hX =>
    (forall₂_get h.knots hX (List.getElem?_eq_getElem (by rw [← h.knots.length_eq]; exact lt_of_some hX))).range
  have hwU := hrange 0 U (by rw [hU]; rfl)
  have hwV := hrange 1 V (by rw [hU]; rfl)
  have hwW := hrange 2 W (by rw [hU]; rfl)
  refine ⟨file, e1, fun i hi j hj k hk => ⟨padded s [knot U 0 + (i : ℝ) * (lastKnot U - knot U 0) / n, knot V 0 + (j : ℝ) * (lastKnot V - knot V 0) / m,
    knot W 0 + (k : ℝ) * (lastKnot W - knot W 0) / l], ?_, fun c hc hc3 => ?_⟩⟩
  · have hlt1 : j + (m + 1) * k < (m + 1) * (l + 1) := by
      calc j + (m + 1) * k < (m + 1) + (m + 1) * k := by omega
        _ = (m + 1) * (k + 1) := by ring
        _ ≤ _ := Nat.mul_le_mul_left _ (by omega)
    have hlt : i + (n + 1) * (j + (m + 1) * k) < (n + 1) * ((m + 1) * (l + 1)) := by
      calc i + (n + 1) * (j + (m + 1) * k) < (n + 1) + (n + 1) * (j + (m + 1) * k) := by omega
        _ = (n + 1) * (j + (m + 1) * k + 1) := by ring
        _ ≤ _ := Nat.mul_le_mul_left _ (by omega)
    have hmod : (i + (n + 1) * (j + (m + 1) * k)) % (n + 1) = i := by rw [Nat.add_mul_mod_self_left, Nat.mod_eq_of_lt (by omega)]
    have hdiv : (i + (n + 1) * (j + (m + 1) * k)) / (n + 1) = j + (m + 1) * k := by
      rw [Nat.add_mul_div_left _ _ (by omega), Nat.div_eq_of_lt (by omega), Nat.zero_add]
    have hmod' : (j + (m + 1) * k) % (m + 1) = j := by rw [Nat.add_mul_mod_self_left, Nat.mod_eq_of_lt (by omega)]
    have hdiv' : (j + (m + 1) * k) / (m + 1) = k := by rw [Nat.add_mul_div_left _ _ (by omega), Nat.div_eq_of_lt (by omega), Nat.zero_add]
    rw [e3, gridValues, List.getElem?_map, List.getElem?_range (by rw [hg]; exact hlt)]
    simp [gridParam, hU, unlin, hmod, hdiv, hmod', hdiv', Nat.mod_eq_of_lt (Nat.lt_succ_of_le hk)]
  · have hdom : InDomain s [knot U 0 + (i : ℝ) * (lastKnot U - knot U 0) / n, knot V 0 + (j : ℝ) * (lastKnot V - knot V 0) / m,
        knot W 0 + (k : ℝ) * (lastKnot W - knot W 0) / l] := by
      rw [InDomain, hU]
      exact .cons (point_param_range hwU hn hi) (.cons (point_param_range hwV hm hj) (.cons (point_param_range hwW hl hk) .nil))
    have hP : (padded s [knot U 0 + (i : ℝ) * (lastKnot U - knot U 0) / n, knot V 0 + (j : ℝ) * (lastKnot V - knot V 0) / m,
        knot W 0 + (k : ℝ) * (lastKnot W - knot W 0) / l]).getD c 0 =
        splineValue s [knot U 0 + (i : ℝ) * (lastKnot U - knot U 0) / n, knot V 0 + (j : ℝ) * (lastKnot V - knot V 0) / m,
          knot W 0 + (k : ℝ) * (lastKnot W - knot W 0) / l] c := by
      rw [padded, List.getD_eq_getElem _ _ (by simpa using hc3)]
      simp [hc]
    rw [hP]
    cases hwt : s.ph.weights with
    | none =>
      have := evaluate_bspline h hwt hdom [c] (by simpa using hc)
      simpa [splineValue, hwt] using this
    | some w =>
      have := evaluate_nurbs h ⟨w, hwt⟩ hdom [c] (by simpa using hc.le)
      simpa [splineValue, hwt, hc.ne] using this

/-- **C116 (VTK files of volumes).** The trilinear interpolation of the corners of every cell of the VTK file of a volume differs from the volume by at
most `(Mu (side)² + Mv (side')² + Mw (side'')²) / 8` in every coordinate. -/
theorem C116_vtk_volume {s : Spl ℝ} (h : WFSpl s) (hall : SmoothDirections s) {U V W : List ℝ} (hU : s.ps.knots = [U, V, W]) {n m l : ℕ} (hn : 0 < n)
    (hm : 0 < m) (hl : 0 < l) {Mu Mv Mw : ℝ}
    (hMu : ∀ c < s.ph.dim, ∀ x y z, InDomain s [x, y, z] → ∃ v, s.evaluateDerivative [x, y, z] [(c : ℤ)] [2, 0, 0] = .ok [v] ∧ |v| ≤ Mu)
    (hMv : ∀ c < s.ph.dim, ∀ x y z, InDomain s [x, y, z] → ∃ v, s.evaluateDerivative [x, y, z] [(c : ℤ)] [0, 2, 0] = .ok [v] ∧ |v| ≤ Mv)
    (hMw : ∀ c < s.ph.dim, ∀ x y z, InDomain s [x, y, z] → ∃ v, s.evaluateDerivative [x, y, z] [(c : ℤ)] [0, 0, 2] = .ok [v] ∧ |v| ≤ Mw) :
    ∃ file, writeFile [s] [[(n : ℤ), (m : ℤ), (l : ℤ)]] = .ok file ∧ ∀ i < n, ∀ j < m, ∀ k < l, ∃ P : ℕ → ℕ → ℕ → List ℝ,
      (∀ α ≤ 1, ∀ β ≤ 1, ∀ γ ≤ 1, file.points[i + α + (n + 1) * (j + β + (m + 1) * (k + γ))]? = some (P α β γ)) ∧
      ∀ c < s.ph.dim, c < 3 → ∀ u v w : ℝ, 0 ≤ u → u ≤ 1 → 0 ≤ v → v ≤ 1 → 0 ≤ w → w ≤ 1 → ∃ y,
        s.evaluate [knot U 0 + (i + u) * (lastKnot U - knot U 0) / n, knot V 0 + (j + v) * (lastKnot V - knot V 0) / m,
          knot W 0 + (k + w) * (lastKnot W - knot W 0) / l] [(c : ℤ)] = .ok [y] ∧
        |y - ((1 - u) * ((1 - v) * ((1 - w) * (P 0 0 0).getD c 0 + w * (P 0 0 1).getD c 0) + v * ((1 - w) * (P 0 1 0).getD c 0 + w * (P 0 1 1).getD c 0)) +
          u * ((1 - v) * ((1 - w) * (P 1 0 0).getD c 0 + w * (P 1 0 1).getD c 0) + v * ((1 - w) * (P 1 1 0).getD c 0 + w * (P 1 1 1).getD c 0)))| ≤
          (Mu * ((lastKnot U - knot U 0) / n) ^ 2 + Mv * ((lastKnot V - knot V 0) / m) ^ 2 + Mw * ((lastKnot W - knot W 0) / l) ^ 2) / 8 := by
  obtain ⟨file, e1, e3⟩ := volume_points h hU hn hm hl
  refine ⟨file, e1, fun i hi j hj k hk => ?_⟩
  choose! Q hQ eQ using e3
  refine ⟨fun α β γ => Q (i + α) (j + β) (k + γ), fun α hα β hβ γ hγ => hQ _ (by omega) _ (by omega) _ (by omega), fun c hc hc3 u v w u0 u1 v0 v1 w0 w1 => ?_⟩
  have hn' : (0 : ℝ) < n := by exact_mod_cast hn
  have hm' : (0 : ℝ) < m := by exact_mod_cast hm
  have hl' : (0 : ℝ) < l := by exact_mod_cast hl
  have hrange : ∀ (d : ℕ) (X : List ℝ), s.ps.knots[d]? = some X → knot X 0 < lastKnot X := fun d X hX =>
    (forall₂_get h.knots hX (List.getElem?_eq_getElem (by rw [← h.knots.length_eq]; exact lt_of_some hX))).range
  have hwU := hrange 0 U (by rw [hU]; rfl)
  have hwV := hrange 1 V (by rw [hU]; rfl)
  have hwW := hrange 2 W (by rw [hU]; rfl)
  have hval : ∀ x y z, InDomain s [x, y, z] → s.evaluate [x, y, z] [(c : ℤ)] = .ok [nurbsValue s [x, y, z] c] := fun x y z hx =>
    evaluate_quotient h hx [c] (by simpa using hc)
  have rU0 := point_param_range hwU hn (j := i + 0) hi.le
  have rU1 := point_param_range hwU hn (j := i + 1) hi
  have rV0 := point_param_range hwV hm (j := j + 0) hj.le
  have rV1 := point_param_range hwV hm (j := j + 1) hj
  have rW0 := point_param_range hwW hl (j := k + 0) hk.le
  have rW1 := point_param_range hwW hl (j := k + 1) hk
  have hsU : 0 < (lastKnot U - knot U 0) / n := div_pos (by linarith) hn'
  have hsV : 0 < (lastKnot V - knot V 0) / m := div_pos (by linarith) hm'
  have hsW : 0 < (lastKnot W - knot W 0) / l := div_pos (by linarith) hl'
  have dd : ∀ (X : List ℝ) (i n : ℕ), knot X 0 + ((i + 1 : ℕ) : ℝ) * (lastKnot X - knot X 0) / n - (knot X 0 + ((i + 0 : ℕ) : ℝ) * (lastKnot X - knot X 0) / n) =
      (lastKnot X - knot X 0) / n := fun X i n => by push_cast; ring
  have mm : ∀ (X : List ℝ) (i n : ℕ) (u : ℝ), knot X 0 + ((i + 0 : ℕ) : ℝ) * (lastKnot X - knot X 0) / n + u * ((lastKnot X - knot X 0) / n) =
      knot X 0 + (i + u) * (lastKnot X - knot X 0) / n := fun X i n u => by push_cast; ring
  have key := C116_volume h hall hU hc (hMu c hc) (hMv c hc) (hMw c hc) (f := fun x y z => nurbsValue s [x, y, z] c) hval
    rU0.1 (by linarith [dd U i n]) rU1.2 rV0.1 (by linarith [dd V j m]) rV1.2 rW0.1 (by linarith [dd W k l]) rW1.2 u0 u1 v0 v1 w0 w1
  rw [dd, dd, dd, mm, mm, mm] at key
  have hdom : ∀ x y z, (knot U 0 ≤ x ∧ x ≤ lastKnot U) → (knot V 0 ≤ y ∧ y ≤ lastKnot V) → (knot W 0 ≤ z ∧ z ≤ lastKnot W) → InDomain s [x, y, z] :=
    fun x y z g1 g2 g3 => by unfold InDomain; rw [hU]; exact .cons g1 (.cons g2 (.cons g3 .nil))
  have ev : ∀ α ≤ 1, ∀ β ≤ 1, ∀ γ ≤ 1, nurbsValue s [knot U 0 + ((i + α : ℕ) : ℝ) * (lastKnot U - knot U 0) / n,
      knot V 0 + ((j + β : ℕ) : ℝ) * (lastKnot V - knot V 0) / m, knot W 0 + ((k + γ : ℕ) : ℝ) * (lastKnot W - knot W 0) / l] c =
      (Q (i + α) (j + β) (k + γ)).getD c 0 := fun α hα β hβ γ hγ => by
    have := (hval _ _ _ (hdom _ _ _ (point_param_range hwU hn (j := i + α) (by omega)) (point_param_range hwV hm (j := j + β) (by omega))
      (point_param_range hwW hl (j := k + γ) (by omega)))).symm.trans (eQ _ (by omega) _ (by omega) _ (by omega) c hc hc3)
    simpa using this
  rw [ev 0 (by omega) 0 (by omega) 0 (by omega), ev 0 (by omega) 0 (by omega) 1 (by omega), ev 0 (by omega) 1 (by omega) 0 (by omega),
    ev 0 (by omega) 1 (by omega) 1 (by omega), ev 1 (by omega) 0 (by omega) 0 (by omega), ev 1 (by omega) 0 (by omega) 1 (by omega),
    ev 1 (by omega) 1 (by omega) 0 (by omega), ev 1 (by omega) 1 (by omega) 1 (by omega)] at key
  refine ⟨_, hval _ _ _ (hdom _ _ _ ⟨?_, ?_⟩ ⟨?_, ?_⟩ ⟨?_, ?_⟩), key⟩
  · rw [← mm]; linarith [rU0.1, mul_nonneg u0 hsU.le]
  · rw [← mm]; linarith [rU1.2, dd U i n, mul_le_of_le_one_left hsU.le u1]
  · rw [← mm]; linarith [rV0.1, mul_nonneg v0 hsV.le]
  · rw [← mm]; linarith [rV1.2, dd V j m, mul_le_of_le_one_left hsV.le v1]
  · rw [← mm]; linarith [rW0.1, mul_nonneg w0 hsW.le]
  · rw [← mm]; linarith [rW1.2, dd W k l, mul_le_of_le_one_left hsW.le w1]

/-- A volume of degree 2 with an interior knot in the first direction and of degree 1 in the others. -/
noncomputable def exBlock : Spl ℝ :=
  ⟨⟨[[0, 0, 0, 1, 2, 2, 2], [0, 0, 1, 1], [0, 0, 1, 1]], [2, 1, 1], mkTable [[0, 0, 0, 1, 2, 2, 2], [0, 0, 1, 1], [0, 0, 1, 1]] [2, 1, 1]⟩,
    ⟨1, [4, 2, 2], [1, 2, 3, 4, 2, 3, 4, 5, 1, 2, 3, 4, 2, 3, 4, 5], none⟩⟩

/-- It meets the hypotheses on the knots. -/
example : WFSpl exBlock ∧ SmoothDirections exBlock := by
  have hk : List.Forall₂ WFKnots exBlock.ps.knots exBlock.ps.degree := .cons exSmooth_knots (.cons exKnotsR_wf (.cons exKnotsR_wf .nil))
  refine ⟨⟨hk, basisTable_eq (forall₂_size hk), by simp [exBlock, npts], by simp [exBlock], by simp [exBlock, npts], by simp [exBlock]⟩, ?_⟩
  intro d U p hU hp t ht h0 h1
  have hs := exSheet_smooth
  rcases d with _ | _ | _ | d
  · exact hs 0 U p hU hp t ht h0 h1
  · exact hs 1 U p hU hp t ht h0 h1
  · exact hs 1 U p hU hp t ht h0 h1
  · simp [exBlock] at hU

/-- The second derivatives in the second and the third direction are zero. -/
example (x y z : ℝ) : (tensorDerivSum exBlock [x, y, z] [0, 2, 0] fun I => cpt exBlock I 0) = 0 ∧
    (tensorDerivSum exBlock [x, y, z] [0, 0, 2] fun I => cpt exBlock I 0) = 0 := by
  constructor <;> simp [tensorDerivSum, exBlock, npts, msum, dprod, basisDerivFns, sum_range_succ, coxDeBoorDeriv]

end Vtk
end SplineLib
