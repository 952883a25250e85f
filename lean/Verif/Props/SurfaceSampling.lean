import Verif.Props.Isoparametric

/-!
# How far the quadrilaterals in VTK files are from the surfaces

The VTK writer (`/repo/src/io/vtk_writer.cc:20-137`, `/repo/src/io/vtk_writer_utils.h:28-65`) replaces a surface by quadrilaterals between sampled points.
The bilinear interpolation of the corners of a cell differs from the surface by at most an eighth of the second derivatives that `EvaluateDerivative`
(`/repo/src/spl/spline.h:67-84`) returns, times the squares of the sides of the cell in the parameters.
-/

namespace SplineLib
set_option linter.unusedSectionVars false
open Finset Topology

/-- No interior knot of any direction has a multiplicity of the degree or more. -/
def SmoothDirections (s : Spl ℝ) : Prop :=
  ∀ (d : ℕ) (U : List ℝ) (p : ℕ), s.ps.knots[d]? = some U → s.ps.degree[d]? = some p → ∀ t ∈ U, knot U 0 < t → t < lastKnot U → U.count t + 1 ≤ p

theorem zeros_getD (l : List (List ℝ)) {d k : ℕ} (hd : d < l.length) (e : ℕ) :
    ((l.map fun _ => 0).set d k).getD e 0 = if e = d then k else 0 := by
  rw [List.getD_eq_getElem?_getD]
  split_ifs with h1
  · rw [h1, List.getElem?_set_self (by simpa using hd)]; rfl
  · rw [List.getElem?_set_ne (fun g => h1 g.symm), List.getElem?_map]
    cases l[e]? <;> rfl

/-- The values and the derivatives along a line of one direction as functions. -/
theorem line_functions {s : Spl ℝ} (h : WFSpl s) (hall : SmoothDirections s) {d : ℕ} {U : List ℝ} {p : ℕ} (hU : s.ps.knots[d]? = some U)
    (hp : s.ps.degree[d]? = some p) {x : List ℝ} (hx : InDomain s x) {c : ℕ} (hc : c < s.ph.dim) :
    ∃ F : ℕ → ℝ → ℝ,
      (∀ (k : ℕ) t, knot U 0 ≤ t → t ≤ lastKnot U → s.evaluateDerivative (x.set d t) [(c : ℤ)] (zl ((s.ps.knots.map fun _ => 0).set d k)) = .ok [F k t]) ∧
      (∀ t, knot U 0 ≤ t → t ≤ lastKnot U → s.evaluate (x.set d t) [(c : ℤ)] = .ok [F 0 t]) ∧
      (∀ k t, knot U 0 ≤ t → t < lastKnot U → HasDerivWithinAt (F k) (F (k + 1) t) (Set.Ici t) t) ∧
      (∀ k ≤ 1, ContinuousOn (F k) (Set.Icc (knot U 0) (lastKnot U))) ∧
      (∀ t, knot U 0 < t → t < lastKnot U → HasDerivAt (F 0) (F 1 t) t) := by
  obtain ⟨G, g1, g2, g3⟩ := deriv_values h
  have hd : d < s.ps.knots.length := lt_of_some hU
  have hxl : x.length = s.ps.knots.length := (List.Forall₂.length_eq hx).symm
  let z : ℕ → List ℕ := fun k => (s.ps.knots.map fun _ => 0).set d k
  have hz : ∀ k, (z k).length = s.ps.knots.length := fun k => by simp [z]
  have hmod : ∀ k, (z k).modify d (· + 1) = z (k + 1) := fun k => by
    refine List.ext_getElem (by simp [z]) fun n h1 h2 => ?_
    rw [List.getElem_modify]
    simp only [z, List.getElem_set]
    split_ifs <;> rfl
  have hz0 : z 0 = s.ps.knots.map fun _ => 0 := by
    refine List.ext_getElem (by simp [z]) fun n h1 h2 => ?_
    simp only [z, List.getElem_set]
    split_ifs <;> simp
  have hget : ∀ t, (x.set d t).getD d 0 = t := fun t => by
    rw [List.getD_eq_getElem?_getD, List.getElem?_set_self (by omega)]; rfl
  have hdom : ∀ t, knot U 0 ≤ t → t ≤ lastKnot U → InDomain s (x.set d t) := fun t h0 h1 => inDomain_set hx hU h0 h1
  have e1 : ∀ (k : ℕ) t, knot U 0 ≤ t → t ≤ lastKnot U → s.evaluateDerivative (x.set d t) (zl [c]) (zl (z k)) = .ok [G c (z k) (x.set d t)] :=
    fun k t h0 h1 => g1 _ (z k) [c] (hdom t h0 h1) (hz k) (by simpa using hc)
  refine ⟨fun k t => G c (z k) (x.set d t), e1, fun t h0 h1 => ?_, fun k t h0 h1 => ?_, fun k hk => ?_, fun t h0 h1 => ?_⟩
  · have := g2 _ [c] (hdom t h0 h1) (by simpa using hc)
    rw [← hz0] at this
    exact this
  · have := (g3 (x.set d t) (z k) c d U (hdom t h0 h1.le) (hz k) hU).right (by rw [hget]; exact h1)
    rw [hget, hmod] at this
    simpa only [List.set_set] using this
  · rw [continuousOn_iff_continuous_domRestrict]
    have em : ∀ v : Set.Icc (knot U 0) (lastKnot U),
        ((x.map fun a => (fun _ : Set.Icc (knot U 0) (lastKnot U) => a)).set d fun v => v.1).map (fun g => g v) = x.set d v.1 := fun v => by
      rw [List.map_set, List.map_map]
      congr 1
      exact List.map_id' _
    refine C82_continuous h (γ := (x.map fun a => (fun _ : Set.Icc (knot U 0) (lastKnot U) => a)).set d fun v => v.1) (k := z k) ?_ ?_ (hz k) ?_ hc ?_
    · intro g hg
      rcases List.mem_or_eq_of_mem_set hg with hg | rfl
      · obtain ⟨a, _, rfl⟩ := List.mem_map.1 hg
        exact continuous_const
      · exact continuous_subtype_val
    · intro v; rw [em]; exact hdom v.1 v.2.1 v.2.2
    · intro e V q hV hq t ht h0 h1
      have := hall e V q hV hq t ht h0 h1
      rw [zeros_getD _ hd]
      split_ifs <;> omega
    · intro v
      rw [em]
      exact e1 k v.1 v.2.1 v.2.2
  · have := C82_two_sided h (x := x.set d t) (hdom t h0.le h1.le) (k := z 0) (hz 0) hU hp (by rw [hget]; exact h0) (by rw [hget]; exact h1)
      (by
        intro hm
        rw [hget] at hm ⊢
        have := hall d U p hU hp t hm h0 h1
        rw [zeros_getD _ hd, if_pos rfl]
        omega) hc (f := fun t => G c (z 0) (x.set d t)) (f' := G c (z 1) (x.set d t))
      (fun t h0 h1 => by rw [List.set_set]; exact e1 0 t h0 h1) (by rw [hmod]; exact e1 1 t h0.le h1.le)
    rw [hget] at this
    exact this

/-- **C116 (lines).** Along every line of a direction a spline differs from a chord by at most `M (b - a)² / 8`, where `M` bounds the second derivative in
this direction. -/
theorem C116_chord {s : Spl ℝ} (h : WFSpl s) (hall : SmoothDirections s) {d : ℕ} {U : List ℝ} (hU : s.ps.knots[d]? = some U)
    {x : List ℝ} (hx : InDomain s x) {c : ℕ} (hc : c < s.ph.dim) {M : ℝ}
    (hM : ∀ t, knot U 0 ≤ t → t ≤ lastKnot U →
      ∃ v, s.evaluateDerivative (x.set d t) [(c : ℤ)] (zl ((s.ps.knots.map fun _ => 0).set d 2)) = .ok [v] ∧ |v| ≤ M) {f : ℝ → ℝ}
    (hf : ∀ t, knot U 0 ≤ t → t ≤ lastKnot U → s.evaluate (x.set d t) [(c : ℤ)] = .ok [f t]) {a b : ℝ} (ha : knot U 0 ≤ a) (hab : a ≤ b) (hb : b ≤ lastKnot U)
    {u : ℝ} (h0 : 0 ≤ u) (h1 : u ≤ 1) : |f (a + u * (b - a)) - ((1 - u) * f a + u * f b)| ≤ M * (b - a) ^ 2 / 8 := by
  obtain ⟨p, hp⟩ : ∃ p, s.ps.degree[d]? = some p := ⟨_, List.getElem?_eq_getElem (by rw [← h.knots.length_eq]; exact lt_of_some hU)⟩
  obtain ⟨F, f1, f2, f3, f4, f5⟩ := line_functions h hall hU hp hx hc
  have ef : ∀ t, knot U 0 ≤ t → t ≤ lastKnot U → f t = F 0 t := fun t g0 g1 => by
    have := (hf t g0 g1).symm.trans (f2 t g0 g1); simpa using this
  have hbd : ∀ t, knot U 0 ≤ t → t ≤ lastKnot U → |F 2 t| ≤ M := fun t g0 g1 => by
    obtain ⟨v, e, hv⟩ := hM t g0 g1
    have := e.symm.trans (f1 2 t g0 g1)
    simp only [Except.ok.injEq, List.cons.injEq, and_true] at this
    rwa [← this]
  have hu : 0 ≤ u * (b - a) ∧ u * (b - a) ≤ b - a := ⟨mul_nonneg h0 (by linarith), by nlinarith⟩
  rw [ef a ha (hab.trans hb), ef b (ha.trans hab) hb, ef _ (by linarith) (by linarith)]
  refine chord_error hab ((f4 0 (by omega)).mono (Set.Icc_subset_Icc ha hb)) (f' := F 1) (fun x hx => f5 x (ha.trans_lt hx.1) (hx.2.trans_le hb)) ?_ h0 h1
  intro x hx y hy hxy
  have := norm_image_sub_le_of_norm_deriv_right_le_segment (f := F 1) (f' := F 2) (C := M) (a := x) (b := y)
    ((f4 1 le_rfl).mono (Set.Icc_subset_Icc (ha.trans hx.1.le) (hy.2.le.trans hb)))
    (fun z hz => f3 1 z (ha.trans (hx.1.le.trans hz.1)) ((hz.2.trans hy.2).trans_le hb))
    (fun z hz => by rw [Real.norm_eq_abs]; exact hbd z (ha.trans (hx.1.le.trans hz.1)) ((hz.2.trans hy.2).le.trans hb)) y ⟨hxy, le_rfl⟩
  rwa [Real.norm_eq_abs] at this

/-- **C116 (surfaces).** A surface differs from the bilinear interpolation of four of its points by at most `(Mu (b - a)² + Mv (b' - a')²) / 8`. -/
theorem C116_surface {s : Spl ℝ} (h : WFSpl s) (hall : SmoothDirections s) {U V : List ℝ} (hU : s.ps.knots = [U, V]) {c : ℕ} (hc : c < s.ph.dim) {Mu Mv : ℝ}
    (hMu : ∀ x y, InDomain s [x, y] → ∃ v, s.evaluateDerivative [x, y] [(c : ℤ)] [2, 0] = .ok [v] ∧ |v| ≤ Mu)
    (hMv : ∀ x y, InDomain s [x, y] → ∃ v, s.evaluateDerivative [x, y] [(c : ℤ)] [0, 2] = .ok [v] ∧ |v| ≤ Mv) {f : ℝ → ℝ → ℝ}
    (hf : ∀ x y, InDomain s [x, y] → s.evaluate [x, y] [(c : ℤ)] = .ok [f x y]) {a b a' b' : ℝ} (ha : knot U 0 ≤ a) (hab : a ≤ b) (hb : b ≤ lastKnot U)
    (ha' : knot V 0 ≤ a') (hab' : a' ≤ b') (hb' : b' ≤ lastKnot V) {u v : ℝ} (u0 : 0 ≤ u) (u1 : u ≤ 1) (v0 : 0 ≤ v) (v1 : v ≤ 1) :
    |f (a + u * (b - a)) (a' + v * (b' - a')) - ((1 - u) * ((1 - v) * f a a' + v * f a b') + u * ((1 - v) * f b a' + v * f b b'))| ≤
      (Mu * (b - a) ^ 2 + Mv * (b' - a') ^ 2) / 8 := by
  have hdom : ∀ x y, knot U 0 ≤ x → x ≤ lastKnot U → knot V 0 ≤ y → y ≤ lastKnot V → InDomain s [x, y] := fun x y g1 g2 g3 g4 => by
    unfold InDomain; rw [hU]; exact .cons ⟨g1, g2⟩ (.cons ⟨g3, g4⟩ .nil)
  have hv : 0 ≤ v * (b' - a') ∧ v * (b' - a') ≤ b' - a' := ⟨mul_nonneg v0 (by linarith), by nlinarith⟩
  set y := a' + v * (b' - a') with hy
  have y0 : knot V 0 ≤ y := by linarith
  have y1 : y ≤ lastKnot V := by linarith
  have e1 := C116_chord h hall (d := 0) (U := U) (by rw [hU]; rfl) (hdom a y ha (hab.trans hb) y0 y1) hc (M := Mu)
    (fun t g0 g1 => by rw [hU]; exact hMu t y (hdom t y g0 g1 y0 y1)) (f := fun t => f t y) (fun t g0 g1 => hf t y (hdom t y g0 g1 y0 y1)) ha hab hb u0 u1
  have e2 : ∀ x, knot U 0 ≤ x → x ≤ lastKnot U → |f x y - ((1 - v) * f x a' + v * f x b')| ≤ Mv * (b' - a') ^ 2 / 8 := fun x g0 g1 =>
    C116_chord h hall (d := 1) (U := V) (by rw [hU]; rfl) (hdom x y g0 g1 y0 y1) hc (M := Mv)
      (fun t k0 k1 => by rw [hU]; exact hMv x t (hdom x t g0 g1 k0 k1)) (f := fun t => f x t) (fun t k0 k1 => hf x t (hdom x t g0 g1 k0 k1)) ha' hab' hb' v0 v1
  have ea := abs_le.1 (e2 a ha (hab.trans hb))
  have eb := abs_le.1 (e2 b (ha.trans hab) hb)
  have e := abs_le.1 e1
  have m1 := mul_le_mul_of_nonneg_left ea.1 (sub_nonneg.2 u1)
  have m2 := mul_le_mul_of_nonneg_left ea.2 (sub_nonneg.2 u1)
  have m3 := mul_le_mul_of_nonneg_left eb.1 u0
  have m4 := mul_le_mul_of_nonneg_left eb.2 u0
  rw [abs_le]
  constructor <;> nlinarith

namespace Vtk

/-- The points of a surface in a VTK file. -/
theorem surface_points {s : Spl ℝ} (h : WFSpl s) {U V : List ℝ} (hU : s.ps.knots = [U, V]) {n m : ℕ} (hn : 0 < n) (hm : 0 < m) :
    ∃ file, writeFile [s] [[(n : ℤ), (m : ℤ)]] = .ok file ∧ file.points.length = (n + 1) * (m + 1) ∧ ∀ i ≤ n, ∀ j ≤ m, ∃ P,
      file.points[i + (n + 1) * j]? = some P ∧ ∀ c < s.ph.dim, c < 3 →
        s.evaluate [knot U 0 + (i : ℝ) * (lastKnot U - knot U 0) / n, knot V 0 + (j : ℝ) * (lastKnot V - knot V 0) / m] [(c : ℤ)] = .ok [P.getD c 0] := by
  obtain ⟨file, e1, e2, -⟩ := C39_file (splines := [s]) (nss := [[n, m]]) (.cons ⟨h, by rw [hU]; rfl, by simp; omega, Or.inr (Or.inl rfl)⟩ .nil)
  have e3 : file.points = gridValues s [n, m] := by simpa using e2
  have hg : gridPoints [n, m] = (n + 1) * (m + 1) := by simp [gridPoints]
  have hlen : file.points.length = (n + 1) * (m + 1) := by rw [e3]; simp [gridValues, hg]
  have hw : List.Forall₂ WFKnots s.ps.knots s.ps.degree := h.knots
  rw [hU] at hw
  obtain ⟨p, q, hpq⟩ : ∃ p q, s.ps.degree = [p, q] := by
    have := hw.length_eq
    rcases hs : s.ps.degree with _ | ⟨p, _ | ⟨q, _ | ⟨r, l⟩⟩⟩
    · rw [hs] at this; simp at this
    · rw [hs] at this; simp at this
    · exact ⟨p, q, rfl⟩
    · rw [hs] at this; simp at this
  rw [hpq] at hw
  have hwU := (List.forall₂_cons.1 hw).1.range
  have hwV := (List.forall₂_cons.1 (List.forall₂_cons.1 hw).2).1.range
  refine ⟨file, e1, hlen, fun i hi j hj => ⟨padded s [knot U 0 + (i : ℝ) * (lastKnot U - knot U 0) / n, knot V 0 + (j : ℝ) * (lastKnot V - knot V 0) / m],
    ?_, fun c hc hc3 => ?_⟩⟩
  · have hlt : i + (n + 1) * j < (n + 1) * (m + 1) := by
      calc i + (n + 1) * j < (n + 1) + (n + 1) * j := by omega
        _ = (n + 1) * (j + 1) := by ring
        _ ≤ _ := Nat.mul_le_mul_left _ (by omega)
    have hmod : (i + (n + 1) * j) % (n + 1) = i := by rw [Nat.add_mul_mod_self_left, Nat.mod_eq_of_lt (by omega)]
    have hdiv : (i + (n + 1) * j) / (n + 1) = j := by rw [Nat.add_mul_div_left _ _ (by omega), Nat.div_eq_of_lt (by omega), Nat.zero_add]
    rw [e3, gridValues, List.getElem?_map, List.getElem?_range (by rw [hg]; exact hlt)]
    simp [gridParam, hU, unlin, hmod, hdiv, Nat.mod_eq_of_lt (Nat.lt_succ_of_le hj)]
  · have hdom : InDomain s [knot U 0 + (i : ℝ) * (lastKnot U - knot U 0) / n, knot V 0 + (j : ℝ) * (lastKnot V - knot V 0) / m] := by
      rw [InDomain, hU]
      exact .cons (point_param_range hwU hn hi) (.cons (point_param_range hwV hm hj) .nil)
    have hP : (padded s [knot U 0 + (i : ℝ) * (lastKnot U - knot U 0) / n, knot V 0 + (j : ℝ) * (lastKnot V - knot V 0) / m]).getD c 0 =
        splineValue s [knot U 0 + (i : ℝ) * (lastKnot U - knot U 0) / n, knot V 0 + (j : ℝ) * (lastKnot V - knot V 0) / m] c := by
      rw [padded, List.getD_eq_getElem _ _ (by simpa using hc3)]
      simp [hc]
    rw [hP]
    cases hwt : s.ph.weights with
    | none =>
      have := evaluate_bspline h hwt hdom [c] (by simpa using hc)
      simpa [splineValue, hwt] using this
    | some w =>
      have := evaluate_nurbs h ⟨w, hwt⟩ hdom [c] (by simpa using hc.le)
      simpa [splineValue, hwt, hc.ne] using this

/-- **C116 (VTK files).** The bilinear interpolation of the corners of every cell of the VTK file of a surface differs from the surface by at most
`(Mu (side)² + Mv (side')²) / 8` in every coordinate. -/
theorem C116_vtk {s : Spl ℝ} (h : WFSpl s) (hall : SmoothDirections s) {U V : List ℝ} (hU : s.ps.knots = [U, V]) {n m : ℕ} (hn : 0 < n) (hm : 0 < m)
    {Mu Mv : ℝ} (hMu : ∀ c < s.ph.dim, ∀ x y, InDomain s [x, y] → ∃ v, s.evaluateDerivative [x, y] [(c : ℤ)] [2, 0] = .ok [v] ∧ |v| ≤ Mu)
    (hMv : ∀ c < s.ph.dim, ∀ x y, InDomain s [x, y] → ∃ v, s.evaluateDerivative [x, y] [(c : ℤ)] [0, 2] = .ok [v] ∧ |v| ≤ Mv) :
    ∃ file, writeFile [s] [[(n : ℤ), (m : ℤ)]] = .ok file ∧ ∀ i < n, ∀ j < m, ∃ P Q R S, file.points[i + (n + 1) * j]? = some P ∧
      file.points[i + 1 + (n + 1) * j]? = some Q ∧ file.points[i + (n + 1) * (j + 1)]? = some R ∧ file.points[i + 1 + (n + 1) * (j + 1)]? = some S ∧
      ∀ c < s.ph.dim, c < 3 → ∀ u v : ℝ, 0 ≤ u → u ≤ 1 → 0 ≤ v → v ≤ 1 → ∃ y,
        s.evaluate [knot U 0 + (i + u) * (lastKnot U - knot U 0) / n, knot V 0 + (j + v) * (lastKnot V - knot V 0) / m] [(c : ℤ)] = .ok [y] ∧
        |y - ((1 - u) * ((1 - v) * P.getD c 0 + v * R.getD c 0) + u * ((1 - v) * Q.getD c 0 + v * S.getD c 0))| ≤
          (Mu * ((lastKnot U - knot U 0) / n) ^ 2 + Mv * ((lastKnot V - knot V 0) / m) ^ 2) / 8 := by
  obtain ⟨file, e1, -, e3⟩ := surface_points h hU hn hm
  refine ⟨file, e1, fun i hi j hj => ?_⟩
  obtain ⟨P, hP, eP⟩ := e3 i hi.le j hj.le
  obtain ⟨Q, hQ, eQ⟩ := e3 (i + 1) hi j hj.le
  obtain ⟨R, hR, eR⟩ := e3 i hi.le (j + 1) hj
  obtain ⟨S, hS, eS⟩ := e3 (i + 1) hi (j + 1) hj
  refine ⟨P, Q, R, S, hP, hQ, hR, hS, fun c hc hc3 u v u0 u1 v0 v1 => ?_⟩
  have hn' : (0 : ℝ) < n := by exact_mod_cast hn
  have hm' : (0 : ℝ) < m := by exact_mod_cast hm
  have hw : List.Forall₂ WFKnots s.ps.knots s.ps.degree := h.knots
  rw [hU] at hw
  have hwU : knot U 0 < lastKnot U := by
    rcases hs : s.ps.degree with _ | ⟨p, l⟩
    · rw [hs] at hw; cases hw
    · rw [hs] at hw; exact (List.forall₂_cons.1 hw).1.range
  have hwV : knot V 0 < lastKnot V := by
    rcases hs : s.ps.degree with _ | ⟨p, _ | ⟨q, l⟩⟩
    · rw [hs] at hw; cases hw
    · rw [hs] at hw; have := (List.forall₂_cons.1 hw).2; cases this
    · rw [hs] at hw; exact (List.forall₂_cons.1 (List.forall₂_cons.1 hw).2).1.range
  have hval : ∀ x y, InDomain s [x, y] → s.evaluate [x, y] [(c : ℤ)] = .ok [nurbsValue s [x, y] c] := fun x y hx =>
    evaluate_quotient h hx [c] (by simpa using hc)
  have rU0 := point_param_range hwU hn hi.le
  have rU1 := point_param_range hwU hn (j := i + 1) hi
  have rV0 := point_param_range hwV hm hj.le
  have rV1 := point_param_range hwV hm (j := j + 1) hj
  have hsU : 0 < (lastKnot U - knot U 0) / n := div_pos (by linarith) hn'
  have hsV : 0 < (lastKnot V - knot V 0) / m := div_pos (by linarith) hm'
  have dU : knot U 0 + ((i + 1 : ℕ) : ℝ) * (lastKnot U - knot U 0) / n - (knot U 0 + (i : ℝ) * (lastKnot U - knot U 0) / n) = (lastKnot U - knot U 0) / n := by
    push_cast; ring
  have dV : knot V 0 + ((j + 1 : ℕ) : ℝ) * (lastKnot V - knot V 0) / m - (knot V 0 + (j : ℝ) * (lastKnot V - knot V 0) / m) = (lastKnot V - knot V 0) / m := by
    push_cast; ring
  have key := C116_surface h hall hU hc (hMu c hc) (hMv c hc) (f := fun x y => nurbsValue s [x, y] c) hval rU0.1 (by linarith) rU1.2 rV0.1 (by linarith) rV1.2
    u0 u1 v0 v1
  rw [dU, dV] at key
  have hdom : ∀ x y, knot U 0 ≤ x → x ≤ lastKnot U → knot V 0 ≤ y → y ≤ lastKnot V → InDomain s [x, y] := fun x y g1 g2 g3 g4 => by
    unfold InDomain; rw [hU]; exact .cons ⟨g1, g2⟩ (.cons ⟨g3, g4⟩ .nil)
  have ev : ∀ {x y a : ℝ}, InDomain s [x, y] → s.evaluate [x, y] [(c : ℤ)] = .ok [a] → nurbsValue s [x, y] c = a := fun hx e => by
    have := (hval _ _ hx).symm.trans e; simpa using this
  rw [ev (hdom _ _ rU0.1 rU0.2 rV0.1 rV0.2) (eP c hc hc3), ev (hdom _ _ rU1.1 rU1.2 rV0.1 rV0.2) (eQ c hc hc3),
    ev (hdom _ _ rU0.1 rU0.2 rV1.1 rV1.2) (eR c hc hc3), ev (hdom _ _ rU1.1 rU1.2 rV1.1 rV1.2) (eS c hc hc3)] at key
  have mU : knot U 0 + (i : ℝ) * (lastKnot U - knot U 0) / n + u * ((lastKnot U - knot U 0) / n) = knot U 0 + (i + u) * (lastKnot U - knot U 0) / n := by ring
  have mV : knot V 0 + (j : ℝ) * (lastKnot V - knot V 0) / m + v * ((lastKnot V - knot V 0) / m) = knot V 0 + (j + v) * (lastKnot V - knot V 0) / m := by ring
  rw [mU, mV] at key
  refine ⟨_, hval _ _ (hdom _ _ ?_ ?_ ?_ ?_), key⟩
  · rw [← mU]; nlinarith [rU0.1, mul_nonneg u0 hsU.le]
  · rw [← mU]; have := mul_le_of_le_one_left hsU.le u1; linarith [rU1.2, dU]
  · rw [← mV]; nlinarith [rV0.1, mul_nonneg v0 hsV.le]
  · rw [← mV]; have := mul_le_of_le_one_left hsV.le v1; linarith [rV1.2, dV]

/-- A surface of degree 2 with one interior knot in the first direction and of degree 1 in the second. -/
noncomputable def exSheet : Spl ℝ :=
  ⟨⟨[[0, 0, 0, 1, 2, 2, 2], [0, 0, 1, 1]], [2, 1], mkTable [[0, 0, 0, 1, 2, 2, 2], [0, 0, 1, 1]] [2, 1]⟩, ⟨1, [4, 2], [1, 2, 3, 4, 2, 3, 4, 5], none⟩⟩

theorem exSheet_wf : WFSpl exSheet where
  knots := .cons exSmooth_knots (.cons exKnotsR_wf .nil)
  basis := basisTable_eq (forall₂_size (.cons exSmooth_knots (.cons exKnotsR_wf .nil)))
  num := by simp [exSheet, npts]
  dim := by simp [exSheet]
  cps := by simp [exSheet, npts]
  weights := by simp [exSheet]

theorem exSheet_smooth : SmoothDirections exSheet := by
  intro d U p hU hp t ht h0 h1
  rcases d with _ | _ | d
  · obtain rfl : [0, 0, 0, 1, 2, 2, 2] = U := by simpa [exSheet] using hU
    obtain rfl : 2 = p := by simpa [exSheet] using hp
    simp only [knot, lastKnot] at h0 h1
    simp only [List.mem_cons, List.not_mem_nil, or_false] at ht
    rcases ht with rfl | rfl | rfl | rfl | rfl | rfl | rfl <;> simp [List.count_cons] at h0 h1 <;> norm_num [List.count_cons]
  · obtain rfl : [0, 0, 1, 1] = U := by simpa [exSheet] using hU
    obtain rfl : 1 = p := by simpa [exSheet] using hp
    simp only [knot, lastKnot] at h0 h1
    simp only [List.mem_cons, List.not_mem_nil, or_false] at ht
    rcases ht with rfl | rfl | rfl | rfl <;> simp at h0 h1
  · simp [exSheet] at hU

theorem span_values (U : List ℝ) (i : ℕ) (x : ℝ) : coxDeBoor U 0 i x = 0 ∨ coxDeBoor U 0 i x = 1 := by
  simp only [coxDeBoor]
  split
  · exact Or.inr rfl
  · exact Or.inl rfl

theorem exSheet_second : ∀ c < exSheet.ph.dim, ∀ x y, InDomain exSheet [x, y] →
    (∃ v, exSheet.evaluateDerivative [x, y] [(c : ℤ)] [2, 0] = .ok [v] ∧ |v| ≤ 1) ∧
    ∃ v, exSheet.evaluateDerivative [x, y] [(c : ℤ)] [0, 2] = .ok [v] ∧ |v| ≤ 0 := by
  intro c hc x y hx
  obtain rfl : c = 0 := by simpa [exSheet] using hc
  have e := evaluateDerivative_bspline exSheet_wf rfl hx [0] (by simp [exSheet]) (k := [2, 0]) rfl
  have e' := evaluateDerivative_bspline exSheet_wf rfl hx [0] (by simp [exSheet]) (k := [0, 2]) rfl
  refine ⟨⟨_, e, ?_⟩, ⟨_, e', ?_⟩⟩
  · have key : (tensorDerivSum exSheet [x, y] [2, 0] fun I => cpt exSheet I 0) =
        (coxDeBoor [0, 0, 0, 1, 2, 2, (2 : ℝ)] 0 3 x - coxDeBoor [0, 0, 0, 1, 2, 2, (2 : ℝ)] 0 2 x) * coxDeBoor [0, 0, 1, (1 : ℝ)] 0 1 y := by
      simp [tensorDerivSum, exSheet, npts, msum, dprod, basisDerivFns, sum_range_succ, cpt, lin]
      simp only [coxDeBoorDeriv, coxDeBoor.eq_2]
      simp [knot]
      ring
    show |tensorDerivSum exSheet [x, y] [2, 0] fun I => cpt exSheet I 0| ≤ 1
    rw [key]
    rcases span_values [0, 0, 0, 1, 2, 2, (2 : ℝ)] 3 x with g | g <;> rcases span_values [0, 0, 0, 1, 2, 2, (2 : ℝ)] 2 x with g' | g' <;>
      rcases span_values [0, 0, 1, (1 : ℝ)] 1 y with g'' | g'' <;> rw [g, g', g''] <;> norm_num
  · have key : (tensorDerivSum exSheet [x, y] [0, 2] fun I => cpt exSheet I 0) = 0 := by
      simp [tensorDerivSum, exSheet, npts, msum, dprod, basisDerivFns, sum_range_succ, coxDeBoorDeriv]
    show |tensorDerivSum exSheet [x, y] [0, 2] fun I => cpt exSheet I 0| ≤ 0
    rw [key, abs_zero]

/-- In the file with 10 times 1 cells of this surface, the cells are at most 1/200 away from it. -/
example : ∃ file, writeFile [exSheet] [[10, 1]] = .ok file ∧ ∀ i : ℕ, i < 10 → ∃ P Q R S, file.points[i]? = some P ∧ file.points[i + 1]? = some Q ∧
    file.points[i + 11]? = some R ∧ file.points[i + 1 + 11]? = some S ∧ ∀ u v : ℝ, 0 ≤ u → u ≤ 1 → 0 ≤ v → v ≤ 1 → ∃ y,
      exSheet.evaluate [(i + u) * 2 / 10, v] [0] = .ok [y] ∧
      |y - ((1 - u) * ((1 - v) * P.getD 0 0 + v * R.getD 0 0) + u * ((1 - v) * Q.getD 0 0 + v * S.getD 0 0))| ≤ 1 / 200 := by
  obtain ⟨file, e1, e2⟩ := C116_vtk exSheet_wf exSheet_smooth (U := [0, 0, 0, 1, 2, 2, 2]) (V := [0, 0, 1, 1]) rfl (n := 10) (m := 1) (by norm_num) (by norm_num)
    (fun c hc x y hx => (exSheet_second c hc x y hx).1) (fun c hc x y hx => (exSheet_second c hc x y hx).2)
  refine ⟨file, e1, fun i hi => ?_⟩
  obtain ⟨P, Q, R, S, hP, hQ, hR, hS, h⟩ := e2 i hi 0 (by norm_num)
  refine ⟨P, Q, R, S, by simpa using hP, by simpa using hQ, by simpa using hR, by simpa using hS, fun u v u0 u1 v0 v1 => ?_⟩
  obtain ⟨y, hy, hb⟩ := h 0 (by simp [exSheet]) (by norm_num) u v u0 u1 v0 v1
  refine ⟨y, by simpa [knot, lastKnot] using hy, hb.trans ?_⟩
  simp [knot, lastKnot]; norm_num

end Vtk
end SplineLib
