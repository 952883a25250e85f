import Verif.Core.Generators
import Verif.Props.Evaluation
import Verif.Props.Construction
import Mathlib.Data.Rat.Floor

/-!
# Properties C32 (translational surfaces) and C42 (generated splines)
-/

namespace SplineLib
set_option linter.unusedSectionVars false
open Finset

section
variable {K : Type} [Field K] [LinearOrder K] [IsStrictOrderedRing K]

/-- **C32.** For two NURBS curves `T` and `C` in the same space the surface generator succeeds; the surface is well-formed, has the
parameter directions of `T` and `C` in this order, and `S(u,v) = T(u) + C(v)` for all parameters of the curves. The evaluated
weight (the coordinate after the last one) is the product of the evaluated weights. -/
theorem C32_translational_surface {T C : Spl K} (hT : WFSpl T) (hC : WFSpl C) (nT : IsNurbs T) (nC : IsNurbs C)
    (hT1 : T.ps.knots.length = 1) (hC1 : C.ps.knots.length = 1) (hd : T.ph.dim = C.ph.dim)
    (hsz : (npts T).prod * (npts C).prod < 2 ^ 64) :
    ∃ s, Gen.translationalSurface T C = .ok s ∧ WFSpl s ∧ IsNurbs s ∧ s.ph.dim = T.ph.dim ∧
      s.ps.knots = T.ps.knots ++ C.ps.knots ∧ s.ps.degree = T.ps.degree ++ C.ps.degree ∧
      ∀ u v, InDomain T [u] → InDomain C [v] →
        (∀ c < T.ph.dim, ∃ a b, T.evaluate [u] [(c : ℤ)] = .ok [a] ∧ C.evaluate [v] [(c : ℤ)] = .ok [b] ∧
          s.evaluate [u, v] [(c : ℤ)] = .ok [a + b]) ∧
        ∃ a b, T.evaluate [u] [(T.ph.dim : ℤ)] = .ok [a] ∧ C.evaluate [v] [(T.ph.dim : ℤ)] = .ok [b] ∧
          s.evaluate [u, v] [(T.ph.dim : ℤ)] = .ok [a * b] := by
  obtain ⟨s, hs, h⟩ := translationalSurface_swept hT hC hT1 hC1 hd.le hsz
  refine ⟨s, hs, h.wf, h.nurbs, h.dim, h.knots, h.degree, ?_⟩
  intro u v hu hv
  obtain ⟨hx, hw, hn⟩ := swept_values hT hC hT1 hC1 h hu hv
  constructor
  · intro c hc
    have e1 := evaluate_nurbs hT nT hu [c] (by simpa using hc.le)
    have e2 := evaluate_nurbs hC nC hv [c] (by simpa using (hd ▸ hc).le)
    have e3 := evaluate_nurbs h.wf h.nurbs hx [c] (by simpa [h.dim] using hc.le)
    simp only [List.map_cons, List.map_nil, h.dim, ← hd, if_neg hc.ne] at e1 e2 e3
    exact ⟨_, _, e1, e2, by rw [e3, hn c hc]⟩
  · have e1 := evaluate_nurbs hT nT hu [T.ph.dim] (by simp)
    have e2 := evaluate_nurbs hC nC hv [T.ph.dim] (by simp [hd])
    have e3 := evaluate_nurbs h.wf h.nurbs hx [T.ph.dim] (by simp [h.dim])
    simp only [List.map_cons, List.map_nil, h.dim, ← hd, if_pos] at e1 e2 e3
    exact ⟨_, _, e1, e2, by rw [e3, hw]⟩

/-- A NURBS line segment in the plane. -/
def exSection : Spl ℚ :=
  ⟨⟨[[-1, -1, 3, 3]], [1], mkTable [[-1, -1, 3, 3]] [1]⟩, ⟨2, [2], [0, 0, 0, 4], some [1, 3]⟩⟩

theorem exSection_wf : WFSpl exSection where
  knots := by simp only [exSection]; exact .cons (by decide +kernel) .nil
  basis := by decide +kernel
  num := by decide +kernel
  dim := by decide +kernel
  cps := by decide +kernel
  weights := by
    intro w h
    obtain rfl : [1, 3] = w := by simpa [exSection] using h
    exact ⟨by decide +kernel, by decide +kernel⟩

example : WFSpl exNurbs ∧ WFSpl exSection ∧ exNurbs.ph.dim = exSection.ph.dim ∧ InDomain exNurbs [3/4] ∧ InDomain exSection [1] ∧
    exNurbs.evaluate [3/4] [0, 1, 2] = .ok [67/21, 6/7, 21/16] ∧ exSection.evaluate [1] [0, 1, 2] = .ok [0, 3, 2] ∧
    (do let s ← Gen.translationalSurface exNurbs exSection; s.evaluate [3/4, 1] [0, 1, 2]) = .ok [67/21, 27/7, 21/8] := by
  refine ⟨exNurbs_wf, exSection_wf, rfl, .cons (by decide +kernel) .nil, .cons (by decide +kernel) .nil, by decide +kernel,
    by decide +kernel, by decide +kernel⟩

/-- If `C` lives in a space of smaller dimension than `T`, the generator reads past the end of the coordinates of `C`. -/
theorem C32_smaller_section_counterexample :
    (∃ T C : Spl ℚ, Spl.newNurbs [[0, 0, 1, 1]] [1] [[0, 0], [1, 2]] [1, 1] = .ok T ∧
      Spl.newNurbs [[0, 0, 1, 1]] [1] [[0], [1]] [1, 1] = .ok C ∧ Gen.translationalSurface T C = .error .ub) :=
  ⟨⟨⟨[[0, 0, 1, 1]], [1], mkTable [[0, 0, 1, 1]] [1]⟩, ⟨2, [2], [0, 0, 1, 2], some [1, 1]⟩⟩,
    ⟨⟨[[0, 0, 1, 1]], [1], mkTable [[0, 0, 1, 1]] [1]⟩, ⟨1, [2], [0, 1], some [1, 1]⟩⟩, by decide +kernel, by decide +kernel,
    by decide +kernel⟩

end

section
variable {K : Type} [Field K] [LinearOrder K] [IsStrictOrderedRing K] [FloorRing K]

/-- What is claimed of a random spline: the requested number of directions, degrees between 1 and the maximum, knot vectors
that satisfy the constructor's conditions and run from `a` to `b`, control points of the requested dimension with coordinates
between -5 and 5. -/
structure RandomSpline (s : Spl K) (D : ℕ) (a b : K) (maxDegree dimension : ℕ) : Prop where
  directions : s.ps.knots.length = D
  clamped : List.Forall₂ ClampedKnots s.ps.knots s.ps.degree
  degrees : ∀ p ∈ s.ps.degree, 1 ≤ p ∧ p ≤ maxDegree
  range : ∀ U ∈ s.ps.knots, knot U 0 = a ∧ lastKnot U = b
  dim : s.ph.dim = dimension
  count : s.ph.cps.length = dimension * (npts s).prod
  coords : ∀ x ∈ s.ph.cps, -5 ≤ x ∧ x ≤ 5

theorem randomSpline_of {s : Spl K} {D m dimension : ℕ} {a b : K} {Us : List (List K)} {ps : List ℕ} {points : List (List K)}
    {ws : Option (List K)} (h : RandomData D a b m dimension Us ps points) (hb : Built s Us ps points ws) :
    RandomSpline s D a b m dimension := by
  have hn : npts s = nptsOf Us ps := by rw [npts_eq, hb.knots, hb.degree]
  refine ⟨?_, ?_, ?_, ?_, ?_, ?_, ?_⟩
  · rw [hb.knots, h.clamped.length_eq, h.directions]
  · rw [hb.knots, hb.degree]
    exact h.clamped.imp fun U p hc => by obtain ⟨a, b, c⟩ := clamped_iff.1 hc; exact ⟨a, b, c⟩
  · rw [hb.degree]; exact h.degrees
  · rw [hb.knots]; exact h.ends
  · rw [hb.dim _ (List.head_mem h.points_ne), (h.coords _ (List.head_mem h.points_ne)).1]
  · rw [hb.cps, hn, flatten_length' fun q hq => (h.coords q hq).1, h.points_length]
  · rw [hb.cps]
    intro x hx
    rw [List.mem_flatten] at hx
    obtain ⟨q, hq, hx⟩ := hx
    exact (h.coords q hq).2 x hx

/-- **C42**, B-splines: whatever the random engines return, the constructors accept the generated data, for every number of
directions, parameter range, maximal degree of at least 1 and dimension. With a range that is long enough to keep the knots apart
the spline is well-formed, so that everything proved about well-formed splines holds for it, and its end knots have
multiplicity exactly `p+1`. (The numbers of points stay below `3 * maxDegree` per direction; their product must fit into `uint64_t`.) -/
theorem C42_random_bspline (ei ed : ℕ → ℕ) (D : ℕ) (a b : K) {maxDegree : ℕ} (h : 1 ≤ maxDegree) (dimension : ℕ)
    (hsz : (3 * maxDegree) ^ D < 2 ^ 64) :
    ∃ s, Gen.randomBSpline ei ed D a b (maxDegree : ℤ) dimension = .ok s ∧ IsBSpline s ∧
      RandomSpline s D a b maxDegree dimension ∧
      (kEps K * (2 * maxDegree) ≤ b - a → 1 ≤ dimension → WFSpl s ∧ List.Forall₂ ExactEnds s.ps.knots s.ps.degree) := by
  obtain ⟨s, Us, ps, points, h1, h2, h3⟩ := randomBSpline_ok ei ed D a b h hsz dimension
  refine ⟨s, h1, h2.weights, randomSpline_of h3 h2, ?_⟩
  intro hw hd
  have hk := h3.wf hw
  refine ⟨h2.wf (hk.imp fun _ _ h => h.1) h3.points_ne h3.points_length hd (fun q hq => (h3.coords q hq).1)
    (by intro w hw; simp at hw), ?_⟩
  rw [h2.knots, h2.degree]; exact hk.imp fun _ _ h => h.2

/-- **C42**, NURBS: in addition the weights lie between 1/10 and 2. -/
theorem C42_random_nurbs (ei ed : ℕ → ℕ) (D : ℕ) (a b : K) {maxDegree : ℕ} (h : 1 ≤ maxDegree) (dimension : ℕ)
    (hsz : (3 * maxDegree) ^ D < 2 ^ 64) :
    ∃ s w, Gen.randomNurbs ei ed D a b (maxDegree : ℤ) dimension = .ok s ∧ s.ph.weights = some w ∧
      (w.length = (npts s).prod ∧ ∀ x ∈ w, 1 / 10 ≤ x ∧ x ≤ 2) ∧ RandomSpline s D a b maxDegree dimension ∧
      (kEps K * (2 * maxDegree) ≤ b - a → 1 ≤ dimension → WFSpl s ∧ List.Forall₂ ExactEnds s.ps.knots s.ps.degree) := by
  obtain ⟨s, Us, ps, points, ws, h1, h2, h3, h4, h5⟩ := randomNurbs_ok ei ed D a b h hsz dimension
  have hn : npts s = nptsOf Us ps := by rw [npts_eq, h2.knots, h2.degree]
  refine ⟨s, ws, h1, h2.weights, ⟨by rw [h4, h3.points_length, hn], h5⟩, randomSpline_of h3 h2, ?_⟩
  intro hw hd
  have hk := h3.wf hw
  refine ⟨h2.wf (hk.imp fun _ _ h => h.1) h3.points_ne h3.points_length hd (fun q hq => (h3.coords q hq).1) ?_, ?_⟩
  · intro w hw
    cases hw
    exact ⟨h4, fun a ha => lt_of_lt_of_le (by norm_num) (h5 a ha).1⟩
  · rw [h2.knots, h2.degree]; exact hk.imp fun _ _ h => h.2

/-- The hypotheses are met, and a run of the model with a concrete engine. -/
example : (1 : ℕ) ≤ 3 ∧ (3 * 3) ^ 2 < 2 ^ 64 ∧ kEps ℚ * (2 * (3 : ℕ)) ≤ 2 - (-1) := by decide +kernel

example : (do
    let s ← Gen.randomNurbs (K := ℚ) (fun i => i) (fun i => 7 * i % 20) 1 (-1) 2 2 1
    return (s.ps.knots, s.ps.degree, s.ph.cps, s.ph.weights)) =
      .ok ([[-1, -1, 2, 2]], [1], [-5, -493/100], some [3/2, 1/5]) := by decide +kernel

/-- With a maximal degree of 0 the precondition of `std::binomial_distribution` is violated. -/
theorem C42_max_degree_zero_counterexample (ei ed : ℕ → ℕ) (a b : ℚ) (dimension : ℕ) :
    Gen.randomBSpline ei ed 1 a b 0 dimension = .error .ub := by
  have : Gen.degrees ℚ ei 1 0 = .error .ub := by
    have hq : Prn.truncate (((0 : ℤ) : ℚ) - ((1 : ℤ) : ℚ)) = -1 := by decide +kernel
    simp [Gen.degrees, buildList, Gen.binomialInt, Gen.binomial, fdiv] at hq ⊢
    simp [hq]
  simp [Gen.randomBSpline, this]

end

section
variable {K : Type} [Field K] [LinearOrder K] [IsStrictOrderedRing K]

/-- **C42**, square generator: for degree at least 1 and at least `2p+2` knots the constructors accept the generated data, and (unless the
knots come too close to each other) the result is a well-formed B-spline surface over the unit square in the plane. -/
theorem C42_square {p n : ℕ} (hp : 1 ≤ p) (hn : 2 * p + 2 ≤ n) (hsz : (n - p - 1) * (n - p - 1) < 2 ^ 64) :
    ∃ s : Spl K, Gen.square p n = .ok s ∧ IsBSpline s ∧ s.ph.dim = 2 ∧ s.ps.degree = [p, p] ∧
      (∃ U, s.ps.knots = [U, U] ∧ U.length = n ∧ ClampedKnots U p ∧ knot U 0 = 0 ∧ lastKnot U = 1) ∧
      (kEps K * ((n : K) - 2 * p - 1) ≤ 1 → WFSpl s ∧ List.Forall₂ ExactEnds s.ps.knots s.ps.degree) ∧
      ∀ j < n - p - 1, ∀ i < n - p - 1, cpt s [j, i] 0 = -1 + 2 * j / ((n : K) - p - 2) ∧ cpt s [j, i] 1 = -1 + 2 * i / ((n : K) - p - 2) := by
  obtain ⟨k, rfl⟩ : ∃ k, n = 2 * p + 2 + k := ⟨n - (2 * p + 2), by omega⟩
  have hnum : 2 * p + 2 + k - p - 1 = p + 1 + k := by omega
  rw [hnum] at hsz ⊢
  obtain ⟨s, hs, hb⟩ := square_ok (K := K) hp hsz
  have hpl := grid_length (fun i j : ℕ => [-1 + 2 / ((p : K) + k) * (j : K), -1 + 2 / ((p : K) + k) * (i : K)]) (p + 1 + k) (p + 1 + k)
  have hm : ∀ q ∈ ((List.range (p + 1 + k)).map fun i : ℕ => (List.range (p + 1 + k)).map fun j : ℕ =>
          [-1 + 2 / ((p : K) + k) * (j : K), -1 + 2 / ((p : K) + k) * (i : K)]).flatten, q.length = 2 := by
    intro q hq
    obtain ⟨i, _, j, _, rfl⟩ := mem_grid hq
    rfl
  have hne : ((List.range (p + 1 + k)).map fun i : ℕ => (List.range (p + 1 + k)).map fun j : ℕ =>
          [-1 + 2 / ((p : K) + k) * (j : K), -1 + 2 / ((p : K) + k) * (i : K)]).flatten ≠ [] := by
    intro h0; rw [h0] at hpl; simp only [List.length_nil] at hpl
    have : 0 < (p + 1 + k) * (p + 1 + k) := by positivity
    omega
  have hdim : s.ph.dim = 2 := by rw [hb.dim _ (List.head_mem hne), hm _ (List.head_mem hne)]
  have hns : npts s = [p + 1 + k, p + 1 + k] := by
    rw [npts_eq, hb.knots, hb.degree]; simp [nptsOf, uniformKnots_length, hnum]
  obtain ⟨c1, c2, c3⟩ := clamped_iff.1 (uniformKnots_clamped (0 : K) (1 / ((k : K) + 1)) p k)
  have hk1 : (k : K) + 1 ≠ 0 := by positivity
  refine ⟨s, hs, hb.weights, hdim, hb.degree, ⟨_, hb.knots, uniformKnots_length _ _ _ _, ⟨c1, c2, c3⟩, uniformKnots_first _ _ _ _, ?_⟩, ?_, ?_⟩
  · rw [uniformKnots_last]; field_simp; simp
  · intro hw
    have hh : kEps K ≤ 1 / ((k : K) + 1) := by
      rw [le_div_iff₀ (by positivity)]
      have : (((2 * p + 2 + k : ℕ)) : K) - 2 * p - 1 = (k : K) + 1 := by push_cast; ring
      rw [this] at hw; exact hw
    have wk := uniformKnots_wf (a := (0 : K)) p k hh
    have ek := uniformKnots_exactEnds (a := (0 : K)) p k (lt_of_lt_of_le kEps_pos' hh)
    refine ⟨hb.wf (.cons wk (.cons wk .nil)) hne ?_ (by norm_num : 0 < 2) hm (by intro w hw; simp at hw), ?_⟩
    · rw [hpl]; simp [nptsOf, uniformKnots_length, hnum]
    · rw [hb.knots, hb.degree]; exact .cons ek (.cons ek .nil)
  · intro j hj i hi
    have hden : (((2 * p + 2 + k : ℕ)) : K) - p - 2 = (p : K) + k := by push_cast; ring
    rw [hden]
    have key : ∀ c < 2, cpt s [j, i] c = [-1 + 2 / ((p : K) + k) * (j : K), -1 + 2 / ((p : K) + k) * (i : K)].getD c 0 := by
      intro c hc
      show s.ph.cps.getD (s.ph.dim * lin (npts s) [j, i] + c) 0 = _
      rw [hb.cps, hdim, flatten_getD hm hc, hns]
      simp only [lin, Nat.mul_zero, Nat.add_zero]
      rw [grid_getD _ _ _ _ hi hj]
    constructor
    · rw [key 0 (by norm_num)]; simp; ring
    · rw [key 1 (by norm_num)]; simp; ring

/-- **C42**, square generator: the surface covers the square in the sense of its boundary: it stays in `[-1,1]²`, it maps the corners of
the unit square to the corners of `[-1,1]²`, its first coordinate depends only on the first parameter and its second coordinate
is the same function of the second parameter. -/
theorem C42_square_geometry {p n : ℕ} (hp : 1 ≤ p) (hn : 2 * p + 2 ≤ n) (hsz : (n - p - 1) * (n - p - 1) < 2 ^ 64)
    (hsep : kEps K * ((n : K) - 2 * p - 1) ≤ 1) :
    ∃ (s : Spl K) (f : K → K), Gen.square p n = .ok s ∧ f 0 = -1 ∧ f 1 = 1 ∧ (∀ u, 0 ≤ u → u ≤ 1 → -1 ≤ f u ∧ f u ≤ 1) ∧
      ∀ u v, 0 ≤ u → u ≤ 1 → 0 ≤ v → v ≤ 1 → s.evaluate [u, v] [0, 1] = .ok [f u, f v] := by
  obtain ⟨s, hs, hb, hdim, hdeg, ⟨U, hU, hl, hc, h0, h1⟩, hwf, hcp⟩ := C42_square (K := K) hp hn hsz
  obtain ⟨wf, ee⟩ := hwf hsep
  have wk : WFKnots U p := by
    have := wf.knots
    rw [hU, hdeg] at this
    cases this with | cons a _ => exact a
  have ek : ExactEnds U p := by
    rw [hU, hdeg] at ee
    cases ee with | cons a _ => exact a
  have hnp : npts s = [n - p - 1, n - p - 1] := by unfold npts; rw [hU, hdeg]; simp [hl]
  have hpos : (0 : K) < (n : K) - p - 2 := by
    have : ((2 * p + 2 : ℕ) : K) ≤ n := by exact_mod_cast hn
    have h1p : (1 : K) ≤ p := by exact_mod_cast hp
    push_cast at this
    linarith
  have hcast : ((n - p - 2 : ℕ) : K) = (n : K) - p - 2 := by
    rw [Nat.cast_sub (by omega), Nat.cast_sub (by omega)]; norm_num
  let f : K → K := fun u => ∑ j ∈ range (n - p - 1), coxDeBoor U p j u * (-1 + 2 * (j : K) / ((n : K) - p - 2))
  have hsum : ∀ u, 0 ≤ u → u ≤ 1 → ∑ j ∈ range (n - p - 1), coxDeBoor U p j u = 1 := by
    intro u hu0 hu1
    rw [← hl]; exact cox_sum wk (by rw [h0]; exact hu0) (by rw [h1]; exact hu1)
  have hf0 : ∀ j, j + p + 1 < U.length → coxDeBoor U p j 0 = if j = 0 then 1 else 0 := by
    intro j hj
    have := cox_first wk ek.1 hj
    rwa [h0] at this
  have hf1 : ∀ j, j + p + 1 < U.length → coxDeBoor U p j 1 = if j = U.length - p - 2 then 1 else 0 := by
    intro j hj
    have := cox_last wk ek.2 hj
    rwa [h1] at this
  refine ⟨s, f, hs, ?_, ?_, ?_, ?_⟩
  · show ∑ j ∈ range (n - p - 1), coxDeBoor U p j 0 * _ = (-1 : K)
    rw [Finset.sum_eq_single_of_mem 0 (by simp; omega)]
    · rw [hf0 _ (by omega)]; simp
    · intro j hj hj0
      rw [hf0 _ (by have := Finset.mem_range.1 hj; omega), if_neg hj0, zero_mul]
  · show ∑ j ∈ range (n - p - 1), coxDeBoor U p j 1 * _ = (1 : K)
    rw [Finset.sum_eq_single_of_mem (n - p - 2) (by simp; omega)]
    · rw [hf1 _ (by omega), if_pos (by omega), hcast, mul_div_assoc, div_self hpos.ne']; norm_num
    · intro j hj hj0
      rw [hf1 _ (by have := Finset.mem_range.1 hj; omega), if_neg (by omega), zero_mul]
  · intro u hu0 hu1
    have hx : ∀ j ∈ range (n - p - 1), 0 ≤ coxDeBoor U p j u := by
      intro j hj
      exact cox_nonneg wk (by rw [h0]; exact hu0) (by rw [h1]; exact hu1) (by have := Finset.mem_range.1 hj; omega)
    have hjb : ∀ j ∈ range (n - p - 1), (0 : K) ≤ 2 * (j : K) / ((n : K) - p - 2) ∧ 2 * (j : K) / ((n : K) - p - 2) ≤ 2 := by
      intro j hj
      have hj' : (j : K) ≤ (n : K) - p - 2 := by
        rw [← hcast]; exact_mod_cast (by have := Finset.mem_range.1 hj; omega : j ≤ n - p - 2)
      exact ⟨by positivity, by rw [div_le_iff₀ hpos]; linarith⟩
    constructor
    · calc (-1 : K) = ∑ j ∈ range (n - p - 1), coxDeBoor U p j u * (-1) := by rw [← Finset.sum_mul, hsum u hu0 hu1, one_mul]
        _ ≤ f u := Finset.sum_le_sum fun j hj => mul_le_mul_of_nonneg_left (by have := (hjb j hj).1; linarith) (hx j hj)
    · calc f u ≤ ∑ j ∈ range (n - p - 1), coxDeBoor U p j u * 1 :=
            Finset.sum_le_sum fun j hj => mul_le_mul_of_nonneg_left (by have := (hjb j hj).2; linarith) (hx j hj)
        _ = 1 := by rw [← Finset.sum_mul, hsum u hu0 hu1, one_mul]
  · intro u v hu0 hu1 hv0 hv1
    have hx : InDomain s [u, v] := by
      unfold InDomain
      rw [hU]
      exact .cons ⟨by rw [h0]; exact hu0, by rw [h1]; exact hu1⟩ (.cons ⟨by rw [h0]; exact hv0, by rw [h1]; exact hv1⟩ .nil)
    have e := evaluate_bspline wf hb hx [0, 1] (by simp [hdim])
    have hts : ∀ c, bsplineValue s [u, v] c = ∑ j ∈ range (n - p - 1), ∑ i ∈ range (n - p - 1),
        coxDeBoor U p j u * (coxDeBoor U p i v * cpt s [j, i] c) := by
      intro c
      unfold bsplineValue tensorSum
      rw [hnp, hU, hdeg]
      simp [msum, dprod, basisFns, mul_assoc]
    have e0 : bsplineValue s [u, v] 0 = f u := by
      rw [hts]
      refine Finset.sum_congr rfl fun j hj => ?_
      rw [← Finset.mul_sum]
      congr 1
      have : ∀ i ∈ range (n - p - 1), coxDeBoor U p i v * cpt s [j, i] 0 = coxDeBoor U p i v * (-1 + 2 * (j : K) / ((n : K) - p - 2)) := by
        intro i hi
        rw [(hcp j (Finset.mem_range.1 hj) i (Finset.mem_range.1 hi)).1]
      rw [Finset.sum_congr rfl this, ← Finset.sum_mul, hsum v hv0 hv1, one_mul]
    have e1 : bsplineValue s [u, v] 1 = f v := by
      rw [hts]
      have : ∀ j ∈ range (n - p - 1), ∑ i ∈ range (n - p - 1), coxDeBoor U p j u * (coxDeBoor U p i v * cpt s [j, i] 1) =
          coxDeBoor U p j u * f v := by
        intro j hj
        rw [← Finset.mul_sum]
        congr 1
        refine Finset.sum_congr rfl fun i hi => ?_
        rw [(hcp j (Finset.mem_range.1 hj) i (Finset.mem_range.1 hi)).2]
      rw [Finset.sum_congr rfl this, ← Finset.sum_mul, hsum u hu0 hu1, one_mul]
    simp only [List.map_cons, List.map_nil, e0, e1] at e
    exact e

example : (1 : ℕ) ≤ 2 ∧ 2 * 2 + 2 ≤ 7 ∧ (7 - 2 - 1) * (7 - 2 - 1) < 2 ^ 64 ∧ kEps ℚ * (((7 : ℕ) : ℚ) - 2 * (2 : ℕ) - 1) ≤ 1 := by
  decide +kernel

example : (do let s ← Gen.square (K := ℚ) 2 7; s.evaluate [1/2, 1] [0, 1]) = .ok [0, 1] := by decide +kernel

/-- Too few knots: the loop over the interior knots never meets its end. -/
theorem C42_square_too_few_knots_counterexample : Gen.square (K := ℚ) 2 5 = .error .ub := by decide +kernel

/-- Degree 0 with two knots: the spacing of the control points is `2/0`. -/
theorem C42_square_degree_zero_counterexample : Gen.square (K := ℚ) 0 2 = .error .nonfinite := by decide +kernel

end
end SplineLib
