import Verif.Core.Smooth
import Verif.Core.RatDeriv
import Verif.Spec.Examples
import Verif.Props.Derivatives

/-!
# C82: splines are as smooth as the multiplicities of their knots promise

C09 and C10 give derivatives from the right at knots. Here: at a knot of multiplicity `m` the derivatives up to order `p - m` exist from both sides,
and all of them are continuous functions of all parameters together.
-/

namespace SplineLib
set_option linter.unusedSectionVars false
open Finset Filter Topology

theorem getD_of_some {α : Type} {l : List α} {d : ℕ} {a b : α} (h : l[d]? = some a) : l.getD d b = a := by
  rw [List.getD_eq_getElem?_getD, h]; rfl

/-- **C82** If the order of differentiation in a direction and the multiplicity of the parameter among the knots of this direction add up to less than
the degree (or the parameter is no knot), the next derivative that `EvaluateDerivative` returns is the derivative from both sides. -/
theorem C82_two_sided {s : Spl ℝ} (h : WFSpl s) {x : List ℝ} (hx : InDomain s x) {k : List ℕ} (hk : k.length = s.ps.knots.length) {d : ℕ}
    {U : List ℝ} {p : ℕ} (hU : s.ps.knots[d]? = some U) (hp : s.ps.degree[d]? = some p) (h0 : knot U 0 < x.getD d 0)
    (h1 : x.getD d 0 < lastKnot U) (hm : x.getD d 0 ∈ U → k.getD d 0 + U.count (x.getD d 0) < p) {c : ℕ} (hc : c < s.ph.dim) {f : ℝ → ℝ} {f' : ℝ}
    (hf : ∀ t, knot U 0 ≤ t → t ≤ lastKnot U → s.evaluateDerivative (x.set d t) (zl [c]) (zl k) = .ok [f t])
    (hf' : s.evaluateDerivative x (zl [c]) (zl (k.modify d (· + 1))) = .ok [f']) : HasDerivAt f f' (x.getD d 0) := by
  have hdl := lt_of_some hU
  have hU' := getD_of_some (b := []) hU
  have hp' := getD_of_some (b := 0) hp
  have hself : x.set d (x.getD d 0) = x := by
    have : d < x.length := by rw [← List.Forall₂.length_eq hx]; exact hdl
    rw [List.getD_eq_getElem?_getD, List.getElem?_eq_getElem this]; simp
  have hdom : ∀ t, knot U 0 ≤ t → t ≤ lastKnot U → InDomain s (x.set d t) := fun t h1 h2 =>
    Dom.set hx fun U' hU' => by rw [hU] at hU'; obtain rfl := Option.some.inj hU'; exact ⟨h1, h2⟩
  have hkl : (k.modify d (· + 1)).length = s.ps.knots.length := by simp [hk]
  have hev : ∀ᶠ t in 𝓝 (x.getD d 0), knot U 0 ≤ t ∧ t ≤ lastKnot U := by
    filter_upwards [Ioo_mem_nhds h0 h1] with t ht using ⟨ht.1.le, ht.2.le⟩
  have hdp : ∀ k : List ℕ, k.length = s.ps.knots.length → (x.getD d 0 ∈ U → k.getD d 0 + U.count (x.getD d 0) < p) → ∀ I, InBox (npts s) I →
      HasDerivAt (fun t => dprod (basisDerivFns s.ps.knots s.ps.degree (x.set d t) k) I)
        (dprod (basisDerivFns s.ps.knots s.ps.degree x (k.modify d (· + 1))) I) (x.getD d 0) := fun k hk hm I hI =>
    dprod_hasDerivAt h.knots hx hk hI hdl (by rw [hU']; exact h0) (by rw [hU']; exact h1)
      (by rw [hU', hp']; intro hin; have := hm hin; omega)
  have hsum : ∀ k : List ℕ, k.length = s.ps.knots.length → (x.getD d 0 ∈ U → k.getD d 0 + U.count (x.getD d 0) < p) → ∀ a : List ℕ → ℝ,
      HasDerivAt (fun t => tensorDerivSum s (x.set d t) k a) (tensorDerivSum s x (k.modify d (· + 1)) a) (x.getD d 0) := by
    intro k hk hm a
    rw [← hasDerivWithinAt_univ]
    unfold tensorDerivSum
    exact msum_hasDeriv fun I hI => ((hdp k hk hm I hI).hasDerivWithinAt).mul_const _
  cases hw : s.ph.weights with
  | none =>
    have e := evaluateDerivative_bspline h hw hx [c] (by simpa using hc) hkl
    rw [hf', Except.ok.injEq, List.map_singleton, List.cons.injEq] at e
    rw [e.1]
    refine (hsum k hk hm _).congr_of_eventuallyEq ?_
    filter_upwards [hev] with t ht
    have e := evaluateDerivative_bspline h hw (hdom t ht.1 ht.2) [c] (by simpa using hc) hk
    rw [hf t ht.1 ht.2, Except.ok.injEq, List.map_singleton, List.cons.injEq] at e
    exact e.1
  | some w =>
    have hn : IsNurbs s := ⟨w, hw⟩
    have e := evaluateDerivative_nurbs h hn hx [c] (by simpa using hc) hkl
    rw [hf', Except.ok.injEq, List.map_singleton, List.cons.injEq] at e
    rw [e.1]
    have key : HasDerivAt (fun t => msum (npts s) fun I => ratBasis s (x.set d t) k I * cpt s I c)
        (msum (npts s) fun I => ratBasis s x (k.modify d (· + 1)) I * cpt s I c) (x.getD d 0) := by
      rw [← hasDerivWithinAt_univ]
      refine msum_hasDeriv fun I hI => HasDerivWithinAt.mul_const ?_ _
      have := ratR_hasDeriv (A := fun k t => dprod (basisDerivFns s.ps.knots s.ps.degree (x.set d t) k) I * wgt s I)
        (W := fun k t => tensorDerivSum s (x.set d t) k fun I => wgt s I) (D := s.ps.knots.length) (b := k.getD d 0) hdl (S := Set.univ)
        (x := x.getD d 0)
        (fun k' hk' hb => by
          simp only [hself]
          exact (hdp k' hk' (fun hin => by have := hm hin; omega) I hI).hasDerivWithinAt.mul_const _)
        (fun k' hk' hb => by
          simp only [hself]
          exact (hsum k' hk' (fun hin => by have := hm hin; omega) _).hasDerivWithinAt)
        (by
          simp only [hself]
          have := weightDeriv_zero (s := s) (x := x) (k := List.replicate s.ps.knots.length 0) (by simp)
          simp only [List.map_replicate] at this
          rw [this]
          exact (weightValue_pos h hx).ne') k.sum k hk (le_refl _) (le_refl _)
      simp only [hself] at this
      exact this
    refine key.congr_of_eventuallyEq ?_
    filter_upwards [hev] with t ht
    have e := evaluateDerivative_nurbs h hn (hdom t ht.1 ht.2) [c] (by simpa using hc) hk
    rw [hf t ht.1 ht.2, Except.ok.injEq, List.map_singleton, List.cons.injEq] at e
    exact e.1

/-- **C82** If in every direction the order of differentiation and the multiplicity of every interior knot add up to at most the degree, the derivative
is a continuous function: it depends continuously on the parameters when these depend continuously on anything. (With the space of all parameters for
`X` and its coordinates for `γ` this is continuity in all parameters together.) -/
theorem C82_continuous {X : Type} [TopologicalSpace X] {s : Spl ℝ} (h : WFSpl s) {γ : List (X → ℝ)} (hγ : ∀ g ∈ γ, Continuous g)
    (hx : ∀ v, InDomain s (γ.map fun g => g v)) {k : List ℕ} (hk : k.length = s.ps.knots.length)
    (hm : ∀ d U p, s.ps.knots[d]? = some U → s.ps.degree[d]? = some p → ∀ t ∈ U, knot U 0 < t → t < lastKnot U → k.getD d 0 + U.count t ≤ p)
    {c : ℕ} (hc : c < s.ph.dim) {f : X → ℝ} (hf : ∀ v, s.evaluateDerivative (γ.map fun g => g v) (zl [c]) (zl k) = .ok [f v]) : Continuous f := by
  have hdp : ∀ k' : List ℕ, k'.length = s.ps.knots.length → (∀ d, k'.getD d 0 ≤ k.getD d 0) → ∀ I, InBox (npts s) I →
      Continuous fun v => dprod (basisDerivFns s.ps.knots s.ps.degree (γ.map fun g => g v) k') I := fun k' hk' hle I hI =>
    dprod_continuous h.knots hγ hx hk' hI fun d U p h1 h2 => SmoothAt.mono (hm d U p h1 h2) (hle d)
  have hsum : ∀ k' : List ℕ, k'.length = s.ps.knots.length → (∀ d, k'.getD d 0 ≤ k.getD d 0) → ∀ a : List ℕ → ℝ,
      Continuous fun v => tensorDerivSum s (γ.map fun g => g v) k' a := by
    intro k' hk' hle a
    unfold tensorDerivSum
    exact msum_continuous fun I hI => (hdp k' hk' hle I hI).mul continuous_const
  cases hw : s.ph.weights with
  | none =>
    have e : f = fun v => tensorDerivSum s (γ.map fun g => g v) k fun I => cpt s I c := by
      funext v
      have e := evaluateDerivative_bspline h hw (hx v) [c] (by simpa using hc) hk
      rw [hf v, Except.ok.injEq, List.map_singleton, List.cons.injEq] at e
      exact e.1
    rw [e]
    exact hsum k hk (fun _ => le_rfl) _
  | some w =>
    have hn : IsNurbs s := ⟨w, hw⟩
    have e : f = fun v => msum (npts s) fun I => ratBasis s (γ.map fun g => g v) k I * cpt s I c := by
      funext v
      have e := evaluateDerivative_nurbs h hn (hx v) [c] (by simpa using hc) hk
      rw [hf v, Except.ok.injEq, List.map_singleton, List.cons.injEq] at e
      exact e.1
    rw [e]
    refine msum_continuous fun I hI => Continuous.mul ?_ continuous_const
    refine ratR_continuous (A := fun k v => dprod (basisDerivFns s.ps.knots s.ps.degree (γ.map fun g => g v) k) I * wgt s I)
      (W := fun k v => tensorDerivSum s (γ.map fun g => g v) k fun I => wgt s I) (D := s.ps.knots.length) (b := k)
      (fun k' hk' hle => (hdp k' hk' hle I hI).mul continuous_const) (fun k' hk' hle => hsum k' hk' hle _) (fun v => ?_) k.sum k hk
      (fun _ => le_rfl) le_rfl
    have := weightDeriv_zero (s := s) (x := γ.map fun g => g v) (k := List.replicate s.ps.knots.length 0) (by simp)
    simp only [List.map_replicate] at this
    rw [this]
    exact (weightValue_pos h (hx v)).ne'

/-- **C82** A spline whose interior knots have at most the multiplicity of the degree is continuous. -/
theorem C82_evaluate_continuous {X : Type} [TopologicalSpace X] {s : Spl ℝ} (h : WFSpl s) {γ : List (X → ℝ)} (hγ : ∀ g ∈ γ, Continuous g)
    (hx : ∀ v, InDomain s (γ.map fun g => g v))
    (hm : ∀ (d : ℕ) (U : List ℝ) (p : ℕ), s.ps.knots[d]? = some U → s.ps.degree[d]? = some p →
      ∀ t ∈ U, knot U 0 < t → t < lastKnot U → U.count t ≤ p)
    {c : ℕ} (hc : c < s.ph.dim) {f : X → ℝ} (hf : ∀ v, s.evaluate (γ.map fun g => g v) (zl [c]) = .ok [f v]) : Continuous f := by
  have hz : ∀ d : ℕ, (s.ps.knots.map fun _ => (0 : ℕ)).getD d 0 = 0 := by
    intro d
    rw [List.getD_eq_getElem?_getD, List.getElem?_map]
    cases s.ps.knots[d]? <;> rfl
  refine C82_continuous h hγ hx (k := s.ps.knots.map fun _ => 0) (by simp) (fun d U p h1 h2 t ht h3 h4 => ?_) hc fun v => ?_
  · rw [hz, Nat.zero_add]; exact hm d U p h1 h2 t ht h3 h4
  · have hcc : ∀ c' ∈ [c], c' < s.ph.dim := by simpa using hc
    cases hw : s.ph.weights with
    | none =>
      obtain ⟨G, g1, g2, -⟩ := C09_bspline_derivative h hw
      rw [g1 _ _ [c] (hx v) (by simp) hcc, ← g2 _ [c] (hx v) hcc, hf v]
    | some w =>
      obtain ⟨G, g1, g2, -⟩ := C10_nurbs_derivative h ⟨w, hw⟩
      rw [g1 _ _ [c] (hx v) (by simp) hcc, ← g2 _ [c] (hx v) hcc, hf v]

/-! ## Examples -/

/-- Knots 0, 0, 0, 1, 2, 2, 2. -/
theorem exSmooth_knots : WFKnots [0, 0, 0, 1, 2, 2, (2 : ℝ)] 2 where
  sorted := by simp [SortedKnots]
  size := by simp
  first := by
    intro j hj
    rcases (by omega : j = 0 ∨ j = 1 ∨ j = 2) with rfl | rfl | rfl <;> simp [knot]
  last := by
    intro j hj
    rcases (by omega : j = 0 ∨ j = 1 ∨ j = 2) with rfl | rfl | rfl <;> simp [knot, lastKnot]
  range := by simp [knot, lastKnot]
  sep := by
    have hk : kEps ℝ ≤ 1 := by unfold kEps; norm_num
    intro a ha b hb hab
    simp only [List.mem_cons, List.not_mem_nil, or_false] at ha hb
    rcases ha with rfl | rfl | rfl | rfl | rfl | rfl | rfl <;> rcases hb with rfl | rfl | rfl | rfl | rfl | rfl | rfl <;>
      first | (exfalso; linarith) | linarith

/-- A quadratic NURBS curve with one interior knot over the reals. -/
noncomputable def exSmooth : Spl ℝ :=
  ⟨⟨[[0, 0, 0, 1, 2, 2, 2]], [2], mkTable [[0, 0, 0, 1, 2, 2, 2]] [2]⟩, ⟨1, [4], [0, 3, 1, 5], some [1, 2, 3, 4]⟩⟩

theorem exSmooth_wf : WFSpl exSmooth where
  knots := .cons exSmooth_knots .nil
  basis := basisTable_eq (forall₂_size (.cons exSmooth_knots .nil))
  num := by simp [exSmooth, npts]
  dim := by simp [exSmooth]
  cps := by simp [exSmooth, npts]
  weights := by
    intro w hw
    obtain rfl : [1, 2, 3, 4] = w := by simpa [exSmooth] using hw
    simp [exSmooth, npts]

/-- At the knot 1 of the example the curve has a first derivative from both sides: the derivative the library returns. -/
example : ∃ f : ℝ → ℝ, ∃ f', (∀ t, 0 ≤ t → t ≤ 2 → exSmooth.evaluateDerivative [t] [0] [0] = .ok [f t]) ∧
    exSmooth.evaluateDerivative [1] [0] [1] = .ok [f'] ∧ HasDerivAt f f' 1 := by
  obtain ⟨G, g1, -, -⟩ := C10_nurbs_derivative exSmooth_wf ⟨_, rfl⟩
  have hd : ∀ t : ℝ, 0 ≤ t → t ≤ 2 → InDomain exSmooth [t] := fun t h1 h2 => .cons ⟨by simpa [knot], by simpa [lastKnot]⟩ .nil
  have e1 : ∀ t, 0 ≤ t → t ≤ 2 → exSmooth.evaluateDerivative [t] [0] [0] = .ok [G 0 [0] [t]] := fun t h1 h2 =>
    g1 [t] [0] [0] (hd t h1 h2) rfl (by simp [exSmooth])
  have e2 : exSmooth.evaluateDerivative [1] [0] [1] = .ok [G 0 [1] [1]] := g1 [1] [1] [0] (hd 1 (by norm_num) (by norm_num)) rfl (by simp [exSmooth])
  refine ⟨fun t => G 0 [0] [t], _, e1, e2, ?_⟩
  have := C82_two_sided exSmooth_wf (x := [1]) (hd 1 (by norm_num) (by norm_num)) (k := [0]) rfl (d := 0) (U := [0, 0, 0, 1, 2, 2, 2]) (p := 2) rfl rfl
    (by simp [knot]) (by simp [knot, lastKnot]) (by intro _; simp) (c := 0) (by simp [exSmooth]) (f := fun t => G 0 [0] [t])
    (fun t h1 h2 => e1 t (by simpa [knot] using h1) (by simpa [knot, lastKnot] using h2)) e2
  simpa using this

/-- The example and its first derivative are continuous on the whole parameter interval. -/
example : (∃ f : Set.Icc (0 : ℝ) 2 → ℝ, (∀ v, exSmooth.evaluate [v.1] [0] = .ok [f v]) ∧ Continuous f) ∧
    ∃ f : Set.Icc (0 : ℝ) 2 → ℝ, (∀ v, exSmooth.evaluateDerivative [v.1] [0] [1] = .ok [f v]) ∧ Continuous f := by
  obtain ⟨G, g1, g2, -⟩ := C10_nurbs_derivative exSmooth_wf ⟨_, rfl⟩
  have hd : ∀ v : Set.Icc (0 : ℝ) 2, InDomain exSmooth [v.1] := fun v => .cons ⟨by simpa [knot] using v.2.1, by simpa [knot, lastKnot] using v.2.2⟩ .nil
  have e0 : ∀ v : Set.Icc (0 : ℝ) 2, exSmooth.evaluate [v.1] [0] = .ok [G 0 [0] [v.1]] := fun v => g2 _ [0] (hd v) (by simp [exSmooth])
  have e1 : ∀ v : Set.Icc (0 : ℝ) 2, exSmooth.evaluateDerivative [v.1] [0] [1] = .ok [G 0 [1] [v.1]] := fun v =>
    g1 [v.1] [1] [0] (hd v) rfl (by simp [exSmooth])
  have hγ : ∀ g ∈ [fun v : Set.Icc (0 : ℝ) 2 => v.1], Continuous g := by
    intro g hg; obtain rfl := List.mem_singleton.mp hg; exact continuous_subtype_val
  have hm : ∀ (d : ℕ) (U : List ℝ) (p : ℕ), exSmooth.ps.knots[d]? = some U → exSmooth.ps.degree[d]? = some p →
      ∀ t ∈ U, knot U 0 < t → t < lastKnot U → 1 + U.count t ≤ p := by
    intro d U p h1 h2 t ht h3 h4
    cases d with
    | zero =>
      obtain rfl : [0, 0, 0, 1, 2, 2, (2 : ℝ)] = U := by simpa [exSmooth] using h1
      obtain rfl : 2 = p := by simpa [exSmooth] using h2
      simp only [List.mem_cons, List.not_mem_nil, or_false] at ht
      rcases ht with rfl | rfl | rfl | rfl | rfl | rfl | rfl <;> simp [knot, lastKnot] at h3 h4 ⊢
    | succ d => simp [exSmooth] at h1
  refine ⟨⟨_, e0, C82_evaluate_continuous exSmooth_wf hγ hd (fun d U p h1 h2 t ht h3 h4 => ?_) (c := 0) (by simp [exSmooth]) e0⟩,
    ⟨_, e1, C82_continuous exSmooth_wf hγ hd (k := [1]) rfl (fun d U p h1 h2 t ht h3 h4 => ?_) (c := 0) (by simp [exSmooth]) e1⟩⟩
  · have := hm d U p h1 h2 t ht h3 h4; omega
  · have := hm d U p h1 h2 t ht h3 h4
    cases d with
    | zero => simpa using this
    | succ d => simp [exSmooth] at h1

/-- Knots 0, 0, 1, 1, 2, 2: the interior knot has multiplicity two, one more than the degree 1. -/
theorem exJump_knots : WFKnots [0, 0, 1, 1, 2, (2 : ℝ)] 1 where
  sorted := by simp [SortedKnots]
  size := by simp
  first := by
    intro j hj
    rcases (by omega : j = 0 ∨ j = 1) with rfl | rfl <;> simp [knot]
  last := by
    intro j hj
    rcases (by omega : j = 0 ∨ j = 1) with rfl | rfl <;> simp [knot, lastKnot]
  range := by simp [knot, lastKnot]
  sep := by
    have hk : kEps ℝ ≤ 1 := by unfold kEps; norm_num
    intro a ha b hb hab
    simp only [List.mem_cons, List.not_mem_nil, or_false] at ha hb
    rcases ha with rfl | rfl | rfl | rfl | rfl | rfl <;> rcases hb with rfl | rfl | rfl | rfl | rfl | rfl <;>
      first | (exfalso; linarith) | linarith

noncomputable def exJump : Spl ℝ :=
  ⟨⟨[[0, 0, 1, 1, 2, 2]], [1], mkTable [[0, 0, 1, 1, 2, 2]] [1]⟩, ⟨1, [4], [0, 0, 1, 1], none⟩⟩

theorem exJump_wf : WFSpl exJump where
  knots := .cons exJump_knots .nil
  basis := basisTable_eq (forall₂_size (.cons exJump_knots .nil))
  num := by simp [exJump, npts]
  dim := by simp [exJump]
  cps := by simp [exJump, npts]
  weights := by simp [exJump]

/-- **C82** The bound on the multiplicity is sharp: a curve of degree one with an interior knot of multiplicity two jumps there. -/
theorem C82_sharp : ∃ s : Spl ℝ, WFSpl s ∧ ∃ f : ℝ → ℝ, (∀ t, 0 ≤ t → t ≤ 2 → s.evaluate [t] [0] = .ok [f t]) ∧
    (∀ t, 0 ≤ t → t < 1 → f t = 0) ∧ f 1 = 1 ∧ ¬ ContinuousAt f 1 := by
  have hd : ∀ t : ℝ, 0 ≤ t → t ≤ 2 → InDomain exJump [t] := fun t h1 h2 => .cons ⟨by simpa [knot], by simpa [lastKnot]⟩ .nil
  have h0 : ∀ t : ℝ, 0 ≤ t → t < 1 → bsplineValue exJump [t] 0 = 0 := by
    intro t h1 h2
    simp [bsplineValue, tensorSum, npts, exJump, msum, Finset.sum_range_succ, dprod, basisFns, coxDeBoor, cpt, lin, knot]
    have hn : ¬ InSpan [0, 0, 1, 1, 2, 2] 3 t := by
      simp [InSpan, knot, lastKnot]
      exact ⟨fun h => absurd h (by linarith), fun h => absurd h (by linarith)⟩
    simp [hn]
  have h1 : bsplineValue exJump [1] 0 = 1 := by
    simp [bsplineValue, tensorSum, npts, exJump, msum, Finset.sum_range_succ, dprod, basisFns, coxDeBoor, cpt, lin, knot]
    have hn : InSpan [0, 0, 1, 1, 2, 2] 3 (1 : ℝ) := by
      simp [InSpan, knot, lastKnot]
    rw [if_pos hn]; norm_num
  refine ⟨exJump, exJump_wf, fun t => bsplineValue exJump [t] 0, fun t a b => ?_, h0, h1, fun hc => ?_⟩
  · exact evaluate_bspline exJump_wf rfl (hd t a b) [0] (by simp [exJump])
  · have ht : Tendsto (fun t : ℝ => bsplineValue exJump [t] 0) (𝓝[<] 1) (𝓝 0) := by
      refine tendsto_const_nhds.congr' ?_
      filter_upwards [Ioo_mem_nhdsLT (show (0 : ℝ) < 1 by norm_num)] with t ht
      exact (h0 t ht.1.le ht.2).symm
    have := tendsto_nhds_unique ht (hc.tendsto.mono_left nhdsWithin_le_nhds)
    rw [h1] at this
    norm_num at this

end SplineLib
