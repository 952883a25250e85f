import Verif.Core.Marsden
import Verif.Core.Insert
import Verif.Spec.Examples

/-!
# C83: polynomials are reproduced

The control points of a polynomial are known in closed form; with these control points the library evaluates exactly the polynomial.
-/

namespace SplineLib
set_option linter.unusedSectionVars false
open Finset
variable {K : Type} [Field K] [LinearOrder K] [IsStrictOrderedRing K]

/-- No weights, or equal weights. -/
def EqualWeights (s : Spl K) : Prop := ∀ w, s.ph.weights = some w → ∃ a, ∀ b ∈ w, b = a

theorem evaluate_of_equalWeights {s : Spl K} (h : WFSpl s) (he : EqualWeights s) {x : List K} (hx : InDomain s x) {c : ℕ} (hc : c < s.ph.dim) :
    s.evaluate x (zl [c]) = .ok [bsplineValue s x c] := by
  have hcc : ∀ c' ∈ [c], c' < s.ph.dim := by simpa using hc
  cases hw : s.ph.weights with
  | none => exact evaluate_bspline h hw hx [c] hcc
  | some w =>
    obtain ⟨a, ha⟩ := he w hw
    have ht : WFSpl (⟨s.ps, { s.ph with weights := none }⟩ : Spl K) :=
      ⟨h.knots, h.basis, h.num, h.dim, h.cps, by intro w h; simp at h⟩
    rw [evaluate_equal_weights h hw ha hx [c] hcc, evaluate_bspline ht rfl hx [c] hcc]
    rfl

theorem msum_swap (g : List ℕ → List ℕ → K) : ∀ (ns ms : List ℕ), (msum ns fun I => msum ms fun m => g I m) = msum ms fun m => msum ns fun I => g I m := by
  intro ns
  induction ns generalizing g with
  | nil => intro ms; rfl
  | cons n ns ih =>
    intro ms
    simp only [msum]
    rw [msum_finset_sum]
    exact sum_congr rfl fun i _ => ih (fun I m => g (i :: I) m) ms

theorem inBox_degree : ∀ {ps m : List ℕ}, InBox (ps.map (· + 1)) m → List.Forall₂ (· ≤ ·) m ps
  | [], m, h => by simp only [List.map_nil, inBox_nil_iff] at h; subst h; exact .nil
  | p :: ps, m, h => by
    cases m with
    | nil => simp at h
    | cons a m =>
      simp only [List.map_cons, inBox_cons] at h
      exact .cons (by omega) (inBox_degree h.2)

/-- **C83** If coordinate `c` of the control points is the combination with the coefficients `a` of the control points of the monomials, coordinate
`c` of the spline is the polynomial with the coefficients `a`, in as many variables as the spline has directions and of the degree of the spline in
each of them. -/
theorem C83_polynomial {s : Spl K} (h : WFSpl s) (he : EqualWeights s) {x : List K} (hx : InDomain s x) {c : ℕ} (hc : c < s.ph.dim) (a : List ℕ → K)
    (hp : ∀ I, InBox (npts s) I → cpt s I c = msum (s.ps.degree.map (· + 1)) fun m => a m * dprod (monomialFns s.ps.knots s.ps.degree m) I) :
    s.evaluate x (zl [c]) = .ok [msum (s.ps.degree.map (· + 1)) fun m => a m * monomialAt x m] := by
  rw [evaluate_of_equalWeights h he hx hc]
  congr 2
  unfold bsplineValue tensorSum
  rw [msum_congr (g := fun I => dprod (basisFns s.ps.knots s.ps.degree x) I *
    msum (s.ps.degree.map (· + 1)) fun m => a m * dprod (monomialFns s.ps.knots s.ps.degree m) I) fun I hI => by
      show _ * cpt s I c = _; rw [hp I hI]]
  have e : (msum (s.ps.degree.map (· + 1)) fun m => a m * monomialAt x m) = msum (s.ps.degree.map (· + 1)) fun m =>
      a m * msum (npts s) fun I => dprod (basisFns s.ps.knots s.ps.degree x) I * dprod (monomialFns s.ps.knots s.ps.degree m) I :=
    msum_congr fun m hm => by rw [← msum_monomial h.knots hx (inBox_degree hm)]; rfl
  rw [e]
  simp only [← msum_mul_left]
  rw [msum_swap]
  exact msum_congr fun m _ => msum_congr fun I _ => by ring

/-- **C83** Curves: with the control points of a polynomial of at most the degree of the curve, the curve is this polynomial. -/
theorem C83_curve {s : Spl K} (h : WFSpl s) (he : EqualWeights s) {U : List K} {p : ℕ} (hU : s.ps.knots = [U]) (hpd : s.ps.degree = [p]) {t : K}
    (h0 : knot U 0 ≤ t) (h1 : t ≤ lastKnot U) {c : ℕ} (hc : c < s.ph.dim) (q : Polynomial K) (hq : q.natDegree ≤ p)
    (hp : ∀ i < U.length - p - 1, cpt s [i] c = ∑ m ∈ range (p + 1), q.coeff m * monomialPoint U p m i) :
    s.evaluate [t] (zl [c]) = .ok [q.eval t] := by
  have hx : InDomain s [t] := by unfold InDomain; rw [hU]; exact .cons ⟨h0, h1⟩ .nil
  rw [C83_polynomial h he hx hc (fun m => q.coeff (m.getD 0 0))]
  · congr 2
    rw [Polynomial.eval_eq_sum_range' (Nat.lt_succ_of_le hq)]
    simp [hpd, msum, monomialAt]
  · intro I hI
    rw [npts, hU, hpd] at hI
    cases I with
    | nil => simp at hI
    | cons i I =>
      simp only [List.zipWith_cons_cons, List.zipWith_nil_left, inBox_cons, inBox_nil_iff] at hI
      obtain ⟨hi, rfl⟩ := hI
      rw [hp i hi]
      simp [hU, hpd, msum, monomialFns, dprod]

theorem monomialFns_unit : ∀ {Us : List (List K)} {ps : List ℕ} {d : ℕ} {U : List K} {p : ℕ} {I : List ℕ}, Us.length = ps.length →
    I.length = ps.length → Us[d]? = some U → ps[d]? = some p →
    dprod (monomialFns Us ps ((List.replicate ps.length 0).set d 1)) I = greville U p (I.getD d 0)
  | [], _, d, U, p, I, _, _, h, _ => by simp at h
  | U0 :: Us, [], d, U, p, I, hl, _, _, _ => by simp at hl
  | U0 :: Us, p0 :: ps, d, U, p, [], _, hI, _, _ => by simp at hI
  | U0 :: Us, p0 :: ps, 0, U, p, i :: I, hl, hI, hU, hp => by
    obtain rfl : U0 = U := by simpa using hU
    obtain rfl : p0 = p := by simpa using hp
    have : ∀ (Us : List (List K)) (ps I : List ℕ), dprod (monomialFns Us ps (List.replicate ps.length 0)) I = 1 := by
      intro Us
      induction Us with
      | nil => intro ps I; simp [monomialFns, dprod]
      | cons U Us ih =>
        intro ps I
        cases ps with
        | nil => simp [monomialFns, dprod]
        | cons p ps =>
          cases I with
          | nil => simp [monomialFns, dprod, List.replicate_succ]
          | cons i I => simp [monomialFns, dprod, List.replicate_succ, ih, monomialPoint, elemSym]
    simp [List.replicate_succ, monomialFns, dprod, this, monomialPoint, greville, elemSym_one]
  | U0 :: Us, p0 :: ps, d + 1, U, p, i :: I, hl, hI, hU, hp => by
    simp only [List.length_cons, List.replicate_succ, List.set_cons_succ, monomialFns, dprod, List.getD_cons_succ]
    rw [monomialFns_unit (by simpa using hl) (by simpa using hI) (by simpa using hU) (by simpa using hp)]
    simp [monomialPoint, elemSym]

theorem monomialAt_unit : ∀ {x : List K} {n d : ℕ}, x.length = n → d < n → monomialAt x ((List.replicate n 0).set d 1) = x.getD d 0
  | [], n, d, h, hd => by simp at h; omega
  | a :: x, 0, d, h, hd => by omega
  | a :: x, n + 1, 0, h, hd => by
    have : ∀ (x : List K) n, (List.zipWith (· ^ ·) x (List.replicate n 0)).prod = (1 : K) := by
      intro x
      induction x with
      | nil => simp
      | cons a x ih => intro n; cases n <;> simp [List.replicate_succ, ih]
    simp [List.replicate_succ, monomialAt, this]
  | a :: x, n + 1, d + 1, h, hd => by
    have := monomialAt_unit (x := x) (n := n) (d := d) (by simpa using h) (by omega)
    simp only [monomialAt] at this ⊢
    simp [List.replicate_succ, this]

/-- **C83** Linear precision: if coordinate `c` of the control points is the average of `p` consecutive knots of direction `d`, coordinate `c` of the
spline is the parameter of this direction. -/
theorem C83_linear_precision {s : Spl K} (h : WFSpl s) (he : EqualWeights s) {x : List K} (hx : InDomain s x) {c d : ℕ} (hc : c < s.ph.dim)
    {U : List K} {p : ℕ} (hU : s.ps.knots[d]? = some U) (hpd : s.ps.degree[d]? = some p) (hp1 : 1 ≤ p)
    (hp : ∀ I, InBox (npts s) I → cpt s I c = greville U p (I.getD d 0)) : s.evaluate x (zl [c]) = .ok [x.getD d 0] := by
  have hl : s.ps.knots.length = s.ps.degree.length := List.Forall₂.length_eq h.knots
  have hd : d < s.ps.degree.length := by rw [← hl]; exact lt_of_some hU
  have hxl : x.length = s.ps.degree.length := by rw [← hl]; exact (List.Forall₂.length_eq hx).symm
  have hle : List.Forall₂ (· ≤ ·) ((List.replicate s.ps.degree.length 0).set d 1) s.ps.degree := by
    rw [List.forall₂_iff_get]
    refine ⟨by simp, fun i h1 h2 => ?_⟩
    simp only [List.get_eq_getElem, List.getElem_set, List.getElem_replicate]
    split
    · subst_vars
      have := List.getElem?_eq_getElem h2
      rw [hpd] at this
      have := Option.some.inj this
      omega
    · omega
  rw [evaluate_of_equalWeights h he hx hc, ← monomialAt_unit hxl hd, ← msum_monomial h.knots hx hle]
  congr 2
  refine msum_congr fun I hI => ?_
  have hIl : I.length = s.ps.degree.length := by rw [hI.length, npts, List.length_zipWith, hl, Nat.min_self]
  show _ * cpt s I c = _
  rw [hp I hI, monomialFns_unit hl hIl hU hpd]

/-! ## Examples -/

/-- The parabola (t, t²) with the knots 0, 0, 0, 1, 2, 2, 2. -/
def exParabola : Spl ℚ :=
  ⟨⟨[[0, 0, 0, 1, 2, 2, 2]], [2], mkTable [[0, 0, 0, 1, 2, 2, 2]] [2]⟩, ⟨2, [4], [0, 0, 1/2, 0, 3/2, 2, 2, 4], none⟩⟩

theorem exParabola_wf : WFSpl exParabola where
  knots := by simp only [exParabola]; exact .cons (by decide +kernel) .nil
  basis := by decide +kernel
  num := by decide +kernel
  dim := by decide +kernel
  cps := by decide +kernel
  weights := by intro w h; exact absurd h (by simp [exParabola])

example : ∀ t : ℚ, 0 ≤ t → t ≤ 2 → exParabola.evaluate [t] (zl [0]) = .ok [t] ∧ exParabola.evaluate [t] (zl [1]) = .ok [t ^ 2] := by
  intro t h0 h1
  have he : EqualWeights exParabola := by intro w h; simp [exParabola] at h
  have hx : InDomain exParabola [t] := .cons ⟨by simpa [knot] using h0, by simpa [knot, lastKnot] using h1⟩ .nil
  constructor
  · refine C83_linear_precision exParabola_wf he hx (d := 0) (U := [0, 0, 0, 1, 2, 2, 2]) (p := 2) (by decide) rfl rfl (by decide) ?_
    intro I hI
    cases I with
    | nil => simp [npts, exParabola] at hI
    | cons i I =>
      simp only [npts, exParabola, List.zipWith_cons_cons, List.zipWith_nil_left, inBox_cons, inBox_nil_iff] at hI
      obtain ⟨hi, rfl⟩ := hI
      revert i
      decide +kernel
  · have := C83_curve exParabola_wf he (U := [0, 0, 0, 1, 2, 2, 2]) (p := 2) rfl rfl (t := t) (by simpa [knot] using h0)
      (by simpa [knot, lastKnot] using h1) (c := 1) (by decide) (Polynomial.X ^ 2) (by simp) (by
        simp only [Polynomial.coeff_X_pow]
        decide +kernel)
    simpa using this

/-- The graph of the product of two parameters over the knots of `exSurface`. -/
def exSaddle : Spl ℚ :=
  ⟨⟨[[0, 0, 0, 1/2, 1, 1, 1], [-1, -1, 3, 3]], [2, 1], mkTable [[0, 0, 0, 1/2, 1, 1, 1], [-1, -1, 3, 3]] [2, 1]⟩,
   ⟨1, [4, 2], [0, -1/4, -3/4, -1, 0, 3/4, 9/4, 3], none⟩⟩

theorem exSaddle_wf : WFSpl exSaddle where
  knots := by simp only [exSaddle]; exact .cons (by decide +kernel) (.cons (by decide +kernel) .nil)
  basis := by decide +kernel
  num := by decide +kernel
  dim := by decide +kernel
  cps := by decide +kernel
  weights := by intro w h; exact absurd h (by simp [exSaddle])

example : ∀ x y : ℚ, 0 ≤ x → x ≤ 1 → -1 ≤ y → y ≤ 3 → exSaddle.evaluate [x, y] (zl [0]) = .ok [x * y] := by
  intro x y h0 h1 h2 h3
  rw [C83_polynomial exSaddle_wf (by intro w h; simp [exSaddle] at h)
    (.cons ⟨by simpa [knot] using h0, by simpa [knot, lastKnot] using h1⟩
      (.cons ⟨by simpa [knot] using h2, by simpa [knot, lastKnot] using h3⟩ .nil)) (by decide)
    (fun m => if m = [1, 1] then 1 else 0)]
  · simp [exSaddle, msum, sum_range_succ, monomialAt]
  · intro I hI
    match I, hI with
    | [i, j], hI =>
      simp only [npts, exSaddle, List.zipWith_cons_cons, List.zipWith_nil_left, inBox_cons] at hI
      obtain ⟨hi, hj, -⟩ := hI
      have : ∀ i < 4, ∀ j < 2, cpt exSaddle [i, j] 0 = msum (List.map (fun x => x + 1) exSaddle.ps.degree) fun m =>
          (if m = [1, 1] then 1 else 0) * dprod (monomialFns exSaddle.ps.knots exSaddle.ps.degree m) [i, j] := by decide +kernel
      exact this i hi j hj
    | [], hI => simp [npts, exSaddle] at hI
    | [i], hI => simp [npts, exSaddle] at hI
    | i :: j :: l :: I, hI => simp [npts, exSaddle] at hI

end SplineLib
