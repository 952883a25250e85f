import Verif.Props.Solvable

/-!
# C96: the steady state minimises the energy, and the time steps tend to it

The repository compares the last step of one unsteady computation with the steady solution
(`example/iga/test/bdf_handler_test.cc:56-63`). Here: the steady solution is the minimiser of the discrete energy, every time step brings the
solution nearer to it, and the distance decreases geometrically, at a rate that depends neither on the number of steps nor on the end time.
-/

namespace SplineLib
set_option linter.unusedSectionVars false
open Finset Elem
namespace Iga
variable {K : Type} [Field K] [LinearOrder K] [IsStrictOrderedRing K]

/-- The bilinear form of a matrix. -/
def form (n : ℕ) (L : ℕ → ℕ → K) (u v : ℕ → K) : K := ∑ a ∈ range n, ∑ b ∈ range n, u a * L a b * v b

section
variable [HasSqrt K] [LawfulSqrt K] {n : ℕ} {L : ℕ → ℕ → K}

omit [HasSqrt K] [LawfulSqrt K] in
theorem form_symm (hL : ∀ a b, L a b = L b a) (u v : ℕ → K) : form n L u v = form n L v u := by
  unfold form
  rw [sum_comm]
  exact sum_congr rfl fun a _ => sum_congr rfl fun b _ => by rw [hL b a]; ring

omit [HasSqrt K] [LawfulSqrt K] in
theorem form_sub_smul (hL : ∀ a b, L a b = L b a) (u v : ℕ → K) (t : K) :
    form n L (fun a => u a - t * v a) (fun a => u a - t * v a) = form n L u u - 2 * t * form n L v u + t ^ 2 * form n L v v := by
  have e : form n L (fun a => u a - t * v a) (fun a => u a - t * v a) =
      form n L u u - t * form n L u v - t * form n L v u + t ^ 2 * form n L v v := by
    unfold form
    simp only [mul_sum, ← sum_sub_distrib, ← sum_add_distrib]
    exact sum_congr rfl fun a _ => sum_congr rfl fun b _ => by ring
  rw [e, form_symm hL u v]
  ring

omit [HasSqrt K] [LawfulSqrt K] in
theorem form_sub (hL : ∀ a b, L a b = L b a) (u v : ℕ → K) :
    form n L (fun a => u a - v a) (fun a => u a - v a) = form n L u u - 2 * form n L v u + form n L v v := by
  have := form_sub_smul (n := n) hL u v 1
  simpa using this

omit [HasSqrt K] [LawfulSqrt K] in
theorem form_le (L : ℕ → ℕ → K) (u : ℕ → K) : form n L u u ≤ (∑ a ∈ range n, ∑ b ∈ range n, |L a b|) * ∑ a ∈ range n, u a ^ 2 := by
  unfold form
  rw [sum_mul]
  refine sum_le_sum fun a ha => ?_
  rw [sum_mul]
  refine sum_le_sum fun b hb => ?_
  have h1 : u a ^ 2 ≤ ∑ a ∈ range n, u a ^ 2 := single_le_sum (f := fun a => u a ^ 2) (fun _ _ => sq_nonneg _) ha
  have h2 : u b ^ 2 ≤ ∑ a ∈ range n, u a ^ 2 := single_le_sum (f := fun a => u a ^ 2) (fun _ _ => sq_nonneg _) hb
  have h3 : |u a * u b| ≤ ∑ a ∈ range n, u a ^ 2 := by
    rw [abs_le]
    constructor <;> nlinarith [sq_nonneg (u a + u b), sq_nonneg (u a - u b)]
  calc u a * L a b * u b = L a b * (u a * u b) := by ring
    _ ≤ |L a b * (u a * u b)| := le_abs_self _
    _ = |L a b| * |u a * u b| := abs_mul _ _
    _ ≤ _ := mul_le_mul_of_nonneg_left h3 (abs_nonneg _)

/-- A form that is positive definite on the vectors that are zero on `B` dominates the squares of the entries of these vectors. -/
theorem form_coercive {B : ℕ → Prop} [DecidablePred B] (hs : ∀ a b, L a b = L b a)
    (hL : ∀ u : ℕ → K, (∀ a < n, B a → u a = 0) → (∃ a < n, u a ≠ 0) → 0 < form n L u u) :
    ∃ m : K, 0 < m ∧ ∀ u : ℕ → K, (∀ a < n, B a → u a = 0) → ∑ a ∈ range n, u a ^ 2 ≤ m * form n L u u := by
  have h0 : ∀ u : ℕ → K, (∀ a < n, B a → u a = 0) → 0 ≤ form n L u u := by
    intro u hu
    by_cases hz : ∃ a < n, u a ≠ 0
    · exact (hL u hu hz).le
    · push Not at hz
      refine le_of_eq (Eq.symm (sum_eq_zero fun a ha => sum_eq_zero fun b _ => ?_))
      rw [hz a (mem_range.1 ha), zero_mul, zero_mul]
  have hw : ∀ c, ∃ m : K, 0 < m ∧ ∀ u : ℕ → K, (∀ a < n, B a → u a = 0) → c < n → u c ^ 2 ≤ m * form n L u u := by
    intro c
    obtain ⟨w, hw⟩ := (bc_solution (B := B) hL (fun a => if a = c then 1 else 0) fun _ => 0).1
    have hq := h0 w fun a ha hB => (hw a ha).1 hB
    refine ⟨form n L w w + 1, by linarith, fun u hu hc => ?_⟩
    by_cases hBc : B c
    · rw [hu c hc hBc]
      have := mul_nonneg (by linarith : 0 ≤ form n L w w + 1) (h0 u hu)
      simpa using this
    have hwu : form n L w u = u c := by
      rw [form_symm hs]
      unfold form
      have : ∀ a ∈ range n, ∑ b ∈ range n, u a * L a b * w b = if a = c then u c else 0 := by
        intro a ha
        have ha := mem_range.1 ha
        by_cases hB : B a
        · rw [sum_eq_zero fun b _ => by rw [hu a ha hB, zero_mul, zero_mul], if_neg (by rintro rfl; exact hBc hB)]
        · simp only [mul_assoc]
          rw [← mul_sum, (hw a ha).2 hB]
          by_cases hac : a = c
          · subst hac; simp
          · simp [hac]
      rw [sum_congr rfl this]
      simp [hc]
    set q := form n L w w with hqdef
    have hq1 : 0 < q + 1 := by linarith
    have h1 := h0 (fun a => u a - u c / (q + 1) * w a) fun a ha hB => by rw [hu a ha hB, (hw a ha).1 hB]; ring
    rw [form_sub_smul hs, hwu, ← hqdef] at h1
    have h2 : (q + 1) ^ 2 * (form n L u u - 2 * (u c / (q + 1)) * u c + (u c / (q + 1)) ^ 2 * q) =
        (q + 1) * ((q + 1) * form n L u u) - (q + 2) * u c ^ 2 := by
      field_simp
      ring
    have h3 := mul_nonneg (sq_nonneg (q + 1)) h1
    rw [h2] at h3
    have h4 : (q + 1) * u c ^ 2 ≤ (q + 1) * ((q + 1) * form n L u u) := by nlinarith [sq_nonneg (u c)]
    exact le_of_mul_le_mul_left h4 hq1
  choose m hm hmu using hw
  refine ⟨1 + ∑ c ∈ range n, m c, by have := sum_nonneg fun c (_ : c ∈ range n) => (hm c).le; linarith, fun u hu => ?_⟩
  have h1 : ∑ a ∈ range n, u a ^ 2 ≤ ∑ c ∈ range n, m c * form n L u u := sum_le_sum fun a ha => hmu a u hu (mem_range.1 ha)
  rw [← sum_mul] at h1
  have := h0 u hu
  linarith

end

section
variable [HasSqrt K] [LawfulSqrt K] {s : Spl K} {rule : List (K × K)}

/-- `u` are the coefficients of a discrete solution of `-Δu = 1` with the boundary values `dv`. -/
structure SteadyWith (s : Spl K) (rule : List (K × K)) (dv u : ℕ → K) : Prop where
  boundary : ∀ a < (npts s).prod, BoundaryIx (npts s) (unlin (npts s) a) → u a = dv a
  inner : ∀ a < (npts s).prod, ¬ BoundaryIx (npts s) (unlin (npts s) a) →
    ∑ b ∈ range (npts s).prod, stiff s rule a b * u b = quadSum s rule fun x => fnAt s x a

theorem SteadySolution.steadyWith {u : ℕ → K} (h : SteadySolution s rule u) : SteadyWith s rule (fun _ => 0) u := ⟨h.boundary, h.inner⟩

/-- The discrete energy `∫ |∇v|² - 2 ∫ v` of the field with the coefficients `v`, with the derivatives as the code computes them. -/
noncomputable def energy (s : Spl K) (rule : List (K × K)) (v : ℕ → K) : K :=
  (quadSum s rule fun x => ∑ i ∈ range (D s), (∑ a ∈ range (npts s).prod, codePhys s x i a * v a) ^ 2) - 2 * quadSum s rule fun x => field s v x

/-- The square of the distance of two fields. -/
def distSq (s : Spl K) (rule : List (K × K)) (u v : ℕ → K) : K := quadSum s rule fun x => (field s u x - field s v x) ^ 2

theorem stiff_symm (a b : ℕ) : stiff s rule a b = stiff s rule b a := by
  unfold stiff
  congr 1
  funext x
  exact sum_congr rfl fun i _ => mul_comm _ _

theorem mass_symm (a b : ℕ) : mass s rule a b = mass s rule b a := by
  unfold mass
  congr 1
  funext x
  exact mul_comm _ _

theorem gradSq_form (P : Problem s rule) (v : ℕ → K) :
    (quadSum s rule fun x => ∑ i ∈ range (D s), (∑ a ∈ range (npts s).prod, codePhys s x i a * v a) ^ 2) = form (npts s).prod (stiff s rule) v v := by
  unfold form
  rw [stiff_form P]
  simp only [sq]

theorem stiff_nonneg (P : Problem s rule) (hw : ∀ p ∈ rule, 0 ≤ p.2) (v : ℕ → K) : 0 ≤ form (npts s).prod (stiff s rule) v v := by
  rw [← gradSq_form P]
  exact quadSum_nonneg P hw fun x _ => sum_nonneg fun i _ => sq_nonneg _

theorem mass_nonneg (P : Problem s rule) (hw : ∀ p ∈ rule, 0 ≤ p.2) (v : ℕ → K) : 0 ≤ form (npts s).prod (mass s rule) v v := by
  unfold form
  rw [mass_form P]
  exact quadSum_nonneg P hw fun x _ => mul_self_nonneg _

theorem field_sub (u v : ℕ → K) (x : List K) : field s (fun a => u a - v a) x = field s u x - field s v x := by
  unfold field
  rw [← sum_sub_distrib]
  exact sum_congr rfl fun a _ => by ring

theorem distSq_form (P : Problem s rule) (u v : ℕ → K) :
    distSq s rule u v = form (npts s).prod (mass s rule) (fun a => u a - v a) (fun a => u a - v a) := by
  unfold form distSq
  rw [mass_form P]
  simp only [field_sub, sq]

theorem load_form (P : Problem s rule) (v : ℕ → K) : (quadSum s rule fun x => field s v x) = ∑ a ∈ range (npts s).prod, v a * load s rule a := by
  unfold field load
  rw [← quadSum_sum]
  exact sum_congr rfl fun a _ => by rw [quadSum_mul]; exact quadSum_congr P fun x _ => mul_comm _ _

/-- **C96.** Among all fields with its boundary values the steady solution has the least energy: the energy of any other one is larger by the
energy of the gradient of the difference. -/
theorem C96_energy (P : Problem s rule) {dv u v : ℕ → K} (hu : SteadyWith s rule dv u)
    (hv : ∀ a < (npts s).prod, BoundaryIx (npts s) (unlin (npts s) a) → v a = dv a) :
    energy s rule v = energy s rule u +
      quadSum s rule fun x => ∑ i ∈ range (D s), (∑ a ∈ range (npts s).prod, codePhys s x i a * (v a - u a)) ^ 2 := by
  unfold energy
  rw [gradSq_form P, gradSq_form P, gradSq_form P (fun a => v a - u a), load_form P, load_form P, form_sub stiff_symm]
  have h1 : form (npts s).prod (stiff s rule) u v - form (npts s).prod (stiff s rule) u u =
      ∑ a ∈ range (npts s).prod, (v a - u a) * load s rule a := by
    rw [form_symm stiff_symm u v]
    unfold form
    rw [← sum_sub_distrib]
    refine sum_congr rfl fun a ha => ?_
    have ha := mem_range.1 ha
    rw [← sum_sub_distrib]
    by_cases hB : BoundaryIx (npts s) (unlin (npts s) a)
    · have e : v a = u a := by rw [hv a ha hB, hu.boundary a ha hB]
      rw [e, sub_self, zero_mul]
      exact sum_eq_zero fun b _ => sub_self _
    · have := hu.inner a ha hB
      unfold load
      rw [← this, mul_sum]
      exact sum_congr rfl fun b _ => by ring
  simp only [sub_mul, sum_sub_distrib] at h1
  linear_combination 2 * h1

/-- **C96.** The steady solution is the only minimiser of the energy. -/
theorem C96_minimiser (P : Problem s rule) (R : Regular s rule) (hd : s.ph.dim = D s) (hw : UnitWeights s) (F : FineRule s rule)
    (hm : List.Forall₂ InnerMult s.ps.knots s.ps.degree) {dv u v : ℕ → K} (hu : SteadyWith s rule dv u)
    (hv : ∀ a < (npts s).prod, BoundaryIx (npts s) (unlin (npts s) a) → v a = dv a) (hne : ∃ a < (npts s).prod, v a ≠ u a) :
    energy s rule u < energy s rule v := by
  rw [C96_energy P hu hv, gradSq_form P (fun a => v a - u a)]
  have := C68_stiffness_definite P R hd hw F hm (fun a => v a - u a) (fun a ha hB => by rw [hv a ha hB, hu.boundary a ha hB, sub_self])
    (by obtain ⟨a, ha, h⟩ := hne; exact ⟨a, ha, sub_ne_zero.2 h⟩)
  unfold form
  linarith

/-- **C96.** For all boundary values there is one steady solution, and only one. -/
theorem C96_unique (P : Problem s rule) (R : Regular s rule) (hd : s.ph.dim = D s) (hw : UnitWeights s) (F : FineRule s rule)
    (hm : List.Forall₂ InnerMult s.ps.knots s.ps.degree) (dv : ℕ → K) :
    (∃ u, SteadyWith s rule dv u) ∧ ∀ u v, SteadyWith s rule dv u → SteadyWith s rule dv v → ∀ a < (npts s).prod, u a = v a := by
  obtain ⟨⟨v, hv⟩, huniq⟩ := bc_solution (n := (npts s).prod) (B := fun a => BoundaryIx (npts s) (unlin (npts s) a)) (L := stiff s rule)
    (fun u h1 h2 => C68_stiffness_definite P R hd hw F hm u h1 h2) (fun a => quadSum s rule fun x => fnAt s x a) dv
  exact ⟨⟨v, fun a ha => (hv a ha).1, fun a ha => (hv a ha).2⟩,
    fun u w h1 h2 => huniq u w (fun a ha => ⟨h1.boundary a ha, h1.inner a ha⟩) (fun a ha => ⟨h2.boundary a ha, h2.inner a ha⟩)⟩

variable [FloorRing K]

/-- **C96.** One time step brings the solution nearer to the steady state, for any weights of the geometry. -/
theorem C96_step (P : Problem s rule) (hw : ∀ p ∈ rule, 0 ≤ p.2) {c dt : K} (hdt : 0 < dt) {dv u : ℕ → K} (hu : SteadyWith s rule dv u)
    {k : ℕ} {S : ℕ → ℕ → K} (hS : EulerSteps s rule c dt dv k S) {j : ℕ} (hj : j < k) :
    distSq s rule (S (j + 1)) u + 2 * dt * c *
        (quadSum s rule fun x => ∑ i ∈ range (D s), (∑ a ∈ range (npts s).prod, codePhys s x i a * (S (j + 1) a - u a)) ^ 2) ≤
      distSq s rule (S j) u := by
  rw [distSq_form P, distSq_form P, gradSq_form P (fun a => S (j + 1) a - u a)]
  have h1 : form (npts s).prod (mass s rule) (fun a => S (j + 1) a - u a) (fun a => S (j + 1) a - u a) -
      form (npts s).prod (mass s rule) (fun a => S (j + 1) a - u a) (fun a => S j a - u a) +
      dt * c * form (npts s).prod (stiff s rule) (fun a => S (j + 1) a - u a) (fun a => S (j + 1) a - u a) = 0 := by
    unfold form
    simp only [mul_sum, ← sum_sub_distrib, ← sum_add_distrib]
    refine sum_eq_zero fun a ha => ?_
    have ha := mem_range.1 ha
    by_cases hB : BoundaryIx (npts s) (unlin (npts s) a)
    · refine sum_eq_zero fun b _ => ?_
      rw [hS.boundary j hj a ha hB, hu.boundary a ha hB]
      ring
    · have h1 := hS.inner j hj a ha hB
      rw [← hu.inner a ha hB, mul_sum, mul_sum, ← sum_add_distrib, ← sub_eq_zero, ← sum_sub_distrib] at h1
      have h2 := congrArg (fun z => dt * (S (j + 1) a - u a) * z) h1
      simp only [mul_sum, mul_zero] at h2
      rw [← h2]
      refine sum_congr rfl fun b _ => ?_
      unfold mass
      field_simp
      ring
  have h2 := mass_nonneg P hw fun a => (S j a - u a) - (S (j + 1) a - u a)
  rw [form_sub mass_symm] at h2
  linarith

/-- **C96.** The time steps tend to the steady state: there are `C` and `q < 1` such that after `j` steps every coefficient differs from the one
of the steady state by at most the root of `C q ^ j`, whatever the number of steps. With `c = 2` this covers the time steps after a call of `GetSteadyStateSolution` (C60): they are not the
required ones, but tend to the same state. -/
theorem C96_limit (P : Problem s rule) (R : Regular s rule) (hd : s.ph.dim = D s) (hw : UnitWeights s) (F : FineRule s rule)
    (hm : List.Forall₂ InnerMult s.ps.knots s.ps.degree) {c dt : K} (hc : 0 < c) (hdt : 0 < dt) {dv u : ℕ → K} (hu : SteadyWith s rule dv u) :
    ∃ C q : K, 0 ≤ q ∧ q < 1 ∧ ∀ k S, EulerSteps s rule c dt dv k S → ∀ j ≤ k, ∀ a < (npts s).prod, (S j a - u a) ^ 2 ≤ C * q ^ j := by
  have hn : List.Forall₂ NonDegenerate s.ps.knots s.ps.degree := forall₂_inner P.wf.knots hm
  have hw0 : ∀ p ∈ rule, 0 ≤ p.2 := fun p hp => (F.pos p hp).le
  obtain ⟨m, hm0, hmK⟩ := form_coercive (n := (npts s).prod) (B := fun a => BoundaryIx (npts s) (unlin (npts s) a)) stiff_symm
    fun v h1 h2 => C68_stiffness_definite P R hd hw F hm v h1 h2
  obtain ⟨m', hm0', hmM⟩ := form_coercive (n := (npts s).prod) (B := fun _ => False) mass_symm
    fun v _ h2 => C68_mass_definite P R hd F hn v h2
  set N := 1 + ∑ a ∈ range (npts s).prod, ∑ b ∈ range (npts s).prod, |mass s rule a b| with hN
  have hN0 : 0 < N := by
    have : 0 ≤ ∑ a ∈ range (npts s).prod, ∑ b ∈ range (npts s).prod, |mass s rule a b| := sum_nonneg fun a _ => sum_nonneg fun b _ => abs_nonneg _
    linarith
  have hlam : ∀ v : ℕ → K, (∀ a < (npts s).prod, BoundaryIx (npts s) (unlin (npts s) a) → v a = 0) →
      form (npts s).prod (mass s rule) v v ≤ N * m * form (npts s).prod (stiff s rule) v v := by
    intro v hv
    have h1 := form_le (n := (npts s).prod) (mass s rule) v
    have h2 := hmK v hv
    have h3 : 0 ≤ ∑ a ∈ range (npts s).prod, v a ^ 2 := sum_nonneg fun _ _ => sq_nonneg _
    have h4 := mul_le_mul_of_nonneg_left h2 hN0.le
    have h5 : form (npts s).prod (mass s rule) v v ≤ N * ∑ a ∈ range (npts s).prod, v a ^ 2 := by rw [hN, add_mul, one_mul]; linarith
    linarith
  have hNm : 0 < N * m := mul_pos hN0 hm0
  have hr : 0 < 2 * dt * c / (N * m) := div_pos (by positivity) hNm
  refine ⟨m' * distSq s rule (fun _ => 0) u, (1 + 2 * dt * c / (N * m))⁻¹, by positivity, inv_lt_one_of_one_lt₀ (by linarith), ?_⟩
  intro k S hS
  have hdist : ∀ j ≤ k, distSq s rule (S j) u ≤ distSq s rule (fun _ => 0) u * (1 + 2 * dt * c / (N * m))⁻¹ ^ j := by
    intro j
    induction j with
    | zero =>
      intro _
      rw [pow_zero, mul_one]
      apply le_of_eq
      unfold distSq field
      congr 1
      funext x
      rw [sum_congr rfl fun a ha => by rw [hS.start a (mem_range.1 ha)]]
    | succ j ih =>
      intro hj
      have h1 := C96_step P hw0 hdt hu hS (j := j) (by omega)
      rw [gradSq_form P (fun a => S (j + 1) a - u a)] at h1
      have h2 := hlam (fun a => S (j + 1) a - u a) fun a ha hB => by rw [hS.boundary j (by omega) a ha hB, hu.boundary a ha hB, sub_self]
      rw [← distSq_form P] at h2
      have h3 : 2 * dt * c / (N * m) * distSq s rule (S (j + 1)) u ≤
          2 * dt * c * form (npts s).prod (stiff s rule) (fun a => S (j + 1) a - u a) (fun a => S (j + 1) a - u a) := by
        rw [div_mul_eq_mul_div, div_le_iff₀ hNm]
        have h5 : 0 ≤ 2 * dt * c := by positivity
        calc 2 * dt * c * distSq s rule (S (j + 1)) u ≤ 2 * dt * c * (N * m * _) := mul_le_mul_of_nonneg_left h2 h5
          _ = _ := by ring
      have h4 : (1 + 2 * dt * c / (N * m)) * distSq s rule (S (j + 1)) u ≤ distSq s rule (S j) u := by linarith
      have h6 : distSq s rule (S (j + 1)) u ≤ distSq s rule (S j) u * (1 + 2 * dt * c / (N * m))⁻¹ := by
        rw [← div_eq_mul_inv, le_div_iff₀ (by linarith)]
        linarith
      refine h6.trans ?_
      rw [pow_succ, ← mul_assoc]
      exact mul_le_mul_of_nonneg_right (ih (by omega)) (by positivity)
  intro j hj a ha
  have h1 := hmM (fun a => S j a - u a) fun _ _ h => h.elim
  rw [← distSq_form P] at h1
  have h2 : (S j a - u a) ^ 2 ≤ ∑ a ∈ range (npts s).prod, (S j a - u a) ^ 2 :=
    single_le_sum (f := fun a => (S j a - u a) ^ 2) (fun _ _ => sq_nonneg _) (mem_range.2 ha)
  have h3 := mul_le_mul_of_nonneg_left (hdist j hj) hm0'.le
  rw [mul_assoc]
  linarith

/-- **C96.** For the calls: the last solution that `GetUnsteadyStateSolution` without boundary values returns tends to the one that
`GetSteadyStateSolution` returns when the end time grows. -/
theorem C96_calls (P : Problem s rule) (R : Regular s rule) (hd : s.ph.dim = D s) (hw : UnitWeights s) (F : FineRule s rule)
    (hm : List.Forall₂ InnerMult s.ps.knots s.ps.degree) {solve : List (List K) → List K → M (List K)} (hs : LawfulSolve solve)
    {Q : Poisson K} (hQ : poissonNew s = .ok Q) {r : Poisson K × List K} (hr : steady solve s rule Q = .ok r) {dt : K} (hdt : 0 < dt) :
    ∃ C q : K, 0 ≤ q ∧ q < 1 ∧ ∀ tEnd r', 0 ≤ tEnd → unsteady solve s rule dt tEnd none Q = .ok r' →
      ∃ l, r'.2.getLast? = some l ∧ l.length = (npts s).prod ∧ r.2.length = (npts s).prod ∧
        ∀ a < (npts s).prod, (l.getD a 0 - r.2.getD a 0) ^ 2 ≤ C * q ^ ⌊tEnd / dt⌋.toNat := by
  obtain ⟨u, hu, hU⟩ := C59_steady_partial P R hs hQ hr
  obtain ⟨C, q, h0, h1, h2⟩ := C96_limit P R hd hw F hm one_pos hdt hU.steadyWith
  refine ⟨C, q, h0, h1, fun tEnd r' ht hr' => ?_⟩
  obtain ⟨S, hS, hE⟩ := C60_unsteady_partial P R hs hQ hdt ht (d := none) (by simp) hr'
  have hz : boundaryValues s none = fun _ => 0 := by
    funext a
    simp [boundaryValues]
  rw [hz] at hE
  refine ⟨vecOf (npts s).prod (S ⌊tEnd / dt⌋.toNat), ?_, by simp [vecOf], by rw [hu]; simp [vecOf], fun a ha => ?_⟩
  · rw [hS, List.range_succ, List.map_append, List.map_singleton, List.getLast?_append]
    rfl
  · have := h2 _ S hE _ le_rfl a ha
    rw [hu]
    simpa [vecOf, List.getD_eq_getElem?_getD, ha] using this

/-- **C96.** The same for both calls on one problem, in the order of the test. -/
theorem C96_calls_in_turn (P : Problem s rule) (R : Regular s rule) (hd : s.ph.dim = D s) (hw : UnitWeights s) (F : FineRule s rule)
    (hm : List.Forall₂ InnerMult s.ps.knots s.ps.degree) {solve : List (List K) → List K → M (List K)} (hs : LawfulSolve solve)
    {Q : Poisson K} (hQ : poissonNew s = .ok Q) {dt : K} (hdt : 0 < dt) :
    ∃ C q : K, 0 ≤ q ∧ q < 1 ∧ ∀ tEnd r' r, 0 ≤ tEnd → unsteady solve s rule dt tEnd none Q = .ok r' → steady solve s rule r'.1 = .ok r →
      ∃ l, r'.2.getLast? = some l ∧ l.length = (npts s).prod ∧ r.2.length = (npts s).prod ∧
        ∀ a < (npts s).prod, (l.getD a 0 - r.2.getD a 0) ^ 2 ≤ C * q ^ ⌊tEnd / dt⌋.toNat := by
  obtain ⟨⟨u, hU⟩, huniq⟩ := C68_steady_unique P R hd hw F hm
  obtain ⟨C, q, h0, h1, h2⟩ := C96_limit P R hd hw F hm one_pos hdt hU.steadyWith
  refine ⟨C, q, h0, h1, fun tEnd r' r ht hr' hr => ?_⟩
  obtain ⟨S, hS, hE⟩ := C60_unsteady_partial P R hs hQ hdt ht (d := none) (by simp) hr'
  obtain ⟨v, hv, hV⟩ := C60_steady_after_unsteady P R hs hQ hr' hr
  have hz : boundaryValues s none = fun _ => 0 := by
    funext a
    simp [boundaryValues]
  rw [hz] at hE
  refine ⟨vecOf (npts s).prod (S ⌊tEnd / dt⌋.toNat), ?_, by simp [vecOf], by rw [hv]; simp [vecOf], fun a ha => ?_⟩
  · rw [hS, List.range_succ, List.map_append, List.map_singleton, List.getLast?_append]
    rfl
  · have := h2 _ S hE _ le_rfl a ha
    rw [huniq u v hU hV a ha] at this
    rw [hv]
    simpa [vecOf, List.getD_eq_getElem?_getD, ha] using this

/-- **C96.** With boundary values: the last solution that `GetUnsteadyStateSolution` returns tends to the steady solution with these boundary values. -/
theorem C96_call_with_values (P : Problem s rule) (R : Regular s rule) (hd : s.ph.dim = D s) (hw : UnitWeights s) (F : FineRule s rule)
    (hm : List.Forall₂ InnerMult s.ps.knots s.ps.degree) {solve : List (List K) → List K → M (List K)} (hs : LawfulSolve solve)
    {Q : Poisson K} (hQ : poissonNew s = .ok Q) {d : Option (List K)}
    (hl : ∀ v, d = some v → ((range (npts s).prod).filter fun a => BoundaryIx (npts s) (unlin (npts s) a)).card ≤ v.length)
    {u : ℕ → K} (hu : SteadyWith s rule (boundaryValues s d) u) {dt : K} (hdt : 0 < dt) :
    ∃ C q : K, 0 ≤ q ∧ q < 1 ∧ ∀ tEnd r', 0 ≤ tEnd → unsteady solve s rule dt tEnd d Q = .ok r' →
      ∃ l, r'.2.getLast? = some l ∧ l.length = (npts s).prod ∧ ∀ a < (npts s).prod, (l.getD a 0 - u a) ^ 2 ≤ C * q ^ ⌊tEnd / dt⌋.toNat := by
  obtain ⟨C, q, h0, h1, h2⟩ := C96_limit P R hd hw F hm one_pos hdt hu
  refine ⟨C, q, h0, h1, fun tEnd r' ht hr' => ?_⟩
  obtain ⟨S, hS, hE⟩ := C60_unsteady_partial P R hs hQ hdt ht hl hr'
  refine ⟨vecOf (npts s).prod (S ⌊tEnd / dt⌋.toNat), ?_, by simp [vecOf], fun a ha => ?_⟩
  · rw [hS, List.range_succ, List.map_append, List.map_singleton, List.getLast?_append]
    rfl
  · have := h2 _ S hE _ le_rfl a ha
    simpa [vecOf, List.getD_eq_getElem?_getD, ha] using this

end

/-! ### The hypotheses hold for the quadratic line with three points -/

example : ∃ u, SteadySolution exLine (gaussRule 3) u ∧ ∃ C q : ℝ, 0 ≤ q ∧ q < 1 ∧
    ∀ k S, EulerSteps exLine (gaussRule 3) 1 (1 / 10) (fun _ => 0) k S → ∀ j ≤ k, ∀ a < (npts exLine).prod, (S j a - u a) ^ 2 ≤ C * q ^ j := by
  obtain ⟨hP, hR, hu, hd, _, _, hdeg, _⟩ := exLine_gauss
  have hm : List.Forall₂ InnerMult exLine.ps.knots exLine.ps.degree := by
    refine .cons (fun i h1 h2 => ?_) .nil
    simp only [List.length_cons, List.length_nil] at h2
    rcases (by omega : i = 1 ∨ i = 2) with rfl | rfl <;> norm_num [knot]
  have F := C68_gauss (s := exLine) (n := 3) (by norm_num) (by norm_num) hdeg
  obtain ⟨u, hU⟩ := (C68_steady_unique hP hR hd hu F hm).1
  exact ⟨u, hU, C96_limit hP hR hd hu F hm one_pos (by norm_num) hU.steadyWith⟩

end Iga
end SplineLib
