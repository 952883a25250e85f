import Verif.Core.Solvable
import Verif.Props.Iga
import Verif.Props.Integrals

/-!
# C68: the discrete problems have exactly one solution

`FineRule s rule` says that the integration points are pairwise different, that their weights are positive and that there are more of them than
the degree in every direction; `InnerMult U p` says that no interior knot has a multiplicity above the degree, so that the functions are continuous.
-/

namespace SplineLib
set_option linter.unusedSectionVars false
open Finset Elem
namespace Iga
variable {K : Type} [Field K] [LinearOrder K] [IsStrictOrderedRing K]

/-- An integration rule that is fine enough for the degrees of `s`. -/
structure FineRule (s : Spl K) (rule : List (K × K)) : Prop where
  nodup : (rule.map Prod.fst).Nodup
  pos : ∀ p ∈ rule, 0 < p.2
  points : ∀ p ∈ s.ps.degree, p < rule.length

/-- A linear system with only the trivial solution of the homogeneous system has a solution. -/
theorem exists_solution {n : ℕ} {f : ℕ → ℕ → K} (h : ∀ v : ℕ → K, (∀ a < n, ∑ b ∈ range n, f a b * v b = 0) → ∀ a < n, v a = 0) (g : ℕ → K) :
    ∃ v : ℕ → K, ∀ a < n, ∑ b ∈ range n, f a b * v b = g a := by
  let A : Matrix (Fin n) (Fin n) K := Matrix.of fun a b => f a b
  have hinj : Function.Injective A.mulVec := by
    intro v w hvw
    have h1 := h (fun a => if ha : a < n then v ⟨a, ha⟩ - w ⟨a, ha⟩ else 0) ?_
    · funext i
      have := h1 i i.2
      simp only [i.2, dite_true] at this
      exact sub_eq_zero.1 this
    · intro a ha
      have := congrFun hvw ⟨a, ha⟩
      rw [sum_range]
      simp only [Fin.is_lt, dite_true, Fin.eta, mul_sub, sum_sub_distrib]
      exact sub_eq_zero.2 this
  have hsur := Matrix.mulVec_surjective_iff_isUnit.2 (Matrix.mulVec_injective_iff_isUnit.1 hinj)
  obtain ⟨v, hv⟩ := hsur fun a => g a
  refine ⟨fun a => if ha : a < n then v ⟨a, ha⟩ else 0, fun a ha => ?_⟩
  have := congrFun hv ⟨a, ha⟩
  rw [sum_range]
  simp only [Fin.is_lt, dite_true, Fin.eta]
  exact this

section
variable [HasSqrt K] [LawfulSqrt K]

theorem exists_elemIx {s : Spl K} {e : List ℤ} {x : List K} (h : InElement (elemsOf s.ps.knots) e x) : ∃ m < (elemBox s).prod, e = elemIx s m := by
  have := inElement_valid h
  rw [numElements_zl] at this
  obtain ⟨is, rfl, hi⟩ := exists_zl_of_valid this
  exact ⟨lin (elemBox s) is, lin_lt hi, by unfold elemIx; rw [unlin_lin hi]⟩

theorem exists_point {s : Spl K} {rule : List (K × K)} {t : List K} (hl : t.length = s.ps.knots.length) (ht : ∀ b ∈ t, b ∈ rule.map Prod.fst) :
    ∃ q < quadNum s rule, (rulePts rule (unlin (ruleBox s rule) q)).map Prod.fst = t := by
  have key : ∀ (t : List K), (∀ b ∈ t, b ∈ rule.map Prod.fst) → ∃ Q : List ℕ, InBox (List.replicate t.length rule.length) Q ∧ (rulePts rule Q).map Prod.fst = t := by
    intro t
    induction t with
    | nil => intro _; exact ⟨[], by simp [InBox], rfl⟩
    | cons b t ih =>
      intro hb
      obtain ⟨Q, h1, h2⟩ := ih fun c hc => hb c (by simp [hc])
      obtain ⟨p, hp, rfl⟩ := List.mem_map.1 (hb b (by simp))
      obtain ⟨i, hi, hpi⟩ := List.mem_iff_getElem.1 hp
      refine ⟨i :: Q, ?_, ?_⟩
      · rw [List.length_cons, List.replicate_succ]
        exact inBox_cons.2 ⟨hi, h1⟩
      · unfold rulePts at h2 ⊢
        rw [List.map_cons, List.map_cons, h2, List.getD_eq_getElem _ _ hi, hpi]
  obtain ⟨Q, h1, h2⟩ := key t ht
  rw [hl] at h1
  exact ⟨lin (ruleBox s rule) Q, lin_lt h1, by rw [unlin_lin (ns := ruleBox s rule) h1, h2]⟩

/-- A function or derivative that is zero at all integration points is zero. -/
theorem zero_of_points {s : Spl K} {rule : List (K × K)} (h : WFSpl s) (hr : GoodRule rule) (F : FineRule s rule) {ks : List ℕ}
    (hk : ks.length = s.ps.knots.length) {a : List ℕ → K}
    (hz : ∀ m < (elemBox s).prod, ∀ q < quadNum s rule,
      msum (npts s) (fun I => dprod (basisDerivFns s.ps.knots s.ps.degree (quadPoint s rule (elemIx s m) q) ks) I * a I) = 0)
    {x : List K} (hx : List.Forall₂ (fun U t => knot U 0 ≤ t ∧ t < lastKnot U) s.ps.knots x) :
    msum (npts s) (fun I => dprod (basisDerivFns s.ps.knots s.ps.degree x ks) I * a I) = 0 := by
  obtain ⟨e, he⟩ := exists_inElement h.knots hx
  obtain ⟨m, hm, rfl⟩ := exists_elemIx he
  refine grid_zero F.nodup ?_ h.knots (by simpa using F.points) hk ?_ x he
  · intro t ht
    obtain ⟨p, hp, rfl⟩ := List.mem_map.1 ht
    exact hr.mem p hp
  · intro t hl ht
    obtain ⟨q, hq, rfl⟩ := exists_point hl ht
    exact hz m hm q hq

theorem sum_lin {ns : List ℕ} {f : List ℕ → K} {u : ℕ → K} :
    ∑ a ∈ range ns.prod, f (unlin ns a) * u a = msum ns fun I => f I * u (lin ns I) := by
  rw [msum_eq_sum_unlin]
  exact sum_congr rfl fun a ha => by rw [lin_unlin (mem_range.1 ha)]

variable {s : Spl K} {rule : List (K × K)}

theorem quadFactor_pos (P : Problem s rule) (R : Regular s rule) (hd : s.ph.dim = D s) (F : FineRule s rule) (m q : ℕ) :
    0 < quadFactor s rule (elemIx s m) q := by
  unfold quadFactor
  refine mul_pos ?_ (mul_pos ?_ (Finset.prod_pos fun i _ => halfLens_pos (quadPoint_in P m q) i.2))
  · unfold quadWeight
    apply List.prod_pos
    intro a ha
    obtain ⟨p, hp, rfl⟩ := List.mem_map.1 ha
    exact F.pos p (rulePts_mem P.rule q p hp)
  · rw [volFactor_square s _ hd]
    exact abs_pos.2 (R.det m q)

/-- A function that is not negative and whose quadrature is zero is zero at the integration points. -/
theorem zero_at_points (P : Problem s rule) (R : Regular s rule) (hd : s.ph.dim = D s) (F : FineRule s rule) {f : List K → K}
    (h0 : ∀ x, 0 ≤ f x) (hz : quadSum s rule f = 0) : ∀ m < (elemBox s).prod, ∀ q < quadNum s rule, f (quadPoint s rule (elemIx s m) q) = 0 := by
  intro m hm q hq
  unfold quadSum at hz
  have hn : ∀ m q, 0 ≤ quadFactor s rule (elemIx s m) q * f (quadPoint s rule (elemIx s m) q) :=
    fun m q => mul_nonneg (quadFactor_pos P R hd F m q).le (h0 _)
  rw [sum_eq_zero_iff_of_nonneg fun m _ => sum_nonneg fun q _ => hn m q] at hz
  have h1 := hz m (mem_range.2 hm)
  rw [sum_eq_zero_iff_of_nonneg fun q _ => hn m q] at h1
  exact (mul_eq_zero.1 (h1 q (mem_range.2 hq))).resolve_left (quadFactor_pos P R hd F m q).ne'

theorem mass_form (P : Problem s rule) (u : ℕ → K) : ∑ a ∈ range (npts s).prod, ∑ b ∈ range (npts s).prod, u a * mass s rule a b * u b =
    quadSum s rule fun x => field s u x * field s u x := by
  unfold field
  simp only [Finset.sum_mul_sum, ← quadSum_sum]
  refine sum_congr rfl fun a _ => sum_congr rfl fun b _ => ?_
  unfold mass
  rw [quadSum_mul, mul_comm, quadSum_mul]
  exact quadSum_congr P fun x _ => by ring

theorem stiff_form (P : Problem s rule) (u : ℕ → K) : ∑ a ∈ range (npts s).prod, ∑ b ∈ range (npts s).prod, u a * stiff s rule a b * u b =
    quadSum s rule fun x => ∑ i ∈ range (D s), (∑ a ∈ range (npts s).prod, codePhys s x i a * u a) *
      (∑ a ∈ range (npts s).prod, codePhys s x i a * u a) := by
  simp only [Finset.sum_mul_sum, ← quadSum_sum]
  rw [Finset.sum_comm]
  conv_rhs => rw [Finset.sum_comm]
  rw [Finset.sum_comm]
  refine sum_congr rfl fun a _ => ?_
  rw [Finset.sum_comm]
  refine sum_congr rfl fun b _ => ?_
  unfold stiff
  rw [quadSum_mul, mul_comm, quadSum_mul, quadSum_sum]
  apply quadSum_congr P
  intro x _
  rw [Finset.mul_sum, Finset.mul_sum]
  exact Finset.sum_congr rfl fun i _ => by ring

/-- **C68.** The mass matrix is positive definite, for any weights of the geometry. -/
theorem C68_mass_definite (P : Problem s rule) (R : Regular s rule) (hd : s.ph.dim = D s) (F : FineRule s rule)
    (hn : List.Forall₂ NonDegenerate s.ps.knots s.ps.degree) (u : ℕ → K) (hu : ∃ a < (npts s).prod, u a ≠ 0) :
    0 < ∑ a ∈ range (npts s).prod, ∑ b ∈ range (npts s).prod, u a * mass s rule a b * u b := by
  have h0 : 0 ≤ quadSum s rule fun x => field s u x * field s u x := quadSum_nonneg P (fun p hp => (F.pos p hp).le) fun x _ => mul_self_nonneg _
  rw [mass_form P]
  refine lt_of_le_of_ne h0 fun hz => ?_
  obtain ⟨a, ha, hne⟩ := hu
  apply hne
  have hpt := zero_at_points P R hd F (fun x => mul_self_nonneg (field s u x)) hz.symm
  have hI := unlin_inBox (npts_pos P.wf) a
  have key := tensor_independent P.wf.knots hn (a := fun I => wgt s I * u (lin (npts s) I)) ?_ _ hI
  · rw [mul_eq_zero, or_iff_right (wgt_pos P.wf hI).ne', lin_unlin ha] at key
    exact key
  · intro x hx
    have := zero_of_points P.wf P.rule F (ks := List.replicate s.ps.knots.length 0) (by simp) (a := fun I => wgt s I * u (lin (npts s) I)) ?_ hx
    · rw [← basisDerivFns_zero, List.map_const']
      exact this
    · intro m hm q hq
      have h1 := mul_self_eq_zero.1 (hpt m hm q hq)
      unfold field fnAt at h1
      rw [sum_lin] at h1
      have hW := weightValue_pos P.wf (quadPoint_dom P m q)
      have e : ∀ I, ratFn s (quadPoint s rule (elemIx s m) q) I * u (lin (npts s) I) = (weightValue s (quadPoint s rule (elemIx s m) q))⁻¹ *
          (dprod (basisFns s.ps.knots s.ps.degree (quadPoint s rule (elemIx s m) q)) I * (wgt s I * u (lin (npts s) I))) := by
        intro I
        unfold ratFn
        rw [div_eq_mul_inv]
        ring
      simp only [e] at h1
      rw [msum_mul_left, mul_eq_zero, or_iff_right (inv_ne_zero hW.ne')] at h1
      rw [← List.map_const', basisDerivFns_zero]
      exact h1

/-- The coefficients of a function whose stiffness form is zero do not depend on the first index. -/
theorem stiff_kernel (P : Problem s rule) (R : Regular s rule) (hd : s.ph.dim = D s) (hw : UnitWeights s) (F : FineRule s rule)
    (hm : List.Forall₂ InnerMult s.ps.knots s.ps.degree) (u : ℕ → K)
    (hz : ∑ a ∈ range (npts s).prod, ∑ b ∈ range (npts s).prod, u a * stiff s rule a b * u b = 0) :
    ∀ i t, InBox (npts s) (i :: t) → u (lin (npts s) (i :: t)) = u (lin (npts s) (0 :: t)) := by
  rw [stiff_form P] at hz
  have hpt := zero_at_points P R hd F (fun x => sum_nonneg fun i _ => mul_self_nonneg _) hz
  have hD := P.dirs
  -- the derivatives in the parameter directions
  have hgrad : ∀ m < (elemBox s).prod, ∀ q < quadNum s rule, msum (npts s) (fun I =>
      dprod (basisDerivFns s.ps.knots s.ps.degree (quadPoint s rule (elemIx s m) q) (unitIx (D s) 0)) I * u (lin (npts s) I)) = 0 := by
    intro m hm q hq
    have h1 := hpt m hm q hq
    rw [sum_eq_zero_iff_of_nonneg fun i _ => mul_self_nonneg _] at h1
    have hdom := quadPoint_dom P m q
    have hdet := R.det m q
    generalize quadPoint s rule (elemIx s m) q = x at h1 hdom hdet
    let w : Fin (D s) → K := fun k => ∑ a ∈ range (npts s).prod, ratBasis s x (unitIx (D s) k) (unlin (npts s) a) * u a
    have hwJ : Matrix.vecMul w (geoMat (D s) s x)⁻¹ = 0 := by
      funext i
      have h2 := mul_self_eq_zero.1 (h1 i (mem_range.2 i.2))
      rw [sum_congr rfl fun a ha => by rw [codePhys_unit P.wf hw hdom i (mem_range.1 ha)]] at h2
      show ∑ k, w k * (geoMat (D s) s x)⁻¹ k i = 0
      rw [← h2]
      simp only [w, physDeriv, sum_mul]
      rw [sum_comm]
      exact sum_congr rfl fun a _ => sum_congr rfl fun k _ => by ring
    have hw0 : w = 0 := by
      have := congrArg (fun v => Matrix.vecMul v (geoMat (D s) s x)) hwJ
      simp only [Matrix.vecMul_vecMul, Matrix.zero_vecMul] at this
      rwa [Matrix.nonsing_inv_mul _ (isUnit_iff_ne_zero.2 hdet), Matrix.vecMul_one] at this
    have h3 : ∑ a ∈ range (npts s).prod, ratBasis s x (unitIx (D s) 0) (unlin (npts s) a) * u a = 0 := congrFun hw0 ⟨0, hD⟩
    rw [sum_lin] at h3
    rw [← h3]
    refine msum_congr fun I hI => ?_
    rw [ratBasis_unit s x hD, weightValue_unit P.wf hw hdom, weightDeriv_unit P.wf hw hdom hD, wgt_unit P.wf hw hI]
    ring
  have hall := fun x hx => zero_of_points P.wf P.rule F (ks := unitIx (D s) 0) (unitIx_length _ _) (a := fun I => u (lin (npts s) I)) hgrad (x := x) hx
  have hK := P.wf.knots
  intro i t hI
  unfold npts at hI hall ⊢
  unfold D at hall hD
  generalize s.ps.knots = Us at hall hD hK hm hI
  generalize s.ps.degree = ps at hall hK hm hI
  cases hK with
  | nil => simp at hD
  | cons hU hK =>
    cases hm with
    | cons hi hm =>
      rw [List.length_cons, unitIx_zero] at hall
      obtain ⟨h1, h2⟩ := inBox_cons.1 hI
      exact tensor_deriv_const hU hK hi (forall₂_inner hK hm) (a := fun I => u (lin _ I)) hall h1 h2

/-- **C68.** The matrix of the Laplace operator is positive definite on the functions that are zero at the boundary control points. -/
theorem C68_stiffness_definite (P : Problem s rule) (R : Regular s rule) (hd : s.ph.dim = D s) (hw : UnitWeights s) (F : FineRule s rule)
    (hm : List.Forall₂ InnerMult s.ps.knots s.ps.degree) (u : ℕ → K)
    (hB : ∀ a < (npts s).prod, BoundaryIx (npts s) (unlin (npts s) a) → u a = 0) (hu : ∃ a < (npts s).prod, u a ≠ 0) :
    0 < ∑ a ∈ range (npts s).prod, ∑ b ∈ range (npts s).prod, u a * stiff s rule a b * u b := by
  have h0 : 0 ≤ ∑ a ∈ range (npts s).prod, ∑ b ∈ range (npts s).prod, u a * stiff s rule a b * u b := by
    rw [stiff_form P]
    exact quadSum_nonneg P (fun p hp => (F.pos p hp).le) fun x _ => sum_nonneg fun i _ => mul_self_nonneg _
  refine lt_of_le_of_ne h0 fun hz => ?_
  obtain ⟨a, ha, hne⟩ := hu
  apply hne
  have hk := stiff_kernel P R hd hw F hm u hz.symm
  have hI := unlin_inBox (npts_pos P.wf) a
  have hl : (npts s).length = D s := by simp [npts, D, P.wf.knots.length_eq]
  rw [← lin_unlin ha]
  obtain ⟨n, ns, hns⟩ := List.exists_cons_of_ne_nil (l := npts s) (by intro h; rw [h] at hl; have := P.dirs; simp at hl; omega)
  obtain ⟨i, t, hit⟩ := List.exists_cons_of_ne_nil (l := unlin (npts s) a) (by intro h; rw [h, hns] at hI; cases hI)
  rw [hit] at hI ⊢
  rw [hk i t hI]
  have hn : 0 < n := npts_pos P.wf n (by simp [hns])
  have hI0 : InBox (npts s) (0 :: t) := by
    rw [hns] at hI ⊢
    exact inBox_cons.2 ⟨hn, (inBox_cons.1 hI).2⟩
  refine hB _ (lin_lt hI0) ⟨0, n, 0, by simp [hns], by rw [unlin_lin hI0]; rfl, Or.inl rfl⟩

/-- A system with rows replaced at the boundary whose matrix is positive definite on the functions that vanish at the boundary has exactly
one solution. -/
theorem bc_solution {n : ℕ} {B : ℕ → Prop} [DecidablePred B] {L : ℕ → ℕ → K}
    (hL : ∀ u : ℕ → K, (∀ a < n, B a → u a = 0) → (∃ a < n, u a ≠ 0) → 0 < ∑ a ∈ range n, ∑ b ∈ range n, u a * L a b * u b) (g d : ℕ → K) :
    (∃ v : ℕ → K, ∀ a < n, (B a → v a = d a) ∧ (¬ B a → ∑ b ∈ range n, L a b * v b = g a)) ∧
    ∀ v w : ℕ → K, (∀ a < n, (B a → v a = d a) ∧ (¬ B a → ∑ b ∈ range n, L a b * v b = g a)) →
      (∀ a < n, (B a → w a = d a) ∧ (¬ B a → ∑ b ∈ range n, L a b * w b = g a)) → ∀ a < n, v a = w a := by
  have hinj : ∀ u : ℕ → K, (∀ a < n, B a → u a = 0) → (∀ a < n, ¬ B a → ∑ b ∈ range n, L a b * u b = 0) → ∀ a < n, u a = 0 := by
    intro u h1 h2
    by_contra hc
    push Not at hc
    refine (hL u h1 hc).ne' (sum_eq_zero fun a ha => ?_)
    have ha := mem_range.1 ha
    by_cases hB : B a
    · exact sum_eq_zero fun b _ => by rw [h1 a ha hB, zero_mul, zero_mul]
    · have := h2 a ha hB
      simp only [mul_assoc]
      rw [← mul_sum, this, mul_zero]
  have hrow : ∀ (v : ℕ → K) a, a < n → ∑ b ∈ range n, (if B a then (if a = b then 1 else 0) else L a b) * v b =
      if B a then v a else ∑ b ∈ range n, L a b * v b := by
    intro v a ha
    by_cases hB : B a
    · simp [hB, ha]
    · simp [hB]
  constructor
  · obtain ⟨v, hv⟩ := exists_solution (n := n) (f := fun a b => if B a then (if a = b then 1 else 0) else L a b) (fun v hv => hinj v
      (fun a ha hB => by have := hv a ha; rwa [hrow v a ha, if_pos hB] at this)
      (fun a ha hB => by have := hv a ha; rwa [hrow v a ha, if_neg hB] at this)) fun a => if B a then d a else g a
    refine ⟨v, fun a ha => ⟨fun hB => ?_, fun hB => ?_⟩⟩
    · have := hv a ha
      rwa [hrow v a ha, if_pos hB, if_pos hB] at this
    · have := hv a ha
      rwa [hrow v a ha, if_neg hB, if_neg hB] at this
  · intro v w hv hw' a ha
    refine sub_eq_zero.1 (hinj (fun a => v a - w a) (fun a ha hB => ?_) (fun a ha hB => ?_) a ha)
    · rw [(hv a ha).1 hB, (hw' a ha).1 hB, sub_self]
    · simp only [mul_sub, sum_sub_distrib]
      rw [(hv a ha).2 hB, (hw' a ha).2 hB, sub_self]

/-- **C68.** The discrete problem of the steady state has exactly one solution. -/
theorem C68_steady_unique (P : Problem s rule) (R : Regular s rule) (hd : s.ph.dim = D s) (hw : UnitWeights s) (F : FineRule s rule)
    (hm : List.Forall₂ InnerMult s.ps.knots s.ps.degree) :
    (∃ u, SteadySolution s rule u) ∧
    ∀ u v, SteadySolution s rule u → SteadySolution s rule v → ∀ a < (npts s).prod, u a = v a := by
  obtain ⟨⟨v, hv⟩, huniq⟩ := bc_solution (n := (npts s).prod) (B := fun a => BoundaryIx (npts s) (unlin (npts s) a)) (L := stiff s rule)
    (fun u h1 h2 => C68_stiffness_definite P R hd hw F hm u h1 h2) (fun a => quadSum s rule fun x => fnAt s x a) (fun _ => 0)
  exact ⟨⟨v, fun a ha => (hv a ha).1, fun a ha => (hv a ha).2⟩,
    fun u w h1 h2 => huniq u w (fun a ha => ⟨h1.boundary a ha, h1.inner a ha⟩) (fun a ha => ⟨h2.boundary a ha, h2.inner a ha⟩)⟩

/-- A linear solver that returns whenever the matrix is regular. -/
def CompleteSolve (solve : List (List K) → List K → M (List K)) : Prop :=
  ∀ n f g, (∀ v : ℕ → K, (∀ a < n, ∑ b ∈ range n, f a b * v b = 0) → ∀ a < n, v a = 0) → ∃ u, solve (matOf n f) (vecOf n g) = .ok u

/-- **C68.** `GetSteadyStateSolution` on a new `PoissonProblem` always returns, and what it returns is the only solution of the discrete
problem. -/
theorem C68_steady_returns (P : Problem s rule) (R : Regular s rule) (hd : s.ph.dim = D s) (hw : UnitWeights s) (F : FineRule s rule)
    (hm : List.Forall₂ InnerMult s.ps.knots s.ps.degree) {solve : List (List K) → List K → M (List K)} (hs : LawfulSolve solve)
    (hc : CompleteSolve solve) :
    ∃ Q r u, poissonNew s = .ok Q ∧ steady solve s rule Q = .ok r ∧ r.2 = vecOf (npts s).prod u ∧ SteadySolution s rule u ∧
      ∀ v, SteadySolution s rule v → ∀ a < (npts s).prod, v a = u a := by
  have hN := poissonNew_eq P R.dim R.funs R.det
  have hsys : ∀ v : ℕ → K, (∀ a < (npts s).prod, ∑ b ∈ range (npts s).prod,
      (if BoundaryIx (npts s) (unlin (npts s) a) then (if a = b then 1 else 0) else 0 + stiff s rule a b) * v b = 0) → ∀ a < (npts s).prod, v a = 0 := by
    intro v hv
    have h1 : ∀ a < (npts s).prod, BoundaryIx (npts s) (unlin (npts s) a) → v a = 0 := by
      intro a ha hB
      have := hv a ha
      simpa [hB, ha] using this
    by_contra hne
    push Not at hne
    refine (C68_stiffness_definite P R hd hw F hm v h1 hne).ne' (sum_eq_zero fun a ha => ?_)
    have ha := mem_range.1 ha
    by_cases hB : BoundaryIx (npts s) (unlin (npts s) a)
    · exact sum_eq_zero fun b _ => by rw [h1 a ha hB, zero_mul, zero_mul]
    · have := hv a ha
      simp only [hB, if_false, zero_add] at this
      simp only [mul_assoc]
      rw [← mul_sum, this, mul_zero]
  obtain ⟨x, hx⟩ := hc (npts s).prod _ (fun a => if BoundaryIx (npts s) (unlin (npts s) a) then 0 else 0 + load s rule a) hsys
  obtain ⟨r, hr⟩ : ∃ r, steady solve s rule ⟨matOf (npts s).prod fun _ _ => 0, vecOf (npts s).prod fun _ => 0⟩ = .ok r := by
    unfold steady
    rw [assemble_eq P R.dim R.funs R.det, ok_bind]
    dsimp only
    rw [setZeroBC_eq P.wf P.size, ok_bind]
    dsimp only
    rw [hx]
    exact ⟨_, rfl⟩
  obtain ⟨u, hu, hS⟩ := C59_steady_partial P R hs hN hr
  exact ⟨_, _, u, hN, hr, hu, hS, fun v hv => (C68_steady_unique P R hd hw F hm).2 v u hv hS⟩

theorem euler_definite (P : Problem s rule) (R : Regular s rule) (hd : s.ph.dim = D s) (F : FineRule s rule)
    (hn : List.Forall₂ NonDegenerate s.ps.knots s.ps.degree) {c dt : K} (hc : 0 ≤ c) (hdt : 0 < dt) (u : ℕ → K) (hu : ∃ a < (npts s).prod, u a ≠ 0) :
    0 < ∑ a ∈ range (npts s).prod, ∑ b ∈ range (npts s).prod, u a * (mass s rule a b / dt + c * stiff s rule a b) * u b := by
  have h1 := C68_mass_definite P R hd F hn u hu
  have h2 : 0 ≤ ∑ a ∈ range (npts s).prod, ∑ b ∈ range (npts s).prod, u a * stiff s rule a b * u b := by
    rw [stiff_form P]
    exact quadSum_nonneg P (fun p hp => (F.pos p hp).le) fun x _ => sum_nonneg fun i _ => mul_self_nonneg _
  have e : ∑ a ∈ range (npts s).prod, ∑ b ∈ range (npts s).prod, u a * (mass s rule a b / dt + c * stiff s rule a b) * u b =
      (∑ a ∈ range (npts s).prod, ∑ b ∈ range (npts s).prod, u a * mass s rule a b * u b) / dt +
        c * ∑ a ∈ range (npts s).prod, ∑ b ∈ range (npts s).prod, u a * stiff s rule a b * u b := by
    rw [sum_div, mul_sum, ← sum_add_distrib]
    refine sum_congr rfl fun a _ => ?_
    rw [sum_div, mul_sum, ← sum_add_distrib]
    exact sum_congr rfl fun b _ => by ring
  rw [e]
  have := div_pos h1 hdt
  have := mul_nonneg hc h2
  linarith

/-- **C68.** The steps of the implicit Euler method are determined by the start and the boundary values, for any weights of the geometry. -/
theorem C68_euler_unique (P : Problem s rule) (R : Regular s rule) (hd : s.ph.dim = D s) (F : FineRule s rule)
    (hn : List.Forall₂ NonDegenerate s.ps.knots s.ps.degree) {c dt : K} (hc : 0 ≤ c) (hdt : 0 < dt) {dv : ℕ → K} {k : ℕ} {S T : ℕ → ℕ → K}
    (hS : EulerSteps s rule c dt dv k S) (hT : EulerSteps s rule c dt dv k T) : ∀ j ≤ k, ∀ a < (npts s).prod, S j a = T j a := by
  intro j
  induction j with
  | zero => intro _ a ha; rw [hS.start a ha, hT.start a ha]
  | succ j ih =>
    intro hj
    have ih := ih (by omega)
    have hrow : ∀ V : ℕ → ℕ → K, EulerSteps s rule c dt dv k V → (∀ a < (npts s).prod, V j a = T j a) → ∀ a < (npts s).prod,
        (BoundaryIx (npts s) (unlin (npts s) a) → V (j + 1) a = dv a) ∧ (¬ BoundaryIx (npts s) (unlin (npts s) a) →
          ∑ b ∈ range (npts s).prod, (mass s rule a b / dt + c * stiff s rule a b) * V (j + 1) b =
            c * (quadSum s rule fun x => fnAt s x a) + ∑ b ∈ range (npts s).prod, mass s rule a b / dt * T j b) := by
      intro V hV hVT a ha
      refine ⟨hV.boundary j (by omega) a ha, fun hB => ?_⟩
      rw [← hV.inner j (by omega) a ha hB, mul_sum, ← sum_add_distrib, ← sum_add_distrib]
      refine sum_congr rfl fun b hb => ?_
      rw [hVT b (mem_range.1 hb)]
      unfold mass
      ring
    exact (bc_solution (fun u _ => euler_definite P R hd F hn hc hdt u) _ dv).2 _ _ (hrow S hS ih) (hrow T hT fun _ _ => rfl)

/-- A matrix with rows replaced at the boundary is regular if it is positive definite on the functions that vanish at the boundary. -/
theorem bc_regular {n : ℕ} {B : ℕ → Prop} [DecidablePred B] {L : ℕ → ℕ → K}
    (hL : ∀ u : ℕ → K, (∀ a < n, B a → u a = 0) → (∃ a < n, u a ≠ 0) → 0 < ∑ a ∈ range n, ∑ b ∈ range n, u a * L a b * u b) (v : ℕ → K)
    (hv : ∀ a < n, ∑ b ∈ range n, (if B a then (if a = b then 1 else 0) else L a b) * v b = 0) : ∀ a < n, v a = 0 := by
  have h := (bc_solution hL (fun _ => 0) fun _ => 0).2 v (fun _ => 0) ?_ fun a _ => ⟨fun _ => rfl, fun _ => by simp⟩
  · exact h
  · intro a ha
    have := hv a ha
    refine ⟨fun hB => ?_, fun hB => ?_⟩
    · simpa [hB, ha] using this
    · simpa only [hB, if_false] using this

/-- **C68.** `GetUnsteadyStateSolution` on a new `PoissonProblem` always returns, for any weights of the geometry, if the number of steps fits
into an `int` and there are enough boundary values; what it returns are the only steps of the implicit Euler method. -/
theorem C68_unsteady_returns [FloorRing K] (P : Problem s rule) (R : Regular s rule) (hd : s.ph.dim = D s) (F : FineRule s rule)
    (hn : List.Forall₂ NonDegenerate s.ps.knots s.ps.degree) {solve : List (List K) → List K → M (List K)} (hs : LawfulSolve solve)
    (hc : CompleteSolve solve) {dt tEnd : K} (hdt : 0 < dt) (ht : 0 ≤ tEnd) (hN : ⌊tEnd / dt⌋ < 2 ^ 31) {d : Option (List K)}
    (hl : ∀ v, d = some v → ((range (npts s).prod).filter fun a => BoundaryIx (npts s) (unlin (npts s) a)).card ≤ v.length) :
    ∃ Q r S, poissonNew s = .ok Q ∧ unsteady solve s rule dt tEnd d Q = .ok r ∧
      r.2 = (List.range (⌊tEnd / dt⌋.toNat + 1)).map (fun j => vecOf (npts s).prod (S j)) ∧
      EulerSteps s rule 1 dt (boundaryValues s d) ⌊tEnd / dt⌋.toNat S ∧
      ∀ T, EulerSteps s rule 1 dt (boundaryValues s d) ⌊tEnd / dt⌋.toNat T → ∀ j ≤ ⌊tEnd / dt⌋.toNat, ∀ a < (npts s).prod, T j a = S j a := by
  have hnew := poissonNew_eq P R.dim R.funs R.det
  have hl' : boundaryRank (npts s) (npts s).prod ≤ (d.getD (List.replicate (npts s).prod 0)).length := by
    cases d with
    | none =>
      unfold boundaryRank
      simpa using Finset.card_filter_le (range (npts s).prod) fun a => BoundaryIx (npts s) (unlin (npts s) a)
    | some v => exact hl v rfl
  have hq : 0 ≤ tEnd / dt := div_nonneg ht hdt.le
  have hz : truncInt (tEnd / dt) = .ok ⌊tEnd / dt⌋ := by
    have := Int.floor_nonneg.2 hq
    unfold truncInt
    rw [if_pos hq]
    dsimp only
    rw [if_pos ⟨by omega, hN⟩]
  obtain ⟨r, hr⟩ : ∃ r, unsteady solve s rule dt tEnd d ⟨matOf (npts s).prod fun _ _ => 0, vecOf (npts s).prod fun _ => 0⟩ = .ok r := by
    unfold unsteady
    rw [massMatrix_eq P, ok_bind, fdiv_ok hdt.ne', ok_bind, hz, ok_bind, numCPs_eq P.wf, ok_bind, assemble_eq P R.dim R.funs R.det, ok_bind]
    dsimp only
    rw [bdfLeft_eq _ _ hdt.ne', ok_bind]
    obtain ⟨st, h1, -⟩ := forLoop_inv (body := fun _ st => timeStep solve s (matOf (npts s).prod (mass s rule))
        (vecOf (npts s).prod fun a => 0 + load s rule a) dt d st)
      (fun _ st => (∃ f', st.1 = matOf (npts s).prod f' ∧ ∀ a < (npts s).prod, ¬ BoundaryIx (npts s) (unlin (npts s) a) → ∀ b,
        f' a b = 0 + stiff s rule a b + mass s rule a b / dt) ∧ ∃ sols v, st.2 = sols ++ [vecOf (npts s).prod v]) ⌊tEnd / dt⌋.toNat 0 (by
      rintro j ⟨A, L⟩ - - ⟨⟨f', e1, e2⟩, sols, v, e3⟩
      dsimp only at e1 e3
      subst e1 e3
      have hreg : ∀ w : ℕ → K, (∀ a < (npts s).prod, ∑ b ∈ range (npts s).prod,
          (if BoundaryIx (npts s) (unlin (npts s) a) then (if a = b then 1 else 0) else f' a b) * w b = 0) → ∀ a < (npts s).prod, w a = 0 := by
        intro w hw
        refine bc_regular (B := fun a => BoundaryIx (npts s) (unlin (npts s) a)) (fun u _ => euler_definite P R hd F hn zero_le_one hdt u) w ?_
        intro a ha
        refine Eq.trans (sum_congr rfl fun b _ => ?_) (hw a ha)
        by_cases hB : BoundaryIx (npts s) (unlin (npts s) a)
        · rw [if_pos hB, if_pos hB]
        · rw [if_neg hB, if_neg hB, e2 a ha hB b]
          ring
      obtain ⟨u, hu⟩ : ∃ u, timeStep solve s (matOf (npts s).prod (mass s rule)) (vecOf (npts s).prod fun a => 0 + load s rule a) dt d
          (matOf (npts s).prod f', sols ++ [vecOf (npts s).prod v]) = .ok u := by
        unfold timeStep
        dsimp only
        rw [getN_some (a := vecOf (npts s).prod v) (by simp), ok_bind, bdfRight_eq _ _ _ hdt.ne', ok_bind,
          setDirichletBC_eq P.wf P.size _ _ d _ (by
            congr 1
            unfold vecOf
            rw [List.map_map]
            exact (replicate_map (npts s).prod _).symm) hl', ok_bind]
        dsimp only
        obtain ⟨x, hx⟩ := hc (npts s).prod _ _ hreg
        rw [hx]
        exact ⟨_, rfl⟩
      obtain ⟨h5, w, h6, -⟩ := timeStep_eq P hs hdt.ne' rfl hl' hu
      exact ⟨u, hu, ⟨_, h5, fun a ha hB b => by rw [if_neg hB, e2 a ha hB b]⟩, _, w, h6⟩) (matOf (npts s).prod _, [List.replicate ((npts s).prod : ℤ).toNat 0])
      ⟨⟨_, rfl, fun a _ _ b => rfl⟩, [], fun _ => 0, by rw [Int.toNat_natCast]; simp [vecOf]⟩
    unfold mass at h1
    rw [h1]
    exact ⟨_, rfl⟩
  obtain ⟨S, h1, h2⟩ := C60_unsteady_partial P R hs hnew hdt ht hl hr
  exact ⟨_, r, S, hnew, hr, h1, h2, fun T hT => C68_euler_unique P R hd F hn zero_le_one hdt hT h2⟩

end

/-- **C68.** The Gauss-Legendre rules of the example are fine enough for all degrees below their number of points. -/
theorem C68_gauss {n : ℕ} (h1 : 1 ≤ n) (h5 : n ≤ 5) {s : Spl ℝ} (hdeg : ∀ p ∈ s.ps.degree, p < n) : FineRule s (gaussRule n) := by
  refine ⟨?_, fun p hp => ((C67_rules h1 h5).2 p hp).2.2, fun p hp => ?_⟩
  · apply List.Pairwise.imp (R := fun a b => a < b) (fun h => h.ne)
    interval_cases n
    · simp [gaussRule, gauss1]
    · have := Real.sqrt_pos.2 (show (0 : ℝ) < 1 / 3 by norm_num)
      simp only [gaussRule, gauss2, HasSqrt.sqrt, List.map_cons, List.map_nil]
      simp only [List.pairwise_cons, List.mem_cons, List.not_mem_nil, or_false, forall_eq, forall_eq_or_imp, List.Pairwise.nil, and_true]
      exact ⟨by linarith, by simp⟩
    · have := Real.sqrt_pos.2 (show (0 : ℝ) < 3 / 5 by norm_num)
      simp only [gaussRule, gauss3, HasSqrt.sqrt, List.map_cons, List.map_nil]
      simp only [List.pairwise_cons, List.mem_cons, List.not_mem_nil, or_false, forall_eq, forall_eq_or_imp, List.Pairwise.nil, and_true]
      exact ⟨⟨by linarith, by linarith⟩, by linarith, by simp⟩
    · have h0 := Real.sqrt_pos.2 (show (0 : ℝ) < 6 / 5 by norm_num)
      have h65 : Real.sqrt (6 / 5) < 3 / 2 := by rw [Real.sqrt_lt' (by norm_num)]; norm_num
      have hb := Real.sqrt_pos.2 (show 0 < 3 / 7 - 2 / 7 * Real.sqrt (6 / 5) by linarith)
      have hab : Real.sqrt (3 / 7 - 2 / 7 * Real.sqrt (6 / 5)) < Real.sqrt (3 / 7 + 2 / 7 * Real.sqrt (6 / 5)) :=
        Real.sqrt_lt_sqrt (by linarith) (by linarith)
      simp only [gaussRule, gauss4, HasSqrt.sqrt, List.map_cons, List.map_nil]
      simp only [List.pairwise_cons, List.mem_cons, List.not_mem_nil, or_false, forall_eq, forall_eq_or_imp, List.Pairwise.nil, and_true]
      exact ⟨⟨by linarith, by linarith, by linarith⟩, ⟨by linarith, by linarith⟩, by linarith, by simp⟩
    · have h0 := Real.sqrt_pos.2 (show (0 : ℝ) < 10 / 7 by norm_num)
      have h107 : Real.sqrt (10 / 7) < 3 / 2 := by rw [Real.sqrt_lt' (by norm_num)]; norm_num
      have hb := Real.sqrt_pos.2 (show 0 < 5 - 2 * Real.sqrt (10 / 7) by linarith)
      have hab : Real.sqrt (5 - 2 * Real.sqrt (10 / 7)) < Real.sqrt (5 + 2 * Real.sqrt (10 / 7)) :=
        Real.sqrt_lt_sqrt (by linarith) (by linarith)
      simp only [gaussRule, gauss5, HasSqrt.sqrt, List.map_cons, List.map_nil]
      simp only [List.pairwise_cons, List.mem_cons, List.not_mem_nil, or_false, forall_eq, forall_eq_or_imp, List.Pairwise.nil, and_true]
      exact ⟨⟨by linarith, by linarith, by linarith, by linarith⟩, ⟨by linarith, by linarith, by linarith⟩, ⟨by linarith, by linarith⟩,
        by linarith, by simp⟩
  · have : (gaussRule n).length = n := by interval_cases n <;> rfl
    rw [this]
    exact hdeg p hp

/-! ### The hypotheses hold for the quadratic line with three points -/

example : Problem exLine (gaussRule 3) ∧ Regular exLine (gaussRule 3) ∧ UnitWeights exLine ∧ exLine.ph.dim = D exLine ∧
    FineRule exLine (gaussRule 3) ∧ List.Forall₂ InnerMult exLine.ps.knots exLine.ps.degree ∧
    List.Forall₂ NonDegenerate exLine.ps.knots exLine.ps.degree := by
  obtain ⟨hP, hR, hu, hd, _, _, hdeg, _⟩ := exLine_gauss
  have hm : List.Forall₂ InnerMult exLine.ps.knots exLine.ps.degree := by
    refine .cons (fun i h1 h2 => ?_) .nil
    simp only [List.length_cons, List.length_nil] at h2
    rcases (by omega : i = 1 ∨ i = 2) with rfl | rfl <;> norm_num [knot]
  exact ⟨hP, hR, hu, hd, C68_gauss (by norm_num) (by norm_num) hdeg, hm, forall₂_inner hP.wf.knots hm⟩

/-- The solvers that satisfy the hypotheses exist: take any solution of a regular system. -/
example : ∃ solve : List (List ℝ) → List ℝ → M (List ℝ), LawfulSolve solve ∧ CompleteSolve solve := by
  classical
  let sol : List (List ℝ) → List ℝ → List ℝ → Prop := fun A b u =>
    ∀ n f g, A = matOf n f → b = vecOf n g → ∃ v, u = vecOf n v ∧ ∀ a < n, ∑ b ∈ range n, f a b * v b = g a
  refine ⟨fun A b => if h : ∃ u, sol A b u then .ok h.choose else .error .nonfinite, ?_, ?_⟩
  · intro n f g u h
    dsimp only at h
    split at h
    · rename_i hx
      obtain rfl := Except.ok.inj h
      exact hx.choose_spec n f g rfl rfl
    · cases h
  · intro n f g hreg
    obtain ⟨v, hv⟩ := exists_solution hreg g
    have hx : ∃ u, sol (matOf n f) (vecOf n g) u := by
      refine ⟨vecOf n v, fun n' f' g' h1 h2 => ?_⟩
      have hl : n = n' := by have := congrArg List.length h1; simpa [matOf] using this
      subst hl
      refine ⟨v, rfl, fun a ha => ?_⟩
      have hg : g' a = g a := by
        have := congrArg (fun l => l[a]?) h2
        simpa [vecOf, ha] using this.symm
      rw [hg, ← hv a ha]
      refine sum_congr rfl fun b hb => ?_
      have := congrArg (fun l => (l[a]?.getD [])[b]?) h1
      have hb := mem_range.1 hb
      have : f a b = f' a b := by simpa [matOf, ha, hb] using this
      rw [this]
    exact ⟨_, dif_pos hx⟩

end Iga
end SplineLib
