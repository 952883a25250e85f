import Verif.Core.IgaBasis
import Verif.Core.Reduce

/-!
# Derivatives of the basis functions and the mapping in the isogeometric example (helper lemmas)
-/

namespace SplineLib
set_option linter.unusedSectionVars false
open Finset

namespace Iga
variable {K : Type} [Field K] [LinearOrder K] [IsStrictOrderedRing K]
open Elem

/-- The order of a first derivative in direction `i`. -/
def unitIx (n i : ℕ) : List ℕ := (List.replicate n 0).set i 1

theorem unitIx_length (n i : ℕ) : (unitIx n i).length = n := by simp [unitIx]

theorem unitIx_zero (n : ℕ) : unitIx (n + 1) 0 = 1 :: List.replicate n 0 := by simp [unitIx, List.replicate_succ]

theorem unitIx_succ (n i : ℕ) : unitIx (n + 1) (i + 1) = 0 :: unitIx n i := by simp [unitIx, List.replicate_succ]

theorem unlin_ones : ∀ (n : ℕ), unlin (List.replicate n 1) 0 = List.replicate n 0
  | 0 => rfl
  | n + 1 => by rw [List.replicate_succ, unlin, List.replicate_succ]; simp [unlin_ones n]

theorem unlin_unitIx : ∀ {n i : ℕ}, i < n → ((unitIx n i).map (· + 1)).prod = 2 ∧ unlin ((unitIx n i).map (· + 1)) 1 = unitIx n i ∧
    mbinom (unitIx n i) (unitIx n i) = 1 ∧ msub (unitIx n i) (unitIx n i) = List.replicate n 0
  | 0, _, h => by omega
  | n + 1, 0, _ => by
    rw [unitIx_zero]
    refine ⟨by simp, ?_, ?_, ?_⟩
    · simp only [List.map_cons, List.map_replicate, unlin]
      rw [show (1 : ℕ) / (1 + 1) = 0 by norm_num, show (0 + 1 : ℕ) = 1 from rfl, unlin_ones]
    · simp [mbinom]
    · simp [msub, List.replicate_succ]
  | n + 1, i + 1, h => by
    obtain ⟨a, b, c, d⟩ := unlin_unitIx (n := n) (i := i) (by omega)
    rw [unitIx_succ]
    refine ⟨by simp only [List.map_cons, List.prod_cons, a], ?_, ?_, ?_⟩
    · simp only [List.map_cons, unlin]
      rw [show (1 : ℕ) / (0 + 1) = 1 by norm_num, b]
    · simp only [mbinom, List.zipWith_cons_cons, List.prod_cons] at c ⊢
      rw [c]; simp
    · simp only [msub, List.zipWith_cons_cons, List.replicate_succ] at d ⊢
      rw [d]

theorem ratR_unit (A W : List ℕ → K) {n i : ℕ} (hi : i < n) : ratR A W (unitIx n i) =
    (A (unitIx n i) - A (List.replicate n 0) / W (List.replicate n 0) * W (unitIx n i)) / W (List.replicate n 0) := by
  obtain ⟨a, b, c, d⟩ := unlin_unitIx hi
  rw [ratR_rec, a]
  have hz : (unitIx n i).map (fun _ => 0) = List.replicate n 0 := by rw [List.map_const', unitIx_length]
  have h0 : ratR A W (List.replicate n 0) = A (List.replicate n 0) / W (List.replicate n 0) := by
    unfold ratR
    rw [ratD_zero]
    simp
  simp only [Nat.add_one_sub_one, sum_range_one, zero_add, b, c, d, hz, h0]
  push_cast
  ring

/-- The quotient rule for the rational basis functions. -/
theorem ratBasis_unit (s : Spl K) (x : List K) {i : ℕ} (hi : i < D s) (I : List ℕ) : ratBasis s x (unitIx (D s) i) I =
    (dprod (basisDerivFns s.ps.knots s.ps.degree x (unitIx (D s) i)) I * wgt s I
      - ratFn s x I * tensorDerivSum s x (unitIx (D s) i) (wgt s)) / weightValue s x := by
  unfold ratBasis
  rw [ratR_unit _ _ hi]
  have hw : (tensorDerivSum s x (List.replicate (D s) 0) fun I => wgt s I) = weightValue s x := by
    have := weightDeriv_zero (s := s) (x := x) (k := List.replicate (D s) 0) (by simp)
    rwa [List.map_const', List.length_replicate] at this
  rw [hw, basisDerivFns_rep]
  rfl

/-! ### The loops -/

theorem forLoop_fun {σ : Type} {body : ℕ → σ → M σ} (st : ℕ → σ) {n : ℕ} (h : ∀ i < n, body i (st i) = .ok (st (i + 1))) :
    Spl.forLoop body n 0 (st 0) = .ok (st n) := by
  obtain ⟨s', h1, h2⟩ := forLoop_inv (body := body) (P := fun i s => s = st i) n 0 (by
    intro j s _ hj hs
    subst hs
    exact ⟨_, h j (by omega), rfl⟩) (st 0) rfl
  rw [h1, h2, Nat.zero_add]

theorem zipWith_range {α β γ : Type} (f : α → β → γ) (g : ℕ → α) (h : ℕ → β) (n : ℕ) :
    List.zipWith f ((List.range n).map g) ((List.range n).map h) = (List.range n).map fun i => f (g i) (h i) := by
  apply List.ext_getElem
  · simp
  · intro i h1 h2; simp

/-- The state after the first `k` functions. -/
def derivState (s : Spl K) (x : List K) (k : ℕ) : DerivState K :=
  ⟨(List.range k).map (actTerm s x (List.replicate (D s) 0)), ∑ j ∈ range k, actTerm s x (List.replicate (D s) 0) j,
    (List.range (D s)).map fun i => (List.range k).map (actTerm s x (unitIx (D s) i)),
    (List.range (D s)).map fun i => ∑ j ∈ range k, actTerm s x (unitIx (D s) i) j⟩

theorem derivBody_eq {s : Spl K} (h : WFSpl s) (hn : IsNurbs s) (hl : ∀ U ∈ s.ps.knots, U.length < 2 ^ 64) (hD : 0 < D s)
    {e : List ℤ} {x : List K} (hx : InElement (elemsOf s.ps.knots) e x) {k : ℕ} (hk : k < actNum s) :
    derivBody s x (rowsOf s.ps.knots s.ps.degree x (List.replicate (D s) 0)) (rowsOf s.ps.knots s.ps.degree x (List.replicate (D s) 1))
      ⟨zl (actBox s.ps.degree), zl (unlin (actBox s.ps.degree) k)⟩ (derivState s x k) = .ok (derivState s x (k + 1)) := by
  have hd := inElement_dom h.knots hx
  have hb := unlin_inBox (actBox_pos s.ps.degree) k
  unfold derivBody
  dsimp only
  rw [rowProd_eq h.knots 1 hd hb (by simp), ok_bind]
  rw [buildList_eq (g := fun i => dprod (basisDerivFns s.ps.knots s.ps.degree x (unitIx (D s) i)) (actIx s x k)) (by
    intro i hi
    have hlen := rowsOf_length h.knots hd (ks := List.replicate (D s) 1) (by simp)
    have hil : i < (rowsOf s.ps.knots s.ps.degree x (List.replicate (D s) 1)).length := by rw [hlen]; exact hi
    rw [getN_of_lt hil, ok_bind]
    rw [rowsOf_set (ks := List.replicate (D s) 0) (ks' := List.replicate (D s) 1) (k := 1) (by simp [hi]) (List.getElem?_eq_getElem hil)]
    have := rowProd_eq h.knots 1 hd hb (ks := unitIx (D s) i) (unitIx_length _ _)
    unfold unitIx at this ⊢
    rw [this, one_mul]
    rfl), ok_bind, get1D_zl_unlin hk, weight_eq h hn hl hD hx hk, ok_bind, pure_ok]
  unfold derivState
  simp only [zipWith_range, List.range_succ, List.map_append, sum_range_succ, one_mul]
  rfl

/-- The entry the code computes for the active function `m` and the direction `j`. -/
def codeDeriv (s : Spl K) (x : List K) (j m : ℕ) : K :=
  (actTerm s x (unitIx (D s) j) m * weightValue s x - ratFn s x (actIx s x m) * tensorDerivSum s x (unitIx (D s) j) (wgt s)) /
    weightValue s x ^ 2

/-- The state of the second loop after `i` rounds. -/
def normState (s : Spl K) (x : List K) (i : ℕ) : DerivState K :=
  ⟨(List.range (actNum s)).map fun m => if m < i then ratFn s x (actIx s x m) else actTerm s x (List.replicate (D s) 0) m, weightValue s x,
    (List.range (D s)).map fun j => (List.range (actNum s)).map fun m =>
      if m < i then codeDeriv s x j m else actTerm s x (unitIx (D s) j) m,
    (List.range (D s)).map fun j => tensorDerivSum s x (unitIx (D s) j) (wgt s)⟩

theorem set_range {α : Type} (f g : ℕ → α) (n i : ℕ) (a : α) (hi : ∀ m < n, m ≠ i → f m = g m) (ha : g i = a) :
    ((List.range n).map f).set i a = (List.range n).map g := by
  apply List.ext_getElem
  · simp
  · intro m h1 h2
    simp only [List.length_set, List.length_map, List.length_range] at h1
    rw [List.getElem_set]
    split
    · rename_i e; subst e; simp [ha]
    · rename_i hne; simp [hi m h1 (Ne.symm hne)]

theorem normaliseBody_eq {s : Spl K} (h : WFSpl s) {x : List K} (hx : Dom s.ps.knots x) {i : ℕ} (hi : i < actNum s) :
    normaliseBody i (normState s x i) = .ok (normState s x (i + 1)) := by
  have hw := (weightValue_pos h hx).ne'
  unfold normaliseBody normState
  dsimp only
  rw [getN_some (a := actTerm s x (List.replicate (D s) 0) i) (by simp [hi]), ok_bind]
  have e1 : fdiv (actTerm s x (List.replicate (D s) 0) i) (weightValue s x) = .ok (ratFn s x (actIx s x i)) := by
    unfold fdiv
    rw [if_neg hw, actTerm_zero]
    rfl
  rw [e1, ok_bind]
  have e2 : ((List.range (D s)).map fun j => (List.range (actNum s)).map fun m =>
      if m < i then codeDeriv s x j m else actTerm s x (unitIx (D s) j) m).length = D s := by simp
  rw [e2, buildList_eq (g := fun j => (List.range (actNum s)).map fun m =>
      if m < i + 1 then codeDeriv s x j m else actTerm s x (unitIx (D s) j) m) (by
    intro j hj
    rw [getN_some (a := (List.range (actNum s)).map fun m =>
      if m < i then codeDeriv s x j m else actTerm s x (unitIx (D s) j) m) (by simp [hj]), ok_bind,
      getN_some (a := actTerm s x (unitIx (D s) j) i) (by simp [hi]), ok_bind,
      getN_some (a := tensorDerivSum s x (unitIx (D s) j) (wgt s)) (by simp [hj]), ok_bind]
    unfold fdiv
    rw [if_neg (pow_ne_zero 2 hw), ok_bind, pure_ok]
    congr 1
    apply set_range
    · intro m _ hm
      by_cases h1 : m < i
      · rw [if_pos h1, if_pos (by omega)]
      · rw [if_neg h1, if_neg (by omega)]
    · rw [if_pos (by omega)]; rfl), ok_bind, pure_ok]
  congr 2
  apply set_range
  · intro m _ hm
    by_cases h1 : m < i
    · rw [if_pos h1, if_pos (by omega)]
    · rw [if_neg h1, if_neg (by omega)]
  · rw [if_pos (by omega)]

theorem rationalDerivs_eq {s : Spl K} (h : WFSpl s) (hn : IsNurbs s) (hl : ∀ U ∈ s.ps.knots, U.length < 2 ^ 64) (hD : 0 < D s)
    (hA : D s ≤ actNum s) {e : List ℤ} {x : List K} (hx : InElement (elemsOf s.ps.knots) e x) :
    rationalDerivs s x = .ok ((List.range (D s)).map fun j => (List.range (actNum s)).map fun m =>
      if m < D s then codeDeriv s x j m else actTerm s x (unitIx (D s) j) m) := by
  have hd := inElement_dom h.knots hx
  unfold rationalDerivs
  rw [basisRows_eq h hd, ok_bind, derivRows_eq h hd, ok_bind]
  dsimp only
  rw [rowsOf_sizes h.knots hd (by simp)]
  have e0 : (⟨[], 0, List.replicate (D s) [], List.replicate (D s) 0⟩ : DerivState K) = derivState s x 0 := by
    unfold derivState
    simp only [List.range_zero, List.map_nil, sum_range_zero, List.map_const', List.length_range]
  rw [e0, upLoop_fun (derivState s x) (fun k hk => derivBody_eq h hn hl hD hx hk), ok_bind]
  have e1 : derivState s x (actBox s.ps.degree).prod = normState s x 0 := by
    unfold derivState normState
    have hs := fun ks hk => sum_actTerm h hd (ks := ks) hk
    unfold actNum at hs ⊢
    simp only [Nat.not_lt_zero, if_false]
    rw [hs _ (by simp), tensorDerivSum_zero s x h.knots.length_eq hd.length_eq]
    congr 1
    apply List.map_congr_left
    intro j _
    rw [hs _ (unitIx_length _ _)]
  rw [e1, forLoop_fun (normState s x) (n := D s) (fun i hi => normaliseBody_eq h hd (by omega)), ok_bind, pure_ok]
  rfl

/-! ### Unit weights -/

theorem sum_coxDeriv_one {U : List K} {p : ℕ} (h : WFKnots U p) (x : K) :
    ∑ i ∈ range (U.length - p - 1), coxDeBoorDeriv U p 1 i x = 0 := by
  cases p with
  | zero => apply sum_eq_zero; intro i _; rfl
  | succ p =>
    have hsz := h.size
    have e : ∀ i, coxDeBoorDeriv U (p + 1) 1 i x = ((p : K) + 1) * coxDeBoorDeriv U p 0 i x / (knot U (i + p + 1) - knot U i) -
        ((p : K) + 1) * coxDeBoorDeriv U p 0 (i + 1) x / (knot U (i + 1 + p + 1) - knot U (i + 1)) := by
      intro i
      have e' : coxDeBoorDeriv U (p + 1) 1 i x = ((p : K) + 1) * (coxDeBoorDeriv U p 0 i x / (knot U (i + p + 1) - knot U i) -
          coxDeBoorDeriv U p 0 (i + 1) x / (knot U (i + p + 2) - knot U (i + 1))) := rfl
      rw [e', show i + 1 + p + 1 = i + p + 2 by omega]
      ring
    simp only [e]
    rw [sum_range_sub']
    have e1 : knot U (0 + p + 1) - knot U 0 = 0 := by
      rw [sub_eq_zero, Nat.zero_add]
      exact h.first (p + 1) (le_refl _)
    have e2 : knot U (U.length - (p + 1) - 1 + p + 1) - knot U (U.length - (p + 1) - 1) = 0 := by
      have a := h.last 0 (by omega)
      have b := h.last (p + 1) (le_refl _)
      rw [show U.length - (p + 1) - 1 + p + 1 = U.length - 1 - 0 by omega, show U.length - (p + 1) - 1 = U.length - 1 - (p + 1) by omega, a, b,
        sub_self]
    rw [e1, e2, div_zero, div_zero, sub_zero]

theorem msum_basisDeriv_unit {Us : List (List K)} {ps : List ℕ} (h : List.Forall₂ WFKnots Us ps) : ∀ {xs : List K} {i : ℕ}, i < Us.length →
    xs.length = Us.length →
    msum (List.zipWith (fun U p => U.length - p - 1) Us ps) (dprod (basisDerivFns Us ps xs (unitIx Us.length i))) = 0 := by
  induction h with
  | nil => intro xs i hi; simp at hi
  | @cons U p Us ps h hr ih =>
    intro xs i hi hx
    cases xs with
    | nil => simp at hx
    | cons x xs =>
      cases i with
      | zero =>
        simp only [List.length_cons, unitIx_zero, List.zipWith_cons_cons, basisDerivFns, msum, dprod]
        simp only [msum_mul_left]
        rw [← Finset.sum_mul, sum_coxDeriv_one h, zero_mul]
      | succ i =>
        simp only [List.length_cons, unitIx_succ, List.zipWith_cons_cons, basisDerivFns, msum, dprod]
        simp only [msum_mul_left]
        apply sum_eq_zero
        intro j _
        rw [ih (by simpa using hi) (by simpa using hx), mul_zero]

/-- All weights are one. -/
def UnitWeights (s : Spl K) : Prop := ∀ w, s.ph.weights = some w → ∀ a ∈ w, a = 1

theorem wgt_unit {s : Spl K} (h : WFSpl s) (hu : UnitWeights s) {I : List ℕ} (hI : InBox (npts s) I) : wgt s I = 1 := by
  unfold wgt
  cases e : s.ph.weights with
  | none => rfl
  | some w =>
    dsimp only
    have hl := (h.weights w e).1
    have hlt := lin_lt hI
    rw [← hl] at hlt
    rw [List.getD_eq_getElem?_getD, List.getElem?_eq_getElem hlt]
    exact hu w e _ (List.getElem_mem _)

theorem weightValue_unit {s : Spl K} (h : WFSpl s) (hu : UnitWeights s) {x : List K} (hx : Dom s.ps.knots x) : weightValue s x = 1 := by
  unfold weightValue tensorSum
  rw [← tensor_unity h.knots hx]
  exact msum_congr fun I hI => by dsimp only; rw [wgt_unit h hu hI, mul_one]

theorem weightDeriv_unit {s : Spl K} (h : WFSpl s) (hu : UnitWeights s) {x : List K} (hx : Dom s.ps.knots x) {j : ℕ} (hj : j < D s) :
    tensorDerivSum s x (unitIx (D s) j) (wgt s) = 0 := by
  unfold tensorDerivSum
  rw [← msum_basisDeriv_unit h.knots (xs := x) hj hx.length_eq.symm]
  exact msum_congr fun I hI => by rw [wgt_unit h hu hI, mul_one]

/-- With unit weights the entries are the derivatives of the rational basis functions. -/
theorem rationalDerivs_unit {s : Spl K} (h : WFSpl s) (hn : IsNurbs s) (hl : ∀ U ∈ s.ps.knots, U.length < 2 ^ 64) (hD : 0 < D s)
    (hA : D s ≤ actNum s) (hu : UnitWeights s) {e : List ℤ} {x : List K} (hx : InElement (elemsOf s.ps.knots) e x) :
    rationalDerivs s x = .ok ((List.range (D s)).map fun j => (List.range (actNum s)).map fun m =>
      ratBasis s x (unitIx (D s) j) (actIx s x m)) := by
  have hd := inElement_dom h.knots hx
  rw [rationalDerivs_eq h hn hl hD hA hx]
  congr 1
  apply List.map_congr_left
  intro j hj
  apply List.map_congr_left
  intro m _
  have hj' := List.mem_range.1 hj
  rw [ratBasis_unit s x hj']
  unfold codeDeriv actTerm
  rw [weightValue_unit h hu hd, weightDeriv_unit h hu hd hj']
  split <;> simp

/-- Sums of the derivatives over the active functions are sums over all functions. -/
theorem sum_ratBasis {s : Spl K} (h : WFSpl s) {x : List K} (hx : Dom s.ps.knots x) {k : List ℕ} (hk : k.length = s.ps.knots.length)
    (F : List ℕ → K) : ∑ m ∈ range (actNum s), ratBasis s x k (actIx s x m) * F (actIx s x m) = msum (npts s) fun I => ratBasis s x k I * F I := by
  have := msum_active_gen h.knots (fun I => ratBasis s x k I * F I) hx (by
    intro I hI hz
    rw [ratBasis, ratR_zero_of (D := s.ps.knots.length) (fun k hk => by rw [hz k hk, zero_mul]) _ k hk (le_refl _), zero_mul])
  rw [msum_eq_sum_unlin] at this
  exact this

/-- The derivatives of the rational basis functions add up to zero. -/
theorem sum_ratBasis_zero {s : Spl K} (h : WFSpl s) {x : List K} (hx : Dom s.ps.knots x) {j : ℕ} (hj : j < D s) :
    msum (npts s) (ratBasis s x (unitIx (D s) j)) = 0 := by
  have hw := (weightValue_pos h hx).ne'
  have e : msum (npts s) (ratBasis s x (unitIx (D s) j)) =
      (tensorDerivSum s x (unitIx (D s) j) (wgt s) - msum (npts s) (ratFn s x) * tensorDerivSum s x (unitIx (D s) j) (wgt s)) *
        (weightValue s x)⁻¹ := by
    rw [sub_mul, ← msum_mul_right (tensorDerivSum s x (unitIx (D s) j) (wgt s)) _ (ratFn s x), ← msum_mul_right, ]
    conv_rhs => lhs; lhs; unfold tensorDerivSum
    rw [← msum_mul_right, ← msum_sub]
    exact msum_congr fun I _ => by rw [ratBasis_unit s x hj]; ring
  rw [e, sum_ratFn_one h hx, one_mul, sub_self, zero_mul]

end Iga
end SplineLib
