import Verif.Core.IgaAssembly

/-!
# The assembled matrices and vectors of the isogeometric example (helper lemmas)
-/

namespace SplineLib
set_option linter.unusedSectionVars false
open Finset

namespace Iga
variable {K : Type} [Field K] [LinearOrder K] [IsStrictOrderedRing K]
open Elem

/-- The rational basis function of the control point number `a`. -/
def fnAt (s : Spl K) (x : List K) (a : ℕ) : K := ratFn s x (unlin (npts s) a)

theorem npts_pos {s : Spl K} (h : WFSpl s) : ∀ n ∈ npts s, 0 < n := by
  unfold npts
  intro n hn
  have := h.knots
  generalize s.ps.knots = Us at this hn
  generalize s.ps.degree = ps at this hn
  induction this with
  | nil => simp at hn
  | cons a _ ih =>
    rw [List.zipWith_cons_cons] at hn
    rcases List.mem_cons.1 hn with rfl | hn
    · have := a.size; omega
    · exact ih hn

theorem msum_pick {s : Spl K} (F : List ℕ → K) {a : ℕ} (ha : a < (npts s).prod) :
    (msum (npts s) fun I => F I * if a = lin (npts s) I then 1 else 0) = F (unlin (npts s) a) := by
  rw [msum_eq_sum_unlin, Finset.sum_eq_single a]
  · rw [lin_unlin ha, if_pos rfl, mul_one]
  · intro b hb hne
    rw [lin_unlin (Finset.mem_range.1 hb), if_neg (Ne.symm hne), mul_zero]
  · intro h; exact absurd (Finset.mem_range.2 ha) h

/-- Scattering the values of the active functions gives the values of all functions. -/
theorem scatter_fn {s : Spl K} (h : WFSpl s) {x : List K} (hx : Dom s.ps.knots x) {a : ℕ} (ha : a < (npts s).prod) :
    ∑ k ∈ range (actNum s), (if a = lin (npts s) (actIx s x k) then ratFn s x (actIx s x k) else 0) = fnAt s x a := by
  rw [fnAt, ← msum_pick (fun I => ratFn s x I) ha, ← sum_ratFn h hx]
  apply sum_congr rfl
  intro k _
  split <;> simp

/-- A double sum over pairs is a product of sums. -/
theorem sum_pair (n : ℕ) (P Q : ℕ → Prop) [DecidablePred P] [DecidablePred Q] (u v : ℕ → K) (c : K) :
    (∑ j ∈ range n, ∑ k ∈ range n, if P j ∧ Q k then u j * v k * c else 0) =
      (∑ j ∈ range n, if P j then u j else 0) * (∑ k ∈ range n, if Q k then v k else 0) * c := by
  rw [Finset.sum_mul_sum, Finset.sum_mul]
  apply sum_congr rfl
  intro j _
  rw [Finset.sum_mul]
  apply sum_congr rfl
  intro k _
  by_cases h1 : P j <;> by_cases h2 : Q k <;> simp [h1, h2]

variable [HasSqrt K] [LawfulSqrt K]

/-- The quadrature of `g` over the elements: the sum over all elements and all integration points. -/
def quadSum (s : Spl K) (rule : List (K × K)) (g : List K → K) : K :=
  ∑ m ∈ range (elemBox s).prod, ∑ q ∈ range (quadNum s rule), quadFactor s rule (elemIx s m) q * g (quadPoint s rule (elemIx s m) q)

/-- The hypotheses of the statements about the assembly. -/
structure Problem (s : Spl K) (rule : List (K × K)) : Prop where
  wf : WFSpl s
  nurbs : IsNurbs s
  dirs : 0 < D s
  len : ∀ U ∈ s.ps.knots, U.length < 2 ^ 64
  size : (npts s).prod < 2 ^ 64
  rule : GoodRule rule

section
variable {s : Spl K} {rule : List (K × K)} (P : Problem s rule)
include P

theorem quadPoint_in (m q : ℕ) : InElement (elemsOf s.ps.knots) (elemIx s m) (quadPoint s rule (elemIx s m) q) :=
  (toParam_eq P.wf P.len P.rule (elemIx_valid P.wf m) q).2

theorem quadPoint_dom (m q : ℕ) : Dom s.ps.knots (quadPoint s rule (elemIx s m) q) := inElement_dom P.wf.knots (quadPoint_in P m q)

/-- One element of the mass matrix. -/
theorem massElement_eq (m : ℕ) (f : ℕ → ℕ → K) :
    massElement s rule (position (numElements (elemsOf s.ps.knots)) (elemIx s m)) (matOf (npts s).prod f) =
      .ok (matOf (npts s).prod fun a b => f a b + ∑ q ∈ range (quadNum s rule), quadFactor s rule (elemIx s m) q *
        (fnAt s (quadPoint s rule (elemIx s m) q) a * fnAt s (quadPoint s rule (elemIx s m) q) b)) := by
  unfold massElement
  rw [elementPoints_eq P.wf P.nurbs P.len P.rule (elemIx_valid P.wf m)
    (fun q _ => rationalBasis_eq P.wf P.nurbs P.len P.dirs (quadPoint_in P m q)), ok_bind]
  have := foldlM_fun (body := fun A (p : IntPoint K (List K)) =>
      scatter s (position (numElements (elemsOf s.ps.knots)) (elemIx s m)) p.value.length (massEntry p) A)
    (fun q => ⟨(List.range (actNum s)).map fun k => ratFn s (quadPoint s rule (elemIx s m) q) (actIx s (quadPoint s rule (elemIx s m) q) k),
      quadWeight s rule q, volFactor s (quadPoint s rule (elemIx s m) q) * ∏ i : Fin (D s), (halfLens (elemsOf s.ps.knots) (elemIx s m)).getD i 0⟩)
    (fun k => matOf (npts s).prod fun a b => f a b + ∑ q ∈ range k, quadFactor s rule (elemIx s m) q *
        (fnAt s (quadPoint s rule (elemIx s m) q) a * fnAt s (quadPoint s rule (elemIx s m) q) b)) (n := quadNum s rule) (by
    intro q _
    dsimp only
    rw [List.length_map, List.length_range]
    rw [scatter_eq P.wf P.len P.size (quadPoint_in P m q)
      (v := fun j k => ratFn s (quadPoint s rule (elemIx s m) q) (actIx s (quadPoint s rule (elemIx s m) q) j) *
        ratFn s (quadPoint s rule (elemIx s m) q) (actIx s (quadPoint s rule (elemIx s m) q) k) * quadFactor s rule (elemIx s m) q) (by
      intro j hj k hk
      unfold massEntry
      rw [getN_some (a := ratFn s (quadPoint s rule (elemIx s m) q) (actIx s (quadPoint s rule (elemIx s m) q) j)) (by simp [hj]), ok_bind,
        getN_some (a := ratFn s (quadPoint s rule (elemIx s m) q) (actIx s (quadPoint s rule (elemIx s m) q) k)) (by simp [hk]), ok_bind,
        pure_ok]
      unfold quadFactor
      congr 1
      ring)]
    congr 1
    apply matOf_congr
    intro a ha b hb
    rw [sum_pair, scatter_fn P.wf (quadPoint_dom P m q) ha, scatter_fn P.wf (quadPoint_dom P m q) hb, sum_range_succ]
    ring)
  simp only [sum_range_zero, add_zero] at this
  exact this

/-- The mass matrix. -/
theorem massMatrix_eq : massMatrix s rule =
    .ok (matOf (npts s).prod fun a b => quadSum s rule fun x => fnAt s x a * fnAt s x b) := by
  unfold massMatrix
  rw [numCPs_eq P.wf, ok_bind]
  have e0 : List.replicate (((npts s).prod : ℕ) : ℤ).toNat (List.replicate (((npts s).prod : ℕ) : ℤ).toNat (0 : K)) =
      matOf (npts s).prod fun _ _ => 0 := by
    unfold matOf
    rw [Int.toNat_natCast]
    simp
  rw [e0]
  have := overElements_eq P.wf P.len (body := massElement s rule) (fun k => matOf (npts s).prod fun a b => ∑ m ∈ range k,
    ∑ q ∈ range (quadNum s rule), quadFactor s rule (elemIx s m) q *
        (fnAt s (quadPoint s rule (elemIx s m) q) a * fnAt s (quadPoint s rule (elemIx s m) q) b)) (by
    intro m _
    rw [massElement_eq P]
    congr 1
    apply matOf_congr
    intro a _ b _
    rw [sum_range_succ])
  simp only [sum_range_zero] at this
  exact this

/-! ### Right side -/

theorem sourceValue_eq {m q : ℕ} (src : ℕ → K) :
    sourceValue s (position (numElements (elemsOf s.ps.knots)) (elemIx s m)) (vecOf (npts s).prod src)
      ((List.range (actNum s)).map fun k => ratFn s (quadPoint s rule (elemIx s m) q) (actIx s (quadPoint s rule (elemIx s m) q) k)) =
      .ok (∑ b ∈ range (npts s).prod, fnAt s (quadPoint s rule (elemIx s m) q) b * src b) := by
  unfold sourceValue
  set x := quadPoint s rule (elemIx s m) q with hx
  rw [List.length_map, List.length_range, buildList_eq (g := fun j => ratFn s x (actIx s x j) * src (lin (npts s) (actIx s x j))) (by
    intro j hj
    rw [getN_some (a := ratFn s x (actIx s x j)) (by simp [hj]), ok_bind, globalRow_eq P.wf P.len P.size (quadPoint_in P m q) hj, ok_bind,
      getVec_eq (lin_lt (actIx_inBox P.wf (quadPoint_dom P m q) j)), ok_bind, pure_ok]), ok_bind, pure_ok, foldl_sum_range]
  congr 1
  rw [sum_ratFn P.wf (quadPoint_dom P m q) (fun I => src (lin (npts s) I)), msum_eq_sum_unlin]
  apply sum_congr rfl
  intro b hb
  rw [lin_unlin (Finset.mem_range.1 hb)]
  rfl

theorem laplaceVector_eq (m : ℕ) (src f : ℕ → K) :
    laplaceVector s rule (vecOf (npts s).prod src) (position (numElements (elemsOf s.ps.knots)) (elemIx s m)) (vecOf (npts s).prod f) =
      .ok (vecOf (npts s).prod fun a => f a + ∑ q ∈ range (quadNum s rule), quadFactor s rule (elemIx s m) q *
        (fnAt s (quadPoint s rule (elemIx s m) q) a *
          ∑ b ∈ range (npts s).prod, fnAt s (quadPoint s rule (elemIx s m) q) b * src b)) := by
  unfold laplaceVector
  rw [elementPoints_eq P.wf P.nurbs P.len P.rule (elemIx_valid P.wf m)
    (fun q _ => rationalBasis_eq P.wf P.nurbs P.len P.dirs (quadPoint_in P m q)), ok_bind]
  have := foldlM_fun (body := fun b (p : IntPoint K (List K)) => do
      let q ← sourceValue s (position (numElements (elemsOf s.ps.knots)) (elemIx s m)) (vecOf (npts s).prod src) p.value
      Spl.forLoop (fun j b => do
        let v ← getN p.value j
        let g ← globalRow s (position (numElements (elemsOf s.ps.knots)) (elemIx s m)) j
        addVec b g (v * q * p.weight * p.jac)) p.value.length 0 b)
    (fun q => ⟨(List.range (actNum s)).map fun k => ratFn s (quadPoint s rule (elemIx s m) q) (actIx s (quadPoint s rule (elemIx s m) q) k),
      quadWeight s rule q, volFactor s (quadPoint s rule (elemIx s m) q) * ∏ i : Fin (D s), (halfLens (elemsOf s.ps.knots) (elemIx s m)).getD i 0⟩)
    (fun k => vecOf (npts s).prod fun a => f a + ∑ q ∈ range k, quadFactor s rule (elemIx s m) q *
        (fnAt s (quadPoint s rule (elemIx s m) q) a *
          ∑ b ∈ range (npts s).prod, fnAt s (quadPoint s rule (elemIx s m) q) b * src b)) (n := quadNum s rule) (by
    intro q _
    dsimp only
    rw [sourceValue_eq P, ok_bind, List.length_map, List.length_range]
    set x := quadPoint s rule (elemIx s m) q with hx
    set S := ∑ b ∈ range (npts s).prod, fnAt s x b * src b with hS
    have h2 := forLoop_fun (n := actNum s) (body := fun j b => do
        let v ← getN ((List.range (actNum s)).map fun k => ratFn s x (actIx s x k)) j
        let g ← globalRow s (position (numElements (elemsOf s.ps.knots)) (elemIx s m)) j
        addVec b g (v * S * quadWeight s rule q *
          (volFactor s x * ∏ i : Fin (D s), (halfLens (elemsOf s.ps.knots) (elemIx s m)).getD i 0)))
      (fun j => vecOf (npts s).prod fun a => (f a + ∑ q ∈ range q, quadFactor s rule (elemIx s m) q *
        (fnAt s (quadPoint s rule (elemIx s m) q) a *
          ∑ b ∈ range (npts s).prod, fnAt s (quadPoint s rule (elemIx s m) q) b * src b)) +
          (∑ k ∈ range j, if a = lin (npts s) (actIx s x k) then ratFn s x (actIx s x k) else 0) * (S * quadFactor s rule (elemIx s m) q)) (by
      intro j hj
      rw [getN_some (a := ratFn s x (actIx s x j)) (by simp [hj]), ok_bind, globalRow_eq P.wf P.len P.size (quadPoint_in P m q) hj, ok_bind,
        addVec_eq (lin_lt (actIx_inBox P.wf (quadPoint_dom P m q) j))]
      congr 1
      apply vecOf_congr
      intro a _
      rw [sum_range_succ, add_mul]
      unfold quadFactor
      rw [← hx]
      split <;> ring)
    simp only [sum_range_zero, zero_mul, add_zero] at h2
    rw [h2]
    congr 1
    apply vecOf_congr
    intro a ha
    rw [scatter_fn P.wf (quadPoint_dom P m q) ha, sum_range_succ]
    ring)
  simp only [sum_range_zero, add_zero] at this
  exact this

/-- The right side. -/
theorem rightSide_eq (src f : ℕ → K) : rightSide s rule (vecOf (npts s).prod src) (vecOf (npts s).prod f) =
    .ok (vecOf (npts s).prod fun a => f a + quadSum s rule fun x => fnAt s x a * ∑ b ∈ range (npts s).prod, fnAt s x b * src b) := by
  unfold rightSide
  have := overElements_eq P.wf P.len (body := laplaceVector s rule (vecOf (npts s).prod src)) (fun k => vecOf (npts s).prod fun a =>
    f a + ∑ m ∈ range k, ∑ q ∈ range (quadNum s rule), quadFactor s rule (elemIx s m) q *
        (fnAt s (quadPoint s rule (elemIx s m) q) a *
          ∑ b ∈ range (npts s).prod, fnAt s (quadPoint s rule (elemIx s m) q) b * src b)) (by
    intro m _
    rw [laplaceVector_eq P]
    congr 1
    apply vecOf_congr
    intro a _
    rw [sum_range_succ]
    ring)
  simp only [sum_range_zero, add_zero] at this
  exact this

/-! ### Left side -/

omit [LawfulSqrt K] P in
/-- The value the code uses for the derivative with respect to the physical coordinate `i` of the function of control point number `a`. -/
noncomputable def codePhys (s : Spl K) (x : List K) (i : ℕ) (a : ℕ) : K :=
  ∑ m ∈ range (actNum s), if a = lin (npts s) (actIx s x m) then
    ∑ k : Fin (D s), codeEntry s x k m * (if hi : i < D s then (geoMat (D s) s x)⁻¹ k ⟨i, hi⟩ else 0) else 0

variable (hd : D s ≤ s.ph.dim) (hA : D s ≤ actNum s)
  (hJ : ∀ m q, (geoMat (D s) s (quadPoint s rule (elemIx s m) q)).det ≠ 0)
include hd hA hJ

theorem laplaceMatrix_eq (κ : K) (m : ℕ) (f : ℕ → ℕ → K) :
    laplaceMatrix s rule κ (position (numElements (elemsOf s.ps.knots)) (elemIx s m)) (matOf (npts s).prod f) =
      .ok (matOf (npts s).prod fun a b => f a b + ∑ q ∈ range (quadNum s rule), quadFactor s rule (elemIx s m) q *
        (κ * ∑ i ∈ range (D s), codePhys s (quadPoint s rule (elemIx s m) q) i a * codePhys s (quadPoint s rule (elemIx s m) q) i b)) := by
  unfold laplaceMatrix
  rw [elementPoints_eq P.wf P.nurbs P.len P.rule (elemIx_valid P.wf m)
    (fun q _ => physicalDerivs_eq P.wf P.nurbs P.len P.dirs hA (quadPoint_in P m q) hd (hJ m q)), ok_bind]
  have := foldlM_fun (body := fun A (p : IntPoint K (List (List K))) => do
      let r ← getN p.value 0
      scatter s (position (numElements (elemsOf s.ps.knots)) (elemIx s m)) r.length (laplaceEntry s p κ) A)
    (fun q => ⟨(List.range (D s)).map fun i => (List.range (actNum s)).map fun n =>
      ∑ k : Fin (D s), codeEntry s (quadPoint s rule (elemIx s m) q) k n *
        (if hi : i < D s then (geoMat (D s) s (quadPoint s rule (elemIx s m) q))⁻¹ k ⟨i, hi⟩ else 0),
      quadWeight s rule q, volFactor s (quadPoint s rule (elemIx s m) q) * ∏ i : Fin (D s), (halfLens (elemsOf s.ps.knots) (elemIx s m)).getD i 0⟩)
    (fun k => matOf (npts s).prod fun a b => f a b + ∑ q ∈ range k, quadFactor s rule (elemIx s m) q *
        (κ * ∑ i ∈ range (D s), codePhys s (quadPoint s rule (elemIx s m) q) i a * codePhys s (quadPoint s rule (elemIx s m) q) i b))
    (n := quadNum s rule) (by
    intro q _
    dsimp only
    set x := quadPoint s rule (elemIx s m) q with hx
    set V : ℕ → ℕ → K := fun i n => ∑ k : Fin (D s), codeEntry s x k n * (if hi : i < D s then (geoMat (D s) s x)⁻¹ k ⟨i, hi⟩ else 0) with hV
    rw [getN_some (a := (List.range (actNum s)).map fun n => V 0 n) (by simp [P.dirs, hV]), ok_bind, List.length_map, List.length_range]
    rw [scatter_eq P.wf P.len P.size (quadPoint_in P m q)
      (v := fun j k => (∑ i ∈ range (D s), V i j * V i k) * (κ * quadFactor s rule (elemIx s m) q)) (by
      intro j hj k hk
      unfold laplaceEntry
      dsimp only
      rw [buildList_eq (g := fun i => V i j * V i k) (by
        intro i hi
        rw [getN_some (a := (List.range (actNum s)).map fun n => V i n) (by simp [hi, hV]), ok_bind,
          getN_some (a := V i j) (by simp [hj]), ok_bind, getN_some (a := V i k) (by simp [hk]), ok_bind, pure_ok]), ok_bind, pure_ok,
        foldl_sum_range]
      unfold quadFactor
      rw [← hx]
      congr 1
      ring)]
    congr 1
    apply matOf_congr
    intro a ha b hb
    rw [sum_range_succ, ← hx]
    have e : ∀ i, codePhys s x i a * codePhys s x i b = ∑ j ∈ range (actNum s), ∑ k ∈ range (actNum s),
        if a = lin (npts s) (actIx s x j) ∧ b = lin (npts s) (actIx s x k) then V i j * V i k * 1 else 0 := by
      intro i
      rw [sum_pair, mul_one]
      rfl
    simp only [e, Finset.mul_sum, mul_one]
    have swap : ∀ F : ℕ → ℕ → ℕ → K, ∑ i ∈ range (D s), ∑ j ∈ range (actNum s), ∑ k ∈ range (actNum s), F i j k =
        ∑ j ∈ range (actNum s), ∑ k ∈ range (actNum s), ∑ i ∈ range (D s), F i j k := by
      intro F
      rw [Finset.sum_comm]
      apply sum_congr rfl
      intro j _
      rw [Finset.sum_comm]
    rw [swap, ← add_assoc]
    congr 1
    apply sum_congr rfl
    intro j _
    apply sum_congr rfl
    intro k _
    split
    · rw [Finset.sum_mul]
      apply sum_congr rfl
      intro i _
      ring
    · simp)
  simp only [sum_range_zero, add_zero] at this
  exact this

/-- The left side. -/
theorem leftSide_eq (κ : K) (f : ℕ → ℕ → K) : leftSide s rule κ (matOf (npts s).prod f) =
    .ok (matOf (npts s).prod fun a b => f a b + quadSum s rule fun x => κ * ∑ i ∈ range (D s), codePhys s x i a * codePhys s x i b) := by
  unfold leftSide
  have := overElements_eq P.wf P.len (body := laplaceMatrix s rule κ) (fun k => matOf (npts s).prod fun a b =>
    f a b + ∑ m ∈ range k, ∑ q ∈ range (quadNum s rule), quadFactor s rule (elemIx s m) q *
        (κ * ∑ i ∈ range (D s), codePhys s (quadPoint s rule (elemIx s m) q) i a * codePhys s (quadPoint s rule (elemIx s m) q) i b)) (by
    intro m _
    rw [laplaceMatrix_eq P hd hA hJ]
    congr 1
    apply matOf_congr
    intro a _ b _
    rw [sum_range_succ]
    ring)
  simp only [sum_range_zero, add_zero] at this
  exact this

end

omit [LawfulSqrt K] in
/-- With unit weights the code uses the derivatives with respect to the physical coordinates. -/
theorem codePhys_unit {s : Spl K} (h : WFSpl s) (hu : UnitWeights s) {x : List K} (hx : Dom s.ps.knots x) (i : Fin (D s)) {a : ℕ}
    (ha : a < (npts s).prod) : codePhys s x i a = physDeriv s x i (unlin (npts s) a) := by
  unfold codePhys physDeriv
  have e : ∀ k : Fin (D s), ratBasis s x (unitIx (D s) k) (unlin (npts s) a) = ∑ m ∈ range (actNum s),
      ratBasis s x (unitIx (D s) k) (actIx s x m) * if a = lin (npts s) (actIx s x m) then 1 else 0 := by
    intro k
    rw [sum_ratBasis h hx (unitIx_length _ _) (fun I => if a = lin (npts s) I then 1 else 0), msum_pick _ ha]
  simp only [e, Finset.sum_mul]
  rw [Finset.sum_comm]
  apply sum_congr rfl
  intro m _
  by_cases hm : a = lin (npts s) (actIx s x m)
  · rw [if_pos hm]
    apply sum_congr rfl
    intro k _
    rw [codeEntry_unit h hu hx k.2, dif_pos i.2, if_pos hm, mul_one]
  · simp only [if_neg hm, mul_zero, zero_mul, sum_const_zero]

end Iga
end SplineLib
