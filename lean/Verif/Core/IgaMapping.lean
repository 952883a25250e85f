import Verif.Core.IgaDeriv
import Verif.Core.Sqrt
import Verif.Core.InsertOne
import Mathlib.LinearAlgebra.Matrix.NonsingularInverse

/-!
# The mapping of the isogeometric example (helper lemmas)
-/

namespace SplineLib
set_option linter.unusedSectionVars false
open Finset

namespace Iga
variable {K : Type} [Field K] [LinearOrder K] [IsStrictOrderedRing K]
open Elem

/-- The derivative of coordinate `c` of the geometry in direction `j`. -/
def geoDeriv (s : Spl K) (x : List K) (c j : ℕ) : K := msum (npts s) fun I => ratBasis s x (unitIx (D s) j) I * cpt s I c

/-- The Jacobian matrix of the geometry, the first `n` coordinates. -/
def geoMat (n : ℕ) (s : Spl K) (x : List K) : Matrix (Fin n) (Fin (D s)) K := fun c j => geoDeriv s x c j

theorem zl_unitIx (n j : ℕ) : zl (unitIx n j) = (List.replicate n (0 : ℤ)).set j 1 := by
  unfold unitIx zl
  rw [List.map_set]
  simp

theorem dxDxi_eq {s : Spl K} (h : WFSpl s) (hn : IsNurbs s) {x : List K} (hx : Dom s.ps.knots x) :
    dxDxi s x = .ok ((List.range s.ph.dim).map fun c => (List.range (D s)).map fun j => geoDeriv s x c j) := by
  unfold dxDxi
  apply buildList_eq
  intro c hc
  apply buildList_eq
  intro j hj
  have := evaluateDerivative_nurbs h hn hx [c] (by simpa using hc) (unitIx_length (D s) j)
  rw [zl_unitIx] at this
  rw [show [(c : ℤ)] = zl [c] from rfl, this, ok_bind]
  rfl

theorem toMat_range (n m : ℕ) {N : ℕ} (hN : n ≤ N) (f : ℕ → ℕ → K) :
    toMat n m ((List.range N).map fun i => (List.range m).map fun j => f i j) = fun (i : Fin n) (j : Fin m) => f i j := by
  funext i j
  unfold toMat
  have hi := i.2
  have hj := j.2
  simp [List.getD_eq_getElem?_getD, show (i : ℕ) < N by omega]

/-- Half the side lengths of an element. -/
def halfLens : List (List (K × K)) → List ℤ → List K
  | E :: Es, e :: es => ((E.getD e.toNat (0, 0)).2 - (E.getD e.toNat (0, 0)).1) / 2 :: halfLens Es es
  | _, _ => []

theorem element_span_eq {U : List K} {p : ℕ} (h : WFKnots U p) {n : ℕ} {ab : K × K} {x : K} (hn : ((uniq U).zip (uniq U).tail)[n]? = some ab)
    (h1 : ab.1 ≤ x) (h2 : x < ab.2) : kvSpan U x = .ok (spanIx U x : ℤ) ∧ spanIx U x + 1 < U.length ∧
      knot U (spanIx U x) = ab.1 ∧ knot U (spanIx U x + 1) = ab.2 := by
  obtain ⟨hn', rfl⟩ := List.getElem?_eq_some_iff.1 hn
  rw [List.getElem_zip, List.getElem_tail] at h1 h2
  rw [zip_tail_length] at hn'
  obtain ⟨k, hk, hk1, hk2⟩ := element_span h.sorted (e := n) (by omega)
  have hin : InSpan U k x := Or.inl ⟨by rw [hk1]; exact h1, by rw [hk2]; exact h2⟩
  have h0 : knot U 0 ≤ x := le_trans (h.sorted.first_le (by omega : k < U.length)) (by rw [hk1]; exact h1)
  have h1 : x ≤ lastKnot U := le_trans (by rw [hk2]; exact h2.le) (h.sorted.le_last hk)
  obtain ⟨s1, s2, s3, s4⟩ := h.span h0 h1
  have hsk : spanIx U x = k := InSpan.unique h.sorted (by omega) hk s2 hin
  rw [List.getElem_zip, List.getElem_tail]
  exact ⟨s1, by omega, by rw [hsk]; exact hk1, by rw [hsk]; exact hk2⟩

theorem inElement_getElem? : ∀ {els : List (List (K × K))} {e : List ℤ} {x : List K} {d : ℕ} {E : List (K × K)}, InElement els e x →
    els[d]? = some E → ∃ n : ℕ, ∃ ab : K × K, ∃ a : K, e[d]? = some (n : ℤ) ∧ x[d]? = some a ∧ E[n]? = some ab ∧ ab.1 ≤ a ∧ a < ab.2 ∧
      (halfLens els e)[d]? = some ((ab.2 - ab.1) / 2)
  | [], _, _, _, _, _, h => by simp at h
  | _ :: _, [], [], _, _, h, _ => by cases h
  | _ :: _, [], _ :: _, _, _, h, _ => by cases h
  | _ :: _, _ :: _, [], _, _, h, _ => by cases h
  | E :: Es, e :: es, x :: xs, 0, E', h, hE => by
    obtain ⟨⟨n, ab, rfl, hn, h1, h2⟩, _⟩ := h
    simp only [List.getElem?_cons_zero, Option.some.injEq] at hE
    subst hE
    refine ⟨n, ab, x, rfl, rfl, hn, h1, h2, ?_⟩
    simp only [halfLens, List.getElem?_cons_zero, Int.toNat_natCast, List.getD_eq_getElem?_getD, hn, Option.getD_some]
  | E :: Es, e :: es, x :: xs, d + 1, E', h, hE => by
    obtain ⟨_, h2⟩ := h
    simp only [List.getElem?_cons_succ] at hE
    obtain ⟨n, ab, a, h3⟩ := inElement_getElem? h2 hE
    exact ⟨n, ab, a, by simpa [halfLens] using h3⟩

theorem dxiDxitilde_eq {s : Spl K} (h : WFSpl s) (hl : ∀ U ∈ s.ps.knots, U.length < 2 ^ 64) {e : List ℤ} {x : List K}
    (hx : InElement (elemsOf s.ps.knots) e x) :
    dxiDxitilde s x = .ok ((List.range (D s)).map fun i => (List.range (D s)).map fun j =>
      if i = j then (halfLens (elemsOf s.ps.knots) e).getD i 0 else 0) := by
  unfold dxiDxitilde
  apply buildList_eq
  intro i hi
  have hU : s.ps.knots[i]? = some s.ps.knots[i] := List.getElem?_eq_getElem hi
  have hd' : i < s.ps.degree.length := by rw [← List.Forall₂.length_eq h.knots]; exact hi
  have hwf := forall₂_getElem? h.knots hU (List.getElem?_eq_getElem hd')
  obtain ⟨n, ab, a, h1, h2, h3, h4, h5, h6⟩ := inElement_getElem? hx (d := i)
    (E := (uniq s.ps.knots[i]).zip (uniq s.ps.knots[i]).tail) (by unfold elemsOf; rw [List.getElem?_map, hU]; rfl)
  obtain ⟨k1, k2, k3, k4⟩ := element_span_eq hwf h3 h4 h5
  have hsz := hl _ (List.getElem_mem hi)
  rw [getN_some hU, ok_bind, getN_some h2, ok_bind, k1, ok_bind, toSizeT_nat (by omega), kvGet_eq (by omega), ok_bind,
    kvGet_eq (by omega), ok_bind, pure_ok, k3, k4]
  congr 1
  apply List.ext_getElem
  · simp
  · intro j hj1 hj2
    rw [List.getElem_set]
    simp only [List.getElem_replicate, List.getElem_map, List.getElem_range]
    rw [List.getD_eq_getElem?_getD, h6, Option.getD_some]

theorem halfLens_pos {Us : List (List K)} {e : List ℤ} {x : List K}
    (hx : InElement (elemsOf Us) e x) {i : ℕ} (hi : i < Us.length) : 0 < (halfLens (elemsOf Us) e).getD i 0 := by
  have hU : Us[i]? = some Us[i] := List.getElem?_eq_getElem hi
  obtain ⟨n, ab, a, h1, h2, h3, h4, h5, h6⟩ := inElement_getElem? hx (d := i)
    (E := (uniq Us[i]).zip (uniq Us[i]).tail) (by unfold elemsOf; rw [List.getElem?_map, hU]; rfl)
  rw [List.getD_eq_getElem?_getD, h6, Option.getD_some]
  have := lt_of_le_of_lt h4 h5
  linarith

theorem dxiDx_eq {s : Spl K} (h : WFSpl s) (hn : IsNurbs s) {x : List K} (hx : Dom s.ps.knots x) (hd : D s ≤ s.ph.dim)
    (hJ : (geoMat (D s) s x).det ≠ 0) : dxiDx s x = .ok (geoMat (D s) s x)⁻¹ := by
  unfold dxiDx
  rw [dxDxi_eq h hn hx, ok_bind, if_neg (by omega), toMat_range _ _ hd]
  dsimp only
  have e : (fun (i j : Fin (D s)) => geoDeriv s x i j) = geoMat (D s) s x := rfl
  rw [e, if_neg hJ, pure_ok, Matrix.inv_def, Ring.inverse_eq_inv']

/-- The square root of a product with a square. -/
theorem sqrt_mul_sq [HasSqrt K] [LawfulSqrt K] {a b : K} (ha : 0 ≤ a) (hb : 0 ≤ b) :
    HasSqrt.sqrt (a * b ^ 2) = HasSqrt.sqrt a * b := by
  have h1 := LawfulSqrt.nonneg a ha
  have h2 := LawfulSqrt.sq a ha
  have hab : 0 ≤ a * b ^ 2 := mul_nonneg ha (sq_nonneg b)
  have h3 := LawfulSqrt.nonneg _ hab
  have h4 := LawfulSqrt.sq _ hab
  refine (mul_self_inj h3 (mul_nonneg h1 hb)).1 ?_
  rw [h4]
  linear_combination (-(b ^ 2)) * h2

theorem sqrt_pos_of [HasSqrt K] [LawfulSqrt K] {a : K} (ha : 0 < a) : 0 < HasSqrt.sqrt a := by
  refine lt_of_le_of_ne (LawfulSqrt.nonneg a ha.le) fun e => ?_
  have := LawfulSqrt.sq a ha.le
  rw [← e, zero_mul] at this
  exact ha.ne this

/-- The volume factor of the geometry: the square root of the Gram determinant. -/
def volFactor [HasSqrt K] (s : Spl K) (x : List K) : K :=
  HasSqrt.sqrt |((geoMat s.ph.dim s x).transpose * geoMat s.ph.dim s x).det|

theorem jacobian_eq [HasSqrt K] [LawfulSqrt K] {s : Spl K} (h : WFSpl s) (hn : IsNurbs s) (hl : ∀ U ∈ s.ps.knots, U.length < 2 ^ 64)
    {e : List ℤ} {x : List K} (hx : InElement (elemsOf s.ps.knots) e x) :
    jacobian s x = .ok (volFactor s x * ∏ i : Fin (D s), (halfLens (elemsOf s.ps.knots) e).getD i 0) := by
  have hd := inElement_dom h.knots hx
  unfold jacobian
  rw [dxDxi_eq h hn hd, ok_bind, dxiDxitilde_eq h hl hx, ok_bind, toMat_range _ _ (le_refl _), toMat_range _ _ (le_refl _), pure_ok]
  have e1 : (fun (i : Fin s.ph.dim) (j : Fin (D s)) => geoDeriv s x i j) = geoMat s.ph.dim s x := rfl
  have e2 : (fun (i j : Fin (D s)) => if (i : ℕ) = (j : ℕ) then (halfLens (elemsOf s.ps.knots) e).getD (i : ℕ) 0 else 0) =
      Matrix.diagonal fun i : Fin (D s) => (halfLens (elemsOf s.ps.knots) e).getD (i : ℕ) 0 := by
    funext i j
    unfold Matrix.diagonal
    simp only [Matrix.of_apply, Fin.ext_iff]
  rw [e1, e2]
  congr 1
  rw [Matrix.transpose_mul, Matrix.mul_assoc, ← Matrix.mul_assoc _ (geoMat s.ph.dim s x), Matrix.det_mul, Matrix.det_mul,
    Matrix.det_transpose, Matrix.det_diagonal]
  have hp : 0 ≤ ∏ i : Fin (D s), (halfLens (elemsOf s.ps.knots) e).getD (i : ℕ) 0 :=
    Finset.prod_nonneg fun i _ => (halfLens_pos hx i.2).le
  rw [abs_mul, abs_mul, abs_of_nonneg hp]
  unfold volFactor
  rw [← sqrt_mul_sq (abs_nonneg _) hp]
  congr 1
  ring

/-- For as many coordinates as directions the volume factor is the absolute value of the determinant. -/
theorem volFactor_square [HasSqrt K] [LawfulSqrt K] (s : Spl K) (x : List K) (hd : s.ph.dim = D s) :
    volFactor s x = |(geoMat (D s) s x).det| := by
  unfold volFactor
  rw [hd, Matrix.det_mul, Matrix.det_transpose, abs_mul]
  have := sqrt_mul_sq (K := K) zero_le_one (abs_nonneg (geoMat (D s) s x).det)
  rw [one_mul] at this
  rw [← pow_two, this]
  have h1 : HasSqrt.sqrt (1 : K) = 1 := by
    have a := LawfulSqrt.nonneg (1 : K) zero_le_one
    have b := LawfulSqrt.sq (1 : K) zero_le_one
    rcases mul_self_eq_one_iff.1 b with e | e
    · exact e
    · rw [e] at a; linarith
  rw [h1, one_mul]

/-! ### Derivatives with respect to the physical coordinates -/

/-- The entry of the parametric derivatives. -/
def codeEntry (s : Spl K) (x : List K) (j m : ℕ) : K := if m < D s then codeDeriv s x j m else actTerm s x (unitIx (D s) j) m

theorem foldl_sum_range (n : ℕ) (f : ℕ → K) : ((List.range n).map f).foldl (· + ·) 0 = ∑ i ∈ range n, f i := by
  rw [← List.sum_eq_foldl, list_sum_map_range]

theorem physicalDerivs_eq {s : Spl K} (h : WFSpl s) (hn : IsNurbs s) (hl : ∀ U ∈ s.ps.knots, U.length < 2 ^ 64) (hD : 0 < D s)
    (hA : D s ≤ actNum s) {e : List ℤ} {x : List K} (hx : InElement (elemsOf s.ps.knots) e x) (hd : D s ≤ s.ph.dim)
    (hJ : (geoMat (D s) s x).det ≠ 0) :
    physicalDerivs s x = .ok ((List.range (D s)).map fun i => (List.range (actNum s)).map fun m =>
      ∑ k : Fin (D s), codeEntry s x k m * (if hi : i < D s then (geoMat (D s) s x)⁻¹ k ⟨i, hi⟩ else 0)) := by
  unfold physicalDerivs
  rw [rationalDerivs_eq h hn hl hD hA hx, ok_bind, dxiDx_eq h hn (inElement_dom h.knots hx) hd hJ, ok_bind]
  apply buildList_eq
  intro i hi
  rw [getN_some (a := (List.range (actNum s)).map fun m => codeEntry s x i m) (by simp [hi, codeEntry]), ok_bind]
  rw [List.length_map, List.length_range]
  apply buildList_eq
  intro m hm
  rw [buildList_eq (g := fun k => codeEntry s x k m *
    (if h : k < D s ∧ i < D s then (geoMat (D s) s x)⁻¹ ⟨k, h.1⟩ ⟨i, h.2⟩ else 0)) (by
    intro k hk
    rw [getN_some (a := (List.range (actNum s)).map fun m => codeEntry s x k m) (by simp [hk, codeEntry]), ok_bind,
      getN_some (a := codeEntry s x k m) (by simp [hm]), ok_bind, pure_ok]), ok_bind, pure_ok, foldl_sum_range, Finset.sum_range]
  congr 1
  apply sum_congr rfl
  intro k _
  rw [dif_pos ⟨k.2, hi⟩, dif_pos hi]

/-- The derivative of the rational basis function `I` with respect to the physical coordinate `i`. -/
noncomputable def physDeriv (s : Spl K) (x : List K) (i : Fin (D s)) (I : List ℕ) : K :=
  ∑ k : Fin (D s), ratBasis s x (unitIx (D s) k) I * (geoMat (D s) s x)⁻¹ k i

theorem codeEntry_unit {s : Spl K} (h : WFSpl s) (hu : UnitWeights s) {x : List K} (hx : Dom s.ps.knots x) {j : ℕ} (hj : j < D s) (m : ℕ) :
    codeEntry s x j m = ratBasis s x (unitIx (D s) j) (actIx s x m) := by
  rw [ratBasis_unit s x hj]
  unfold codeEntry codeDeriv actTerm
  rw [weightValue_unit h hu hx, weightDeriv_unit h hu hx hj]
  split <;> simp

theorem msum_sum {ι : Type*} (t : Finset ι) (ns : List ℕ) (f : ι → List ℕ → K) :
    msum ns (fun I => ∑ k ∈ t, f k I) = ∑ k ∈ t, msum ns (f k) := msum_sum_comm t ns f

/-- The physical derivatives of all functions add up to zero. -/
theorem sum_physDeriv {s : Spl K} (h : WFSpl s) {x : List K} (hx : Dom s.ps.knots x) (i : Fin (D s)) :
    msum (npts s) (physDeriv s x i) = 0 := by
  unfold physDeriv
  rw [msum_sum]
  apply sum_eq_zero
  intro k _
  rw [msum_mul_right, sum_ratBasis_zero h hx k.2, zero_mul]

/-- The physical derivatives reproduce the coordinates. -/
theorem sum_physDeriv_coord {s : Spl K} {x : List K} (hJ : (geoMat (D s) s x).det ≠ 0) (i c : Fin (D s)) :
    (msum (npts s) fun I => physDeriv s x i I * cpt s I c) = if c = i then 1 else 0 := by
  have e : (msum (npts s) fun I => physDeriv s x i I * cpt s I c) = (geoMat (D s) s x * (geoMat (D s) s x)⁻¹) c i := by
    rw [Matrix.mul_apply]
    unfold physDeriv
    have : ∀ I, (∑ k : Fin (D s), ratBasis s x (unitIx (D s) k) I * (geoMat (D s) s x)⁻¹ k i) * cpt s I c =
        ∑ k : Fin (D s), ratBasis s x (unitIx (D s) k) I * cpt s I c * (geoMat (D s) s x)⁻¹ k i := by
      intro I
      rw [Finset.sum_mul]
      apply sum_congr rfl
      intro k _
      ring
    simp only [this]
    rw [msum_sum]
    apply sum_congr rfl
    intro k _
    rw [msum_mul_right]
    rfl
  rw [e, Matrix.mul_nonsing_inv _ (isUnit_iff_ne_zero.2 hJ), Matrix.one_apply]

end Iga
end SplineLib
