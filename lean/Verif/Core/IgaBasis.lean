import Verif.Model.Iga
import Verif.Core.RatDeriv
import Verif.Core.EvalProps
import Verif.Core.Elements
import Verif.Props.Elements

/-!
# Rational basis functions and their derivatives in the isogeometric example (helper lemmas)
-/

namespace SplineLib
set_option linter.unusedSectionVars false
open Finset

namespace Iga
variable {K : Type} [Field K] [LinearOrder K] [IsStrictOrderedRing K]
open Elem

/-! ### Coordinates in an element -/

theorem inElement_valid : ∀ {els : List (List (K × K))} {e : List ℤ} {x : List K}, InElement els e x → ValidIx (numElements els) e
  | [], [], [], _ => .nil
  | [], [], _ :: _, h => by cases h
  | [], _ :: _, [], h => by cases h
  | [], _ :: _, _ :: _, h => by cases h
  | _ :: _, [], [], h => by cases h
  | _ :: _, [], _ :: _, h => by cases h
  | _ :: _, _ :: _, [], h => by cases h
  | E :: Es, e :: es, x :: xs, h => by
    obtain ⟨⟨n, ab, rfl, hn, _, _⟩, h2⟩ := h
    obtain ⟨hn', _⟩ := List.getElem?_eq_some_iff.1 hn
    refine .cons ⟨by omega, ?_⟩ (inElement_valid h2)
    dsimp only
    exact_mod_cast hn'

theorem inElement_dom {Us : List (List K)} {ps : List ℕ} (h : List.Forall₂ WFKnots Us ps) : ∀ {e : List ℤ} {x : List K},
    InElement (elemsOf Us) e x → Dom Us x := by
  induction h with
  | nil =>
    intro e x hx
    cases e <;> cases x <;> simp [elemsOf, InElement] at hx
    exact .nil
  | @cons U p Us ps h _ ih =>
    intro e x hx
    cases e with
    | nil => cases x <;> simp [elemsOf, InElement] at hx
    | cons e es =>
      cases x with
      | nil => simp [elemsOf, InElement] at hx
      | cons x xs =>
        obtain ⟨⟨n, ab, rfl, hn, hx1, hx2⟩, hxs⟩ := hx
        obtain ⟨hn', rfl⟩ := List.getElem?_eq_some_iff.1 hn
        rw [List.getElem_zip, List.getElem_tail] at hx1 hx2
        rw [zip_tail_length] at hn'
        obtain ⟨k, hk, hk1, hk2⟩ := element_span h.sorted (e := n) (by omega)
        refine .cons ⟨?_, ?_⟩ (ih hxs)
        · exact le_trans (h.sorted.first_le (by omega : k < U.length)) (by rw [hk1]; exact hx1)
        · exact le_trans (by rw [hk2]; exact hx2.le) (h.sorted.le_last hk)

/-! ### Rows -/

/-- The derivatives of order `k` of the active basis functions of one direction. -/
def rowOf (U : List K) (p : ℕ) (x : K) (k : ℕ) : List K :=
  (List.range (p + 1)).map fun j => coxDeBoorDeriv U p k (j + (spanIx U x - p)) x

/-- The rows of all directions. -/
def rowsOf : List (List K) → List ℕ → List K → List ℕ → List (List K)
  | U :: Us, p :: ps, x :: xs, k :: ks => rowOf U p x k :: rowsOf Us ps xs ks
  | _, _, _, _ => []

theorem rowOf_length (U : List K) (p : ℕ) (x : K) (k : ℕ) : (rowOf U p x k).length = p + 1 := by simp [rowOf]

theorem rowProd_eq {Us : List (List K)} {ps : List ℕ} (h : List.Forall₂ WFKnots Us ps) :
    ∀ {xs : List K} {J ks : List ℕ} (t : K), Dom Us xs → InBox (actBox ps) J → ks.length = Us.length →
      rowProd (rowsOf Us ps xs ks) (zl J) t =
        .ok (t * dprod (basisDerivFns Us ps xs ks) (List.zipWith (· + ·) J (offs Us ps xs))) := by
  induction h with
  | nil => intro xs J ks t hx hJ hk; cases hx; simp [offs, basisDerivFns, dprod, rowsOf, rowProd]
  | @cons U p Us ps h _ ih =>
    intro xs J ks t hx hJ hk
    cases hx with
    | @cons _ a _ as hx hxs =>
      cases J with
      | nil => simp at hJ
      | cons j J =>
        cases ks with
        | nil => simp at hk
        | cons k ks =>
          simp only [actBox, List.map_cons, inBox_cons] at hJ
          have h1 : getI (rowOf U p a k) (j : ℤ) = .ok (coxDeBoorDeriv U p k (j + (spanIx U a - p)) a) := by
            rw [getI_nat]
            apply getN_some
            simp [rowOf, hJ.1]
          simp only [rowsOf, List.map_cons, rowProd, h1, ok_bind, offs, List.zipWith_cons_cons, basisDerivFns, dprod]
          rw [ih _ hxs hJ.2 (by simpa using hk), mul_assoc]

theorem rowsOf_getElem? : ∀ {Us : List (List K)} {ps : List ℕ} {xs : List K} {ks : List ℕ} {d : ℕ} {U : List K} {p : ℕ} {x : K} {k : ℕ},
    Us[d]? = some U → ps[d]? = some p → xs[d]? = some x → ks[d]? = some k → (rowsOf Us ps xs ks)[d]? = some (rowOf U p x k)
  | U :: Us, p :: ps, x :: xs, k :: ks, 0, _, _, _, _, h1, h2, h3, h4 => by
    simp only [List.getElem?_cons_zero, Option.some.injEq] at h1 h2 h3 h4
    subst h1; subst h2; subst h3; subst h4
    rfl
  | U :: Us, p :: ps, x :: xs, k :: ks, d + 1, _, _, _, _, h1, h2, h3, h4 => by
    simp only [List.getElem?_cons_succ] at h1 h2 h3 h4
    simp only [rowsOf, List.getElem?_cons_succ]
    exact rowsOf_getElem? h1 h2 h3 h4
  | [], _, _, _, _, _, _, _, _, h1, _, _, _ => by simp at h1
  | _ :: _, [], _, _, _, _, _, _, _, _, h2, _, _ => by simp at h2
  | _ :: _, _ :: _, [], _, _, _, _, _, _, _, _, h3, _ => by simp at h3
  | _ :: _, _ :: _, _ :: _, [], _, _, _, _, _, _, _, _, h4 => by simp at h4

theorem rowsOf_length {Us : List (List K)} {ps : List ℕ} (h : List.Forall₂ WFKnots Us ps) : ∀ {xs : List K} {ks : List ℕ}, Dom Us xs →
    ks.length = Us.length → (rowsOf Us ps xs ks).length = Us.length := by
  induction h with
  | nil => intro xs ks _ _; simp [rowsOf]
  | cons h _ ih =>
    intro xs ks hx hk
    cases hx with
    | cons _ hxs =>
      cases ks with
      | nil => simp at hk
      | cons k ks => simp [rowsOf, ih hxs (by simpa using hk)]

theorem rowsOf_sizes {Us : List (List K)} {ps : List ℕ} (h : List.Forall₂ WFKnots Us ps) : ∀ {xs : List K} {ks : List ℕ}, Dom Us xs →
    ks.length = Us.length → (rowsOf Us ps xs ks).map (fun r => (r.length : ℤ)) = zl (actBox ps) := by
  induction h with
  | nil => intro xs ks _ _; simp [rowsOf]
  | cons h _ ih =>
    intro xs ks hx hk
    cases hx with
    | cons _ hxs =>
      cases ks with
      | nil => simp at hk
      | cons k ks =>
        have := ih hxs (ks := ks) (by simpa using hk)
        simp only [rowsOf, List.map_cons, this, rowOf_length]

theorem rowsOf_set {Us : List (List K)} {ps : List ℕ} {xs : List K} {ks ks' : List ℕ} {i k : ℕ} (h : ks'[i]? = some k) :
    ∀ {r : List K}, (rowsOf Us ps xs ks')[i]? = some r → (rowsOf Us ps xs ks).set i r = rowsOf Us ps xs (ks.set i k) := by
  induction Us generalizing ps xs ks ks' i with
  | nil => intro r hr; simp [rowsOf] at hr
  | cons U Us ih =>
    intro r hr
    cases ps with
    | nil => simp [rowsOf] at hr
    | cons p ps =>
      cases xs with
      | nil => simp [rowsOf] at hr
      | cons x xs =>
        cases ks' with
        | nil => simp at h
        | cons k' ks' =>
          cases ks with
          | nil => simp [rowsOf]
          | cons k0 ks =>
            cases i with
            | zero =>
              simp only [List.getElem?_cons_zero, Option.some.injEq] at h
              simp only [rowsOf, List.getElem?_cons_zero, Option.some.injEq] at hr
              subst h; subst hr
              simp [rowsOf]
            | succ i =>
              simp only [List.getElem?_cons_succ] at h
              simp only [rowsOf, List.getElem?_cons_succ] at hr
              simp only [rowsOf, List.set_cons_succ, ih h hr]

theorem buildList_list {α : Type} {f : ℕ → M α} {l : List α} (h : ∀ i a, l[i]? = some a → f i = .ok a) : buildList f l.length = .ok l := by
  have : ∀ i < l.length, ∃ a, l[i]? = some a := fun i hi => ⟨l[i], by simp [hi]⟩
  cases l with
  | nil => rfl
  | cons b r =>
    rw [buildList_eq (g := fun i => (b :: r).getD i b)]
    · congr 1
      apply List.ext_getElem
      · simp
      · intro i h1 h2
        simp only [List.getElem_map, List.getElem_range]
        rw [List.getD_eq_getElem?_getD, List.getElem?_eq_getElem h2]
        rfl
    · intro i hi
      obtain ⟨a, ha⟩ := this i hi
      rw [h i a ha, List.getD_eq_getElem?_getD, ha]
      rfl

theorem evalAllNonZeroDerivs_eq {ps : PS K} (h : WFPS ps) {d : ℕ} {U : List K} {p : ℕ} (hU : ps.knots[d]? = some U)
    (hp : ps.degree[d]? = some p) {x : K} (h0 : knot U 0 ≤ x) (h1 : x ≤ lastKnot U) (k : ℕ) :
    ps.evalAllNonZeroDerivs d x (k : ℤ) = .ok (rowOf U p x k) := by
  have hw := forall₂_getElem? h.knots hU hp
  obtain ⟨e1, h2, h3, h4⟩ := hw.span h0 h1
  have hrow := mkTable_getElem? hU hp
  rw [← h.table] at hrow
  simp only [PS.evalAllNonZeroDerivs, getN_some hrow, getN_some hU, getN_some hp, ok_bind, e1]
  apply buildList_eq
  intro i hi
  rw [show ((spanIx U x : ℤ) - (p : ℤ) + (i : ℤ)) = ((i + (spanIx U x - p) : ℕ) : ℤ) by omega]
  rw [getI_row (by omega)]
  simp only [ok_bind, pure_ok]
  congr 1
  apply mkBasis_evalDeriv hw.sorted hw.sep x p k _ (by omega)
  intro hp0; left
  rw [show i + (spanIx U x - p) = spanIx U x by omega]
  exact inSpan_lt h2

theorem dom_getElem? {Us : List (List K)} {xs : List K} (h : Dom Us xs) {d : ℕ} {U : List K} (hU : Us[d]? = some U) :
    ∃ x, xs[d]? = some x ∧ knot U 0 ≤ x ∧ x ≤ lastKnot U := by
  have hd : d < xs.length := by
    rw [← List.Forall₂.length_eq h]
    exact (List.getElem?_eq_some_iff.1 hU).1
  refine ⟨xs[d], by simp [hd], ?_⟩
  exact forall₂_getElem? h hU (by simp [hd])

theorem basisRows_eq {s : Spl K} (h : WFSpl s) {x : List K} (hx : Dom s.ps.knots x) :
    basisRows s x = .ok (rowsOf s.ps.knots s.ps.degree x (List.replicate (D s) 0)) := by
  unfold basisRows
  have hlen := rowsOf_length h.knots hx (ks := List.replicate (D s) 0) (by simp)
  conv_lhs => rw [show D s = (rowsOf s.ps.knots s.ps.degree x (List.replicate (D s) 0)).length from hlen.symm]
  apply buildList_list
  intro d r hr
  have hd : d < D s := by
    have := (List.getElem?_eq_some_iff.1 hr).1
    rw [hlen] at this
    exact this
  obtain ⟨U, hU⟩ : ∃ U, s.ps.knots[d]? = some U := ⟨_, List.getElem?_eq_getElem hd⟩
  have hd' : d < s.ps.degree.length := by rw [← List.Forall₂.length_eq h.knots]; exact hd
  obtain ⟨p, hp⟩ : ∃ p, s.ps.degree[d]? = some p := ⟨_, List.getElem?_eq_getElem hd'⟩
  obtain ⟨a, ha, h0, h1⟩ := dom_getElem? hx hU
  rw [rowsOf_getElem? hU hp ha (k := 0) (by simp [hd])] at hr
  obtain rfl := Option.some.inj hr
  rw [getN_some ha, ok_bind, evalAllNonZero_eq h.wfps hU hp h0 h1]
  congr 1
  unfold rowOf
  apply List.map_congr_left
  intro j _
  cases p <;> rfl

theorem derivRows_eq {s : Spl K} (h : WFSpl s) {x : List K} (hx : Dom s.ps.knots x) :
    derivRows s x = .ok (rowsOf s.ps.knots s.ps.degree x (List.replicate (D s) 1)) := by
  unfold derivRows
  have hlen := rowsOf_length h.knots hx (ks := List.replicate (D s) 1) (by simp)
  conv_lhs => rw [show D s = (rowsOf s.ps.knots s.ps.degree x (List.replicate (D s) 1)).length from hlen.symm]
  apply buildList_list
  intro d r hr
  have hd : d < D s := by
    have := (List.getElem?_eq_some_iff.1 hr).1
    rw [hlen] at this
    exact this
  obtain ⟨U, hU⟩ : ∃ U, s.ps.knots[d]? = some U := ⟨_, List.getElem?_eq_getElem hd⟩
  have hd' : d < s.ps.degree.length := by rw [← List.Forall₂.length_eq h.knots]; exact hd
  obtain ⟨p, hp⟩ : ∃ p, s.ps.degree[d]? = some p := ⟨_, List.getElem?_eq_getElem hd'⟩
  obtain ⟨a, ha, h0, h1⟩ := dom_getElem? hx hU
  rw [rowsOf_getElem? hU hp ha (k := 1) (by simp [hd])] at hr
  obtain rfl := Option.some.inj hr
  rw [getN_some ha, ok_bind]
  exact evalAllNonZeroDerivs_eq h.wfps hU hp h0 h1 1

/-! ### Weights and numbers of control points -/

/-- The multi-index of the active function number `k`. -/
def actIx (s : Spl K) (x : List K) (k : ℕ) : List ℕ :=
  List.zipWith (· + ·) (unlin (actBox s.ps.degree) k) (offs s.ps.knots s.ps.degree x)

/-- The number of active functions. -/
def actNum (s : Spl K) : ℕ := (actBox s.ps.degree).prod

theorem actBox_pos (ps : List ℕ) : ∀ n ∈ actBox ps, 0 < n := by
  intro n hn
  obtain ⟨p, _, rfl⟩ := List.mem_map.1 hn
  omega

theorem actNum_pos (s : Spl K) : 0 < actNum s := List.prod_pos (actBox_pos _)

theorem actIx_inBox {s : Spl K} (h : WFSpl s) {x : List K} (hx : Dom s.ps.knots x) (k : ℕ) : InBox (npts s) (actIx s x k) :=
  act_inBox h.knots hx (unlin_inBox (actBox_pos _) k)

theorem position_zl (ns is : List ℕ) : position (zl ns) (zl is) = lin ns is := by rw [← oneD_eq_position, oneD_zl]

theorem validIx_zl {ns is : List ℕ} (h : InBox ns is) : ValidIx (zl ns) (zl is) := by
  unfold InBox at h
  induction h with
  | nil => exact .nil
  | cons a _ ih => exact .cons ⟨by omega, by exact_mod_cast a⟩ ih

theorem zl_zipWith_add : ∀ (a b : List ℕ), zl (List.zipWith (· + ·) a b) = List.zipWith (· + ·) (zl a) (zl b)
  | [], _ => by simp
  | _ :: _, [] => by simp
  | a :: as, b :: bs => by simp [zl_zipWith_add as bs]

theorem globalIndex_eq {s : Spl K} (h : WFSpl s) (hl : ∀ U ∈ s.ps.knots, U.length < 2 ^ 64) {e : List ℤ} {x : List K}
    (hx : InElement (elemsOf s.ps.knots) e x) {k : ℕ} (hk : k < actNum s) :
    globalIndex s (position (numElements (elemsOf s.ps.knots)) e) (k : ℤ) = .ok ((lin (npts s) (actIx s x k) : ℤ) + 1) := by
  have hb := unlin_inBox (actBox_pos s.ps.degree) k
  have := C47_global_index h hl (elements_eq h.knots hl) (inElement_valid hx) (L := zl (unlin (actBox s.ps.degree) k))
    (by rw [numBasis_eq]; exact validIx_zl hb) hx (firstNonZero_eq h.knots (inElement_dom h.knots hx))
  rw [numBasis_eq, position_zl, lin_unlin hk, ← zl_zipWith_add, h.num, position_zl] at this
  exact this

theorem oneD_flat {ns : List ℕ} {m : ℕ} {n : ℕ} (hn : ns.length = n + 1) : MIH.oneD (zl ns) ((m : ℤ) :: List.replicate n 0) = m := by
  rw [show (m : ℤ) :: List.replicate n 0 = zl (m :: List.replicate n 0) by simp, oneD_zl]
  have : ∀ (k : ℕ) (ns : List ℕ), lin ns (List.replicate k 0) = 0 := by
    intro k
    induction k with
    | zero => intro ns; cases ns <;> simp [lin]
    | succ k ih => intro ns; cases ns with
      | nil => simp [lin]
      | cons a r => simp [List.replicate_succ, lin, ih]
  cases ns with
  | nil => simp at hn
  | cons a r => simp [lin, this]

theorem weight_eq {s : Spl K} (h : WFSpl s) (hn : IsNurbs s) (hl : ∀ U ∈ s.ps.knots, U.length < 2 ^ 64) (hD : 0 < D s) {e : List ℤ}
    {x : List K} (hx : InElement (elemsOf s.ps.knots) e x) {k : ℕ} (hk : k < actNum s) :
    weight s x (k : ℤ) = .ok (wgt s (actIx s x k)) := by
  obtain ⟨w, hw⟩ := hn
  have hI := actIx_inBox h (inElement_dom h.knots hx) k
  unfold weight
  rw [C48_element_number_at h hl (elements_eq h.knots hl) hx, ok_bind, globalIndex_eq h hl hx hk, ok_bind]
  have e1 : ((lin (npts s) (actIx s x k) : ℤ) + 1 - 1) = (lin (npts s) (actIx s x k) : ℕ) := by omega
  have hnl : (npts s).length = D s - 1 + 1 := by
    unfold npts; rw [List.length_zipWith, ← h.knots.length_eq, Nat.min_self]; unfold D at hD ⊢; omega
  have := getWeight_eq h hI
  unfold Phys.getWeight at this ⊢
  rw [e1, h.num, oneD_flat hnl]
  rw [h.num, oneD_zl] at this
  exact this

/-! ### Values -/

theorem basisDerivFns_rep (s : Spl K) (x : List K) :
    basisDerivFns s.ps.knots s.ps.degree x (List.replicate (D s) 0) = basisFns s.ps.knots s.ps.degree x := by
  rw [← basisDerivFns_zero, List.map_const']

/-- The derivative of order `ks` of the product of the univariate functions times the weight, for the active function `k`. -/
def actTerm (s : Spl K) (x : List K) (ks : List ℕ) (k : ℕ) : K :=
  dprod (basisDerivFns s.ps.knots s.ps.degree x ks) (actIx s x k) * wgt s (actIx s x k)

theorem sum_actTerm {s : Spl K} (h : WFSpl s) {x : List K} (hx : Dom s.ps.knots x) {ks : List ℕ} (hk : ks.length = s.ps.knots.length) :
    ∑ k ∈ range (actNum s), actTerm s x ks k = tensorDerivSum s x ks (wgt s) := by
  unfold tensorDerivSum npts
  rw [← msum_active h.knots (wgt s) hx hk, msum_eq_sum_unlin]
  rfl

theorem tensorDerivSum_zero (s : Spl K) (x : List K) (hp : s.ps.knots.length = s.ps.degree.length) (hx : s.ps.knots.length = x.length) :
    tensorDerivSum s x (List.replicate (D s) 0) (wgt s) = weightValue s x := by
  unfold tensorDerivSum weightValue tensorSum
  rw [basisDerivFns_rep]

theorem actTerm_zero (s : Spl K) (x : List K) (k : ℕ) : actTerm s x (List.replicate (D s) 0) k =
    dprod (basisFns s.ps.knots s.ps.degree x) (actIx s x k) * wgt s (actIx s x k) := by
  unfold actTerm
  rw [basisDerivFns_rep]

/-- The rational basis function with the multi-index `I`. -/
def ratFn (s : Spl K) (x : List K) (I : List ℕ) : K := dprod (basisFns s.ps.knots s.ps.degree x) I * wgt s I / weightValue s x

theorem mapM_eq {α β : Type} {f : α → M β} {g : α → β} : ∀ {l : List α}, (∀ a ∈ l, f a = .ok (g a)) → l.mapM f = .ok (l.map g)
  | [], _ => rfl
  | a :: l, h => by
    rw [List.mapM_cons, h a (by simp), ok_bind, mapM_eq fun b hb => h b (by simp [hb]), ok_bind]
    rfl

theorem rationalBasis_eq {s : Spl K} (h : WFSpl s) (hn : IsNurbs s) (hl : ∀ U ∈ s.ps.knots, U.length < 2 ^ 64) (hD : 0 < D s)
    {e : List ℤ} {x : List K} (hx : InElement (elemsOf s.ps.knots) e x) :
    rationalBasis s x = .ok ((List.range (actNum s)).map fun k => ratFn s x (actIx s x k)) := by
  have hd := inElement_dom h.knots hx
  unfold rationalBasis
  rw [basisRows_eq h hd, ok_bind]
  dsimp only
  rw [rowsOf_sizes h.knots hd (by simp)]
  have hst := upLoop_fun (ns := actBox s.ps.degree) (body := basisBody s x (rowsOf s.ps.knots s.ps.degree x (List.replicate (D s) 0)))
    (fun k => ((List.range k).map (actTerm s x (List.replicate (D s) 0)), ∑ j ∈ range k, actTerm s x (List.replicate (D s) 0) j)) (by
      intro k hk
      unfold basisBody
      dsimp only
      rw [rowProd_eq h.knots 1 hd (unlin_inBox (actBox_pos _) k) (by simp), ok_bind, get1D_zl_unlin hk, weight_eq h hn hl hD hx hk,
        ok_bind, pure_ok, List.range_succ, List.map_append, sum_range_succ, one_mul]
      rfl)
  rw [List.range_zero, List.map_nil, sum_range_zero] at hst
  rw [hst, ok_bind]
  dsimp only
  have hw := sum_actTerm h hd (ks := List.replicate (D s) 0) (by simp)
  rw [tensorDerivSum_zero s x h.knots.length_eq hd.length_eq] at hw
  unfold actNum at hw
  rw [hw, mapM_eq (g := fun a => a / weightValue s x)]
  · rw [List.map_map]
    congr 1
    apply List.map_congr_left
    intro k _
    simp only [Function.comp_apply, ratFn, actTerm_zero]
  · intro a _
    unfold fdiv
    rw [if_neg (weightValue_pos h hd).ne']

/-- Sums over the active functions are sums over all functions. -/
theorem sum_ratFn {s : Spl K} (h : WFSpl s) {x : List K} (hx : Dom s.ps.knots x) (F : List ℕ → K) :
    ∑ k ∈ range (actNum s), ratFn s x (actIx s x k) * F (actIx s x k) = msum (npts s) fun I => ratFn s x I * F I := by
  have h1 := msum_active h.knots (ks := List.replicate (D s) 0) (fun I => wgt s I / weightValue s x * F I) hx (by simp)
  rw [msum_eq_sum_unlin, basisDerivFns_rep] at h1
  unfold npts
  rw [show (fun I => ratFn s x I * F I) = fun I => dprod (basisFns s.ps.knots s.ps.degree x) I * (wgt s I / weightValue s x * F I) by
    funext I; unfold ratFn; ring, ← h1]
  apply sum_congr rfl
  intro k _
  unfold ratFn actIx
  ring

theorem sum_ratFn_one {s : Spl K} (h : WFSpl s) {x : List K} (hx : Dom s.ps.knots x) : msum (npts s) (ratFn s x) = 1 := by
  have h1 : msum (npts s) (ratFn s x) = weightValue s x / weightValue s x := by
    unfold ratFn
    conv_rhs => lhs; unfold weightValue tensorSum
    rw [div_eq_mul_inv, ← msum_mul_right]
    exact msum_congr fun I _ => by rw [div_eq_mul_inv]
  rw [h1, div_self (weightValue_pos h hx).ne']

end Iga
end SplineLib
