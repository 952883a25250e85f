import Verif.Core.IgaMapping
import Verif.Core.Surface

/-!
# Assembly in the isogeometric example (helper lemmas)
-/

namespace SplineLib
set_option linter.unusedSectionVars false
open Finset

namespace Iga
variable {K : Type} [Field K] [LinearOrder K] [IsStrictOrderedRing K]
open Elem

/-! ### Integration points -/

/-- The image of the reference coordinates `t` in an element. -/
def refMap : List (List (K × K)) → List ℤ → List K → List K
  | E :: Es, e :: es, t :: ts =>
    (((E.getD e.toNat (0, 0)).2 - (E.getD e.toNat (0, 0)).1) * t + ((E.getD e.toNat (0, 0)).2 + (E.getD e.toNat (0, 0)).1)) / 2 :: refMap Es es ts
  | _, _, _ => []

theorem toParamLoop_eq : ∀ {els : List (List (K × K))} {e : List ℤ} {t : List K}, (∀ E ∈ els, ∀ ab ∈ E, ab.1 < ab.2) →
    ValidIx (numElements els) e → t.length = els.length → (∀ a ∈ t, -1 ≤ a ∧ a < 1) →
    toParamLoop els e t = .ok (refMap els e t) ∧ InElement els e (refMap els e t)
  | [], [], [], _, _, _, _ => ⟨rfl, trivial⟩
  | [], _ :: _, _, _, he, _, _ => by cases he
  | [], [], _ :: _, _, _, ht, _ => by simp at ht
  | _ :: _, [], _, _, he, _, _ => by cases he
  | _ :: _, _ :: _, [], _, _, ht, _ => by simp at ht
  | E :: Es, e :: es, t :: ts, hlt, he, ht, h1 => by
    cases he with
    | cons hi hes =>
      obtain ⟨i, rfl⟩ := Int.eq_ofNat_of_zero_le hi.1
      have hil : i < E.length := by have := hi.2; dsimp only at this; exact_mod_cast this
      obtain ⟨a, b⟩ := toParamLoop_eq (fun F hF => hlt F (by simp [hF])) hes (by simpa using ht) (fun a ha => h1 a (by simp [ha]))
      have hab := hlt E (by simp) E[i] (List.getElem_mem _)
      have hE := h1 t (by simp)
      have hg : E.getD (i : ℤ).toNat (0, 0) = E[i] := by
        rw [Int.toNat_natCast, List.getD_eq_getElem?_getD, List.getElem?_eq_getElem hil, Option.getD_some]
      have h3 : toParamLoop (E :: Es) ((i : ℤ) :: es) (t :: ts) = .ok (refMap (E :: Es) ((i : ℤ) :: es) (t :: ts)) := by
        rw [toParamLoop, getI_nat, getN_of_lt hil, ok_bind, a, ok_bind, pure_ok, refMap, hg]
      refine ⟨h3, ?_⟩
      rw [refMap, hg]
      refine ⟨⟨i, E[i], rfl, by simp [hil], ?_, ?_⟩, b⟩
      · rw [le_div_iff₀ (by norm_num)]
        nlinarith [mul_nonneg (sub_nonneg.2 hab.le) (by linarith [hE.1] : (0 : K) ≤ t + 1)]
      · rw [div_lt_iff₀ (by norm_num)]
        nlinarith [mul_pos (sub_pos.2 hab) (by linarith [hE.2] : (0 : K) < 1 - t)]

theorem elemsOf_lt {Us : List (List K)} {ps : List ℕ} (h : List.Forall₂ WFKnots Us ps) : ∀ E ∈ elemsOf Us, ∀ ab ∈ E, ab.1 < ab.2 := by
  induction h with
  | nil => intro E hE; simp [elemsOf] at hE
  | @cons U p Us ps h _ ih =>
    intro E hE
    unfold elemsOf at hE
    rw [List.map_cons] at hE
    rcases List.mem_cons.1 hE with rfl | hE
    · intro ab hab
      obtain ⟨n, hn, rfl⟩ := List.mem_iff_getElem.1 hab
      rw [List.getElem_zip, List.getElem_tail]
      rw [zip_tail_length] at hn
      exact uniq_getElem_lt h.sorted (Nat.lt_succ_self n) (by omega)
    · exact ih E hE

/-- An integration rule with coordinates in `[-1, 1)`. -/
structure GoodRule (rule : List (K × K)) : Prop where
  ne : rule ≠ []
  mem : ∀ p ∈ rule, -1 ≤ p.1 ∧ p.1 < 1

/-- The points of the rule with the numbers `Q`. -/
def rulePts (rule : List (K × K)) (Q : List ℕ) : List (K × K) := Q.map fun q => rule.getD q (0, 0)

/-- The box of integration points of an element. -/
abbrev ruleBox (s : Spl K) (rule : List (K × K)) : List ℕ := List.replicate (D s) rule.length

/-- The parametric coordinates of the integration point `q` of the element `e`. -/
def quadPoint (s : Spl K) (rule : List (K × K)) (e : List ℤ) (q : ℕ) : List K :=
  refMap (elemsOf s.ps.knots) e ((rulePts rule (unlin (ruleBox s rule) q)).map Prod.fst)

/-- Its weight. -/
def quadWeight (s : Spl K) (rule : List (K × K)) (q : ℕ) : K := ((rulePts rule (unlin (ruleBox s rule) q)).map Prod.snd).prod

theorem ruleBox_pos {s : Spl K} {rule : List (K × K)} (hr : GoodRule rule) : ∀ n ∈ ruleBox s rule, 0 < n := by
  intro n hn
  obtain rfl := (List.mem_replicate.1 hn).2
  exact List.length_pos_iff.2 hr.ne

theorem ruleBox_lt {s : Spl K} {rule : List (K × K)} (hr : GoodRule rule) (q : ℕ) : ∀ i ∈ unlin (ruleBox s rule) q, i < rule.length := by
  have hb := unlin_inBox (ruleBox_pos (s := s) hr) q
  unfold InBox at hb
  generalize unlin (ruleBox s rule) q = Q at hb
  unfold ruleBox at hb
  generalize D s = d at hb
  induction d generalizing Q with
  | zero => cases hb; simp
  | succ d ih =>
    rw [List.replicate_succ] at hb
    cases hb with
    | cons a b =>
      intro i hi
      rcases List.mem_cons.1 hi with rfl | hi
      · exact a
      · exact ih _ b i hi

theorem rulePts_mem {s : Spl K} {rule : List (K × K)} (hr : GoodRule rule) (q : ℕ) :
    ∀ p ∈ rulePts rule (unlin (ruleBox s rule) q), p ∈ rule := by
  intro p hp
  obtain ⟨i, hi, rfl⟩ := List.mem_map.1 hp
  have hlt := ruleBox_lt hr q i hi
  rw [List.getD_eq_getElem?_getD, List.getElem?_eq_getElem hlt]
  exact List.getElem_mem _

theorem unlin_length' (ns : List ℕ) (k : ℕ) : (unlin ns k).length = ns.length := unlin_length ns k

theorem toParam_eq {s : Spl K} (h : WFSpl s) (hl : ∀ U ∈ s.ps.knots, U.length < 2 ^ 64) {rule : List (K × K)} (hr : GoodRule rule)
    {e : List ℤ} (he : ValidIx (numElements (elemsOf s.ps.knots)) e) (q : ℕ) :
    toParam s (position (numElements (elemsOf s.ps.knots)) e) ((rulePts rule (unlin (ruleBox s rule) q)).map Prod.fst) =
      .ok (quadPoint s rule e q) ∧ InElement (elemsOf s.ps.knots) e (quadPoint s rule e q) := by
  unfold toParam elementIndices
  rw [elements_eq h.knots hl, ok_bind, plus_position (numElements_pos h.knots) he]
  apply toParamLoop_eq (elemsOf_lt h.knots) he
  · simp [rulePts, unlin_length', elemsOf]
  · intro a ha
    obtain ⟨p, hp, rfl⟩ := List.mem_map.1 ha
    exact hr.mem p (rulePts_mem hr q p hp)

variable [HasSqrt K] [LawfulSqrt K]

/-- The factor of the integration point `q` of the element `e`: weight times volume factor times half the side lengths. -/
def quadFactor (s : Spl K) (rule : List (K × K)) (e : List ℤ) (q : ℕ) : K :=
  quadWeight s rule q * (volFactor s (quadPoint s rule e q) * ∏ i : Fin (D s), (halfLens (elemsOf s.ps.knots) e).getD i 0)

/-- The number of integration points of an element. -/
def quadNum (s : Spl K) (rule : List (K × K)) : ℕ := (ruleBox s rule).prod

theorem foldl_weight : ∀ (l : List (K × K)) (a : K), l.foldl (fun w p => w * p.2) a = a * (l.map Prod.snd).prod
  | [], a => by simp
  | p :: l, a => by rw [List.foldl_cons, foldl_weight l, List.map_cons, List.prod_cons, mul_assoc]

theorem mapM_getI {rule : List (K × K)} : ∀ {Q : List ℕ}, (∀ q ∈ Q, q < rule.length) → (zl Q).mapM (getI rule) = .ok (rulePts rule Q)
  | [], _ => rfl
  | q :: Q, h => by
    rw [zl, List.map_cons, List.mapM_cons, getI_nat, getN_of_lt (h q (by simp)), ok_bind]
    have := mapM_getI (rule := rule) (Q := Q) fun a ha => h a (by simp [ha])
    unfold zl at this
    rw [this, ok_bind, pure_ok]
    unfold rulePts
    rw [List.map_cons, List.getD_eq_getElem?_getD, List.getElem?_eq_getElem (h q (by simp)), Option.getD_some]

theorem elementPoints_eq {α : Type} {s : Spl K} (h : WFSpl s) (hn : IsNurbs s) (hl : ∀ U ∈ s.ps.knots, U.length < 2 ^ 64)
    {rule : List (K × K)} (hr : GoodRule rule) {e : List ℤ} (he : ValidIx (numElements (elemsOf s.ps.knots)) e) {f : List K → M α}
    {g : ℕ → α} (hf : ∀ q < quadNum s rule, f (quadPoint s rule e q) = .ok (g q)) :
    elementPoints f s (position (numElements (elemsOf s.ps.knots)) e) rule = .ok ((List.range (quadNum s rule)).map fun q =>
      ⟨g q, quadWeight s rule q, volFactor s (quadPoint s rule e q) * ∏ i : Fin (D s), (halfLens (elemsOf s.ps.knots) e).getD i 0⟩) := by
  unfold elementPoints
  rw [if_neg (by simpa using hr.ne)]
  have e0 : List.replicate (D s) (rule.length : ℤ) = zl (ruleBox s rule) := by simp [zl]
  rw [e0]
  have := upLoop_fun (ns := ruleBox s rule) (body := pointBody f s (position (numElements (elemsOf s.ps.knots)) e) rule)
    (fun k => (List.range k).map fun q => (⟨g q, quadWeight s rule q,
      volFactor s (quadPoint s rule e q) * ∏ i : Fin (D s), (halfLens (elemsOf s.ps.knots) e).getD i 0⟩ : IntPoint K α)) (by
    intro k hk
    obtain ⟨a, b⟩ := toParam_eq h hl hr he k
    unfold pointBody
    dsimp only
    rw [mapM_getI (ruleBox_lt hr k), ok_bind, a, ok_bind, hf k hk, ok_bind, jacobian_eq h hn hl b, ok_bind, pure_ok, List.range_succ,
      List.map_append, foldl_weight, one_mul]
    rfl)
  exact this

/-! ### Matrices and vectors -/

/-- The `n × n` matrix with the entries `f`. -/
def matOf (n : ℕ) (f : ℕ → ℕ → K) : List (List K) := (List.range n).map fun a => (List.range n).map fun b => f a b

/-- The vector with the entries `f`. -/
def vecOf (n : ℕ) (f : ℕ → K) : List K := (List.range n).map f

omit [HasSqrt K] [LawfulSqrt K] in
theorem vecOf_congr {n : ℕ} {f g : ℕ → K} (h : ∀ a < n, f a = g a) : vecOf n f = vecOf n g :=
  List.map_congr_left fun a ha => h a (List.mem_range.1 ha)

omit [HasSqrt K] [LawfulSqrt K] in
theorem matOf_congr {n : ℕ} {f g : ℕ → ℕ → K} (h : ∀ a < n, ∀ b < n, f a b = g a b) : matOf n f = matOf n g :=
  List.map_congr_left fun a ha => List.map_congr_left fun b hb => h a (List.mem_range.1 ha) b (List.mem_range.1 hb)

omit [HasSqrt K] [LawfulSqrt K] in
theorem modify_range (n i : ℕ) (f : ℕ → K) (v : K) :
    ((List.range n).map f).modify i (· + v) = (List.range n).map fun a => f a + if a = i then v else 0 := by
  apply List.ext_getElem
  · simp
  · intro m h1 h2
    rw [List.getElem_modify]
    simp only [List.getElem_map, List.getElem_range]
    by_cases e : i = m
    · rw [if_pos e, if_pos e.symm]
    · rw [if_neg e, if_neg (Ne.symm e), add_zero]

omit [HasSqrt K] [LawfulSqrt K] in
theorem addVec_eq {n i : ℕ} (hi : i < n) (f : ℕ → K) (v : K) : addVec (vecOf n f) i v = .ok (vecOf n fun a => f a + if a = i then v else 0) := by
  unfold addVec vecOf
  rw [if_pos (by simpa using hi), modify_range]

omit [HasSqrt K] [LawfulSqrt K] in
theorem addAt_eq {n i j : ℕ} (hi : i < n) (hj : j < n) (f : ℕ → ℕ → K) (v : K) :
    addAt (matOf n f) i j v = .ok (matOf n fun a b => f a b + if a = i ∧ b = j then v else 0) := by
  unfold addAt
  have e : (matOf n f)[i]? = some ((List.range n).map fun b => f i b) := by simp [matOf, hi]
  rw [e]
  dsimp only
  rw [if_pos (by simpa using hj), modify_range]
  congr 1
  unfold matOf
  apply set_range
  · intro m _ hm
    apply List.map_congr_left
    intro b _
    dsimp only
    rw [if_neg (by tauto), add_zero]
  · apply List.map_congr_left
    intro b _
    simp

omit [HasSqrt K] [LawfulSqrt K] in
theorem getVec_eq {n i : ℕ} (hi : i < n) (f : ℕ → K) : getVec (vecOf n f) i = .ok (f i) := by
  unfold getVec vecOf
  simp [hi]

/-! ### The loops -/

theorem globalRow_eq {s : Spl K} (h : WFSpl s) (hl : ∀ U ∈ s.ps.knots, U.length < 2 ^ 64) (hsz : (npts s).prod < 2 ^ 64) {e : List ℤ}
    {x : List K} (hx : InElement (elemsOf s.ps.knots) e x) {k : ℕ} (hk : k < actNum s) :
    globalRow s (position (numElements (elemsOf s.ps.knots)) e) k = .ok (lin (npts s) (actIx s x k)) := by
  unfold globalRow
  have hlt := lin_lt (actIx_inBox h (inElement_dom h.knots hx) k)
  rw [globalIndex_eq h hl hx hk, ok_bind, pure_ok, toSizeT_of (n := lin (npts s) (actIx s x k)) (by omega) (by omega)]

theorem scatter_eq {s : Spl K} (h : WFSpl s) (hl : ∀ U ∈ s.ps.knots, U.length < 2 ^ 64) (hsz : (npts s).prod < 2 ^ 64) {e : List ℤ}
    {x : List K} (hx : InElement (elemsOf s.ps.knots) e x) {entry : ℕ → ℕ → M K} {v : ℕ → ℕ → K}
    (hv : ∀ j < actNum s, ∀ k < actNum s, entry j k = .ok (v j k)) (f : ℕ → ℕ → K) :
    scatter s (position (numElements (elemsOf s.ps.knots)) e) (actNum s) entry (matOf (npts s).prod f) =
      .ok (matOf (npts s).prod fun a b => f a b + ∑ j ∈ range (actNum s), ∑ k ∈ range (actNum s),
        if a = lin (npts s) (actIx s x j) ∧ b = lin (npts s) (actIx s x k) then v j k else 0) := by
  have hd := inElement_dom h.knots hx
  unfold scatter
  have := forLoop_fun (n := actNum s) (body := fun j A => Spl.forLoop (fun k A => do
      let v ← entry j k
      let r ← globalRow s (position (numElements (elemsOf s.ps.knots)) e) j
      let c ← globalRow s (position (numElements (elemsOf s.ps.knots)) e) k
      addAt A r c v) (actNum s) 0 A)
    (fun m => matOf (npts s).prod fun a b => f a b + ∑ j ∈ range m, ∑ k ∈ range (actNum s),
        if a = lin (npts s) (actIx s x j) ∧ b = lin (npts s) (actIx s x k) then v j k else 0) (by
    intro j hj
    have h2 := forLoop_fun (n := actNum s) (body := fun k A => do
        let v ← entry j k
        let r ← globalRow s (position (numElements (elemsOf s.ps.knots)) e) j
        let c ← globalRow s (position (numElements (elemsOf s.ps.knots)) e) k
        addAt A r c v)
      (fun m => matOf (npts s).prod fun a b => (f a b + ∑ j ∈ range j, ∑ k ∈ range (actNum s),
        if a = lin (npts s) (actIx s x j) ∧ b = lin (npts s) (actIx s x k) then v j k else 0) + ∑ k ∈ range m,
        if a = lin (npts s) (actIx s x j) ∧ b = lin (npts s) (actIx s x k) then v j k else 0) (by
      intro k hk
      rw [hv j hj k hk, ok_bind, globalRow_eq h hl hsz hx hj, ok_bind, globalRow_eq h hl hsz hx hk, ok_bind,
        addAt_eq (lin_lt (actIx_inBox h hd j)) (lin_lt (actIx_inBox h hd k))]
      congr 1
      apply matOf_congr
      intro a _ b _
      rw [sum_range_succ _ k]
      ring)
    simp only [sum_range_zero, add_zero] at h2
    rw [h2]
    congr 1
    apply matOf_congr
    intro a _ b _
    rw [sum_range_succ _ j]
    ring)
  simp only [sum_range_zero, add_zero] at this
  exact this

theorem foldlM_fun {α σ : Type} {body : σ → α → M σ} (g : ℕ → α) (st : ℕ → σ) : ∀ {n : ℕ}, (∀ i < n, body (st i) (g i) = .ok (st (i + 1))) →
    ((List.range n).map g).foldlM body (st 0) = .ok (st n) := by
  intro n
  induction n with
  | zero => intro _; rfl
  | succ n ih =>
    intro h
    rw [List.range_succ, List.map_append, List.foldlM_append, ih fun i hi => h i (by omega)]
    show ((.ok (st n) : M σ) >>= _) = _
    rw [ok_bind]
    simp only [List.map_cons, List.map_nil, List.foldlM_cons, List.foldlM_nil]
    rw [h n (by omega), ok_bind]
    rfl

/-! ### Elements -/

/-- The numbers of elements per direction. -/
def elemBox (s : Spl K) : List ℕ := (elemsOf s.ps.knots).map List.length

theorem numElements_zl (s : Spl K) : numElements (elemsOf s.ps.knots) = zl (elemBox s) := by
  unfold numElements elemBox zl
  rw [List.map_map]
  rfl

theorem elemBox_pos {s : Spl K} (h : WFSpl s) : ∀ n ∈ elemBox s, 0 < n := by
  have := numElements_pos h.knots
  rw [numElements_zl] at this
  intro n hn
  have := this (n : ℤ) (List.mem_map_of_mem hn)
  exact_mod_cast this

/-- The element number `m`. -/
def elemIx (s : Spl K) (m : ℕ) : List ℤ := zl (unlin (elemBox s) m)

theorem elemIx_valid {s : Spl K} (h : WFSpl s) (m : ℕ) : ValidIx (numElements (elemsOf s.ps.knots)) (elemIx s m) := by
  rw [numElements_zl]
  exact validIx_zl (unlin_inBox (elemBox_pos h) m)

theorem elemIx_position {s : Spl K} {m : ℕ} (hm : m < (elemBox s).prod) :
    position (numElements (elemsOf s.ps.knots)) (elemIx s m) = m := by
  rw [numElements_zl, elemIx, position_zl, lin_unlin hm]

theorem overElements_eq {σ : Type} {s : Spl K} (h : WFSpl s) (hl : ∀ U ∈ s.ps.knots, U.length < 2 ^ 64) {body : ℤ → σ → M σ} (st : ℕ → σ)
    (hb : ∀ m < (elemBox s).prod, body (position (numElements (elemsOf s.ps.knots)) (elemIx s m)) (st m) = .ok (st (m + 1))) :
    overElements s body (st 0) = .ok (st (elemBox s).prod) := by
  unfold overElements
  have ht : (totalElements (elemsOf s.ps.knots)).toNat = (elemBox s).prod := by
    unfold totalElements
    rw [numElements_zl]
    have : ∀ (l : List ℕ) (a : ℤ), (zl l).foldl (· * ·) a = a * (l.prod : ℤ) := by
      intro l
      induction l with
      | nil => intro a; simp
      | cons b l ih =>
        intro a
        have := ih (a * b)
        unfold zl at this
        simp only [List.map_cons, List.foldl_cons, this, List.prod_cons]
        push_cast; ring
    rw [this, one_mul, Int.toNat_natCast]
  rw [elements_eq h.knots hl, ok_bind, ht]
  apply forLoop_fun (body := fun e st => body (e : ℤ) st) st
  intro m hm
  have := hb m hm
  rw [elemIx_position hm] at this
  exact this

end Iga
end SplineLib
