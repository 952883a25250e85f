import Verif.Core.Unity

/-!
# Helper lemmas for the properties of evaluation
-/

namespace SplineLib
set_option linter.unusedSectionVars false
open Finset

section
variable {K : Type} [Field K] [LinearOrder K] [IsStrictOrderedRing K]

theorem evaluate_bspline {s : Spl K} (h : WFSpl s) (hb : IsBSpline s) {x : List K} (hx : InDomain s x)
    (dims : List ℕ) (hd : ∀ c ∈ dims, c < s.ph.dim) :
    s.evaluate x (zl dims) = .ok (dims.map (bsplineValue s x)) := by
  unfold Spl.evaluate
  rw [evalWith_eq h.knots hx (g := fun I c => dprod (basisFns s.ps.knots s.ps.degree x) I * cpt s I c.toNat)]
  · congr 1
    simp only [zl, List.map_map]
    apply List.map_congr_left
    intro c hc
    simp only [Function.comp_apply, Int.toNat_natCast]
    exact msum_active' h.knots (fun I => cpt s I c) hx
  · intro J hJ c hc
    obtain ⟨c, hc', rfl⟩ := List.mem_map.1 hc
    have hI : InBox (npts s) _ := act_inBox h.knots hx hJ
    simp only [Spl.evaluatedCP, show s.ph.weights = none from hb, getBasisFunctions_eq h hx hJ,
      controlPoint_eq h hI (hd c hc'), ok_bind, pure_ok, Int.toNat_natCast]

theorem msum_div (a : K) (ns : List ℕ) (f : List ℕ → K) : msum ns (fun I => f I / a) = msum ns f / a := by
  simp only [div_eq_mul_inv]; exact msum_mul_right _ _ _

theorem evaluate_nurbs {s : Spl K} (h : WFSpl s) (hn : IsNurbs s) {x : List K} (hx : InDomain s x)
    (dims : List ℕ) (hd : ∀ c ∈ dims, c ≤ s.ph.dim) :
    s.evaluate x (zl dims) = .ok (dims.map fun c => if c = s.ph.dim then weightValue s x else nurbsValue s x c) := by
  unfold Spl.evaluate
  have hpos := weightValue_pos h hx
  rw [evalWith_eq h.knots hx (g := fun I c => if c.toNat = s.ph.dim then dprod (basisFns s.ps.knots s.ps.degree x) I * wgt s I
    else dprod (basisFns s.ps.knots s.ps.degree x) I * (wgt s I * cpt s I c.toNat) / weightValue s x)]
  · congr 1
    simp only [zl, List.map_map]
    apply List.map_congr_left
    intro c hc
    simp only [Function.comp_apply, Int.toNat_natCast]
    split
    · exact msum_active' h.knots (fun I => wgt s I) hx
    · rw [msum_div, msum_active' h.knots (fun I => wgt s I * cpt s I c) hx]; rfl
  · intro J hJ c hc
    obtain ⟨c, hc', rfl⟩ := List.mem_map.1 hc
    have hI : InBox (npts s) _ := act_inBox h.knots hx hJ
    have hcd := hd c hc'
    obtain ⟨w, hw⟩ := hn
    simp only [Spl.evaluatedCP, hw, getBasisFunctions_eq h hx hJ, getHomCP_eq h hI ⟨w, hw⟩, ok_bind, pure_ok,
      Int.toNat_natCast, evaluatedWeightSum_eq h hx]
    by_cases hcc : c = s.ph.dim
    · subst hcc
      have : getI ((List.range s.ph.dim).map (fun c => cpt s (List.zipWith (· + ·) J (offs s.ps.knots s.ps.degree x)) c *
          wgt s (List.zipWith (· + ·) J (offs s.ps.knots s.ps.degree x))) ++
          [wgt s (List.zipWith (· + ·) J (offs s.ps.knots s.ps.degree x))]) (s.ph.dim : ℤ) =
          .ok (wgt s (List.zipWith (· + ·) J (offs s.ps.knots s.ps.degree x))) := by
        rw [getI_nat, getN_of_lt (by simp)]; simp
      simp [this]
    · have hlt : c < s.ph.dim := by omega
      have : getI ((List.range s.ph.dim).map (fun c => cpt s (List.zipWith (· + ·) J (offs s.ps.knots s.ps.degree x)) c *
          wgt s (List.zipWith (· + ·) J (offs s.ps.knots s.ps.degree x))) ++
          [wgt s (List.zipWith (· + ·) J (offs s.ps.knots s.ps.degree x))]) (c : ℤ) =
          .ok (cpt s (List.zipWith (· + ·) J (offs s.ps.knots s.ps.degree x)) c *
            wgt s (List.zipWith (· + ·) J (offs s.ps.knots s.ps.degree x))) := by
        rw [getI_nat, getN_of_lt (by simp; omega)]
        rw [List.getElem_append_left (by simpa using hlt)]; simp
      have hne : ¬ ((s.ph.dim : ℤ) = (c : ℤ)) := by omega
      simp only [this, hne, hcc, if_false, ok_bind, fdiv, hpos.ne']
      congr 2
      ring

theorem evaluate_equal_weights {s : Spl K} (h : WFSpl s) {w : List K} (hw : s.ph.weights = some w) {a : K} (ha : ∀ b ∈ w, b = a)
    {x : List K} (hx : InDomain s x) (dims : List ℕ) (hd : ∀ c ∈ dims, c < s.ph.dim) :
    s.evaluate x (zl dims) = Spl.evaluate ⟨s.ps, { s.ph with weights := none }⟩ x (zl dims) := by
  have ht : WFSpl (⟨s.ps, { s.ph with weights := none }⟩ : Spl K) :=
    ⟨h.knots, h.basis, h.num, h.dim, h.cps, by intro w h; simp at h⟩
  rw [evaluate_bspline ht rfl hx dims hd, evaluate_nurbs h ⟨w, hw⟩ hx dims (fun c hc => (hd c hc).le)]
  congr 1
  apply List.map_congr_left
  intro c hc
  rw [if_neg (hd c hc).ne]
  have hwa : ∀ I, InBox (npts s) I → wgt s I = a := by
    intro I hI
    have hlt : lin (npts s) I < w.length := by rw [(h.weights w hw).1]; exact lin_lt hI
    simp only [wgt, hw, List.getD_eq_getElem?_getD, List.getElem?_eq_getElem hlt, Option.getD_some]
    exact ha _ (List.getElem_mem hlt)
  have hpos := weightValue_pos h hx
  have h1 : weightValue s x = a := by
    have : weightValue s x = msum (npts s) fun I => dprod (basisFns s.ps.knots s.ps.degree x) I * a :=
      msum_congr fun I hI => by simp only [hwa I hI]
    rw [this, msum_mul_right]
    have := tensor_unity h.knots hx
    unfold npts
    rw [this, one_mul]
  rw [nurbsValue, h1]
  have h2 : tensorSum s x (fun I => wgt s I * cpt s I c) = bsplineValue s x c * a := by
    simp only [tensorSum, bsplineValue]
    rw [← msum_mul_right]
    exact msum_congr fun I hI => by rw [hwa I hI]; ring
  rw [h2]
  rw [h1] at hpos
  rw [mul_div_assoc, div_self hpos.ne', mul_one]
  rfl

theorem forall₂_getElem? {α β : Type*} {R : α → β → Prop} {l : List α} {m : List β} (h : List.Forall₂ R l m) {d : ℕ} {a : α} {b : β}
    (ha : l[d]? = some a) (hb : m[d]? = some b) : R a b := by
  induction h generalizing d with
  | nil => simp at ha
  | cons h _ ih =>
    cases d with
    | zero => simp at ha hb; subst ha; subst hb; exact h
    | succ d => exact ih (by simpa using ha) (by simpa using hb)

theorem WFPS.table {ps : PS K} (h : WFPS ps) : ps.basis = mkTable ps.knots ps.degree := by
  have := h.basis
  rw [basisTable_eq (forall₂_size h.knots)] at this
  exact (Except.ok.inj this).symm

theorem mkTable_getElem? {Us : List (List K)} {ps : List ℕ} {d : ℕ} {U : List K} {p : ℕ} (hU : Us[d]? = some U)
    (hp : ps[d]? = some p) : (mkTable Us ps)[d]? = some ((List.range (U.length - p - 1)).map (mkBasis U p)) := by
  simp [mkTable, List.getElem?_zipWith, hU, hp]

theorem getN_some {α : Type} {l : List α} {d : ℕ} {a : α} (h : l[d]? = some a) : getN l d = .ok a := by
  simp [getN, h]

theorem evalAllNonZero_eq {ps : PS K} (h : WFPS ps) {d : ℕ} {U : List K} {p : ℕ} (hU : ps.knots[d]? = some U)
    (hp : ps.degree[d]? = some p) {x : K} (h0 : knot U 0 ≤ x) (h1 : x ≤ lastKnot U) :
    ps.evalAllNonZero d x = .ok ((List.range (p + 1)).map fun j => coxDeBoor U p (j + (spanIx U x - p)) x) := by
  have hw := forall₂_getElem? h.knots hU hp
  obtain ⟨e1, h2, h3, h4⟩ := hw.span h0 h1
  have hrow := mkTable_getElem? hU hp
  rw [← h.table] at hrow
  simp only [PS.evalAllNonZero, getN_some hrow, getN_some hU, getN_some hp, ok_bind, e1]
  apply buildList_eq
  intro i hi
  rw [show ((spanIx U x : ℤ) - (p : ℤ) + (i : ℤ)) = ((i + (spanIx U x - p) : ℕ) : ℤ) by omega]
  rw [getI_row (by omega)]
  simp only [ok_bind, pure_ok]
  congr 1
  apply mkBasis_eval hw.sorted hw.sep x p _ (by omega)
  intro hp0; left
  rw [show i + (spanIx U x - p) = spanIx U x by omega]
  exact inSpan_lt h2

theorem list_sum_map_range (n : ℕ) (f : ℕ → K) : ((List.range n).map f).sum = ∑ j ∈ range n, f j := by
  rw [← List.sum_toFinset f List.nodup_range]; congr 1; ext; simp

theorem mkBasis_zero_eval_cases (U : List K) (i : ℕ) (x : K) : (mkBasis U 0 i).eval x = 0 ∨ (mkBasis U 0 i).eval x = 1 := by
  simp only [mkBasis, Basis.eval]; split <;> simp

theorem row_getElem? {ps : PS K} (h : WFPS ps) {d : ℕ} {U : List K} {p : ℕ} (hU : ps.knots[d]? = some U)
    (hp : ps.degree[d]? = some p) {i : ℕ} {row : List (Basis K)} {b : Basis K} (hrow : ps.basis[d]? = some row)
    (hb : row[i]? = some b) : i + p + 1 < U.length ∧ b = mkBasis U p i := by
  have hrow' := mkTable_getElem? hU hp
  rw [← h.table, hrow] at hrow'
  obtain rfl := Option.some.inj hrow'
  have hi : i < U.length - p - 1 := by
    by_contra hc
    rw [List.getElem?_eq_none (by simp; omega)] at hb; simp at hb
  refine ⟨by omega, ?_⟩
  rw [List.getElem?_map, List.getElem?_range hi] at hb
  simpa using hb.symm

theorem basis_nonneg_support {ps : PS K} (h : WFPS ps) {d : ℕ} {U : List K} {p : ℕ} (hU : ps.knots[d]? = some U)
    (hp : ps.degree[d]? = some p) {i : ℕ} {row : List (Basis K)} {b : Basis K} (hrow : ps.basis[d]? = some row)
    (hb : row[i]? = some b) {x : K} (h0 : knot U 0 ≤ x) (h1 : x ≤ lastKnot U) :
    i + p + 1 < U.length ∧ 0 ≤ b.eval x ∧ (x < knot U i ∨ knot U (i + p + 1) < x → b.eval x = 0) := by
  have hw := forall₂_getElem? h.knots hU hp
  obtain ⟨hi, rfl⟩ := row_getElem? h hU hp hrow hb
  refine ⟨hi, ?_, ?_⟩
  · by_cases hz : p = 0
    · subst hz
      rcases mkBasis_zero_eval_cases U i x with e | e <;> rw [e]; exact zero_le_one
    · rw [mkBasis_eval hw.sorted hw.sep x p i hi (fun h => absurd h hz)]
      exact cox_nonneg hw h0 h1 hi
  · intro hx
    have : ¬ (mkBasis U p i).inSupport x = true := by
      rw [inSupport_iff hw.sorted hw.sep hi]
      rintro (⟨a, b⟩ | ⟨a, b⟩)
      · rcases hx with hx | hx
        · exact absurd hx (not_lt.2 a)
        · exact absurd hx (not_lt.2 b.le)
      · rcases hx with hx | hx
        · have := hw.sorted.le_last (show i < U.length by omega)
          rw [b] at hx; exact absurd hx (not_lt.2 this)
        · rw [a, b] at hx; exact lt_irrefl _ hx
    cases p with
    | zero => simp only [mkBasis, Basis.eval] at this ⊢; simp [this]
    | succ p => simp only [mkBasis, Basis.eval] at this ⊢; simp [this]

theorem basis_locality {ps : PS K} (h : WFPS ps) {d : ℕ} {U : List K} {p : ℕ} (hU : ps.knots[d]? = some U)
    (hp : ps.degree[d]? = some p) (hend : p = 0 → ExactEnds U 0) {row : List (Basis K)} (hrow : ps.basis[d]? = some row) {x : K}
    (h0 : knot U 0 ≤ x) (h1 : x ≤ lastKnot U) :
    ∃ f, ps.evalAllNonZero d x = .ok (((row.drop f).take (p + 1)).map (fun b => b.eval x)) ∧ f + (p + 1) ≤ row.length ∧
      ∀ i b, row[i]? = some b → (i < f ∨ f + p < i) → b.eval x = 0 := by
  have hw := forall₂_getElem? h.knots hU hp
  have hrow' := mkTable_getElem? hU hp
  rw [← h.table, hrow] at hrow'
  obtain rfl := Option.some.inj hrow'
  obtain ⟨e1, h2, h3, h4⟩ := hw.span h0 h1
  refine ⟨spanIx U x - p, ?_, by simp; omega, ?_⟩
  · rw [evalAllNonZero_eq h hU hp h0 h1]
    congr 1
    apply List.ext_getElem
    · simp; omega
    · intro j hj1 hj2
      simp only [List.length_map, List.length_range] at hj1
      simp only [List.getElem_map, List.getElem_range, List.getElem_take, List.getElem_drop]
      rw [add_comm j]
      symm
      apply mkBasis_eval hw.sorted hw.sep x p _ (by omega)
      intro hp0; left
      rw [show spanIx U x - p + j = spanIx U x by omega]
      exact inSpan_lt h2
  · intro i b hb hio
    obtain ⟨hi, rfl⟩ := row_getElem? h hU hp hrow hb
    by_cases hz : p = 0
    · subst hz
      have hns : ¬ (mkBasis U 0 i).inSupport x = true := by
        rw [inSupport_iff hw.sorted hw.sep hi]
        have key : ¬ InSpan U i x := by
          intro hc
          have := InSpan.unique hw.sorted (by omega) (by omega) hc h2
          omega
        rintro (a | ⟨a, b⟩)
        · exact key (Or.inl a)
        · have he := (hend rfl).2
          have hii : i + 1 = U.length - 1 := by
            by_contra hc
            have := hw.sorted.mono (show i + 1 ≤ U.length - 0 - 2 by omega) (by omega)
            simp only [Nat.add_zero] at a
            rw [a] at this
            exact absurd he (not_lt.2 this)
          apply key
          right
          rw [b, hii]
          refine ⟨?_, rfl, rfl⟩
          rwa [show U.length - 0 - 2 = i by omega] at he
      simp only [mkBasis, Basis.eval] at hns ⊢; simp [hns]
    · rw [mkBasis_eval hw.sorted hw.sep x p i hi (fun h => absurd h hz)]
      exact coxDeBoor_zero_of hw h0 h1 hi (by omega)

/-- The coefficients of the convex combination. -/
theorem evaluate_convex {s : Spl K} (h : WFSpl s) {x : List K} (hx : InDomain s x) :
    ∃ l : List ℕ → K, (∀ I, InBox (npts s) I → 0 ≤ l I) ∧ msum (npts s) l = 1 ∧
      ∀ dims : List ℕ, (∀ c ∈ dims, c < s.ph.dim) →
        s.evaluate x (zl dims) = .ok (dims.map fun c => msum (npts s) fun I => l I * cpt s I c) := by
  cases hw : s.ph.weights with
  | none =>
    exact ⟨dprod (basisFns s.ps.knots s.ps.degree x), fun I hI => tensor_nonneg h.knots hx hI, tensor_unity h.knots hx,
      fun dims hd => evaluate_bspline h hw hx dims hd⟩
  | some w =>
    have hpos := weightValue_pos h hx
    refine ⟨fun I => dprod (basisFns s.ps.knots s.ps.degree x) I * wgt s I / weightValue s x, ?_, ?_, ?_⟩
    · intro I hI
      exact div_nonneg (mul_nonneg (tensor_nonneg h.knots hx hI) (wgt_pos h hI).le) hpos.le
    · rw [msum_div]; exact div_self hpos.ne'
    · intro dims hd
      rw [evaluate_nurbs h ⟨w, hw⟩ hx dims (fun c hc => (hd c hc).le)]
      congr 1
      apply List.map_congr_left
      intro c hc
      rw [if_neg (hd c hc).ne, nurbsValue, tensorSum, ← msum_div]
      exact msum_congr fun I _ => by ring

theorem msum_single {ns I : List ℕ} (hI : InBox ns I) {f : List ℕ → K} (h : ∀ J, InBox ns J → J ≠ I → f J = 0) :
    msum ns f = f I := by
  induction ns generalizing I f with
  | nil => rw [inBox_nil_iff] at hI; subst hI; rfl
  | cons n ns ih =>
    cases I with
    | nil => simp at hI
    | cons i I =>
      simp only [inBox_cons] at hI
      simp only [msum]
      rw [sum_eq_single i]
      · exact ih hI.2 fun J hJ hne => h _ (inBox_cons.2 ⟨hI.1, hJ⟩) (by simpa using hne)
      · intro j hj hne
        rw [msum_congr (g := fun _ => 0), msum_zero]
        intro J hJ
        exact h _ (inBox_cons.2 ⟨mem_range.1 hj, hJ⟩) (by simp [hne])
      · intro hc; exact absurd (mem_range.2 hI.1) hc

theorem corner_dom {Us : List (List K)} {ps : List ℕ} (h : List.Forall₂ WFKnots Us ps) : ∀ {b : List Bool}, b.length = Us.length →
    Dom Us (List.zipWith (fun U e => if e then lastKnot U else knot U 0) Us b) := by
  induction h with
  | nil => intro b hb; simp [Dom]
  | cons h _ ih =>
    intro b hb
    cases b with
    | nil => simp at hb
    | cons e b =>
      refine List.Forall₂.cons ?_ (ih (by simpa using hb))
      cases e
      · simp; exact h.range.le
      · simp; exact h.range.le

theorem corner_inBox {Us : List (List K)} {ps : List ℕ} (h : List.Forall₂ WFKnots Us ps) : ∀ {b : List Bool}, b.length = Us.length →
    InBox (List.zipWith (fun U p => U.length - p - 1) Us ps)
      (List.zipWith (fun n e => if e then n - 1 else 0) (List.zipWith (fun U p => U.length - p - 1) Us ps) b) := by
  induction h with
  | nil => intro b hb; simp
  | cons h _ ih =>
    intro b hb
    cases b with
    | nil => simp at hb
    | cons e b =>
      have := h.size
      refine inBox_cons.2 ⟨?_, ih (by simpa using hb)⟩
      cases e <;> simp <;> omega

theorem corner_dprod {Us : List (List K)} {ps : List ℕ} (h : List.Forall₂ WFKnots Us ps) : List.Forall₂ ExactEnds Us ps →
    ∀ {b : List Bool} {I : List ℕ}, b.length = Us.length → InBox (List.zipWith (fun U p => U.length - p - 1) Us ps) I →
    dprod (basisFns Us ps (List.zipWith (fun U e => if e then lastKnot U else knot U 0) Us b)) I =
      if I = List.zipWith (fun n e => if e then n - 1 else 0) (List.zipWith (fun U p => U.length - p - 1) Us ps) b then 1 else 0 := by
  induction h with
  | nil => intro _ b I hb hI; rw [List.zipWith_nil_left, inBox_nil_iff] at hI; subst hI; simp [basisFns, dprod]
  | @cons U p Us ps h _ ih =>
    intro he b I hb hI
    cases he with
    | cons he hes =>
      cases b with
      | nil => simp at hb
      | cons e b =>
        cases I with
        | nil => simp at hI
        | cons i I =>
          simp only [List.zipWith_cons_cons, inBox_cons] at hI
          simp only [List.zipWith_cons_cons, basisFns, dprod]
          rw [ih hes (by simpa using hb) hI.2]
          have : coxDeBoor U p i (if e = true then lastKnot U else knot U 0) =
              if i = (if e = true then U.length - p - 1 - 1 else 0) then 1 else 0 := by
            cases e
            · simp only [Bool.false_eq_true, if_false]
              exact cox_first h he.1 (by omega)
            · simp only [if_true]
              rw [cox_last h he.2 (by omega)]
              congr 1
          rw [this]
          by_cases h1 : i = (if e = true then U.length - p - 1 - 1 else 0)
          · simp [← h1]
          · simp [h1]

theorem evaluate_corner {s : Spl K} (h : WFSpl s) (he : List.Forall₂ ExactEnds s.ps.knots s.ps.degree) (b : List Bool)
    (hb : b.length = s.ps.knots.length) (dims : List ℕ) (hd : ∀ c ∈ dims, c < s.ph.dim) :
    InBox (npts s) (cornerIndex s b) ∧
    s.evaluate (cornerParam s b) (zl dims) = .ok (dims.map (cpt s (cornerIndex s b))) := by
  have hI : InBox (npts s) (cornerIndex s b) := corner_inBox h.knots hb
  have hx : InDomain s (cornerParam s b) := corner_dom h.knots hb
  refine ⟨hI, ?_⟩
  have hone : dprod (basisFns s.ps.knots s.ps.degree (cornerParam s b)) (cornerIndex s b) = 1 := by
    have := corner_dprod h.knots he hb hI
    rw [cornerParam, this]; exact if_pos rfl
  have hzero : ∀ J, InBox (npts s) J → J ≠ cornerIndex s b →
      dprod (basisFns s.ps.knots s.ps.degree (cornerParam s b)) J = 0 := by
    intro J hJ hne
    have := corner_dprod h.knots he hb hJ
    rw [cornerParam, this]; exact if_neg hne
  have hsum : ∀ a : List ℕ → K, tensorSum s (cornerParam s b) a = a (cornerIndex s b) := by
    intro a
    rw [tensorSum, msum_single hI]
    · rw [hone, one_mul]
    · intro J hJ hne; rw [hzero J hJ hne, zero_mul]
  cases hw : s.ph.weights with
  | none =>
    rw [evaluate_bspline h hw hx dims hd]
    congr 1
    exact List.map_congr_left fun c _ => hsum _
  | some w =>
    rw [evaluate_nurbs h ⟨w, hw⟩ hx dims (fun c hc => (hd c hc).le)]
    congr 1
    apply List.map_congr_left
    intro c hc
    rw [if_neg (hd c hc).ne, nurbsValue, weightValue, hsum, hsum]
    exact mul_div_cancel_left₀ _ (wgt_pos h hI).ne'

theorem evaluate_affine {s t : Spl K} (hs : WFSpl s) (ht : WFSpl t) (hps : t.ps = s.ps) (hw : t.ph.weights = s.ph.weights)
    (A : ℕ → ℕ → K) (b : ℕ → K)
    (hcp : ∀ I, InBox (npts s) I → ∀ c < t.ph.dim, cpt t I c = (∑ j ∈ range s.ph.dim, A c j * cpt s I j) + b c)
    {x : List K} (hx : InDomain s x) :
    ∃ v, s.evaluate x (zl (List.range s.ph.dim)) = .ok v ∧
      t.evaluate x (zl (List.range t.ph.dim)) =
        .ok ((List.range t.ph.dim).map fun c => (∑ j ∈ range s.ph.dim, A c j * v.getD j 0) + b c) := by
  have hn : npts t = npts s := by simp only [npts, hps]
  have hxt : InDomain t x := by simpa only [InDomain, hps] using hx
  -- one set of coefficients serves both splines
  have key : ∃ l : List ℕ → K, msum (npts s) l = 1 ∧
      s.evaluate x (zl (List.range s.ph.dim)) =
        .ok ((List.range s.ph.dim).map fun c => msum (npts s) fun I => l I * cpt s I c) ∧
      t.evaluate x (zl (List.range t.ph.dim)) =
        .ok ((List.range t.ph.dim).map fun c => msum (npts s) fun I => l I * cpt t I c) := by
    cases hww : s.ph.weights with
    | none =>
      refine ⟨dprod (basisFns s.ps.knots s.ps.degree x), tensor_unity hs.knots hx, ?_, ?_⟩
      · exact evaluate_bspline hs hww hx _ (by simp)
      · have := evaluate_bspline ht (show IsBSpline t by rw [IsBSpline, hw, hww]) hxt (List.range t.ph.dim) (by simp)
        rw [this]
        unfold bsplineValue tensorSum
        rw [hn, hps]
    | some w =>
      have hpos := weightValue_pos hs hx
      have hwt : ∀ I, wgt t I = wgt s I := by intro I; simp only [wgt, hw, hn]
      have hwv : weightValue t x = weightValue s x := by simp only [weightValue, tensorSum, hn, hps, hwt]
      refine ⟨fun I => dprod (basisFns s.ps.knots s.ps.degree x) I * wgt s I / weightValue s x, ?_, ?_, ?_⟩
      · rw [msum_div]; exact div_self hpos.ne'
      · rw [evaluate_nurbs hs ⟨w, hww⟩ hx _ (by simp; intro c hc; omega)]
        congr 1
        apply List.map_congr_left
        intro c hc
        rw [if_neg (by have := List.mem_range.1 hc; omega), nurbsValue, tensorSum, ← msum_div]
        exact msum_congr fun I _ => by ring
      · rw [evaluate_nurbs ht ⟨w, by rw [hw, hww]⟩ hxt _ (by simp; intro c hc; omega)]
        congr 1
        apply List.map_congr_left
        intro c hc
        rw [if_neg (by have := List.mem_range.1 hc; omega), nurbsValue, tensorSum, ← msum_div, hn, hwv]
        exact msum_congr fun I _ => by rw [hwt, hps]; ring
  obtain ⟨l, h1, h2, h3⟩ := key
  refine ⟨_, h2, ?_⟩
  rw [h3]
  congr 1
  apply List.map_congr_left
  intro c hc
  have hc' := List.mem_range.1 hc
  rw [msum_congr (g := fun I => (∑ j ∈ range s.ph.dim, A c j * (l I * cpt s I j)) + b c * l I)
    (fun I hI => by rw [hcp I hI c hc', mul_add, mul_sum]; exact congrArg₂ _ (sum_congr rfl fun j _ => by ring) (mul_comm _ _))]
  rw [msum_add, msum_mul_left, h1, mul_one, msum_sum_comm]
  congr 1
  apply sum_congr rfl
  intro j hj
  have hj' := mem_range.1 hj
  rw [msum_mul_left]
  congr 1
  simp [List.getD_eq_getElem?_getD, hj']

end
end SplineLib
