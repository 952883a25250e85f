import Verif.Core.Boehm
import Verif.Core.EvalProps
import Verif.Spec.KnotOps
import Verif.Model.KnotInsertion

/-!
# `InsertKnot` (helper lemmas)
-/

namespace SplineLib
set_option linter.unusedSectionVars false
open Finset

section
variable {K : Type} [Field K] [LinearOrder K] [IsStrictOrderedRing K]

/-! ### Tensor products, changed in one direction -/

theorem dprod_set {R : Type*} [CommSemiring R] : ∀ {bs : List (ℕ → R)} {I : List ℕ} {d : ℕ} {b : ℕ → R} (i : ℕ), bs[d]? = some b →
    d < I.length → dprod bs (I.set d i) = b i * dprod (bs.set d fun _ => 1) I := by
  intro bs
  induction bs with
  | nil => intro I d b i h; simp at h
  | cons b0 bs ih =>
    intro I d b i h hd
    cases I with
    | nil => simp at hd
    | cons i0 I =>
      cases d with
      | zero => simp at h; subst h; simp [dprod]
      | succ d =>
        simp only [List.getElem?_cons_succ] at h
        simp only [List.set_cons_succ, dprod, ih i h (by simpa using hd)]
        ring

theorem basisFns_get : ∀ {Us : List (List K)} {ps : List ℕ} {xs : List K} {d : ℕ} {U : List K} {p : ℕ} {x : K}, Us[d]? = some U →
    ps[d]? = some p → xs[d]? = some x → (basisFns Us ps xs)[d]? = some fun i => coxDeBoor U p i x := by
  intro Us
  induction Us with
  | nil => intro ps xs d U p x h; simp at h
  | cons U0 Us ih =>
    intro ps xs d U p x h1 h2 h3
    cases ps with
    | nil => simp at h2
    | cons p0 ps =>
      cases xs with
      | nil => simp at h3
      | cons x0 xs =>
        cases d with
        | zero => simp_all [basisFns]
        | succ d => simp only [List.getElem?_cons_succ] at *; simpa [basisFns] using ih h1 h2 h3

theorem basisFns_set : ∀ {Us : List (List K)} {ps qs : List ℕ} {xs : List K} {d : ℕ} {U : List K} {p : ℕ} {x : K} (V : List K) (q : ℕ), Us[d]? = some U →
    ps[d]? = some p → xs[d]? = some x → qs = ps.set d q →
    basisFns (Us.set d V) qs xs = (basisFns Us ps xs).set d fun i => coxDeBoor V q i x := by
  intro Us
  induction Us with
  | nil => intro ps qs xs d U p x V q h; simp at h
  | cons U0 Us ih =>
    intro ps qs xs d U p x V q h1 h2 h3 hq
    subst hq
    cases ps with
    | nil => simp at h2
    | cons p0 ps =>
      cases xs with
      | nil => simp at h3
      | cons x0 xs =>
        cases d with
        | zero => simp_all [basisFns]
        | succ d =>
          simp only [List.getElem?_cons_succ] at *
          simp only [List.set_cons_succ, basisFns]
          rw [ih V q h1 h2 h3 rfl]

theorem set_same {α : Type*} {l : List α} {d : ℕ} {a : α} (h : l[d]? = some a) : l.set d a = l := by
  apply List.ext_getElem?
  intro i
  rw [List.getElem?_set]
  by_cases hi : d = i
  · subst hi
    have hd : d < l.length := by by_contra hc; rw [List.getElem?_eq_none (by omega)] at h; simp at h
    rw [if_pos rfl, if_pos hd, h]
  · rw [if_neg hi]

/-- The number of control points per direction. -/
def nptsOf (Us : List (List K)) (ps : List ℕ) : List ℕ := List.zipWith (fun U p => U.length - p - 1) Us ps

theorem npts_eq (s : Spl K) : npts s = nptsOf s.ps.knots s.ps.degree := rfl

theorem lt_of_some {α : Type*} {l : List α} {d : ℕ} {a : α} (h : l[d]? = some a) : d < l.length := by
  by_contra hc; rw [List.getElem?_eq_none (by omega)] at h; simp at h

theorem nptsOf_get {Us : List (List K)} {ps : List ℕ} {d : ℕ} {U : List K} {p : ℕ} (hU : Us[d]? = some U) (hp : ps[d]? = some p) :
    (nptsOf Us ps)[d]? = some (U.length - p - 1) := by
  simp [nptsOf, List.getElem?_zipWith, hU, hp]

theorem nptsOf_ixd {Us : List (List K)} {ps : List ℕ} {d : ℕ} {U : List K} {p : ℕ} (hU : Us[d]? = some U) (hp : ps[d]? = some p) :
    ixd (nptsOf Us ps) d = U.length - p - 1 := by
  simp [ixd, List.getD_eq_getElem?_getD, nptsOf_get hU hp]

theorem nptsOf_set {Us : List (List K)} : ∀ {ps : List ℕ} {d : ℕ} (V : List K) {p : ℕ}, ps[d]? = some p →
    nptsOf (Us.set d V) ps = (nptsOf Us ps).set d (V.length - p - 1) := by
  induction Us with
  | nil => intro ps d V p h; simp [nptsOf]
  | cons U0 Us ih =>
    intro ps d V p h
    cases ps with
    | nil => simp at h
    | cons p0 ps =>
      cases d with
      | zero => simp at h; subst h; simp [nptsOf]
      | succ d =>
        simp only [List.getElem?_cons_succ] at h
        have := ih V h
        simp only [nptsOf, List.set_cons_succ, List.zipWith_cons_cons] at this ⊢
        rw [this]

theorem ixd_set_self' {I : List ℕ} {d i : ℕ} (h : d < I.length) : ixd (I.set d i) d = i := ixd_set_self h

/-- A change in direction `d` that preserves all univariate sums preserves the tensor product sums. -/
theorem tensor_change {Us : List (List K)} {ps : List ℕ} {xs : List K} {d : ℕ} {U V : List K} {p q : ℕ} {x : K}
    (hU : Us[d]? = some U) (hp : ps[d]? = some p) (hx : xs[d]? = some x) {n' : ℕ} {F G : List ℕ → K}
    (h : ∀ I, InBox ((nptsOf Us ps).set d 1) I → ∑ i ∈ range (U.length - p - 1), coxDeBoor U p i x * F (I.set d i) =
      ∑ i ∈ range n', coxDeBoor V q i x * G (I.set d i)) :
    msum (nptsOf Us ps) (fun I => dprod (basisFns Us ps xs) I * F I) =
      msum ((nptsOf Us ps).set d n') (fun I => dprod (basisFns (Us.set d V) (ps.set d q) xs) I * G I) := by
  have hd := lt_of_some (nptsOf_get hU hp)
  apply msum_change_dir _ d hd
  intro I hI
  have hdI : d < I.length := by rw [hI.length]; simpa using hd
  have e1 : (nptsOf Us ps).getD d 0 = U.length - p - 1 := nptsOf_ixd hU hp
  rw [e1]
  have hb := basisFns_get hU hp hx
  rw [basisFns_set V q hU hp hx rfl]
  have hb' : ((basisFns Us ps xs).set d fun i => coxDeBoor V q i x)[d]? = some fun i => coxDeBoor V q i x := by
    rw [List.getElem?_set]; simp [lt_of_some hb]
  have l1 : ∀ i, dprod (basisFns Us ps xs) (I.set d i) = coxDeBoor U p i x * dprod ((basisFns Us ps xs).set d fun _ => 1) I :=
    fun i => dprod_set i hb hdI
  have l2 : ∀ i, dprod ((basisFns Us ps xs).set d fun i => coxDeBoor V q i x) (I.set d i) =
      coxDeBoor V q i x * dprod ((basisFns Us ps xs).set d fun _ => 1) I := by
    intro i
    rw [dprod_set i hb' hdI, List.set_set]
  simp only [l1, l2]
  have := congrArg (fun a => dprod ((basisFns Us ps xs).set d fun _ => 1) I * a) (h I hI)
  simp only [mul_sum] at this
  rw [sum_congr rfl (g := fun i => dprod ((basisFns Us ps xs).set d fun _ => 1) I * (coxDeBoor U p i x * F (I.set d i)))
    (fun i _ => by ring), this]
  exact sum_congr rfl fun i _ => by ring

/-! ### Same sums, same geometry -/

/-- The tensor product sums of both splines agree. -/
structure SameSums (s s' : Spl K) : Prop where
  dim : s'.ph.dim = s.ph.dim
  kind : s.ph.weights = none ↔ s'.ph.weights = none
  domain : ∀ x, InDomain s' x ↔ InDomain s x
  wsum : ∀ x, InDomain s x → tensorSum s' x (wgt s') = tensorSum s x (wgt s)
  csum : ∀ x, InDomain s x → ∀ c < s.ph.dim, tensorSum s' x (fun I => wgt s' I * cpt s' I c) = tensorSum s x (fun I => wgt s I * cpt s I c)

theorem SameSums.refl (s : Spl K) : SameSums s s := ⟨rfl, Iff.rfl, fun _ => Iff.rfl, fun _ _ => rfl, fun _ _ _ _ => rfl⟩

theorem SameSums.trans {s t u : Spl K} (h : SameSums s t) (g : SameSums t u) : SameSums s u :=
  ⟨g.dim.trans h.dim, h.kind.trans g.kind, fun x => (g.domain x).trans (h.domain x),
    fun x hx => (g.wsum x ((h.domain x).2 hx)).trans (h.wsum x hx),
    fun x hx c hc => (g.csum x ((h.domain x).2 hx) c (by rw [h.dim]; exact hc)).trans (h.csum x hx c hc)⟩

theorem isNurbs_iff {s : Spl K} : IsNurbs s ↔ ¬ s.ph.weights = none := by
  unfold IsNurbs; cases s.ph.weights <;> simp

theorem SameSums.geometry {s s' : Spl K} (hs : WFSpl s) (hs' : WFSpl s') (h : SameSums s s') : SameGeometry s s' := by
  refine ⟨h.dim, h.kind, h.domain, ?_⟩
  intro x hx dims hd
  have hx' := (h.domain x).2 hx
  by_cases hw : s.ph.weights = none
  · have hw' := h.kind.1 hw
    have hd' : ∀ c ∈ dims, c < s.ph.dim := by
      intro c hc
      rcases hd c hc with h1 | h1
      · exact h1
      · exact absurd hw (isNurbs_iff.1 h1.2)
    rw [evaluate_bspline hs hw hx dims hd', evaluate_bspline hs' hw' hx' dims (by rw [h.dim]; exact hd')]
    congr 1
    apply List.map_congr_left
    intro c hc
    have := h.csum x hx c (hd' c hc)
    simpa [wgt, hw, hw', bsplineValue] using this
  · have hw' : ¬ s'.ph.weights = none := fun hc => hw (h.kind.2 hc)
    have hd' : ∀ c ∈ dims, c ≤ s.ph.dim := by
      intro c hc
      rcases hd c hc with h1 | h1 <;> omega
    rw [evaluate_nurbs hs (isNurbs_iff.2 hw) hx dims hd', evaluate_nurbs hs' (isNurbs_iff.2 hw') hx' dims (by rw [h.dim]; exact hd')]
    congr 1
    apply List.map_congr_left
    intro c hc
    rw [h.dim]
    have e1 : weightValue s' x = weightValue s x := h.wsum x hx
    split_ifs with hcd
    · exact e1
    · unfold nurbsValue
      rw [e1, h.csum x hx c (by have := hd' c hc; omega)]

/-! ### Multiplicity and span -/

theorem count_window {U : List K} {a b : ℕ} {t : K} (hab : a ≤ b) (hb : b ≤ U.length) (h1 : ∀ i < a, knot U i ≠ t)
    (h2 : ∀ i, a ≤ i → i < b → knot U i = t) (h3 : ∀ i < U.length, b ≤ i → knot U i ≠ t) : U.count t = b - a := by
  have e : U = U.take a ++ ((U.take b).drop a ++ U.drop b) := by
    conv_lhs => rw [← List.take_append_drop b U]
    rw [← List.append_assoc]
    congr 1
    conv_lhs => rw [← List.take_append_drop a (U.take b)]
    rw [List.take_take, Nat.min_eq_left hab]
  rw [e, List.count_append, List.count_append]
  have c1 : (U.take a).count t = 0 := by
    rw [List.count_eq_zero]
    intro hm
    obtain ⟨i, hi, he⟩ := List.getElem_of_mem hm
    rw [List.length_take] at hi
    rw [List.getElem_take] at he
    exact h1 i (by omega) (by rw [knot_eq (by omega)]; exact he)
  have c3 : (U.drop b).count t = 0 := by
    rw [List.count_eq_zero]
    intro hm
    obtain ⟨i, hi, he⟩ := List.getElem_of_mem hm
    rw [List.length_drop] at hi
    rw [List.getElem_drop] at he
    exact h3 (b + i) (by omega) (by omega) (by rw [knot_eq (by omega)]; exact he)
  have c2 : ((U.take b).drop a).count t = b - a := by
    have hl : ((U.take b).drop a).length = b - a := by simp; omega
    rw [← hl, List.count_eq_length]
    intro y hy
    obtain ⟨i, hi, he⟩ := List.getElem_of_mem hy
    rw [hl] at hi
    rw [List.getElem_drop, List.getElem_take] at he
    rw [← he, ← h2 (a + i) (by omega) (by omega), knot_eq (by omega)]
  omega

/-- The position of an admissible knot. -/
theorem Admissible.pos {U : List K} {p : ℕ} {t : K} (h : WFKnots U p) (ht : Admissible U t) :
    InsAt U p (spanIx U t) t ∧ t < knot U (spanIx U t + 1) ∧ kvMult U t ≤ spanIx U t ∧ knot U (spanIx U t - kvMult U t) < t ∧
      (∀ j, spanIx U t - kvMult U t < j → j ≤ spanIx U t → knot U j = t) := by
  obtain ⟨_, h2, h3, h4⟩ := h.span ht.lo.le ht.hi.le
  have hne := h.ne_nil
  have hspan : knot U (spanIx U t) ≤ t ∧ t < knot U (spanIx U t + 1) := by
    rcases h2 with h2 | h2
    · exact h2
    · exact absurd h2.2.2 (ne_of_lt ht.hi)
  have hins : InsAt U p (spanIx U t) t := ⟨h, h3, h4, hspan.1, hspan.2.le, ht.sep⟩
  obtain ⟨a1, a2, a3⟩ := lowerBound_spec h.sorted t
  have hak : lowerBound U t ≤ spanIx U t + 1 := by
    by_contra hc
    have := a2 (spanIx U t + 1) (by omega) (by omega)
    exact lt_asymm this hspan.2
  have hcount : kvMult U t = spanIx U t + 1 - lowerBound U t := by
    apply count_window hak (by omega)
    · intro i hi; exact ne_of_lt (a2 i (by omega) hi)
    · intro i hi1 hi2
      exact le_antisymm (le_trans (h.sorted.mono (by omega) (by omega)) hspan.1) (a3 i (by omega) hi1)
    · intro i hi1 hi2
      exact ne_of_gt (lt_of_lt_of_le hspan.2 (h.sorted.mono hi2 hi1))
  have ha0 : 0 < lowerBound U t := by
    by_contra hc
    have := a3 0 (by omega) (by omega)
    exact lt_irrefl _ (lt_of_lt_of_le ht.lo this)
  refine ⟨hins, hspan.2, by omega, ?_, ?_⟩
  · rw [hcount]
    exact a2 _ (by omega) (by omega)
  · intro j hj1 hj2
    exact le_antisymm (le_trans (h.sorted.mono (by omega) (by omega)) hspan.1) (a3 j (by omega) (by omega))

theorem Admissible.notLast {U : List K} {p : ℕ} {t : K} (h : WFKnots U p) (ht : Admissible U t) : kvIsLast U t = .ok false := by
  rw [kvIsLast_eq h.ne_nil]
  congr 1
  rw [decide_eq_false_iff_not, abs_lt]
  intro hc
  have := ht.sep t (by simp) (lastKnot U) (by simp [lastKnot_mem h.ne_nil]) ht.hi
  linarith [hc.1]

theorem Admissible.span_eq {U : List K} {p : ℕ} {t : K} (h : WFKnots U p) (ht : Admissible U t) : kvSpan U t = .ok (spanIx U t : ℤ) :=
  (h.span ht.lo.le ht.hi.le).1

theorem Admissible.insert {U : List K} {p : ℕ} {t : K} (h : WFKnots U p) (ht : Admissible U t) :
    kvInsert U t = .ok (U.insertIdx (spanIx U t + 1) t) := by
  have := ht.pos h
  have h1 := this.1.hi
  simp only [kvInsert, ht.span_eq h, ok_bind]
  rw [if_pos (by omega)]
  rfl

/-- The inserted knot is still admissible. -/
theorem Admissible.next {U : List K} {p : ℕ} {t : K} (h : WFKnots U p) (ht : Admissible U t) :
    Admissible (U.insertIdx (spanIx U t + 1) t) t := by
  have hi := (ht.pos h).1
  refine ⟨by rw [hi.firstKnot]; exact ht.lo, by rw [hi.lastKnot]; exact ht.hi, ?_⟩
  intro a ha b hb hab
  refine ht.sep a ?_ b ?_ hab
  · simp only [List.mem_cons, hi.mem] at ha ⊢; tauto
  · simp only [List.mem_cons, hi.mem] at hb ⊢; tauto

theorem Admissible.next_span {U : List K} {p : ℕ} {t : K} (h : WFKnots U p) (ht : Admissible U t) :
    spanIx (U.insertIdx (spanIx U t + 1) t) t = spanIx U t + 1 := by
  obtain ⟨hi, hlt, _⟩ := ht.pos h
  have hh := hi.hi
  apply spanIx_unique hi.wf' (by rw [hi.firstKnot]; exact ht.lo.le) (by rw [hi.lastKnot]; exact ht.hi.le)
  · rw [hi.length]; omega
  · left
    rw [hi.knot, hi.knot, if_neg (by omega), if_pos rfl, if_neg (by omega), if_neg (by omega)]
    exact ⟨le_refl _, hlt⟩

theorem Admissible.next_mult {U : List K} {p : ℕ} {t : K} (h : WFKnots U p) (ht : Admissible U t) :
    kvMult (U.insertIdx (spanIx U t + 1) t) t = kvMult U t + 1 := by
  have hh := (ht.pos h).1.hi
  unfold kvMult
  rw [count_insertIdx (by omega)]; simp

end
end SplineLib
