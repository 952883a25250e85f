import Verif.Core.History
import Verif.Props.KnotInsertion
import Verif.Props.KnotRemoval
import Verif.Props.Evaluation

/-!
# C23: histories of operations keep splines consistent
-/

namespace SplineLib
set_option linter.unusedSectionVars false
variable {K : Type} [Field K] [LinearOrder K] [IsStrictOrderedRing K]

/-- A call that a user can make on a spline object. -/
inductive Op (K : Type) where
  | insertKnot (t : K) (d m : ℕ)
  | refineKnots (ts : List K) (d : ℕ)
  | removeKnot (t : K) (d : ℕ) (tol : K) (n : ℕ)
  | evaluate (x : List K) (dims : List ℕ)

/-- The object after the call. `Evaluate` is a `const` member function; an exception that it throws leaves the object as it is. -/
def Op.perform [HasSqrt K] : Op K → Spl K → M (Spl K)
  | .insertKnot t d m, s => s.insertKnot t d m
  | .refineKnots ts d, s => s.refineKnots ts d
  | .removeKnot t d tol n, s => (s.removeKnot t d tol n).map Prod.fst
  | .evaluate x dims, s =>
    match s.evaluate x (zl dims) with
    | .error (.thrown _) => .ok s
    | .error e => .error e
    | .ok _ => .ok s

/-- The arguments the property speaks about: an existing direction, knots strictly inside the range (at least `kEpsilon` apart from
other knots), removals of at most the copies that are there, and existing coordinates. -/
def Op.Admitted (s : Spl K) : Op K → Prop
  | .insertKnot t d m => ∃ U p, s.ps.knots[d]? = some U ∧ s.ps.degree[d]? = some p ∧ Admissible U t ∧ U.length + m < 2 ^ 63
  | .refineKnots ts d => ∃ U p, s.ps.knots[d]? = some U ∧ s.ps.degree[d]? = some p ∧ (∀ t ∈ ts, knot U 0 < t ∧ t < lastKnot U) ∧
      Separated (ts ++ U) ∧ U.length + ts.length < 2 ^ 63
  | .removeKnot t d _ n => ∃ U p, s.ps.knots[d]? = some U ∧ s.ps.degree[d]? = some p ∧ knot U 0 < t ∧ t < lastKnot U ∧ n ≤ kvMult U t ∧
      kvMult U t ≤ p ∧ U.length < 2 ^ 63
  | .evaluate x dims => x.length = s.ps.knots.length ∧ ∀ c ∈ dims, c < s.ph.dim

/-- A sequence of calls. -/
def runOps [HasSqrt K] : List (Op K) → Spl K → M (Spl K)
  | [], s => .ok s
  | op :: ops, s => do
    let s' ← op.perform s
    runOps ops s'

/-- Every call of the sequence is admitted for the object it is made on. -/
def AdmittedAll [HasSqrt K] : List (Op K) → Spl K → Prop
  | [], _ => True
  | op :: ops, s => op.Admitted s ∧ ∀ s', op.perform s = .ok s' → AdmittedAll ops s'

/-- The representation invariant: sorted clamped knot vectors that fit the degrees, basis functions up to date, numbers of points that
fit the knot vectors, and as many control points (and weights) as these numbers say. -/
structure Consistent (s : Spl K) : Prop where
  knots : List.Forall₂ WFKnots s.ps.knots s.ps.degree
  basis : PS.basisTable s.ps.knots s.ps.degree = .ok s.ps.basis
  num : s.ph.num = zl (List.zipWith (fun U p => U.length - p - 1) s.ps.knots s.ps.degree)
  dim : 0 < s.ph.dim
  cps : s.ph.cps.length = s.ph.dim * (List.zipWith (fun U p => U.length - p - 1) s.ps.knots s.ps.degree).prod
  weights : ∀ w, s.ph.weights = some w → w.length = (List.zipWith (fun U p => U.length - p - 1) s.ps.knots s.ps.degree).prod

theorem ShapeSpl.consistent {s : Spl K} (h : ShapeSpl s) : Consistent s :=
  ⟨h.ps.knots, h.ps.basis, h.ph.num, h.ph.dim, h.ph.cps, h.ph.weights⟩

/-- What never changes. -/
structure Unchanged (s s' : Spl K) : Prop where
  degree : s'.ps.degree = s.ps.degree
  ends : List.Forall₂ (fun U V => knot V 0 = knot U 0 ∧ lastKnot V = lastKnot U) s.ps.knots s'.ps.knots
  dim : s'.ph.dim = s.ph.dim
  kind : IsBSpline s ↔ IsBSpline s'

theorem Unchanged.refl (s : Spl K) : Unchanged s s := ⟨rfl, List.forall₂_same.2 fun _ _ => ⟨rfl, rfl⟩, rfl, Iff.rfl⟩

theorem Unchanged.trans {a b c : Spl K} (h : Unchanged a b) (g : Unchanged b c) : Unchanged a c := by
  refine ⟨g.degree.trans h.degree, ?_, g.dim.trans h.dim, h.kind.trans g.kind⟩
  have h1 := h.ends
  have h2 := g.ends
  generalize a.ps.knots = A at h1
  generalize b.ps.knots = B at h1 h2
  generalize c.ps.knots = C at h2
  clear h g
  induction h1 generalizing C with
  | nil => cases h2; exact .nil
  | cons h _ ih =>
    cases h2 with
    | cons g g2 => exact .cons ⟨g.1.trans h.1, g.2.trans h.2⟩ (ih _ g2)

theorem ends_set {A : List (List K)} {d : ℕ} {U V : List K} (hU : A[d]? = some U) (h : knot V 0 = knot U 0 ∧ lastKnot V = lastKnot U) :
    List.Forall₂ (fun U V => knot V 0 = knot U 0 ∧ lastKnot V = lastKnot U) A (A.set d V) := by
  induction A generalizing d with
  | nil => simp at hU
  | cons W A ih =>
    cases d with
    | zero =>
      obtain rfl : W = U := by simpa using hU
      exact .cons h (List.forall₂_same.2 fun _ _ => ⟨rfl, rfl⟩)
    | succ d => exact .cons ⟨rfl, rfl⟩ (ih (by simpa using hU))

/-- Outcome of a call on an object with the invariant. -/
def Kept (s : Spl K) (r : M (Spl K)) : Prop :=
  (∃ er, r = .error er ∧ IsNurbs s) ∨ ∃ s', r = .ok s' ∧ ShapeSpl s' ∧ Unchanged s s'

theorem kept_insert {s : Spl K} (h : ShapeSpl s) {d : ℕ} {U : List K} {p : ℕ} (hU : s.ps.knots[d]? = some U)
    (hp : s.ps.degree[d]? = some p) {t : K} (ht : Admissible U t) {m : ℕ} (hsz : U.length + m < 2 ^ 63) : Kept s (s.insertKnot t d m) := by
  have hw := forall₂_get h.ps.knots hU hp
  have hf := insMany_facts hw ht m
  have good : ∀ s', s.insertKnot t d m = .ok s' → Kept s (s.insertKnot t d m) := by
    intro s' hr
    obtain ⟨a1, a2, a3, a4, a5⟩ := insertKnot_shape h hU hp ht hr
    exact Or.inr ⟨s', hr, a1, a2, by rw [a3]; exact ends_set hU ⟨hf.first, hf.last⟩, a4, a5⟩
  cases hr : s.insertKnot t d m with
  | error er =>
    refine Or.inl ⟨er, rfl, ?_⟩
    rw [isNurbs_iff]
    intro hb
    obtain ⟨s', e, _⟩ := insertKnot_many (h.wf_bspline hb) hU hp ht m hsz
    rw [hr] at e
    simp at e
  | ok s' => rw [← hr]; exact good s' hr

theorem Kept.bind {s : Spl K} {r : M (Spl K)} {f : Spl K → M (Spl K)} (h : Kept s r)
    (hf : ∀ s', r = .ok s' → ShapeSpl s' → Unchanged s s' → Kept s' (f s')) : Kept s (r >>= f) := by
  rcases h with ⟨er, rfl, hn⟩ | ⟨s', rfl, hs, hu⟩
  · exact Or.inl ⟨er, rfl, hn⟩
  · rw [ok_bind]
    rcases hf s' rfl hs hu with ⟨er, he, hn⟩ | ⟨s2, he, hs2, hu2⟩
    · refine Or.inl ⟨er, he, ?_⟩
      rw [isNurbs_iff] at hn ⊢
      exact fun hb => hn (hu.kind.1 hb)
    · exact Or.inr ⟨s2, he, hs2, hu.trans hu2⟩

theorem kept_refine {d : ℕ} {p : ℕ} : ∀ (ts : List K) {s : Spl K} (_ : ShapeSpl s) {U : List K} (_ : s.ps.knots[d]? = some U)
    (_ : s.ps.degree[d]? = some p) (_ : ∀ t ∈ ts, knot U 0 < t ∧ t < lastKnot U) (_ : Separated (ts ++ U))
    (_ : U.length + ts.length < 2 ^ 63), Kept s (s.refineKnots ts d) := by
  intro ts
  induction ts with
  | nil => intro s h U _ _ _ _ _; exact Or.inr ⟨s, rfl, h, Unchanged.refl s⟩
  | cons t ts ih =>
    intro s h U hU hp hx hsep hsz
    have hw := forall₂_get h.ps.knots hU hp
    have ht : Admissible U t :=
      ⟨(hx t (by simp)).1, (hx t (by simp)).2, fun a ha b hb => hsep a (by simp at ha ⊢; tauto) b (by simp at hb ⊢; tauto)⟩
    simp only [List.length_cons] at hsz
    have hi := (ht.pos hw).1
    show Kept s (s.insertKnot t d >>= fun s' => s'.refineKnots ts d)
    refine (kept_insert h hU hp ht (m := 1) (by omega)).bind ?_
    intro s1 e1 w1 _
    obtain ⟨_, d1, k1, _, _⟩ := insertKnot_shape h hU hp ht e1
    refine ih w1 (U := U.insertIdx (spanIx U t + 1) t) ?_ (by rw [d1]; exact hp) ?_ ?_ ?_
    · rw [k1, List.getElem?_set]; simp [lt_of_some hU, insMany]
    · intro y hy; rw [hi.firstKnot, hi.lastKnot]; exact hx y (by simp [hy])
    · intro a ha b hb
      refine hsep a ?_ b ?_
      · simp only [List.mem_append, hi.mem] at ha
        simp only [List.cons_append, List.mem_cons, List.mem_append]; tauto
      · simp only [List.mem_append, hi.mem] at hb
        simp only [List.cons_append, List.mem_cons, List.mem_append]; tauto
    · rw [hi.length]; omega

theorem removed_ends {U V : List K} {p : ℕ} (hU : WFKnots U p) (hV : WFKnots V p) {t : K} {k : ℕ} (h0 : knot U 0 < t)
    (h1 : t < lastKnot U) (hc : ∀ y, V.count y + (if y = t then k else 0) = U.count y) :
    knot V 0 = knot U 0 ∧ lastKnot V = lastKnot U := by
  have hUn := hU.ne_nil
  have hVn := hV.ne_nil
  have hUp := List.length_pos_iff.2 hUn
  have hVp := List.length_pos_iff.2 hVn
  have mem_first : ∀ (W : List K), 0 < W.length → knot W 0 ∈ W := by
    intro W hW
    unfold knot
    rw [List.getD_eq_getElem?_getD, List.getElem?_eq_getElem hW]
    exact List.getElem_mem hW
  have mem_last : ∀ (W : List K), 0 < W.length → lastKnot W ∈ W := by
    intro W hW
    unfold lastKnot knot
    rw [List.getD_eq_getElem?_getD, List.getElem?_eq_getElem (by omega)]
    exact List.getElem_mem (by omega)
  have bounds : ∀ (W : List K), WFKnots W p → ∀ y ∈ W, knot W 0 ≤ y ∧ y ≤ lastKnot W := by
    intro W hW y hy
    obtain ⟨i, hi, rfl⟩ := List.getElem_of_mem hy
    have e : W[i] = knot W i := by
      unfold knot
      rw [List.getD_eq_getElem?_getD, List.getElem?_eq_getElem hi]; rfl
    rw [e]
    exact ⟨hW.sorted.mono (Nat.zero_le i) hi, hW.sorted.mono (Nat.le_sub_one_of_lt hi) (by omega)⟩
  have sub : ∀ y ∈ V, y ∈ U := by
    intro y hy
    have := List.count_pos_iff.2 hy
    have := hc y
    exact List.count_pos_iff.1 (by omega)
  have sup : ∀ y ∈ U, y ≠ t → y ∈ V := by
    intro y hy hne
    have h2 := List.count_pos_iff.2 hy
    have h3 := hc y
    rw [if_neg hne] at h3
    exact List.count_pos_iff.1 (by omega)
  constructor
  · exact le_antisymm (bounds V hV _ (sup _ (mem_first U hUp) h0.ne)).1 (bounds U hU _ (sub _ (mem_first V hVp))).1
  · exact le_antisymm (bounds U hU _ (sub _ (mem_last V hVp))).2 (bounds V hV _ (sup _ (mem_last U hUp) h1.ne')).2

section
variable [HasSqrt K]

theorem kept_op {s : Spl K} (h : ShapeSpl s) (op : Op K) (ha : op.Admitted s) : Kept s (op.perform s) := by
  cases op with
  | insertKnot t d m =>
    obtain ⟨U, p, hU, hp, ht, hsz⟩ := ha
    exact kept_insert h hU hp ht hsz
  | refineKnots ts d =>
    obtain ⟨U, p, hU, hp, h1, h2, h3⟩ := ha
    exact kept_refine ts h hU hp h1 h2 h3
  | removeKnot t d tol n =>
    obtain ⟨U, p, hU, hp, h0, h1, hn, hm, hsz⟩ := ha
    have hw := forall₂_get h.ps.knots hU hp
    rcases removeRounds_counts tol n h hU hp h0 h1 hn hm hsz 0 with ⟨er, he, hN⟩ | ⟨s', k, V, e1, e2, e3, e4⟩
    · refine Or.inl ⟨er, ?_, hN⟩
      simp only [Op.perform, Spl.removeKnot, he]
      rfl
    · refine Or.inr ⟨s', ?_, e3.shape, e3.degree, ?_, e3.dim, e3.kind⟩
      · simp only [Op.perform, Spl.removeKnot, e1]
        rfl
      · rw [e3.knots]
        exact ends_set hU (removed_ends hw e4 h0 h1 e3.count)
  | evaluate x dims =>
    obtain ⟨hl, hd⟩ := ha
    have good : Kept s (.ok s) := Or.inr ⟨s, rfl, h, Unchanged.refl s⟩
    simp only [Op.perform]
    cases hr : s.evaluate x (zl dims) with
    | ok v => exact good
    | error e =>
      have bad : IsNurbs s ∨ ∃ ex, e = .thrown ex := by
        by_cases hb : IsBSpline s
        · right
          by_cases hx : InDomain s x
          · obtain ⟨v, hv, _⟩ := (C02_evaluate (h.wf_bspline hb) hl).2 dims hd hx
            rw [hr] at hv
            simp at hv
          · have := (C02_evaluate (h.wf_bspline hb) hl).1 (zl dims) hx
            rw [hr] at this
            exact ⟨_, Except.error.inj this⟩
        · exact Or.inl (isNurbs_iff.2 hb)
      cases e with
      | thrown ex => exact good
      | _ =>
        rcases bad with hn | ⟨ex, hex⟩
        · exact Or.inl ⟨_, rfl, hn⟩
        · simp at hex

/-- **C23**: every history of admitted knot insertions, refinements, removals and evaluations, of any length, starting from a
well-formed spline, ends in a consistent object with the same degrees, parameter ranges, dimension and class — unless a NURBS computation
divides by zero (possible after a removal has made weights non-positive). A B-spline even stays well formed, so no call fails. -/
theorem C23_histories {s : Spl K} (h : WFSpl s) (ops : List (Op K)) (ha : AdmittedAll ops s) :
    (∃ er, runOps ops s = .error er ∧ IsNurbs s) ∨
    ∃ s', runOps ops s = .ok s' ∧ Consistent s' ∧ Unchanged s s' ∧ (IsBSpline s → WFSpl s') := by
  have key : ∀ (ops : List (Op K)) (s : Spl K), ShapeSpl s → AdmittedAll ops s → Kept s (runOps ops s) := by
    intro ops
    induction ops with
    | nil => intro s h _; exact Or.inr ⟨s, rfl, h, Unchanged.refl s⟩
    | cons op ops ih =>
      intro s h ha
      exact (kept_op h op ha.1).bind fun s' he hs _ => ih s' hs (ha.2 s' he)
  rcases key ops s h.shape ha with he | ⟨s', e1, e2, e3⟩
  · exact Or.inl he
  · exact Or.inr ⟨s', e1, e2.consistent, e3, fun hb => e2.wf_bspline (e3.kind.1 hb)⟩

/-- The call is not a removal. -/
def Op.KeepsGeometry : Op K → Prop
  | .removeKnot _ _ _ _ => False
  | _ => True

/-- **C23**: histories without removals never fail and keep every spline, also NURBS, well formed; the geometry at the end is the
geometry at the beginning. -/
theorem C23_histories_without_removal {s : Spl K} (h : WFSpl s) (ops : List (Op K)) (ha : AdmittedAll ops s)
    (hr : ∀ op ∈ ops, op.KeepsGeometry) : ∃ s', runOps ops s = .ok s' ∧ WFSpl s' ∧ SameGeometry s s' := by
  have hev : ∀ (s : Spl K), WFSpl s → ∀ x dims, (Op.evaluate x dims : Op K).Admitted s → (Op.evaluate x dims : Op K).perform s = .ok s := by
    intro s h x dims ⟨hl, hd⟩
    simp only [Op.perform]
    by_cases hx : InDomain s x
    · obtain ⟨v, hv, _⟩ := (C02_evaluate h hl).2 dims hd hx
      rw [hv]
    · rw [(C02_evaluate h hl).1 (zl dims) hx]
  have trans : ∀ {a b c : Spl K}, SameGeometry a b → SameGeometry b c → SameGeometry a c := by
    intro a b c h g
    refine ⟨g.dim.trans h.dim, h.kind.trans g.kind, fun x => (g.domain x).trans (h.domain x), ?_⟩
    intro x hx dims hd
    rw [g.values x ((h.domain x).2 hx) dims, h.values x hx dims hd]
    intro c hc
    rcases hd c hc with h1 | ⟨h1, h2⟩
    · left; rw [h.dim]; exact h1
    · right
      refine ⟨by rw [h.dim]; exact h1, ?_⟩
      rw [isNurbs_iff] at h2 ⊢
      exact fun hb => h2 (h.kind.2 hb)
  induction ops generalizing s with
  | nil => exact ⟨s, rfl, h, SameGeometry.refl s⟩
  | cons op ops ih =>
    have step : ∃ s', op.perform s = .ok s' ∧ WFSpl s' ∧ SameGeometry s s' := by
      cases op with
      | insertKnot t d m =>
        obtain ⟨U, p, hU, hp, ht, hsz⟩ := ha.1
        obtain ⟨s', e1, e2, _, _, e5⟩ := insertKnot_many h hU hp ht m hsz
        exact ⟨s', e1, e2, e5.geometry h e2⟩
      | refineKnots ts d =>
        obtain ⟨U, p, hU, hp, h1, h2, h3⟩ := ha.1
        obtain ⟨s', V, e1, e2, _, _, _, _, e7⟩ := C15_refine_preserves h hU hp ts h1 h2 h3
        exact ⟨s', e1, e2, e7⟩
      | removeKnot t d tol n => exact (hr (.removeKnot t d tol n) (by simp)).elim
      | evaluate x dims => exact ⟨s, hev s h x dims ha.1, h, SameGeometry.refl s⟩
    obtain ⟨s1, e1, w1, g1⟩ := step
    obtain ⟨s2, e2, w2, g2⟩ := ih w1 (ha.2 s1 e1) (fun op hop => hr op (by simp [hop]))
    refine ⟨s2, ?_, w2, trans g1 g2⟩
    rw [runOps, e1, ok_bind, e2]

end

/-- A NURBS curve with positive weights. -/
def exFragile : Spl ℚ :=
  ⟨⟨[[0, 0, 0, 1/2, 1, 1, 1]], [2], mkTable [[0, 0, 0, 1/2, 1, 1, 1]] [2]⟩, ⟨1, [4], [0, 1, 1, 0], some [4, 1, 1, 1]⟩⟩

theorem exFragile_wf : WFSpl exFragile where
  knots := by simp only [exFragile]; exact .cons (by decide +kernel) .nil
  basis := by decide +kernel
  num := by decide +kernel
  dim := by decide +kernel
  cps := by decide +kernel
  weights := by
    intro w h
    obtain rfl : [4, 1, 1, 1] = w := Option.some.inj h
    decide +kernel

/-- The exception in C23 is real: for a well-formed NURBS there is a history of admitted calls, a removal with a large tolerance and an
evaluation inside the domain, in which the evaluation divides by zero. -/
theorem C23_nurbs_removal_then_evaluation_fails :
    ∃ s s1 : Spl ℚ, WFSpl s ∧ (Op.removeKnot (1/2) 0 1000 1).Admitted s ∧
      @Op.perform ℚ _ _ ratSqrt (.removeKnot (1/2) 0 1000 1) s = .ok s1 ∧ InDomain s1 [2/3] ∧ (Op.evaluate [2/3] [0]).Admitted s1 ∧
      s1.evaluate [2/3] [0] = .error .nonfinite := by
  refine ⟨exFragile, ⟨⟨[[0, 0, 0, 1, 1, 1]], [2], mkTable [[0, 0, 0, 1, 1, 1]] [2]⟩, ⟨1, [3], [0, -1, 0], some [4, -2, 1]⟩⟩, exFragile_wf,
    ⟨[0, 0, 0, 1/2, 1, 1, 1], 2, rfl, rfl, by decide +kernel, by decide +kernel, by decide +kernel, by decide +kernel, by decide⟩,
    by decide +kernel, ?_, ⟨rfl, by decide⟩, by decide +kernel⟩
  exact .cons (by decide +kernel) .nil

/-- A history that meets the hypotheses: insert 1/4, remove it again, evaluate outside the range. -/
example : WFSpl exCurve ∧ @AdmittedAll ℚ _ _ ratSqrt [.insertKnot (1/4) 0 1, .removeKnot (1/4) 0 0 1, .evaluate [2] [0, 1]] exCurve := by
  refine ⟨exCurve_wf, ⟨_, _, rfl, rfl, by decide +kernel, by decide⟩, ?_⟩
  intro s1 h1
  have e1 : @Op.perform ℚ _ _ ratSqrt (.insertKnot (1/4) 0 1) exCurve = .ok
      ⟨⟨[[0, 0, 0, 1/4, 1/2, 1, 1, 1]], [2], mkTable [[0, 0, 0, 1/4, 1/2, 1, 1, 1]] [2]⟩,
       ⟨2, [5], [0, 0, 1/2, 1, 3/2, 2, 3, 2, 4, 0], none⟩⟩ := by decide +kernel
  obtain rfl := Except.ok.inj (e1.symm.trans h1)
  refine ⟨⟨_, _, rfl, rfl, by decide +kernel, by decide +kernel, by decide +kernel, by decide +kernel, by decide⟩, ?_⟩
  intro s2 h2
  have e2 : @Op.perform ℚ _ _ ratSqrt (.removeKnot (1/4) 0 0 1) ⟨⟨[[0, 0, 0, 1/4, 1/2, 1, 1, 1]], [2], mkTable [[0, 0, 0, 1/4, 1/2, 1, 1, 1]] [2]⟩,
       ⟨2, [5], [0, 0, 1/2, 1, 3/2, 2, 3, 2, 4, 0], none⟩⟩ = .ok exCurve := by decide +kernel
  obtain rfl := Except.ok.inj (e2.symm.trans h2)
  exact ⟨⟨rfl, by decide⟩, fun _ _ => trivial⟩

end SplineLib
