import Verif.Core.InsertMany
import Verif.Spec.Examples

/-!
# Properties C12, C13, C14, C15 (knot insertion)
-/

namespace SplineLib
set_option linter.unusedSectionVars false
variable {K : Type} [Field K] [LinearOrder K] [IsStrictOrderedRing K]

/-- Common part of C12 and C13. -/
theorem insertKnot_preserves {s : Spl K} (h : WFSpl s) {d : ℕ} {U : List K} {p : ℕ} (hU : s.ps.knots[d]? = some U)
    (hp : s.ps.degree[d]? = some p) {t : K} (ht : Admissible U t) (m : ℕ) (hsz : U.length + m < 2 ^ 63) :
    ∃ s' V, s.insertKnot t d m = .ok s' ∧ WFSpl s' ∧ s'.ps.degree = s.ps.degree ∧ s'.ps.knots = s.ps.knots.set d V ∧
      KnotsAdded U t m V ∧ s'.ph.num = s.ph.num.modify d (· + m) ∧ SameGeometry s s' := by
  have hw := forall₂_get h.knots hU hp
  obtain ⟨s', e1, w1, d1, k1, g1⟩ := insertKnot_many h hU hp ht m hsz
  have hf := insMany_facts hw ht m
  refine ⟨s', insMany U t m, e1, w1, d1, k1, ⟨hf.wf.sorted, hf.length, hf.count⟩, ?_, g1.geometry h w1⟩
  rw [w1.num, h.num, npts_eq, k1, d1, nptsOf_set _ hp, hf.length]
  have hd := lt_of_some (nptsOf_get hU hp)
  symm
  apply modify_zl hd
  rw [nptsOf_ixd hU hp]
  have := hw.size
  omega

/-- **C12**: for a well-formed B-spline, any direction, any admissible knot (strictly inside the range, equal to a knot or at least
`kEpsilon` away from all of them) and any multiplicity, `InsertKnot` succeeds, gives a well-formed B-spline with exactly that many
copies of the knot added and that many layers of control points, and `Evaluate` is unchanged on the whole domain. -/
theorem C12_insertKnot_bspline {s : Spl K} (h : WFSpl s) (hb : IsBSpline s) {d : ℕ} {U : List K} {p : ℕ}
    (hU : s.ps.knots[d]? = some U) (hp : s.ps.degree[d]? = some p) {t : K} (ht : Admissible U t) (m : ℕ)
    (hsz : U.length + m < 2 ^ 63) :
    ∃ s' V, s.insertKnot t d m = .ok s' ∧ WFSpl s' ∧ IsBSpline s' ∧ s'.ps.degree = s.ps.degree ∧
      s'.ps.knots = s.ps.knots.set d V ∧ KnotsAdded U t m V ∧ s'.ph.num = s.ph.num.modify d (· + m) ∧
      s'.ph.dim = s.ph.dim ∧ (∀ x, InDomain s' x ↔ InDomain s x) ∧
      ∀ x, InDomain s x → ∀ dims : List ℕ, (∀ c ∈ dims, c < s.ph.dim) → s'.evaluate x (zl dims) = s.evaluate x (zl dims) := by
  obtain ⟨s', V, e1, e2, e3, e4, e5, e6, e7⟩ := insertKnot_preserves h hU hp ht m hsz
  exact ⟨s', V, e1, e2, e7.kind.1 hb, e3, e4, e5, e6, e7.dim, e7.domain,
    fun x hx dims hd => e7.values x hx dims fun c hc => Or.inl (hd c hc)⟩

/-- Satisfiable: two more copies of the existing knot 1/2 in the first direction of a surface, and a new knot in the second. -/
example : WFSpl exSurface ∧ IsBSpline exSurface ∧ exSurface.ps.knots[0]? = some [0, 0, 0, 1/2, 1, 1, 1] ∧
    exSurface.ps.degree[0]? = some 2 ∧ Admissible ([0, 0, 0, 1/2, 1, 1, 1] : List ℚ) (1/2) ∧ Admissible ([-1, -1, 3, 3] : List ℚ) 2 :=
  ⟨exSurface_wf, rfl, rfl, rfl, by decide +kernel, by decide +kernel⟩

example : (exCurve.insertKnot (1/4) 0 2 >>= fun s => pure (s.ps.knots, s.ph.cps)) =
    .ok ([[0, 0, 0, 1/4, 1/4, 1/2, 1, 1, 1]], [0, 0, 1/2, 1, 1, 3/2, 3/2, 2, 3, 2, 4, 0]) := by decide +kernel

/-- **C13**: the same for NURBS; the components compared include the weight function, and (as part of `WFSpl`) all weights stay
positive. -/
theorem C13_insertKnot_nurbs {s : Spl K} (h : WFSpl s) (hn : IsNurbs s) {d : ℕ} {U : List K} {p : ℕ}
    (hU : s.ps.knots[d]? = some U) (hp : s.ps.degree[d]? = some p) {t : K} (ht : Admissible U t) (m : ℕ)
    (hsz : U.length + m < 2 ^ 63) :
    ∃ s' V, s.insertKnot t d m = .ok s' ∧ WFSpl s' ∧ (∃ w, s'.ph.weights = some w ∧ ∀ a ∈ w, 0 < a) ∧
      s'.ps.degree = s.ps.degree ∧
      s'.ps.knots = s.ps.knots.set d V ∧ KnotsAdded U t m V ∧ s'.ph.num = s.ph.num.modify d (· + m) ∧
      s'.ph.dim = s.ph.dim ∧ (∀ x, InDomain s' x ↔ InDomain s x) ∧
      ∀ x, InDomain s x → ∀ dims : List ℕ, (∀ c ∈ dims, c ≤ s.ph.dim) → s'.evaluate x (zl dims) = s.evaluate x (zl dims) := by
  obtain ⟨s', V, e1, e2, e3, e4, e5, e6, e7⟩ := insertKnot_preserves h hU hp ht m hsz
  obtain ⟨w, hw⟩ := isNurbs_iff.2 fun hc => isNurbs_iff.1 hn (e7.kind.2 hc)
  refine ⟨s', V, e1, e2, ⟨w, hw, (e2.weights w hw).2⟩, e3, e4, e5, e6, e7.dim, e7.domain, fun x hx dims hd => e7.values x hx dims ?_⟩
  intro c hc
  rcases Nat.lt_or_eq_of_le (hd c hc) with h1 | h1
  · exact Or.inl h1
  · exact Or.inr ⟨h1, hn⟩

example : WFSpl exNurbsSurface ∧ IsNurbs exNurbsSurface ∧ exNurbsSurface.ps.knots[0]? = some [0, 0, 0, 1/2, 1, 1, 1] ∧
    exNurbsSurface.ps.degree[0]? = some 2 ∧ Admissible ([0, 0, 0, 1/2, 1, 1, 1] : List ℚ) (1/4) :=
  ⟨exNurbsSurface_wf, ⟨_, rfl⟩, rfl, rfl, by decide +kernel⟩

example : (exNurbs.insertKnot (1/4) 0 1 >>= fun s => pure (s.ph.weights, s.ph.cps)) =
    .ok (some [1, 3/2, 13/8, 1/2, 3], [0, 0, 2/3, 4/3, 15/13, 2, 3, 2, 4, 0]) := by decide +kernel

/-! ### C14: boundary knots -/

theorem scalingLoop_error {U : List K} {x : K} {sh : ℤ} : ∀ (n j q : ℕ), q < n → U.length ≤ j + q →
    ∃ e, Spl.scalingLoop U x sh n j = .error e ∧ (e = .ub ∨ e = .nonfinite) := by
  intro n
  induction n with
  | zero => intro j q h; omega
  | succ n ih =>
    intro j q hq hj
    have hget : ∀ i, (∃ a, kvGet U i = .ok a) ∨ kvGet U i = .error .ub := by
      intro i
      unfold kvGet getN
      cases U[i]? <;> simp
    unfold Spl.scalingLoop
    rcases hget j with ⟨a, ha⟩ | ha
    · rcases hget (toSizeT ((j : ℤ) + sh)) with ⟨b, hb⟩ | hb
      · rw [ha, hb, ok_bind, ok_bind]
        by_cases hd : b - a = 0
        · simp only [fdiv, if_pos hd, error_bind]
          exact ⟨_, rfl, Or.inr rfl⟩
        · simp only [fdiv, if_neg hd, ok_bind]
          have hjl : j < U.length := by
            by_contra hc
            unfold kvGet getN at ha
            rw [List.getElem?_eq_none (by omega)] at ha
            simp at ha
          obtain ⟨e, h1, h2⟩ := ih (j + 1) (q - 1) (by omega) (by omega)
          exact ⟨e, by rw [h1]; rfl, h2⟩
      · rw [ha, hb]; exact ⟨_, rfl, Or.inl rfl⟩
    · rw [ha]; exact ⟨_, rfl, Or.inl rfl⟩

/-- **C14** is false at the first knot: for every well-formed spline, every direction and every positive multiplicity the insertion
of the first knot fails. The number of scaling factors wraps around (`last = -1` as `size_t`), so that the loop divides zero by zero
or reads behind the end of the knot vector. -/
theorem C14_first_knot_fails {s : Spl K} (h : WFSpl s) {d : ℕ} {U : List K} {p : ℕ} (hU : s.ps.knots[d]? = some U)
    (hp : s.ps.degree[d]? = some p) (m : ℕ) (hsz : U.length < 2 ^ 63) :
    ∃ e, s.insertKnot (knot U 0) d (m + 1) = .error e ∧ (e = .ub ∨ e = .nonfinite) := by
  have hw := forall₂_get h.knots hU hp
  obtain ⟨a1, a2, a3, a4⟩ := hw.span (le_refl (knot U 0)) hw.range.le
  have hlen : 0 < U.length := List.length_pos_iff.2 hw.ne_nil
  have hlt : knot U 0 < knot U (spanIx U (knot U 0) + 1) := by
    rcases a2 with h1 | h1
    · exact h1.2
    · exact absurd h1.2.2 (ne_of_lt hw.range)
  have hle : knot U (spanIx U (knot U 0)) ≤ knot U 0 := by
    rcases a2 with h1 | h1
    · exact h1.1
    · exact absurd h1.2.2 (ne_of_lt hw.range)
  have hcount : kvMult U (knot U 0) = spanIx U (knot U 0) + 1 - 0 := by
    apply count_window (by omega) (by omega)
    · intro i hi; omega
    · intro i _ hi
      exact le_antisymm (le_trans (hw.sorted.mono (by omega) (by omega)) hle) (hw.sorted.first_le (by omega))
    · intro i hi1 hi2
      exact ne_of_gt (lt_of_lt_of_le hlt (hw.sorted.mono hi2 hi1))
  have hnl : kvIsLast U (knot U 0) = .ok false := by
    rw [kvIsLast_eq hw.ne_nil]
    congr 1
    rw [decide_eq_false_iff_not, abs_lt]
    intro hc
    have := hw.sep (knot U 0) (knot_mem hlen) (lastKnot U) (lastKnot_mem hw.ne_nil) hw.range
    linarith [hc.1]
  have hlast : toSizeT ((spanIx U (knot U 0) : ℤ) - (kvMult U (knot U 0) : ℤ)) = 2 ^ 64 - 1 := by
    rw [hcount]; unfold toSizeT; omega
  obtain ⟨e, h1, h2⟩ := scalingLoop_error (U := U) (x := knot U 0) (sh := (p : ℤ) - ((1 : ℕ) : ℤ) + 1)
    (Spl.stepCount (spanIx U (knot U 0) + 1 - p) (2 ^ 64 - 1)) (spanIx U (knot U 0) + 1 - p) U.length
    (by unfold Spl.stepCount; omega) (by omega)
  refine ⟨e, ?_, h2⟩
  unfold Spl.insertKnot
  rw [getN_some hU, ok_bind, getN_some hp, ok_bind, a1, ok_bind]
  unfold Spl.insertRounds
  rw [hnl, ok_bind]
  simp only [Bool.false_eq_true, if_false]
  rw [hlast, toSizeT_of (i := (spanIx U (knot U 0) : ℤ) - (p : ℤ) + ((1 : ℕ) : ℤ)) (n := spanIx U (knot U 0) + 1 - p) (by omega)
    (by omega), h1]
  rfl

example : exCurve.insertKnot 0 0 1 = .error .nonfinite := by decide +kernel

/-- **C14** is false at the last knot: the insertion succeeds but changes the curve (it duplicates the wrong control point). -/
theorem C14_last_knot_counterexample :
    ∃ (s s' : Spl ℚ), WFSpl s ∧ IsBSpline s ∧ s.insertKnot 1 0 1 = .ok s' ∧ s.ps.knots = [[0, 0, 0, 1/2, 1, 1, 1]] ∧
      s.evaluate [1] [0, 1] = .ok [4, 0] ∧ s'.evaluate [1] [0, 1] = .ok [3, 2] :=
  ⟨exCurve, ⟨⟨[[0, 0, 0, 1/2, 1, 1, 1, 1]], [2], mkTable [[0, 0, 0, 1/2, 1, 1, 1, 1]] [2]⟩,
    ⟨2, [5], [0, 0, 1, 2, 1, 2, 3, 2, 4, 0], none⟩⟩, exCurve_wf, rfl, by decide +kernel, rfl, by decide +kernel, by decide +kernel⟩

/-- **C14**, the part that holds: inserting the last knot once (end knots of multiplicity exactly `p+1`) is memory safe and gives a
well-formed spline with that knot added. The geometry is not preserved, see the counterexample. -/
theorem C14_last_knot_safe_partial {s : Spl K} (h : WFSpl s) {d : ℕ} {U : List K} {p : ℕ} (hU : s.ps.knots[d]? = some U)
    (hp : s.ps.degree[d]? = some p) (he : ExactEnds U p) (hsz : U.length < 2 ^ 63) :
    ∃ s' V, s.insertKnot (lastKnot U) d 1 = .ok s' ∧ WFSpl s' ∧ s'.ps.degree = s.ps.degree ∧ s'.ps.knots = s.ps.knots.set d V ∧
      KnotsAdded U (lastKnot U) 1 V := by
  have hw := forall₂_get h.knots hU hp
  have hsize := hw.size
  have hlast : ∀ i, U.length - p - 2 < i → i < U.length → knot U i = lastKnot U := by
    intro i h1 h2
    have := hw.last (U.length - 1 - i) (by omega)
    rwa [show U.length - 1 - (U.length - 1 - i) = i by omega] at this
  have hspan : spanIx U (lastKnot U) = U.length - p - 2 := by
    apply spanIx_unique hw hw.range.le (le_refl _) (by omega)
    exact Or.inr ⟨he.2, (hlast _ (by omega) (by omega)).symm, rfl⟩
  have hkspan : kvSpan U (lastKnot U) = .ok ((U.length - p - 2 : ℕ) : ℤ) := by
    rw [← hspan]; exact (hw.span hw.range.le (le_refl _)).1
  have hmult : kvMult U (lastKnot U) = U.length - (U.length - p - 1) := by
    apply count_window (by omega) (le_refl _)
    · intro i hi
      exact ne_of_lt (lt_of_le_of_lt (hw.sorted.mono (show i ≤ U.length - p - 2 by omega) (by omega)) he.2)
    · intro i h1 h2; exact hlast i (by omega) h2
    · intro i h1 h2; omega
  have hi : InsAt U p (U.length - p - 2) (lastKnot U) :=
    ⟨hw, by omega, by omega, he.2.le, (hlast _ (by omega) (by omega)).ge,
      fun a ha b hb => hw.sep a (by simp at ha; rcases ha with rfl | ha; exacts [lastKnot_mem hw.ne_nil, ha]) b
        (by simp at hb; rcases hb with rfl | hb; exacts [lastKnot_mem hw.ne_nil, hb])⟩
  have hil : kvIsLast U (lastKnot U) = .ok true := by
    rw [kvIsLast_eq hw.ne_nil]; simp [kEps_pos]
  have hk : List.Forall₂ WFKnots (s.ps.knots.set d (U.insertIdx (U.length - p - 2 + 1) (lastKnot U))) s.ps.degree :=
    forall₂_set h.knots hp hi.wf'
  have hins : kvInsert U (lastKnot U) = .ok (U.insertIdx (U.length - p - 2 + 1) (lastKnot U)) := by
    simp only [kvInsert, hkspan, ok_bind]
    rw [if_pos (by omega)]; rfl
  have hix : ixd (npts s) d = U.length - p - 1 := nptsOf_ixd hU hp
  obtain ⟨ph', b1, b2, b3, b4, b5⟩ := adjustCPs_spec (d := d) (first := U.length - p - 2 + 2 - p) (last := U.length - p - 2 - p)
    (scaling := []) (α := fun _ => 0) h.phys (nptsOf_pos h.knots) (lt_of_some (nptsOf_get hU hp)) (by omega)
    (by rw [hix]; omega) (by intro i h1 h2; omega)
  rw [hix] at b2
  refine ⟨⟨⟨s.ps.knots.set d (U.insertIdx (U.length - p - 2 + 1) (lastKnot U)), s.ps.degree,
      mkTable (s.ps.knots.set d (U.insertIdx (U.length - p - 2 + 1) (lastKnot U))) s.ps.degree⟩, ph'⟩,
    U.insertIdx (U.length - p - 2 + 1) (lastKnot U), ?_, ?_, rfl, rfl, hi.wf'.sorted, hi.length, ?_⟩
  · unfold Spl.insertKnot
    rw [getN_some hU, ok_bind, getN_some hp, ok_bind, hkspan, ok_bind]
    simp only [Spl.insertRounds, hil, ok_bind, if_true]
    rw [toSizeT_of (i := ((U.length - p - 2 : ℕ) : ℤ) + 1 - (kvMult U (lastKnot U) : ℤ)) (n := U.length - p - 2 - p) (by omega) (by omega),
      toSizeT_of (i := ((U.length - p - 2 : ℕ) : ℤ) + 1 - (p : ℤ) + ((1 : ℕ) : ℤ)) (n := U.length - p - 2 + 2 - p) (by omega) (by omega),
      show Spl.stepCount (U.length - p - 2 + 2 - p) (U.length - p - 2 - p) = 0 by unfold Spl.stepCount; omega]
    simp only [Spl.scalingLoop, ok_bind]
    rw [intOfSizeT_nat (by omega), intOfSizeT_nat (by omega), b1]
    simp only [ok_bind, Spl.insertKnotsPS, PS.insertKnot, getN_some hU, hins, PS.recreate, basisTable_eq (forall₂_size hk)]
    rfl
  · rw [wfSpl_iff]
    refine ⟨⟨hk, basisTable_eq (forall₂_size hk)⟩, ?_⟩
    rw [npts_eq]
    simp only
    rw [nptsOf_set _ hp, hi.length, ← npts_eq, show U.length + 1 - p - 1 = U.length - p - 1 + 1 by omega]
    exact b2
  · intro y
    rw [count_insertIdx (by omega)]

example : WFSpl exCurve ∧ exCurve.ps.knots[0]? = some [0, 0, 0, 1/2, 1, 1, 1] ∧ exCurve.ps.degree[0]? = some 2 ∧
    ExactEnds ([0, 0, 0, 1/2, 1, 1, 1] : List ℚ) 2 := ⟨exCurve_wf, rfl, rfl, by decide +kernel⟩

/-! ### C15: several copies at once -/

/-- `m` single insertions, one after the other. -/
def insertRepeatedly (t : K) (d : ℕ) : ℕ → Spl K → M (Spl K)
  | 0, s => .ok s
  | m + 1, s => s.insertKnot t d 1 >>= insertRepeatedly t d m

theorem insertRepeatedly_append (t : K) (d : ℕ) : ∀ (m : ℕ) (s : Spl K),
    insertRepeatedly t d (m + 1) s = (insertRepeatedly t d m s >>= fun s' => s'.insertKnot t d 1) := by
  intro m
  induction m with
  | zero =>
    intro s
    simp only [insertRepeatedly, ok_bind]
    generalize s.insertKnot t d 1 = r
    cases r <;> rfl
  | succ m ih =>
    intro s
    rw [insertRepeatedly]
    conv_rhs => rw [insertRepeatedly]
    simp only [bind_assoc]
    congr 1; funext s'
    exact ih s'

/-- **C15**: inserting `m` copies at once gives exactly the object (knots, cached basis functions, control points, weights) that `m`
single insertions give. -/
theorem C15_multiple_insertion {s : Spl K} (h : WFSpl s) {d : ℕ} {U : List K} {p : ℕ} (hU : s.ps.knots[d]? = some U)
    (hp : s.ps.degree[d]? = some p) {t : K} (ht : Admissible U t) (m : ℕ) (hsz : U.length + m < 2 ^ 63) :
    ∃ s', s.insertKnot t d m = .ok s' ∧ insertRepeatedly t d m s = .ok s' := by
  induction m with
  | zero =>
    obtain ⟨s', e1, _⟩ := insertKnot_many h hU hp ht 0 hsz
    have hw := forall₂_get h.knots hU hp
    refine ⟨s', e1, ?_⟩
    rw [← e1]
    simp only [Spl.insertKnot, getN_some hU, ok_bind, getN_some hp, ht.span_eq hw, Spl.insertRounds, Spl.insertKnotsPS, insertRepeatedly]
    rfl
  | succ m ih =>
    obtain ⟨s1, e1, e2⟩ := ih (by omega)
    obtain ⟨s1', f1, w1, d1, k1, g1⟩ := insertKnot_many h hU hp ht m (by omega)
    obtain rfl : s1 = s1' := by rw [e1] at f1; exact Except.ok.inj f1
    obtain ⟨s2, f2, _⟩ := insertKnot_many h hU hp ht (m + 1) hsz
    refine ⟨s2, f2, ?_⟩
    rw [insertRepeatedly_append, e2, ok_bind, ← f2]
    symm
    exact insertKnot_succ (forall₂_get h.knots hU hp) hU hp ht (by omega) e1 (by rw [k1, List.getElem?_set]; simp [lt_of_some hU])
      (by rw [d1]; exact hp)

/-- **C15**: `RefineKnots` is the sequence of single insertions. -/
theorem C15_refine_is_sequence (s : Spl K) (xs : List K) (d : ℕ) :
    s.refineKnots xs d = xs.foldlM (fun s x => s.insertKnot x d 1) s := by
  unfold Spl.refineKnots
  induction xs generalizing s with
  | nil => rfl
  | cons x xs ih =>
    simp only [PS.forEach, List.foldlM_cons]
    congr 1; funext s'
    exact ih s'

/-- **C15** / C12 / C13: `RefineKnots` with any list of admissible knots adds exactly these knots and does not change the geometry. -/
theorem C15_refine_preserves {s : Spl K} (h : WFSpl s) {d : ℕ} {U : List K} {p : ℕ} (hU : s.ps.knots[d]? = some U)
    (hp : s.ps.degree[d]? = some p) (xs : List K) (hx : ∀ t ∈ xs, knot U 0 < t ∧ t < lastKnot U) (hsep : Separated (xs ++ U))
    (hsz : U.length + xs.length < 2 ^ 63) :
    ∃ s' V, s.refineKnots xs d = .ok s' ∧ WFSpl s' ∧ s'.ps.degree = s.ps.degree ∧ s'.ps.knots = s.ps.knots.set d V ∧
      SortedKnots V ∧ (∀ y, V.count y = U.count y + xs.count y) ∧ SameGeometry s s' := by
  have key : ∀ (xs : List K) (s : Spl K) (U : List K), WFSpl s → s.ps.knots[d]? = some U → s.ps.degree[d]? = some p →
      (∀ t ∈ xs, knot U 0 < t ∧ t < lastKnot U) → Separated (xs ++ U) → U.length + xs.length < 2 ^ 63 →
      ∃ s' V, s.refineKnots xs d = .ok s' ∧ WFSpl s' ∧ s'.ps.degree = s.ps.degree ∧ s'.ps.knots = s.ps.knots.set d V ∧
        SortedKnots V ∧ (∀ y, V.count y = U.count y + xs.count y) ∧ SameSums s s' := by
    intro xs
    induction xs with
    | nil =>
      intro s U h hU hp _ _ _
      exact ⟨s, U, rfl, h, rfl, (set_same hU).symm, (forall₂_get h.knots hU hp).sorted, by simp, SameSums.refl s⟩
    | cons t xs ih =>
      intro s U h hU hp hx hsep hsz
      have hw := forall₂_get h.knots hU hp
      have ht : Admissible U t := ⟨(hx t (by simp)).1, (hx t (by simp)).2, fun a ha b hb => hsep a (by simp at ha ⊢; tauto) b (by simp at hb ⊢; tauto)⟩
      simp only [List.length_cons] at hsz
      obtain ⟨s1, e1, w1, d1, k1, g1⟩ := insertKnot_one h hU hp ht (by omega)
      have hi := (ht.pos hw).1
      have hh := hi.hi
      obtain ⟨s2, V, e2, w2, d2, k2, v1, v2, g2⟩ := ih s1 (U.insertIdx (spanIx U t + 1) t) w1
        (by rw [k1, List.getElem?_set]; simp [lt_of_some hU]) (by rw [d1]; exact hp)
        (by intro y hy; rw [hi.firstKnot, hi.lastKnot]; exact hx y (by simp [hy]))
        (by
          intro a ha b hb
          refine hsep a ?_ b ?_
          · simp only [List.mem_append, hi.mem] at ha
            simp only [List.cons_append, List.mem_cons, List.mem_append]; tauto
          · simp only [List.mem_append, hi.mem] at hb
            simp only [List.cons_append, List.mem_cons, List.mem_append]; tauto)
        (by rw [hi.length]; omega)
      refine ⟨s2, V, ?_, w2, d2.trans d1, by rw [k2, k1, List.set_set], v1, ?_, g1.trans g2⟩
      · unfold Spl.refineKnots at e2 ⊢
        simp only [PS.forEach, e1, ok_bind]
        exact e2
      · intro y
        rw [v2, count_insertIdx (by omega), List.count_cons]
        by_cases hy : y = t
        · subst hy; simp; ring
        · have : (t == y) = false := by simpa using Ne.symm hy
          rw [if_neg hy, this]; simp
  obtain ⟨s', V, e1, e2, e3, e4, e5, e6, e7⟩ := key xs s U h hU hp hx hsep hsz
  exact ⟨s', V, e1, e2, e3, e4, e5, e6, e7.geometry h e2⟩

example : WFSpl exSurface ∧ (∀ t ∈ ([1/3, 1/2, 1/3] : List ℚ), knot [0, 0, 0, 1/2, 1, 1, 1] 0 < t ∧ t < lastKnot [0, 0, 0, 1/2, 1, 1, 1]) ∧
    Separated ([1/3, 1/2, 1/3] ++ [0, 0, 0, 1/2, 1, 1, (1 : ℚ)]) := ⟨exSurface_wf, by decide +kernel, by decide +kernel⟩

end SplineLib
