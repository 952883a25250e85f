import Verif.Props.EndInsert
import Verif.Props.Subdivision
import Verif.Props.KnotInsertion
import Verif.Props.RoundedInsertion

/-!
# Knots of full multiplicity

A parameter that occurs `p` times among the knots is a place where the spline touches its control net. So the point of a spline at any parameter can be
had without `Evaluate`: insert the parameter until it has full multiplicity in all directions and read the control point.
-/

namespace SplineLib
set_option linter.unusedSectionVars false
open Finset
variable {K : Type} [Field K] [LinearOrder K] [IsStrictOrderedRing K]

/-- The number of knots below `t`, in terms of the span. -/
theorem countP_lt {U : List K} {p : ℕ} {t : K} (h : WFKnots U p) (ht : Admissible U t) (hm : U.count t ≤ p) :
    U.countP (fun y => decide (y < t)) = spanIx U t + 1 - U.count t := by
  have hm' : kvMult U t ≤ p + 1 := le_trans hm (Nat.le_succ p)
  have hc := (cut_of_insMany h ht hm').take_length
  rw [(cut_knots h ht hm').1, List.length_append, List.length_replicate, ← List.countP_eq_length_filter] at hc
  have : kvMult U t = U.count t := rfl
  omega

/-- At a parameter of multiplicity `p` exactly one basis function does not vanish, and it is one. -/
theorem cox_full {V : List K} {p : ℕ} {t : K} (h : WFKnots V p) (ht : Admissible V t) (hm : V.count t = p) {i : ℕ} (hi : i + p + 1 < V.length) :
    coxDeBoor V p i t = if i = V.countP (fun y => decide (y < t)) - 1 then 1 else 0 := by
  obtain ⟨hins, hlt, hmk, hl1, hl2⟩ := ht.pos h
  have hh := hins.hi
  have hmu : kvMult V t = V.count t := rfl
  have hspan := h.span ht.lo.le ht.hi.le
  rw [countP_lt h ht hm.le, cox_eq_Nb h.sorted (by omega) hspan.2.1 hi, show spanIx V t + 1 - V.count t - 1 = spanIx V t - p by omega]
  apply Nb_left _ p _ (by omega)
  · intro j h1 h2
    rw [ku_eq (by omega)]
    exact hl2 j (by omega) h2
  · rw [ku_eq (by omega)]; exact hlt

/-- A program of a user: raise the multiplicities of the parameters `ts`, one per direction beginning with `d`, to the degree. -/
def raiseAll : Spl K → List K → ℕ → M (Spl K)
  | s, [], _ => .ok s
  | s, t :: ts, d => do
    let U ← getN s.ps.knots d
    let p ← getN s.ps.degree d
    let s' ← s.insertKnot t d (p - kvMult U t)
    raiseAll s' ts (d + 1)

theorem insMany_countP {U : List K} {p : ℕ} {t : K} (h : WFKnots U p) (ht : Admissible U t) (hm : U.count t ≤ p) :
    (insMany U t (p - U.count t)).countP (fun y => decide (y < t)) = U.countP (fun y => decide (y < t)) := by
  have hf := insMany_facts h ht (p - U.count t)
  have hc : (insMany U t (p - U.count t)).count t = p := by rw [hf.count, if_pos rfl]; omega
  obtain ⟨_, _, hmk, _, _⟩ := ht.pos h
  have hmu : kvMult U t = U.count t := rfl
  rw [countP_lt hf.wf hf.adm hc.le, countP_lt h ht hm, hf.span, hc]
  omega

theorem raiseAll_spec : ∀ (ts : List K) (d : ℕ) {s : Spl K}, WFSpl s →
    (∀ j < ts.length, ∃ U p t, s.ps.knots[d + j]? = some U ∧ s.ps.degree[d + j]? = some p ∧ ts[j]? = some t ∧ Admissible U t ∧ U.count t ≤ p ∧
      U.length + p < 2 ^ 63) →
    ∃ s', raiseAll s ts d = .ok s' ∧ WFSpl s' ∧ SameSums s s' ∧ s'.ps.degree = s.ps.degree ∧ s'.ps.knots.length = s.ps.knots.length ∧
      (∀ j < d, s'.ps.knots[j]? = s.ps.knots[j]?) ∧ ∀ (j : ℕ) (U : List K) (p : ℕ) (t : K), s.ps.knots[d + j]? = some U →
        s.ps.degree[d + j]? = some p → ts[j]? = some t → s'.ps.knots[d + j]? = some (insMany U t (p - U.count t))
  | [], d, s, h, _ => ⟨s, rfl, h, SameSums.refl s, rfl, rfl, fun _ _ => rfl, fun j U p t _ _ ht => by simp at ht⟩
  | t :: ts, d, s, h, hts => by
    obtain ⟨U, p, t', hU, hp, ht', hadm, hm, hsz⟩ := hts 0 (by simp)
    obtain rfl : t = t' := by simpa using ht'
    simp only [Nat.add_zero] at hU hp
    obtain ⟨s1, e1, w1, d1, k1, g1⟩ := insertKnot_many h hU hp hadm (p - U.count t) (by omega)
    have hk : ∀ j, j ≠ d → s1.ps.knots[j]? = s.ps.knots[j]? := by
      intro j hj; rw [k1, List.getElem?_set_ne hj.symm]
    obtain ⟨s2, e2, w2, g2, d2, n2, p2, r2⟩ := raiseAll_spec ts (d + 1) w1 (by
      intro j hj
      obtain ⟨U', p', t', a1, a2, a3, a4⟩ := hts (j + 1) (by simpa using hj)
      refine ⟨U', p', t', ?_, ?_, by simpa using a3, a4⟩
      · rw [hk _ (by omega), ← a1]; congr 1; omega
      · rw [d1, ← a2]; congr 1; omega)
    refine ⟨s2, ?_, w2, ?_, d2.trans d1, by rw [n2, k1, List.length_set], fun j hj => ?_, ?_⟩
    · simp only [raiseAll, getN_some hU, getN_some hp, ok_bind]
      rw [show kvMult U t = U.count t from rfl, e1, ok_bind, e2]
    · exact g1.trans g2
    · rw [p2 j (by omega), hk j (by omega)]
    · intro j U' p' t' a1 a2 a3
      rcases j with _ | j
      · simp only [Nat.add_zero] at a1 a2 ⊢
        obtain rfl : U = U' := by simpa [hU] using a1
        obtain rfl : p = p' := by simpa [hp] using a2
        obtain rfl : t = t' := by simpa using a3
        rw [p2 d (by omega), k1, List.getElem?_set]
        simp [lt_of_some hU]
      · have := r2 j U' p' t' (by rw [hk _ (by omega), ← a1]; congr 1; omega) (by rw [d1, ← a2]; congr 1; omega) (by simpa using a3)
        rw [← this]; congr 1; omega

/-- The parameter `x` is a place of one direction where the control point with index `k` lies on the spline: an interior parameter that occurs `p` times
among the knots, with `k + 1` knots below it, or an end of the range. -/
def AtFull (U : List K) (p : ℕ) (x : K) (k : ℕ) : Prop :=
  (Admissible U x ∧ U.count x = p ∧ k = U.countP (fun y => decide (y < x)) - 1) ∨ (x = knot U 0 ∧ knot U p < knot U (p + 1) ∧ k = 0) ∨
    (x = lastKnot U ∧ knot U (U.length - p - 2) < lastKnot U ∧ k = U.length - p - 2)

theorem AtFull.cox {U : List K} {p k : ℕ} {x : K} (h : WFKnots U p) (hx : AtFull U p x k) {i : ℕ} (hi : i + p + 1 < U.length) :
    coxDeBoor U p i x = if i = k then 1 else 0 := by
  rcases hx with ⟨h1, h2, rfl⟩ | ⟨rfl, h2, rfl⟩ | ⟨rfl, h2, rfl⟩
  · exact cox_full h h1 h2 hi
  · exact cox_first h h2 hi
  · exact cox_last h h2 hi

theorem AtFull.lt {U : List K} {p k : ℕ} {x : K} (h : WFKnots U p) (hx : AtFull U p x k) : k < U.length - p - 1 := by
  have hs := h.size
  rcases hx with ⟨h1, h2, rfl⟩ | ⟨rfl, h2, rfl⟩ | ⟨rfl, h2, rfl⟩
  · rw [countP_lt h h1 h2.le]
    have := (h1.pos h).1.hi
    have := (h1.pos h).1.lo
    omega
  · omega
  · omega

theorem AtFull.mem {U : List K} {p k : ℕ} {x : K} (h : WFKnots U p) (hx : AtFull U p x k) : knot U 0 ≤ x ∧ x ≤ lastKnot U := by
  have := h.range
  rcases hx with ⟨h1, h2, rfl⟩ | ⟨rfl, h2, rfl⟩ | ⟨rfl, h2, rfl⟩
  · exact ⟨h1.lo.le, h1.hi.le⟩
  · exact ⟨le_refl _, this.le⟩
  · exact ⟨this.le, le_refl _⟩

theorem inBox_of {ns ks : List ℕ} (hl : ns.length = ks.length) (h : ∀ (j n k : ℕ), ns[j]? = some n → ks[j]? = some k → k < n) : InBox ns ks := by
  induction ns generalizing ks with
  | nil => cases ks with
    | nil => exact .nil
    | cons => simp at hl
  | cons n ns ih =>
    cases ks with
    | nil => simp at hl
    | cons k ks => exact .cons (h 0 n k rfl rfl) (ih (by simpa using hl) fun j a b ha hb => h (j + 1) a b (by simpa using ha) (by simpa using hb))

theorem full_delta {s : Spl K} (h : WFSpl s) {x : List K} {ks : List ℕ} (hx : x.length = s.ps.knots.length) (hk : ks.length = s.ps.knots.length)
    (hf : ∀ (j : ℕ) (U : List K) (p : ℕ) (a : K) (k : ℕ), s.ps.knots[j]? = some U → s.ps.degree[j]? = some p → x[j]? = some a →
      ks[j]? = some k → AtFull U p a k) :
    InDomain s x ∧ InBox (npts s) ks ∧
      ∀ J, InBox (npts s) J → dprod (basisFns s.ps.knots s.ps.degree x) J = if J = ks then 1 else 0 := by
  have hlen := h.knots.length_eq
  have hget : ∀ j < s.ps.knots.length, ∃ U p a k, s.ps.knots[j]? = some U ∧ s.ps.degree[j]? = some p ∧ x[j]? = some a ∧ ks[j]? = some k := by
    intro j hj
    exact ⟨_, _, _, _, List.getElem?_eq_getElem hj, List.getElem?_eq_getElem (by omega), List.getElem?_eq_getElem (by omega),
      List.getElem?_eq_getElem (by omega)⟩
  refine ⟨?_, inBox_of ?_ ?_, fun J hJ => ?_⟩
  · unfold InDomain
    rw [List.forall₂_iff_get]
    refine ⟨hx.symm, fun j h1 h2 => ?_⟩
    obtain ⟨U, p, a, k, a1, a2, a3, a4⟩ := hget j h1
    have := (hf j U p a k a1 a2 a3 a4).mem (forall₂_get h.knots a1 a2)
    rw [List.getElem?_eq_getElem h1, Option.some.injEq] at a1
    rw [List.getElem?_eq_getElem h2, Option.some.injEq] at a3
    simpa [a1, a3] using this
  · simp only [npts, List.length_zipWith]; omega
  · intro j n k hn hk'
    have hj : j < s.ps.knots.length := by rw [← hk]; exact lt_of_some hk'
    obtain ⟨U, p, a, k', a1, a2, a3, a4⟩ := hget j hj
    obtain rfl : k' = k := by simpa [hk'] using a4.symm
    have e := nptsOf_get a1 a2
    have : npts s = nptsOf s.ps.knots s.ps.degree := npts_eq s
    rw [this, e, Option.some.injEq] at hn
    rw [← hn]
    exact (hf j U p a k' a1 a2 a3 a4).lt (forall₂_get h.knots a1 a2)
  · refine dprod_delta hlen hx.symm hk.symm hJ fun j U p a k a1 a2 a3 a4 i hi => ?_
    exact (hf j U p a k a1 a2 a3 a4).cox (forall₂_get h.knots a1 a2) (by omega)

/-- **C101**: where the parameters have full multiplicity in all directions, `Evaluate` returns a control point. -/
theorem C101_on_spline {s : Spl K} (h : WFSpl s) {x : List K} {ks : List ℕ} (hx : x.length = s.ps.knots.length) (hk : ks.length = s.ps.knots.length)
    (hf : ∀ (j : ℕ) (U : List K) (p : ℕ) (a : K) (k : ℕ), s.ps.knots[j]? = some U → s.ps.degree[j]? = some p → x[j]? = some a →
      ks[j]? = some k → AtFull U p a k) (dims : List ℕ)
    (hd : ∀ c ∈ dims, c < s.ph.dim) : s.evaluate x (zl dims) = .ok (dims.map (cpt s ks)) := by
  obtain ⟨h1, h2, h3⟩ := full_delta h hx hk hf
  exact evaluate_delta h h1 h2 h3 dims hd

/-- **C101**: evaluation by insertion. After the parameters of a point have been inserted up to multiplicity `p` in every direction, the point of the
original spline is a control point of the new one; its index in each direction is one less than the number of original knots below the parameter. -/
theorem C101_evaluate_by_insertion {s : Spl K} (h : WFSpl s) {x : List K} (hx : x.length = s.ps.knots.length)
    (hadm : ∀ (j : ℕ) (U : List K) (p : ℕ) (a : K), s.ps.knots[j]? = some U → s.ps.degree[j]? = some p → x[j]? = some a →
      Admissible U a ∧ U.count a ≤ p ∧ U.length + p < 2 ^ 63)
    {ks : List ℕ} (hks : ks = List.zipWith (fun U a => U.countP (fun y => decide (y < a)) - 1) s.ps.knots x) :
    ∃ s', raiseAll s x 0 = .ok s' ∧ WFSpl s' ∧ s'.ph.dim = s.ph.dim ∧ s.evaluate x (zl (List.range s.ph.dim)) = s'.ph.getCP (zl ks) ∧
      ∀ dims : List ℕ, (∀ c ∈ dims, c < s.ph.dim) → s.evaluate x (zl dims) = .ok (dims.map (cpt s' ks)) := by
  have hlen := h.knots.length_eq
  obtain ⟨s', e1, w1, g1, d1, n1, _, r1⟩ := raiseAll_spec x 0 h (by
    intro j hj
    have h1 : s.ps.knots[j]? = some s.ps.knots[j] := List.getElem?_eq_getElem (by omega)
    have h2 : s.ps.degree[j]? = some s.ps.degree[j] := List.getElem?_eq_getElem (by omega)
    have h3 : x[j]? = some x[j] := List.getElem?_eq_getElem hj
    rw [Nat.zero_add]
    exact ⟨_, _, _, h1, h2, h3, hadm j _ _ _ h1 h2 h3⟩)
  have hlk : ks.length = s'.ps.knots.length := by
    rw [hks, List.length_zipWith]; omega
  have hf : ∀ (j : ℕ) (V : List K) (p : ℕ) (a : K) (k : ℕ), s'.ps.knots[j]? = some V → s'.ps.degree[j]? = some p → x[j]? = some a →
      ks[j]? = some k → AtFull V p a k := by
    intro j V p a k h1 h2 h3 h4
    have hj : j < s.ps.knots.length := by rw [← n1]; exact lt_of_some h1
    have hU : s.ps.knots[j]? = some s.ps.knots[j] := List.getElem?_eq_getElem hj
    rw [d1] at h2
    obtain ⟨ha, hm, _⟩ := hadm j _ _ _ hU h2 h3
    have hw := forall₂_get h.knots hU h2
    have hV := r1 j _ _ _ (by rwa [Nat.zero_add]) (by rwa [Nat.zero_add]) h3
    rw [Nat.zero_add, h1, Option.some.injEq] at hV
    subst hV
    rw [hks, List.getElem?_zipWith, hU, h3] at h4
    simp only [Option.some.injEq] at h4
    refine Or.inl ⟨(insMany_facts hw ha _).adm, ?_, ?_⟩
    · rw [(insMany_facts hw ha _).count, if_pos rfl]; omega
    · rw [insMany_countP hw ha hm, ← h4]
  have hdom : InDomain s x := (g1.domain x).1 (full_delta w1 (hx.trans n1.symm) hlk hf).1
  have hval : ∀ dims : List ℕ, (∀ c ∈ dims, c < s.ph.dim) → s.evaluate x (zl dims) = .ok (dims.map (cpt s' ks)) := by
    intro dims hd
    rw [← C101_on_spline w1 (hx.trans n1.symm) hlk hf dims (fun c hc => by rw [g1.dim]; exact hd c hc)]
    exact ((g1.geometry h w1).values x hdom dims fun c hc => Or.inl (hd c hc)).symm
  refine ⟨s', e1, w1, g1.dim, ?_, hval⟩
  rw [hval _ (fun c hc => List.mem_range.1 hc), getCP_eq w1.num w1.cps (full_delta w1 (hx.trans n1.symm) hlk hf).2.1, ← g1.dim]
  rfl

/-- The hypotheses for a surface, at a knot in the first direction and inside of a span in the second one. -/
example : WFSpl exSurface ∧ ([1/2, 1/3] : List ℚ).length = exSurface.ps.knots.length ∧
    ∀ (j : ℕ) (U : List ℚ) (p : ℕ) (a : ℚ), exSurface.ps.knots[j]? = some U → exSurface.ps.degree[j]? = some p → [1/2, 1/3][j]? = some a →
      Admissible U a ∧ U.count a ≤ p ∧ U.length + p < 2 ^ 63 := by
  refine ⟨exSurface_wf, by decide +kernel, fun j U p a h1 h2 h3 => ?_⟩
  have hj : j < 2 := lt_of_some h1
  rcases (show j = 0 ∨ j = 1 by omega) with rfl | rfl
  · obtain rfl := Option.some.inj h1
    obtain rfl := Option.some.inj h2
    obtain rfl := Option.some.inj h3
    exact ⟨⟨by decide +kernel, by decide +kernel, by decide +kernel⟩, by decide +kernel, by decide +kernel⟩
  · obtain rfl := Option.some.inj h1
    obtain rfl := Option.some.inj h2
    obtain rfl := Option.some.inj h3
    exact ⟨⟨by decide +kernel, by decide +kernel, by decide +kernel⟩, by decide +kernel, by decide +kernel⟩

/-- The numbers for this surface. -/
example : (do let s ← raiseAll exSurface [1/2, 1/3] 0; return (s.ph.num, [0].map (cpt s [2, 1]))) =
    (do let v ← exSurface.evaluate [1/2, 1/3] [0]; return ([5, 3], v)) := by decide +kernel

/-- **C101**: the same for a curve in rounded arithmetic: the control point differs from the point of the curve by the rounding errors of the insertions. -/
theorem C101_rounded (r : Rounding K) {s : Spl K} (h : Fl.WF r s) (hb : IsBSpline s) {U : List K} {p : ℕ} (hU : s.ps.knots = [U])
    (hp : s.ps.degree = [p]) {t : K} (ht : Admissible U t) (hm : U.count t ≤ p) (hsz : U.length + p < 2 ^ 63) :
    ∃ s', Fl.insertKnot r s t 0 (p - U.count t) = .ok s' ∧ ∀ c < s.ph.dim, ∀ B, (∀ I, InBox (npts s) I → |cpt s I c| ≤ B) →
      |cpt s' [U.countP (fun y => decide (y < t)) - 1] c - bsplineValue s [t] c| ≤ ((1 + 3 * growth r 6) ^ (p - U.count t) - 1) * B := by
  have hU' : s.ps.knots[0]? = some U := by rw [hU]; rfl
  have hp' : s.ps.degree[0]? = some p := by rw [hp]; rfl
  have hw := forall₂_get h.knots hU' hp'
  obtain ⟨s', V, e1, w1, b1, d1, k1, ⟨v1, v2, v3⟩, g⟩ := C76_insert_bspline r h hb hU' hp' ht (p - U.count t) (by omega)
  refine ⟨s', e1, fun c hc B hB => ?_⟩
  have hV : V = insMany U t (p - U.count t) := by
    have hf := insMany_facts hw ht (p - U.count t)
    exact (List.perm_iff_count.2 fun y => by rw [v3, hf.count]).eq_of_pairwise' v1 hf.wf.sorted
  have hk' : s'.ps.knots = [V] := by rw [k1, hU]; rfl
  have hd' : s'.ps.degree = [p] := d1.trans hp
  have hfull : AtFull V p t (U.countP (fun y => decide (y < t)) - 1) := by
    rw [hV]
    refine Or.inl ⟨(insMany_facts hw ht _).adm, ?_, by rw [insMany_countP hw ht hm]⟩
    rw [(insMany_facts hw ht _).count, if_pos rfl]; omega
  obtain ⟨_, h2, h3⟩ := full_delta (s := exactOf s') w1.exact (x := [t]) (ks := [U.countP (fun y => decide (y < t)) - 1])
    (by show 1 = s'.ps.knots.length; rw [hk']; rfl) (by show 1 = s'.ps.knots.length; rw [hk']; rfl) (by
      intro j V' p' a k a1 a2 a3 a4
      change s'.ps.knots[j]? = _ at a1
      change s'.ps.degree[j]? = _ at a2
      rw [hk'] at a1
      rw [hd'] at a2
      obtain rfl : j = 0 := by have := lt_of_some a1; simpa using this
      simp only [List.getElem?_cons_zero, Option.some.injEq] at a1 a2 a3 a4
      subst a1 a2 a3 a4
      exact hfull)
  have hv : bsplineValue s' [t] c = cpt s' [U.countP (fun y => decide (y < t)) - 1] c := by
    have h2' : InBox (npts s') [U.countP (fun y => decide (y < t)) - 1] := h2
    unfold bsplineValue tensorSum
    rw [msum_single h2']
    · rw [show dprod (basisFns s'.ps.knots s'.ps.degree [t]) _ = _ from h3 _ h2, if_pos rfl, one_mul]
    · intro J hJ hne
      rw [show dprod (basisFns s'.ps.knots s'.ps.degree [t]) J = _ from h3 J hJ, if_neg hne, zero_mul]
  rw [← hv]
  exact g.values c hc B hB [t] (by
    unfold InDomain; rw [hU]; exact .cons ⟨ht.lo.le, ht.hi.le⟩ .nil)

end SplineLib
