import Verif.Core.Variation
import Verif.Core.CloseKnots
import Verif.Core.RemoveMany

/-!
# Knot insertion and removal commute with scaling the parameter (helper lemmas)

Scaling by a large factor separates all knots, so that what holds for well-formed splines carries over to knots at any distance. The only use
of `kEpsilon` in these operations is the test for the last knot.
-/

namespace SplineLib
set_option linter.unusedSectionVars false
variable {K : Type} [Field K] [LinearOrder K] [IsStrictOrderedRing K]

theorem bisect_map {f g : K → Bool} (φ : K → K) (h : ∀ a, g (φ a) = f a) (l : List K) : ∀ len first,
    bisect g (l.map φ) first len = bisect f l first len := by
  intro len
  induction len using Nat.strong_induction_on with
  | _ len ih =>
    intro first
    rw [bisect.eq_def g, bisect.eq_def f]
    by_cases h0 : len = 0
    · rw [if_pos h0, if_pos h0]
    · rw [if_neg h0, if_neg h0]
      dsimp only
      rw [List.getElem?_map]
      cases l[first + len / 2]? with
      | none => rfl
      | some a =>
        simp only [Option.map_some, h]
        rw [ih _ (by omega), ih _ (by omega)]

theorem lowerBound_scale {r : K} (hr : 0 < r) (U : List K) (t : K) : lowerBound (U.map (r * ·)) (r * t) = lowerBound U t := by
  unfold lowerBound
  rw [List.length_map]
  exact bisect_map _ (fun a => by simp only [mul_lt_mul_iff_right₀ hr]) _ _ _

theorem upperBound_scale {r : K} (hr : 0 < r) (U : List K) (t : K) : upperBound (U.map (r * ·)) (r * t) = upperBound U t := by
  unfold upperBound
  rw [List.length_map]
  exact bisect_map _ (fun a => by simp only [mul_lt_mul_iff_right₀ hr]) _ _ _

theorem kvMult_scale {r : K} (hr : 0 < r) (U : List K) (t : K) : kvMult (U.map (r * ·)) (r * t) = kvMult U t :=
  List.count_map_of_injective _ _ (mul_right_injective₀ hr.ne') _

theorem kvGet_scale (r : K) (U : List K) (i : ℕ) : kvGet (U.map (r * ·)) i = (kvGet U i).map (r * ·) := by
  unfold kvGet getN
  rw [List.getElem?_map]
  cases U[i]? <;> rfl

theorem fdiv_scale {r : K} (hr : 0 < r) (a b c d : K) : fdiv (r * a - r * b) (r * c - r * d) = fdiv (a - b) (c - d) := by
  unfold fdiv
  rw [← mul_sub, ← mul_sub]
  by_cases h : c - d = 0
  · simp [h]
  · rw [if_neg h, if_neg (mul_ne_zero hr.ne' h), mul_div_mul_left _ _ hr.ne']

theorem scalingLoop_scale {r : K} (hr : 0 < r) (U : List K) (t : K) (sh : ℤ) : ∀ n j,
    Spl.scalingLoop (U.map (r * ·)) (r * t) sh n j = Spl.scalingLoop U t sh n j
  | 0, _ => rfl
  | n + 1, j => by
    unfold Spl.scalingLoop
    rw [kvGet_scale, kvGet_scale, scalingLoop_scale hr U t sh n]
    cases kvGet U j with
    | error e => rfl
    | ok a =>
      cases kvGet U (toSizeT (j + sh)) with
      | error e => rfl
      | ok b =>
        simp only [Except.map, ok_bind]
        rw [fdiv_scale hr]

/-- Sorted knots, and `t` at least `kEpsilon` to the left of the last one. -/
structure Clear (U : List K) (t : K) : Prop where
  sorted : SortedKnots U
  ne : U ≠ []
  hi : t + kEps K ≤ lastKnot U

section
variable {U : List K} {t r : K}

theorem Clear.lt (h : Clear U t) : t < lastKnot U := by
  have := h.hi; have := kEps_pos (K := K); linarith

theorem Clear.notLast (h : Clear U t) : kvIsLast U t = .ok false := by
  rw [kvIsLast_eq h.ne]
  congr 1
  rw [decide_eq_false_iff_not, abs_lt]
  intro hc
  have := h.hi
  linarith [hc.1]

theorem Clear.scale (h : Clear U t) (hr : 1 ≤ r) : Clear (U.map (r * ·)) (r * t) where
  sorted := by
    have hp : 0 ≤ r := le_trans zero_le_one hr
    unfold SortedKnots
    rw [List.pairwise_map]
    exact h.sorted.imp fun hab => mul_le_mul_of_nonneg_left hab hp
  ne := by simpa using h.ne
  hi := by
    rw [lastKnot_scale]
    have h1 := h.hi
    have h2 := kEps_pos (K := K)
    nlinarith

theorem Clear.upper_lt (h : Clear U t) : upperBound U t < U.length := by
  obtain ⟨h1, h2, h3⟩ := upperBound_spec h.sorted t
  have hl : 0 < U.length := List.length_pos_iff.2 h.ne
  by_contra hc
  have := h2 (U.length - 1) (by omega) (by omega)
  exact absurd h.lt (not_lt.2 this)

theorem Clear.span (h : Clear U t) : kvSpan U t = .ok ((upperBound U t : ℤ) - 1) := by
  unfold kvSpan
  rw [h.notLast, ok_bind]
  rfl

theorem Clear.span_scale (h : Clear U t) (hr : 1 ≤ r) : kvSpan (U.map (r * ·)) (r * t) = kvSpan U t := by
  rw [h.span, (h.scale hr).span, upperBound_scale (lt_of_lt_of_le one_pos hr)]

theorem lastKnot_insertIdx {U : List K} {i : ℕ} {t : K} (hi : i < U.length) : lastKnot (U.insertIdx i t) = lastKnot U := by
  unfold lastKnot knot
  rw [List.length_insertIdx_of_le_length hi.le, List.getD_eq_getElem?_getD, List.getD_eq_getElem?_getD,
    List.getElem?_insertIdx_of_gt (by omega)]
  rfl

theorem lastKnot_eraseIdx {U : List K} {i : ℕ} (hi : i + 1 < U.length) : lastKnot (U.eraseIdx i) = lastKnot U := by
  unfold lastKnot knot
  rw [List.length_eraseIdx_of_lt (by omega), List.getD_eq_getElem?_getD, List.getD_eq_getElem?_getD,
    List.getElem?_eraseIdx_of_ge (by omega)]
  congr 2
  omega

theorem map_insertIdx' (f : K → K) (U : List K) (t : K) : ∀ i, (U.insertIdx i t).map f = (U.map f).insertIdx i (f t) := by
  induction U with
  | nil => intro i; cases i <;> simp
  | cons a U ih => intro i; cases i <;> simp [ih]

theorem map_eraseIdx' (f : K → K) (U : List K) : ∀ i, (U.eraseIdx i).map f = (U.map f).eraseIdx i := by
  induction U with
  | nil => intro i; simp
  | cons a U ih => intro i; cases i <;> simp [ih]

theorem Clear.insert (h : Clear U t) (hr : 1 ≤ r) : ∃ V, kvInsert U t = .ok V ∧ kvInsert (U.map (r * ·)) (r * t) = .ok (V.map (r * ·)) ∧
    Clear V t ∧ lastKnot V = lastKnot U := by
  have hu := h.upper_lt
  obtain ⟨h1, h2, h3⟩ := upperBound_spec h.sorted t
  have hi : ∀ W : List K, W.length = U.length → ∀ w : K, kvSpan W w = .ok ((upperBound U t : ℤ) - 1) →
      kvInsert W w = .ok (W.insertIdx (upperBound U t) w) := by
    intro W hW w hw
    unfold kvInsert
    rw [hw, ok_bind, if_pos (by omega)]
    rw [show ((upperBound U t : ℤ) - 1 + 1).toNat = upperBound U t by omega]
    rfl
  have hl := lastKnot_insertIdx (t := t) hu
  refine ⟨U.insertIdx (upperBound U t) t, hi U rfl t h.span, ?_, ⟨?_, ?_, by rw [hl]; exact h.hi⟩, hl⟩
  · rw [hi _ (List.length_map _) _ (by rw [h.span_scale hr, h.span]), map_insertIdx']
  · rw [sortedKnots_iff]
    intro i j hij hj
    rw [List.length_insertIdx_of_le_length hu.le] at hj
    have hk : ∀ i, knot (U.insertIdx (upperBound U t) t) i =
        if i < upperBound U t then knot U i else if i = upperBound U t then t else knot U (i - 1) := by
      intro i
      unfold knot
      rw [List.getD_eq_getElem?_getD, List.getElem?_insertIdx]
      by_cases c1 : i < upperBound U t
      · rw [if_pos c1, if_pos c1, List.getD_eq_getElem?_getD]
      · rw [if_neg c1, if_neg c1]
        by_cases c2 : i = upperBound U t
        · rw [if_pos c2, if_pos c2, if_pos (show i ≤ U.length by omega)]; rfl
        · rw [if_neg c2, if_neg c2, List.getD_eq_getElem?_getD]
    rw [hk, hk]
    split_ifs with c1 c2 c3 c4 c5 c6
    · exact h.sorted.mono hij (by omega)
    · exact h2 i (by omega) c1
    · exact h.sorted.mono (by omega) (by omega)
    · omega
    · exact le_rfl
    · exact (h3 (j - 1) (by omega) (by omega)).le
    · omega
    · omega
    · exact h.sorted.mono (by omega) (by omega)
  · intro h0
    have := congrArg List.length h0
    rw [List.length_insertIdx_of_le_length hu.le] at this
    simp at this

theorem Clear.remove (h : Clear U t) (hr : 1 ≤ r) {V' : List K} (hV : kvRemove (U.map (r * ·)) (r * t) = .ok V') :
    ∃ V, kvRemove U t = .ok V ∧ V' = V.map (r * ·) ∧ Clear V t ∧ lastKnot V = lastKnot U := by
  have hu := h.upper_lt
  unfold kvRemove at hV ⊢
  rw [h.span_scale hr, h.span, ok_bind, (h.scale hr).notLast, ok_bind] at hV
  rw [h.span, ok_bind, h.notLast, ok_bind]
  simp only [Bool.false_eq_true, if_false, List.length_map] at hV ⊢
  by_cases hc : 0 ≤ (upperBound U t : ℤ) - 1 ∧ (upperBound U t : ℤ) - 1 < U.length
  · rw [if_pos hc] at hV ⊢
    have hl := lastKnot_eraseIdx (U := U) (i := ((upperBound U t : ℤ) - 1).toNat) (by omega)
    refine ⟨_, rfl, ?_, ⟨?_, ?_, by rw [hl]; exact h.hi⟩, hl⟩
    · rw [map_eraseIdx']
      exact (Except.ok.inj hV).symm
    · exact h.sorted.sublist (List.eraseIdx_sublist _ _)
    · intro h0
      have := congrArg List.length h0
      rw [List.length_eraseIdx_of_lt (by omega)] at this
      simp at this
      omega
  · rw [if_neg hc] at hV
    cases hV

end

/-- All knots of all directions scaled. -/
def sc (r : K) (Us : List (List K)) : List (List K) := Us.map (List.map (r * ·))

theorem basisTable_scale (r : K) : ∀ (Us : List (List K)) (ps : List ℕ) {b' : List (List (Basis K))}, PS.basisTable (sc r Us) ps = .ok b' →
    ∃ b, PS.basisTable Us ps = .ok b
  | [], ps, _, _ => by cases ps <;> exact ⟨_, rfl⟩
  | U :: Us, [], _, _ => ⟨_, rfl⟩
  | U :: Us, p :: ps, b', h => by
    unfold sc at h
    rw [List.map_cons, PS.basisTable] at h
    obtain ⟨row, h1, h⟩ := bind_eq_ok.1 h
    obtain ⟨rows, h2, -⟩ := bind_eq_ok.1 h
    obtain ⟨b, hb⟩ := basisTable_scale r Us ps h2
    have hp : p + 1 ≤ U.length := by
      by_contra hc
      unfold PS.basisRow at h1
      rw [if_pos (by rw [List.length_map]; omega)] at h1
      cases h1
    rw [PS.basisTable, basisRow_eq hp, ok_bind, hb, ok_bind]
    exact ⟨_, rfl⟩

theorem sc_get (r : K) (Us : List (List K)) (d : ℕ) : (sc r Us)[d]? = Us[d]?.map (List.map (r * ·)) := List.getElem?_map

theorem sc_set (r : K) (Us : List (List K)) (d : ℕ) (V : List K) : (sc r Us).set d (V.map (r * ·)) = sc r (Us.set d V) := by
  unfold sc
  rw [List.map_set]

/-- `s'` is `s` with scaled knots; the basis functions of `s` belong to its knots. -/
structure Scaled (r : K) (s s' : Spl K) : Prop where
  knots : s'.ps.knots = sc r s.ps.knots
  degree : s'.ps.degree = s.ps.degree
  ph : s'.ph = s.ph
  basis : PS.basisTable s.ps.knots s.ps.degree = .ok s.ps.basis

section
variable {r t : K} {d : ℕ} {U : List K}

theorem psInsert_scale {ps ps' : PS K} (hr : 1 ≤ r) (hk : ps'.knots = sc r ps.knots) (hd : ps'.degree = ps.degree)
    (hU : ps.knots[d]? = some U) (hc : Clear U t) {q' : PS K} (h : ps'.insertKnot (r * t) d = .ok q') :
    ∃ q V, ps.insertKnot t d = .ok q ∧ q.knots = ps.knots.set d V ∧ Clear V t ∧ q'.knots = sc r q.knots ∧ q.degree = ps.degree ∧
      q'.degree = q.degree ∧ PS.basisTable q.knots q.degree = .ok q.basis := by
  obtain ⟨V, hV, hV', hcV, -⟩ := hc.insert hr
  have hU' : ps'.knots[d]? = some (U.map (r * ·)) := by rw [hk, sc_get, hU]; rfl
  unfold PS.insertKnot at h ⊢
  rw [getN_some hU', ok_bind, hV', ok_bind] at h
  rw [getN_some hU, ok_bind, hV, ok_bind]
  unfold PS.recreate at h ⊢
  obtain ⟨b', hb', h⟩ := bind_eq_ok.1 h
  dsimp only at hb' h ⊢
  rw [hk, hd, sc_set] at hb'
  obtain ⟨b, hb⟩ := basisTable_scale r _ _ hb'
  rw [hb, ok_bind]
  refine ⟨_, V, rfl, rfl, hcV, ?_, rfl, ?_, hb⟩
  · rw [← Except.ok.inj h]; dsimp only; rw [hk, sc_set]
  · rw [← Except.ok.inj h]; exact hd

theorem psRemove_scale {ps ps' : PS K} (hr : 1 ≤ r) (hk : ps'.knots = sc r ps.knots) (hd : ps'.degree = ps.degree)
    (hU : ps.knots[d]? = some U) (hc : Clear U t) {q' : PS K} (h : ps'.removeKnot (r * t) d = .ok q') :
    ∃ q V, ps.removeKnot t d = .ok q ∧ q.knots = ps.knots.set d V ∧ Clear V t ∧ q'.knots = sc r q.knots ∧ q.degree = ps.degree ∧
      q'.degree = q.degree ∧ PS.basisTable q.knots q.degree = .ok q.basis := by
  have hU' : ps'.knots[d]? = some (U.map (r * ·)) := by rw [hk, sc_get, hU]; rfl
  unfold PS.removeKnot at h ⊢
  rw [getN_some hU', ok_bind] at h
  obtain ⟨V', hV', h⟩ := bind_eq_ok.1 h
  obtain ⟨V, hV, rfl, hcV, -⟩ := hc.remove hr hV'
  rw [getN_some hU, ok_bind, hV, ok_bind]
  unfold PS.recreate at h ⊢
  obtain ⟨b', hb', h⟩ := bind_eq_ok.1 h
  dsimp only at hb' h ⊢
  rw [hk, hd, sc_set] at hb'
  obtain ⟨b, hb⟩ := basisTable_scale r _ _ hb'
  rw [hb, ok_bind]
  refine ⟨_, V, rfl, rfl, hcV, ?_, rfl, ?_, hb⟩
  · rw [← Except.ok.inj h]; dsimp only; rw [hk, sc_set]
  · rw [← Except.ok.inj h]; exact hd

theorem set_get {α : Type*} {l : List α} {d : ℕ} {a b : α} (h : l[d]? = some a) : (l.set d b)[d]? = some b := by
  rw [List.getElem?_set]; simp [lt_of_some h]

theorem insertKnotsPS_scale (hr : 1 ≤ r) : ∀ (m : ℕ) {ps ps' : PS K} {U : List K}, ps'.knots = sc r ps.knots → ps'.degree = ps.degree →
    PS.basisTable ps.knots ps.degree = .ok ps.basis → ps.knots[d]? = some U → Clear U t → ∀ {q' : PS K},
    Spl.insertKnotsPS (r * t) d m ps' = .ok q' →
    ∃ q V, Spl.insertKnotsPS t d m ps = .ok q ∧ q.knots = ps.knots.set d V ∧ Clear V t ∧ q'.knots = sc r q.knots ∧ q.degree = ps.degree ∧
      q'.degree = q.degree ∧ PS.basisTable q.knots q.degree = .ok q.basis
  | 0, ps, ps', U, hk, hd, hb, hU, hc, q', h => by
    have := Except.ok.inj h
    subst this
    exact ⟨ps, U, rfl, (set_same hU).symm, hc, hk, rfl, hd, hb⟩
  | m + 1, ps, ps', U, hk, hd, hb, hU, hc, q', h => by
    rw [Spl.insertKnotsPS] at h ⊢
    obtain ⟨q1', h1, h⟩ := bind_eq_ok.1 h
    obtain ⟨q1, V, e1, e2, e3, e4, e5, e6, e7⟩ := psInsert_scale hr hk hd hU hc h1
    obtain ⟨q2, W, f1, f2, f3, f4, f5, f6, f7⟩ := insertKnotsPS_scale hr m e4 e6 e7 (by rw [e2]; exact set_get hU) e3 h
    refine ⟨q2, W, ?_, ?_, f3, f4, f5.trans e5, f6, f7⟩
    · rw [e1, ok_bind, f1]
    · rw [f2, e2, List.set_set]

theorem insertRounds_scale (hr : 1 ≤ r) (hc : Clear U t) (p : ℕ) : ∀ (n i : ℕ) (span : ℤ) (ph : Phys K),
    Spl.insertRounds (U.map (r * ·)) p (r * t) d n i span ph = Spl.insertRounds U p t d n i span ph
  | 0, _, _, _ => rfl
  | n + 1, i, span, ph => by
    have hr0 : 0 < r := lt_of_lt_of_le one_pos hr
    unfold Spl.insertRounds
    rw [hc.notLast, (hc.scale hr).notLast, ok_bind, ok_bind]
    dsimp only
    rw [kvMult_scale hr0, scalingLoop_scale hr0]
    congr 1
    funext sl
    congr 1
    funext ph'
    exact insertRounds_scale hr hc p n (i + 1) _ ph'

/-- `InsertKnot` commutes with scaling. -/
theorem insertKnot_scale {s s' : Spl K} (hr : 1 ≤ r) (hs : Scaled r s s') (hU : s.ps.knots[d]? = some U) (hc : Clear U t) {m : ℕ} {q' : Spl K}
    (h : s'.insertKnot (r * t) d m = .ok q') :
    ∃ q V, s.insertKnot t d m = .ok q ∧ Scaled r q q' ∧ q.ps.knots = s.ps.knots.set d V ∧ Clear V t ∧ q.ps.degree = s.ps.degree := by
  have hU' : s'.ps.knots[d]? = some (U.map (r * ·)) := by rw [hs.knots, sc_get, hU]; rfl
  unfold Spl.insertKnot at h ⊢
  rw [getN_some hU', ok_bind, hs.degree] at h
  rw [getN_some hU, ok_bind]
  obtain ⟨p, hp, h⟩ := bind_eq_ok.1 h
  rw [hc.span_scale hr] at h
  obtain ⟨span, hsp, h⟩ := bind_eq_ok.1 h
  rw [insertRounds_scale hr hc, hs.ph] at h
  obtain ⟨ph, hph, h⟩ := bind_eq_ok.1 h
  obtain ⟨ps', hps, h⟩ := bind_eq_ok.1 h
  obtain ⟨q, V, e1, e2, e3, e4, e5, e6, e7⟩ := insertKnotsPS_scale hr m hs.knots hs.degree hs.basis hU hc hps
  rw [hp, ok_bind, hsp, ok_bind, hph, ok_bind, e1, ok_bind]
  have := Except.ok.inj h
  subst this
  exact ⟨_, V, rfl, ⟨e4, e6, rfl, e7⟩, e2, e3, e5⟩

theorem removeRounds_scale [HasSqrt K] (hr : 1 ≤ r) (tol : K) : ∀ (n c : ℕ) {s s' : Spl K} {U : List K}, Scaled r s s' →
    s.ps.knots[d]? = some U → Clear U t → ∀ {q' : Spl K} {k : ℕ}, Spl.removeRounds (r * t) d tol n c s' = .ok (q', k) →
    ∃ q, Spl.removeRounds t d tol n c s = .ok (q, k) ∧ Scaled r q q'
  | 0, c, s, s', U, hs, hU, hc, q', k, h => by
    unfold Spl.removeRounds at h ⊢
    cases h
    exact ⟨s, rfl, hs⟩
  | n + 1, c, s, s', U, hs, hU, hc, q', k, h => by
    have hr0 : 0 < r := lt_of_lt_of_le one_pos hr
    have hU' : s'.ps.knots[d]? = some (U.map (r * ·)) := by rw [hs.knots, sc_get, hU]; rfl
    unfold Spl.removeRounds at h ⊢
    rw [getN_some hU', ok_bind, hs.degree] at h
    rw [getN_some hU, ok_bind]
    obtain ⟨p, hp, h⟩ := bind_eq_ok.1 h
    rw [hc.span_scale hr] at h
    obtain ⟨span, hsp, h⟩ := bind_eq_ok.1 h
    dsimp only at h
    rw [kvMult_scale hr0, scalingLoop_scale hr0, hs.ph] at h
    obtain ⟨sl, hsl, h⟩ := bind_eq_ok.1 h
    obtain ⟨o, ho, h⟩ := bind_eq_ok.1 h
    rw [hp, ok_bind, hsp, ok_bind]
    dsimp only
    rw [hsl, ok_bind, ho, ok_bind]
    cases o with
    | none =>
      cases h
      exact ⟨s, rfl, hs⟩
    | some ph =>
      dsimp only at h ⊢
      obtain ⟨ps', hps, h⟩ := bind_eq_ok.1 h
      obtain ⟨q, V, e1, e2, e3, e4, e5, e6, e7⟩ := psRemove_scale hr hs.knots hs.degree hU hc hps
      rw [e1, ok_bind]
      exact removeRounds_scale hr tol n (c + 1) (s := ⟨q, ph⟩) (s' := ⟨ps', ph⟩) ⟨e4, e6, rfl, e7⟩ (by show q.knots[d]? = some V; rw [e2]; exact set_get hU)
        e3 h

end
end SplineLib
