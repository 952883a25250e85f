import Verif.Core.ScaleKnots

/-!
# Subdivision commutes with scaling the parameter (helper lemmas)
-/

namespace SplineLib
set_option linter.unusedSectionVars false
variable {K : Type} [Field K] [LinearOrder K] [IsStrictOrderedRing K] {r t : K} {d : ℕ} {U : List K}

theorem getI_map {α β : Type} (f : α → β) (l : List α) (i : ℤ) : getI (l.map f) i = (getI l i).map f := by
  unfold getI
  by_cases h : 0 ≤ i
  · rw [if_pos h, if_pos h, List.getElem?_map]
    cases l[i.toNat]? <;> rfl
  · rw [if_neg h, if_neg h]
    rfl

theorem buildList_map {α β : Type} (f : α → β) {g : ℕ → M α} {g' : ℕ → M β} (h : ∀ j, g' j = (g j).map f) : ∀ n,
    buildList g' n = (buildList g n).map (List.map f)
  | 0 => rfl
  | n + 1 => by
    unfold buildList
    rw [buildList_map f h n, h n]
    cases buildList g n with
    | error e => rfl
    | ok l =>
      cases g n with
      | error e => rfl
      | ok a => simp [Except.map, Bind.bind, Except.bind, pure, Except.pure]

theorem clamped_scale (hr : r ≠ 0) (U : List K) (p : ℕ) : PS.clamped (U.map (r * ·)) p = PS.clamped U p := by
  have hi : Function.Injective (Option.map (r * · : K → K)) := Option.map_injective (mul_right_injective₀ hr)
  unfold PS.clamped
  simp only [List.length_map, List.getElem?_map, hi.eq_iff]

theorem checkKnots_scale (hr : r ≠ 0) : ∀ (Us : List (List K)) (ps : List ℕ), PS.checkKnots (sc r Us) ps = PS.checkKnots Us ps
  | [], ps => by cases ps <;> rfl
  | U :: Us, [] => rfl
  | U :: Us, p :: ps => by
    have ih := checkKnots_scale hr Us ps
    unfold sc at ih ⊢
    rw [List.map_cons, PS.checkKnots, PS.checkKnots, clamped_scale hr, ih]

theorem pointNumbers_scale (r : K) : ∀ (Us : List (List K)) (ps : List ℕ), Spl.pointNumbers (sc r Us) ps = Spl.pointNumbers Us ps
  | [], ps => by cases ps <;> rfl
  | U :: Us, [] => rfl
  | U :: Us, p :: ps => by
    have ih := pointNumbers_scale r Us ps
    unfold sc at ih ⊢
    rw [List.map_cons, Spl.pointNumbers, Spl.pointNumbers, List.length_map, ih]

theorem psNew_scale (hr : r ≠ 0) {Us : List (List K)} {ps : List ℕ} {q' : PS K} (h : (PS.new (sc r Us) ps >>= PS.copy) = .ok q') :
    ∃ q, (PS.new Us ps >>= PS.copy) = .ok q ∧ q.knots = Us ∧ q.degree = ps ∧ q'.knots = sc r Us ∧ q'.degree = ps ∧ PS.basisTable Us ps = .ok q.basis := by
  obtain ⟨tmp', h1, h⟩ := bind_eq_ok.1 h
  unfold PS.new at h1
  rw [checkKnots_scale hr] at h1
  obtain ⟨u, hu, h1⟩ := bind_eq_ok.1 h1
  obtain ⟨b', hb', h1⟩ := bind_eq_ok.1 h1
  obtain ⟨b, hb⟩ := basisTable_scale r _ _ hb'
  obtain rfl := Except.ok.inj h1
  unfold PS.copy at h
  dsimp only at h
  rw [hb', ok_bind] at h
  obtain rfl := Except.ok.inj h
  refine ⟨⟨Us, ps, b⟩, ?_, rfl, rfl, rfl, rfl, hb⟩
  unfold PS.new
  rw [hu, ok_bind, hb, ok_bind]
  show PS.copy ⟨Us, ps, b⟩ = _
  unfold PS.copy
  dsimp only
  rw [hb, ok_bind]
  rfl

theorem copy_scale {s s' q' : Spl K} (hs : Scaled r s s') (h : s'.copy = .ok q') : ∃ q, s.copy = .ok q ∧ Scaled r q q' := by
  unfold Spl.copy PS.copy at h ⊢
  obtain ⟨ps', hps, h⟩ := bind_eq_ok.1 h
  obtain ⟨b', hb', hps⟩ := bind_eq_ok.1 hps
  obtain rfl := Except.ok.inj hps
  obtain rfl := Except.ok.inj h
  rw [hs.basis]
  exact ⟨⟨⟨s.ps.knots, s.ps.degree, s.ps.basis⟩, s.ph⟩, rfl, hs.knots, hs.degree, hs.ph, hs.basis⟩

theorem newBSpline_scale (hr : r ≠ 0) {Us : List (List K)} {ps : List ℕ} {pts : List (List K)} {q' : Spl K}
    (h : Spl.newBSpline (sc r Us) ps pts = .ok q') : ∃ q, Spl.newBSpline Us ps pts = .ok q ∧ Scaled r q q' := by
  unfold Spl.newBSpline at h ⊢
  rw [← bind_assoc] at h ⊢
  obtain ⟨ps', hps, h⟩ := bind_eq_ok.1 h
  obtain ⟨q, e1, e2, e3, e4, e5, e6⟩ := psNew_scale hr hps
  rw [pointNumbers_scale] at h
  obtain ⟨ph, hph, h⟩ := bind_eq_ok.1 h
  obtain rfl := Except.ok.inj h
  rw [e1, ok_bind, hph, ok_bind]
  exact ⟨⟨q, ph⟩, rfl, by rw [e2]; exact e4, by rw [e3]; exact e5, rfl, by rw [e2, e3]; exact e6⟩

theorem newNurbs_scale (hr : r ≠ 0) {Us : List (List K)} {ps : List ℕ} {pts : List (List K)} {w : List K} {q' : Spl K}
    (h : Spl.newNurbs (sc r Us) ps pts w = .ok q') : ∃ q, Spl.newNurbs Us ps pts w = .ok q ∧ Scaled r q q' := by
  unfold Spl.newNurbs at h ⊢
  rw [← bind_assoc] at h ⊢
  obtain ⟨ps', hps, h⟩ := bind_eq_ok.1 h
  obtain ⟨q, e1, e2, e3, e4, e5, e6⟩ := psNew_scale hr hps
  rw [pointNumbers_scale] at h
  obtain ⟨ph, hph, h⟩ := bind_eq_ok.1 h
  obtain rfl := Except.ok.inj h
  rw [e1, ok_bind, hph, ok_bind]
  exact ⟨⟨q, ph⟩, rfl, by rw [e2]; exact e4, by rw [e3]; exact e5, rfl, by rw [e2, e3]; exact e6⟩

theorem getN_map {α β : Type} (f : α → β) (l : List α) (i : ℕ) : getN (l.map f) i = (getN l i).map f := by
  unfold getN
  rw [List.getElem?_map]
  cases l[i]? <;> rfl

theorem subdividePart_scale (hr : r ≠ 0) {s s' : Spl K} (hs : Scaled r s s') {Us : List (List K)} {first : ℤ} {q' : Spl K} {n : ℤ}
    (h : s'.subdividePart (sc r Us) first d = .ok (q', n)) : ∃ q, s.subdividePart Us first d = .ok (q, n) ∧ Scaled r q q' := by
  unfold Spl.subdividePart at h ⊢
  rw [hs.degree, hs.ph] at h
  obtain ⟨U', hU', h⟩ := bind_eq_ok.1 h
  have hg : getN (sc r Us) d = (getN Us d).map (List.map (r * ·)) := getN_map _ _ _
  rw [hg] at hU'
  cases hU : getN Us d with
  | error e => rw [hU] at hU'; cases hU'
  | ok U =>
    rw [hU] at hU'
    obtain rfl := Except.ok.inj hU'
    rw [ok_bind]
    obtain ⟨p, hp, h⟩ := bind_eq_ok.1 h
    rw [hp, ok_bind]
    dsimp only at h ⊢
    rw [List.length_map] at h
    obtain ⟨pts, hpts, h⟩ := bind_eq_ok.1 h
    rw [hpts, ok_bind]
    cases hw : s.ph.weights with
    | none =>
      rw [hw] at h
      dsimp only at h ⊢
      obtain ⟨a', ha', h⟩ := bind_eq_ok.1 h
      obtain ⟨b', hb', h⟩ := bind_eq_ok.1 h
      obtain ⟨a, ha, hsa⟩ := newBSpline_scale hr ha'
      obtain ⟨b, hb, hsb⟩ := copy_scale hsa hb'
      rw [ha, ok_bind, hb, ok_bind]
      cases h
      exact ⟨b, rfl, hsb⟩
    | some w =>
      rw [hw] at h
      dsimp only at h ⊢
      obtain ⟨ws, hws, h⟩ := bind_eq_ok.1 h
      obtain ⟨a', ha', h⟩ := bind_eq_ok.1 h
      obtain ⟨b', hb', h⟩ := bind_eq_ok.1 h
      obtain ⟨a, ha, hsa⟩ := newNurbs_scale hr ha'
      obtain ⟨b, hb, hsb⟩ := copy_scale hsa hb'
      rw [hws, ok_bind, ha, ok_bind, hb, ok_bind]
      cases h
      exact ⟨b, rfl, hsb⟩

theorem divided_scale {ps ps' : PS K} (hr : 1 ≤ r) (hk : ps'.knots = sc r ps.knots) (hd : ps'.degree = ps.degree)
    (hU : ps.knots[d]? = some U) (hc : Clear U t) {kl' kr' : List (List K)} (h : ps'.dividedKnotVectors (r * t) d = .ok (kl', kr')) :
    ∃ kl kr, ps.dividedKnotVectors t d = .ok (kl, kr) ∧ kl' = sc r kl ∧ kr' = sc r kr := by
  have hU' : ps'.knots[d]? = some (U.map (r * ·)) := by rw [hk, sc_get, hU]; rfl
  unfold PS.dividedKnotVectors at h ⊢
  rw [getN_some hU', ok_bind, hd] at h
  rw [getN_some hU, ok_bind]
  obtain ⟨p, hp, h⟩ := bind_eq_ok.1 h
  rw [hc.span_scale hr] at h
  obtain ⟨k, hkk, h⟩ := bind_eq_ok.1 h
  rw [hp, ok_bind, hkk, ok_bind]
  rw [buildList_map (r * ·) (g := fun j => getI U j) (fun j => getI_map _ _ _)] at h
  cases hl : buildList (fun j => getI U j) (k + 1).toNat with
  | error e => rw [hl] at h; cases h
  | ok l =>
    rw [hl] at h
    simp only [Except.map, ok_bind, List.length_map] at h ⊢
    rw [buildList_map (r * ·) (g := fun j => getI U (k - p + j)) (fun j => getI_map _ _ _)] at h
    cases hr' : buildList (fun j => getI U (k - p + j)) ((U.length : ℤ) - (k - p)).toNat with
    | error e => rw [hr'] at h; cases h
    | ok rr =>
      rw [hr'] at h
      simp only [Except.map, ok_bind] at h ⊢
      cases h
      exact ⟨_, _, rfl, by rw [hk, sc_set], by rw [hk, sc_set]⟩

/-- `SudivideSpline` commutes with scaling. -/
theorem subdivide_scale {s s' : Spl K} (hr : 1 ≤ r) (hs : Scaled r s s') (hU : s.ps.knots[d]? = some U) (hc : Clear U t) {q' a' b' : Spl K}
    (h : s'.subdivide (r * t) d = .ok (q', a', b')) :
    ∃ q a b, s.subdivide t d = .ok (q, a, b) ∧ Scaled r q q' ∧ Scaled r a a' ∧ Scaled r b b' := by
  have hr0 : 0 < r := lt_of_lt_of_le one_pos hr
  have hU' : s'.ps.knots[d]? = some (U.map (r * ·)) := by rw [hs.knots, sc_get, hU]; rfl
  unfold Spl.subdivide at h ⊢
  rw [getN_some hU', ok_bind, hs.degree] at h
  rw [getN_some hU, ok_bind]
  obtain ⟨p, hp, h⟩ := bind_eq_ok.1 h
  rw [hp, ok_bind]
  have hm : Spl.subdivideMult p (U.map (r * ·)) (r * t) = Spl.subdivideMult p U t := by
    unfold Spl.subdivideMult; rw [kvMult_scale hr0]
  rw [hm] at h
  obtain ⟨q1', h1, h⟩ := bind_eq_ok.1 h
  obtain ⟨q1, V, e1, e2, e3, e4, e5⟩ := insertKnot_scale hr hs hU hc h1
  rw [e1, ok_bind]
  obtain ⟨⟨kl', kr'⟩, h2, h⟩ := bind_eq_ok.1 h
  obtain ⟨kl, kr, f1, rfl, rfl⟩ := divided_scale hr e2.knots e2.degree (by rw [e3]; exact set_get hU) e4 h2
  rw [f1, ok_bind]
  dsimp only at h ⊢
  obtain ⟨⟨l', n⟩, h3, h⟩ := bind_eq_ok.1 h
  obtain ⟨l, g1, g2⟩ := subdividePart_scale hr0.ne' e2 h3
  rw [g1, ok_bind]
  dsimp only at h ⊢
  obtain ⟨⟨b1', n'⟩, h4, h⟩ := bind_eq_ok.1 h
  obtain ⟨b, k1, k2⟩ := subdividePart_scale hr0.ne' e2 h4
  rw [k1, ok_bind]
  cases h
  exact ⟨q1, l, b, rfl, e2, g2, k2⟩

end SplineLib
