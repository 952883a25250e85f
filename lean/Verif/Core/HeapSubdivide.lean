import Verif.Core.HeapFresh

/-!
# `SudivideSpline` on the memory model computes what the value model says
-/

namespace SplineLib
set_option linter.unusedSectionVars false
variable {K : Type}

namespace Heap

theorem readAll_append {kvs post : List (List K)} {as : List ℕ} (h : ∀ a ∈ as, a < kvs.length) :
    readAll (kvs ++ post) as = readAll kvs as :=
  readAll_congr fun a ha => append_get (h a ha)

theorem readAll_set {kvs : List (List K)} {b : ℕ} {U : List K} (hb : kvs[b]? = some U) : ∀ {as : List ℕ} {ks : List (List K)} {d : ℕ},
    readAll kvs as = .ok ks → readAll kvs (as.set d b) = .ok (ks.set d U)
  | [], ks, d, h => by cases h; rfl
  | a :: as, ks, d, h => by
    obtain ⟨V, hV, h⟩ := bind_ok h
    obtain ⟨Vs, hVs, h⟩ := bind_ok h
    cases h
    cases d with
    | zero =>
      have : getN kvs b = .ok U := by simp only [getN, hb]
      simp only [List.set_cons_zero, readAll, this, ok_bind, hVs]
      rfl
    | succ d =>
      simp only [List.set_cons_succ, readAll, hV, ok_bind, readAll_set hb hVs]
      rfl

variable [LinearOrder K] [Field K]

theorem view_cell {h : Heap K} {o : Obj} {s : Spl K} (e : h.view o = .ok s) :
    ∃ c, h.pss[o.ps]? = some c ∧ readAll h.kvs c.knots = .ok s.ps.knots ∧ c.degree = s.ps.degree := by
  obtain ⟨c, hc, e⟩ := bind_ok e
  obtain ⟨ks, hk, e⟩ := bind_ok e
  obtain ⟨ph, hp, e⟩ := bind_ok e
  cases e
  exact ⟨c, getN_ok hc, hk, rfl⟩

theorem view_newSpline {h : Heap K} {as degree : List ℕ} {points : List (List K)} {weights : Option (List K)} {x : Heap K × Obj}
    (e : h.newSpline as degree points weights = .ok x) :
    ∃ ks s, readAll h.kvs as = .ok ks ∧ construct ks degree points weights = .ok s ∧ x.1.view x.2 = .ok s := by
  obtain ⟨ks, hk, e⟩ := bind_ok e
  obtain ⟨s, hs, e⟩ := bind_ok e
  cases e
  exact ⟨ks, s, hk, hs, view_alloc h s⟩

theorem view_copy {h : Heap K} {o : Obj} {x : Heap K × Obj} (e : h.copy o = .ok x) :
    ∃ s s', h.view o = .ok s ∧ s.copy = .ok s' ∧ x.1.view x.2 = .ok s' := by
  obtain ⟨s, hs, e⟩ := bind_ok e
  obtain ⟨s', hs', e⟩ := bind_ok e
  cases e
  exact ⟨s, s', hs, hs', view_alloc h s'⟩

theorem view_subdividePart {h : Heap K} (w : h.WF) {o : Obj} {s : Spl K} (hv : h.view o = .ok s) {V : List K} {first : ℤ} {d : ℕ}
    {x : Heap K × Obj × ℤ} (e : h.subdividePart o (s.ps.knots.set d V) first d = .ok x) :
    ∃ sr, s.subdividePart (s.ps.knots.set d V) first d = .ok (sr, x.2.2) ∧ x.1.view x.2.1 = .ok sr := by
  obtain ⟨c, hc, e⟩ := bind_ok e
  obtain ⟨s0, hs, e⟩ := bind_ok e
  obtain ⟨U, hU, e⟩ := bind_ok e
  obtain ⟨p, hp, e⟩ := bind_ok e
  obtain ⟨points, hpt, e⟩ := bind_ok e
  obtain ⟨weights, hw, e⟩ := bind_ok e
  obtain ⟨⟨h2, r2⟩, e2, e⟩ := bind_ok e
  obtain ⟨⟨h3, r3⟩, e3, e⟩ := bind_ok e
  cases e
  rw [hv] at hs
  cases hs
  obtain ⟨c', hc', hr, _⟩ := view_cell hv
  rw [getN_ok hc] at hc'
  cases hc'
  obtain ⟨ks, sn, hk, hcon, vn⟩ := view_newSpline e2
  obtain ⟨s1, s2, v1, hcopy, v2⟩ := view_copy e3
  simp only at vn v2
  rw [vn] at v1
  cases v1
  have hks : ks = s.ps.knots.set d V := by
    have h1 : readAll (h.kvs ++ [U]) c.knots = .ok s.ps.knots := by
      rw [readAll_append fun a ha => w c (List.mem_of_getElem? (getN_ok hc)) a ha, hr]
    have h2 := readAll_set (b := h.kvs.length) (U := U) (d := d) (by simp) h1
    simp only at hk
    rw [hk] at h2
    cases h2
    have h3 := getN_ok hU
    have h4 : d < (s.ps.knots.set d V).length := (List.getElem?_eq_some_iff.1 h3).1
    rw [List.length_set] at h4
    rw [List.getElem?_set_self h4] at h3
    cases h3
    rfl
  subst hks
  refine ⟨s2, ?_, v2⟩
  simp only [Spl.subdividePart, hU, hp, hpt, ok_bind]
  unfold partWeights at hw
  split at hw
  · rename_i hnone
    cases hw
    simp only [hnone]
    simp only [construct] at hcon
    simp only [hcon, hcopy, ok_bind]
    rfl
  · rename_i wts hsome
    simp only [hsome]
    cases hdw : s.ph.dividedWeights first (↑U.length - ↑p - 1) d with
    | error e => rw [hdw] at hw; cases hw
    | ok ws =>
      rw [hdw] at hw
      cases hw
      simp only [construct] at hcon
      simp only [hcon, hcopy, ok_bind]
      rfl

theorem dividedKnotVectors_form {ps : PS K} {x : K} {d : ℕ} {kl kr : List (List K)} (e : ps.dividedKnotVectors x d = .ok (kl, kr)) :
    ∃ V W, kl = ps.knots.set d V ∧ kr = ps.knots.set d W := by
  obtain ⟨U, _, e⟩ := bind_ok e
  obtain ⟨p, _, e⟩ := bind_ok e
  obtain ⟨k, _, e⟩ := bind_ok e
  obtain ⟨l, _, e⟩ := bind_ok e
  obtain ⟨r, _, e⟩ := bind_ok e
  cases e
  exact ⟨l, r, rfl, rfl⟩

/-- The divided object and the two parts hold what the value model computes. -/
theorem view_subdivide {h : Heap K} (w : h.WF) {o : Obj} {t : K} {d : ℕ} {x : Heap K × Obj × Obj} (e : h.subdivide o t d = .ok x) :
    ∃ s s1 sl sr, h.view o = .ok s ∧ s.subdivide t d = .ok (s1, sl, sr) ∧ x.1.view o = .ok s1 ∧ x.1.view x.2.1 = .ok sl ∧
      x.1.view x.2.2 = .ok sr := by
  obtain ⟨s, hs, e⟩ := bind_ok e
  obtain ⟨U, hU, e⟩ := bind_ok e
  obtain ⟨p, hp, e⟩ := bind_ok e
  obtain ⟨h1, e1, e⟩ := bind_ok e
  obtain ⟨s1, hs1, e⟩ := bind_ok e
  obtain ⟨⟨kl, kr⟩, hk, e⟩ := bind_ok e
  obtain ⟨⟨h2, l, len⟩, e2, e⟩ := bind_ok e
  obtain ⟨⟨h3, r, len3⟩, e3, e⟩ := bind_ok e
  cases e
  obtain ⟨s', s1', v1, v2, v3⟩ := view_call w e1
  rw [hs] at v1
  cases v1
  rw [hs1] at v3
  cases v3
  obtain ⟨V, W, rfl, rfl⟩ := dividedKnotVectors_form hk
  have w1 := (grow_call e1).wf w
  have l1 := view_live hs1
  obtain ⟨sl, a1, a2⟩ := view_subdividePart w1 hs1 e2
  obtain ⟨g2, f2⟩ := grow_subdividePart e2
  have k2 := (keeps_subdividePart (Prog.inRange_footOf w1 l1) e2).1
  have hs2 : h2.view o = .ok s1 := by rw [Prog.view_old k2 l1]; exact hs1
  obtain ⟨sr, b1, b2⟩ := view_subdividePart (g2.wf w1) hs2 e3
  have k3 := (keeps_subdividePart (Prog.inRange_footOf (g2.wf w1) (l1.grow g2)) e3).1
  have k3' := (keeps_subdividePart (Prog.inRange_footOf (g2.wf w1) f2.2.2.1) e3).1
  refine ⟨s, s1, sl, sr, hs, ?_, ?_, ?_, b2⟩
  · simp only [Spl.subdivide, hU, hp, v2, hk, ok_bind]
    simp only at a1 b1
    simp only [a1, b1, ok_bind]
    rfl
  · show h3.view o = _
    rw [Prog.view_old k3 (l1.grow g2)]; exact hs2
  · show h3.view l = _
    rw [Prog.view_old k3' f2.2.2.1]; exact a2

end Heap
end SplineLib
