import Verif.Core.Elevate

/-!
# Shape of splines under knot insertion, without positive weights (helper lemmas)
-/

namespace SplineLib
set_option linter.unusedSectionVars false
variable {K : Type} [Field K] [LinearOrder K] [IsStrictOrderedRing K]

theorem storeLoop_length {cp : List K} {first : ℤ} : ∀ (n : ℕ) {l l' : List K}, Phys.storeLoop cp first n l = .ok l' →
    l'.length = l.length := by
  intro n
  induction n with
  | zero => intro l l' h; simp only [Phys.storeLoop, Except.ok.injEq] at h; rw [h]
  | succ n ih =>
    intro l l' h
    rw [Phys.storeLoop, bind_eq_ok] at h
    obtain ⟨l1, h1, h⟩ := h
    rw [bind_eq_ok] at h
    obtain ⟨v, _, h⟩ := h
    rw [(setI_eq_ok h).2.2, List.length_set, ih h1]

theorem setCP_lengths {ph ph' : Phys K} {ix : List ℤ} {cp : List K} {num : List ℤ} (h : ph.setCP ix cp num = .ok ph') :
    ph'.cps.length = ph.cps.length ∧ ph'.weights = ph.weights := by
  unfold Phys.setCP at h
  rw [bind_eq_ok] at h
  obtain ⟨_, h1, h2⟩ := h
  rw [← Except.ok.inj h2]
  exact ⟨storeLoop_length _ h1, rfl⟩

theorem setWeight_lengths {ph ph' : Phys K} {ix : List ℤ} {v : K} {num : List ℤ} (h : ph.setWeight ix v num = .ok ph') :
    ph'.cps = ph.cps ∧ ph'.weights.map List.length = ph.weights.map List.length := by
  unfold Phys.setWeight at h
  rw [bind_eq_ok] at h
  obtain ⟨w, hw, h2⟩ := h
  rw [bind_eq_ok] at h2
  obtain ⟨w', h3, h2⟩ := h2
  rw [← Except.ok.inj h2]
  refine ⟨rfl, ?_⟩
  unfold Phys.theWeights at hw
  cases hh : ph.weights with
  | none => rw [hh] at hw; simp at hw
  | some w0 =>
    rw [hh] at hw
    obtain rfl := Except.ok.inj hw
    simp [(setI_eq_ok h3).2.2]

/-- `AdjustControlPoints`, if it succeeds, adds one layer of control points (and weights). -/
theorem adjustCPs_lengths {ph ph' : Phys K} {ns : List ℕ} {scaling : List K} {first last : ℤ} {d : ℕ} (h0 : ShapePhys ph ns)
    (hpos : ∀ n ∈ ns, 0 < n) (hdn : d < ns.length) (h : Spl.adjustCPs ph scaling first last d = .ok ph') :
    ShapePhys ph' (ns.set d (ixd ns d + 1)) ∧ (ph.weights = none ↔ ph'.weights = none) := by
  obtain ⟨hnum, hdim⟩ := adjustCPs_shape h
  have hn0 := ixd_pos hpos hdn
  unfold Spl.adjustCPs at h
  rw [bind_eq_ok] at h
  obtain ⟨m, hm, h⟩ := h
  rw [bind_eq_ok] at h
  obtain ⟨n, hn, h⟩ := h
  rw [bind_eq_ok] at h
  obtain ⟨ph2, h1, h⟩ := h
  have hmaxeq : ph.maxIndex.modify d (· + 1) = zl ((ns.map (· - 1)).set d (ixd ns d)) := by
    have : ph.maxIndex = zl (ns.map (· - 1)) := by
      simp only [Phys.maxIndex, h0.num, zl, List.map_map]
      apply List.map_congr_left
      intro n hn
      have := hpos n hn
      simp only [Function.comp_apply]; omega
    rw [this]
    refine modify_zl (by simpa using hdn) ?_
    have : ixd (ns.map (· - 1)) d = ixd ns d - 1 := by simp [ixd, List.getD_eq_getElem?_getD, hdn]
    rw [this]; omega
  rw [hmaxeq, getN_zl (by simpa using hdn)] at hm
  obtain rfl := Except.ok.inj hm
  rw [ixd_set_self (by simpa using hdn), h0.cpsPer hpos hdn] at hn
  obtain rfl := Except.ok.inj hn
  have hp := downLoop_pres (body := Spl.adjustBody scaling first last d)
    (fun q : Phys K => q.cps.length = ph.cps.length + (ns.set d 1).prod * ph.dim ∧
      q.weights.map List.length = ph.weights.map (fun w => w.length + (ns.set d 1).prod)) (by
    intro h q q' hq he
    unfold Spl.adjustBody at he
    rw [bind_eq_ok] at he
    obtain ⟨cur, _, he⟩ := he
    split at he
    · rw [bind_eq_ok] at he
      obtain ⟨_, _, he⟩ := he
      have := setCP_lengths he
      rw [this.1, this.2]; exact hq
    · rw [bind_eq_ok] at he
      obtain ⟨_, _, he⟩ := he
      rw [bind_eq_ok] at he
      obtain ⟨_, _, he⟩ := he
      rw [bind_eq_ok] at he
      obtain ⟨q1, h1, he⟩ := he
      have a := setCP_lengths h1
      have b := setWeight_lengths he
      rw [b.1, b.2, a.1, a.2]; exact hq) _ _ _ _ (by
    refine ⟨by simp only [Phys.addCPs, List.length_append, List.length_replicate, Int.toNat_natCast], ?_⟩
    cases hw : ph.weights <;>
      simp only [Phys.addCPs, hw, Option.map_some, Option.map_none, List.length_append, List.length_replicate, Int.toNat_natCast]) h1
  have hcps : ph'.cps = ph2.cps := by rw [← Except.ok.inj h]
  have hwts : ph'.weights = ph2.weights := by rw [← Except.ok.inj h]
  have hprod : (ns.set d (ixd ns d + 1)).prod = ns.prod + (ns.set d 1).prod := by
    rw [prod_set hdn, prod_eq_ixd hdn]; ring
  refine ⟨⟨?_, by rw [hdim]; exact h0.dim, ?_, ?_⟩, ?_⟩
  · rw [hnum, h0.num]; exact modify_zl hdn (by push_cast; ring)
  · rw [hcps, hp.1, h0.cps, hprod, hdim]; ring
  · intro w hw
    rw [← hwts, hw] at hp
    cases hw0 : ph.weights with
    | none => rw [hw0] at hp; simp at hp
    | some w0 =>
      rw [hw0] at hp
      have := hp.2
      simp only [Option.map_some, Option.some.injEq] at this
      rw [this, h0.weights w0 hw0, hprod]
  · rw [hwts]
    have := hp.2
    cases hw0 : ph.weights <;> cases hw1 : ph2.weights <;> rw [hw0, hw1] at this <;> simp at this ⊢

theorem insertRounds_lengths {U : List K} {p : ℕ} {x : K} {d : ℕ} : ∀ (n i : ℕ) (span : ℤ) (ph ph' : Phys K) (ns : List ℕ),
    ShapePhys ph ns → (∀ n ∈ ns, 0 < n) → d < ns.length → Spl.insertRounds U p x d n i span ph = .ok ph' →
    ShapePhys ph' (ns.set d (ixd ns d + n)) ∧ (ph.weights = none ↔ ph'.weights = none) := by
  intro n
  induction n with
  | zero =>
    intro i span ph ph' ns h0 _ hdn h
    simp only [Spl.insertRounds, Except.ok.injEq] at h
    rw [← h, Nat.add_zero, set_ixd hdn]
    exact ⟨h0, Iff.rfl⟩
  | succ n ih =>
    intro i span ph ph' ns h0 hpos hdn h
    rw [Spl.insertRounds, bind_eq_ok] at h
    obtain ⟨b, _, h⟩ := h
    rw [bind_eq_ok] at h
    obtain ⟨sc, _, h⟩ := h
    rw [bind_eq_ok] at h
    obtain ⟨ph1, h1, h⟩ := h
    obtain ⟨a1, a2⟩ := adjustCPs_lengths h0 hpos hdn h1
    obtain ⟨b1, b2⟩ := ih _ _ _ _ _ a1 (set_pos hpos (by omega)) (by simpa using hdn) h
    rw [ixd_set_self hdn, List.set_set] at b1
    refine ⟨?_, a2.trans b2⟩
    rwa [show ixd ns d + (n + 1) = ixd ns d + 1 + n by ring]

theorem insertKnotsPS_many {ps : PS K} (h : WFPS ps) {d : ℕ} {U : List K} {p : ℕ} (hU : ps.knots[d]? = some U)
    (hp : ps.degree[d]? = some p) {t : K} (ht : Admissible U t) (m : ℕ) :
    ∃ b, Spl.insertKnotsPS t d m ps = .ok ⟨ps.knots.set d (insMany U t m), ps.degree, b⟩ ∧
      WFPS (⟨ps.knots.set d (insMany U t m), ps.degree, b⟩ : PS K) := by
  have hw := forall₂_get h.knots hU hp
  induction m with
  | zero =>
    refine ⟨ps.basis, ?_, ?_⟩
    · simp only [Spl.insertKnotsPS, insMany, set_same hU]
    · simp only [insMany, set_same hU]; exact h
  | succ m ih =>
    obtain ⟨b, e1, w1⟩ := ih
    have hf := insMany_facts hw ht m
    obtain ⟨b2, e2, w2⟩ := psInsert w1 (d := d) (U := insMany U t m) (p := p) (by
      show (ps.knots.set d (insMany U t m))[d]? = _
      rw [List.getElem?_set]; simp [lt_of_some hU]) hp hf.adm
    simp only [List.set_set] at e2 w2
    refine ⟨b2, ?_, w2⟩
    rw [insertKnotsPS_append, e1, ok_bind]
    simp only [Spl.insertKnotsPS, e2, ok_bind]
    rfl

/-- A successful `InsertKnot` keeps the shape, whatever the weights. -/
theorem insertKnot_shape {s s' : Spl K} (h : ShapeSpl s) {d : ℕ} {U : List K} {p : ℕ} (hU : s.ps.knots[d]? = some U)
    (hp : s.ps.degree[d]? = some p) {t : K} (ht : Admissible U t) {m : ℕ} (he : s.insertKnot t d m = .ok s') :
    ShapeSpl s' ∧ s'.ps.degree = s.ps.degree ∧ s'.ps.knots = s.ps.knots.set d (insMany U t m) ∧ s'.ph.dim = s.ph.dim ∧
      (s.ph.weights = none ↔ s'.ph.weights = none) := by
  have hw := forall₂_get h.ps.knots hU hp
  have hf := insMany_facts hw ht m
  obtain ⟨b, e1, w1⟩ := insertKnotsPS_many h.ps hU hp ht m
  unfold Spl.insertKnot at he
  rw [getN_some hU, ok_bind, getN_some hp, ok_bind, ht.span_eq hw, ok_bind, e1] at he
  rw [bind_eq_ok] at he
  obtain ⟨ph, h1, he⟩ := he
  rw [ok_bind] at he
  have hn := nptsOf_get hU hp
  obtain ⟨a1, a2⟩ := insertRounds_lengths _ _ _ _ _ _ h.ph (nptsOf_pos h.ps.knots) (lt_of_some hn) h1
  have hd := (insertRounds_shape _ _ _ _ _ h1).2
  rw [← Except.ok.inj he]
  refine ⟨⟨w1, ?_⟩, rfl, rfl, hd, a2⟩
  have e : npts (⟨⟨s.ps.knots.set d (insMany U t m), s.ps.degree, b⟩, ph⟩ : Spl K) = (npts s).set d (ixd (npts s) d + m) := by
    have hix : ixd (npts s) d = U.length - p - 1 := nptsOf_ixd hU hp
    have hsz := hw.size
    rw [npts_eq, hix]
    show nptsOf (s.ps.knots.set d (insMany U t m)) s.ps.degree = _
    rw [nptsOf_set _ hp, hf.length]
    rw [show U.length + m - p - 1 = U.length - p - 1 + m by omega]
    rfl
  rw [e]
  exact a1

end SplineLib
