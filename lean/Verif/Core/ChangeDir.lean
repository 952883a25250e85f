import Verif.Core.Reverse

/-!
# Equivalent descriptions: one direction changed, two directions exchanged (helper lemmas)
-/

namespace SplineLib
set_option linter.unusedSectionVars false
open Finset

section
variable {K : Type} [Field K] [LinearOrder K] [IsStrictOrderedRing K]

theorem basisDerivFns_get : ∀ {Us : List (List K)} {ps : List ℕ} {xs : List K} {ks : List ℕ} {d : ℕ} {U : List K} {p : ℕ} {x : K} {k : ℕ}, Us[d]? = some U →
    ps[d]? = some p → xs[d]? = some x → ks[d]? = some k → (basisDerivFns Us ps xs ks)[d]? = some fun i => coxDeBoorDeriv U p k i x := by
  intro Us
  induction Us with
  | nil => intro ps xs ks d U p x k h; simp at h
  | cons U0 Us ih =>
    intro ps xs ks d U p x k h1 h2 h3 h4
    cases ps with
    | nil => simp at h2
    | cons p0 ps =>
      cases xs with
      | nil => simp at h3
      | cons x0 xs =>
        cases ks with
        | nil => simp at h4
        | cons k0 ks =>
          cases d with
          | zero => simp_all [basisDerivFns]
          | succ d => simp only [List.getElem?_cons_succ] at *; simpa [basisDerivFns] using ih h1 h2 h3 h4

theorem basisDerivFns_set : ∀ {Us : List (List K)} {ps : List ℕ} {xs : List K} {ks : List ℕ} {d : ℕ} {U : List K} {p : ℕ} {x : K} {k : ℕ} (V : List K) (y : K),
    Us[d]? = some U → ps[d]? = some p → xs[d]? = some x → ks[d]? = some k →
    basisDerivFns (Us.set d V) ps (xs.set d y) ks = (basisDerivFns Us ps xs ks).set d fun i => coxDeBoorDeriv V p k i y := by
  intro Us
  induction Us with
  | nil => intro ps xs ks d U p x k V y h; simp at h
  | cons U0 Us ih =>
    intro ps xs ks d U p x k V y h1 h2 h3 h4
    cases ps with
    | nil => simp at h2
    | cons p0 ps =>
      cases xs with
      | nil => simp at h3
      | cons x0 xs =>
        cases ks with
        | nil => simp at h4
        | cons k0 ks =>
          cases d with
          | zero => simp_all [basisDerivFns]
          | succ d =>
            simp only [List.getElem?_cons_succ] at *
            simp only [List.set_cons_succ, basisDerivFns]
            rw [ih V y h1 h2 h3 h4]

theorem ixd_some {l : List ℕ} {d : ℕ} (h : d < l.length) : l[d]? = some (ixd l d) := by
  simp [ixd, List.getD_eq_getElem?_getD, List.getElem?_eq_getElem h]

theorem dom_set_both {Us : List (List K)} {xs : List K} (h : Dom Us xs) {d : ℕ} {V : List K} {y : K} (hy : knot V 0 ≤ y ∧ y ≤ lastKnot V) :
    Dom (Us.set d V) (xs.set d y) := by
  induction h generalizing d with
  | nil => exact .nil
  | cons h1 h2 ih =>
    cases d with
    | zero => exact .cons hy h2
    | succ d => exact .cons h1 ih

theorem ixd_msub {k j : List ℕ} (h : InBox (k.map (· + 1)) j) (d : ℕ) : ixd j d ≤ ixd k d ∧ ixd (msub k j) d + ixd j d = ixd k d := by
  induction k generalizing j d with
  | nil =>
    have := h.length
    simp at this
    subst this
    simp [ixd, msub]
  | cons a k ih =>
    cases j with
    | nil => simp at h
    | cons b j =>
      simp only [List.map_cons, inBox_cons] at h
      cases d with
      | zero => simp [ixd, msub]; omega
      | succ d =>
        have := ih h.2 d
        simpa [ixd, msub] using this

/-- A direction with other knots, whose basis functions are the old ones in another order, up to factors in derivatives. -/
theorem Redesc.dir {s s' : Spl K} (h : WFSpl s) (h' : WFSpl s') {d : ℕ} {U V : List K} {p : ℕ} (hU : s.ps.knots[d]? = some U)
    (hp : s.ps.degree[d]? = some p) (hk : s'.ps.knots = s.ps.knots.set d V) (hdeg : s'.ps.degree = s.ps.degree) (hlen : V.length = U.length)
    (hdim : s'.ph.dim = s.ph.dim) (hkind : s'.ph.weights = none ↔ s.ph.weights = none) {x : List K} (hx : InDomain s x) {a b : K} (ha : x[d]? = some a)
    (hb : knot V 0 ≤ b ∧ b ≤ lastKnot V) {π : ℕ → ℕ} (hπ : ∀ i < U.length - p - 1, π i < U.length - p - 1)
    (hsum : ∀ g : ℕ → K, ∑ i ∈ range (U.length - p - 1), g (π i) = ∑ i ∈ range (U.length - p - 1), g i)
    {r ν : K} {B : ℕ → Prop} (hB0 : B 0) (hB : ∀ k j, j ≤ k → B k → B j)
    (hbas : ∀ k, B k → ∀ i < U.length - p - 1, coxDeBoorDeriv V p k (π i) b = r ^ k * coxDeBoorDeriv U p k i a)
    (hc : ∀ I, InBox (npts s) I → ∀ c < s.ph.dim, cpt s' (I.set d (π (ixd I d))) c = cpt s I c) (hν : 0 < ν)
    (hw : ∀ I, InBox (npts s) I → wgt s' (I.set d (π (ixd I d))) = ν * wgt s I) :
    Redesc s s' x (x.set d b) (fun I => I.set d (π (ixd I d))) (fun k => k) (fun k => r ^ ixd k d) ν fun k => B (ixd k d) := by
  have hdn : d < (npts s).length := lt_of_some (nptsOf_get hU hp)
  have hdk : d < s.ps.knots.length := lt_of_some hU
  have hix : ixd (npts s) d = U.length - p - 1 := nptsOf_ixd hU hp
  have hn : npts s' = npts s := by
    rw [npts_eq, hk, hdeg, nptsOf_set _ hp, hlen, ← hix]
    exact set_ixd hdn
  have hIlt : ∀ I, InBox (npts s) I → d < I.length ∧ ixd I d < U.length - p - 1 := by
    intro I hI
    refine ⟨by rw [hI.length]; exact hdn, ?_⟩
    have := hI.getD_lt hdn
    rw [← hix]; exact this
  have hz : ixd (s.ps.knots.map fun _ => 0) d = 0 := by
    simp [ixd, List.getD_eq_getElem?_getD, hdk]
  have hbox : ∀ I, InBox (npts s) I → InBox (npts s) (I.set d (π (ixd I d))) := by
    intro I hI
    have := inBox_set (d := d) (n := U.length - p - 1) hI (hπ _ (hIlt I hI).2)
    rwa [← hix, set_ixd hdn] at this
  refine ⟨h, h', hdim, hkind, hx, ?_, by rw [hk, List.length_set], by rw [hn]; exact hbox, ?_, hc, hw, hν, by rw [hz]; exact hB0, by rw [hz]; simp, ?_,
    fun k hk => hk, Renames.id, ?_, ?_⟩
  · show Dom s'.ps.knots (x.set d b)
    rw [hk]
    exact dom_set_both hx hb
  · intro G
    have := msum_change_dir (npts s) d hdn (U.length - p - 1) (fun I => G (I.set d (π (ixd I d)))) G (by
      intro I hI
      have hdI : d < I.length := by rw [hI.length, List.length_set]; exact hdn
      have e : (npts s).getD d 0 = U.length - p - 1 := hix
      rw [e]
      simp only [ixd_set_self hdI, List.set_set]
      exact hsum fun i => G (I.set d i))
    rw [hn, this, ← hix, set_ixd hdn]
  · intro k hkl hBk I hI
    obtain ⟨hdI, hI2⟩ := hIlt I hI
    have hdk' : d < k.length := by rw [hkl]; exact hdk
    have g1 := basisDerivFns_get hU hp ha (ixd_some hdk')
    rw [hk, hdeg, basisDerivFns_set V b hU hp ha (ixd_some hdk')]
    have g2 : ((basisDerivFns s.ps.knots s.ps.degree x k).set d fun i => coxDeBoorDeriv V p (ixd k d) i b)[d]? =
        some fun i => coxDeBoorDeriv V p (ixd k d) i b := by
      rw [List.getElem?_set]; simp [lt_of_some g1]
    rw [dprod_set _ g2 hdI, hbas _ hBk _ hI2, List.set_set]
    have := dprod_set (ixd I d) g1 hdI
    rw [set_ixd hdI] at this
    rw [this]; ring
  · intro k j _ hBk hj
    have := ixd_msub hj d
    exact ⟨hB _ _ this.1 hBk, hB _ _ (by omega) hBk⟩
  · intro k j _ hj
    rw [← pow_add, (ixd_msub hj d).2]

/-! ### Two directions exchanged -/

/-- The elements at the positions `d` and `d+1` exchanged. -/
def swapAt {α : Type*} : ℕ → List α → List α
  | 0, a :: b :: l => b :: a :: l
  | d + 1, a :: l => a :: swapAt d l
  | _, l => l

theorem swapAt_length {α : Type*} : ∀ (d : ℕ) (l : List α), (swapAt d l).length = l.length
  | 0, [] => rfl
  | 0, [_] => rfl
  | 0, _ :: _ :: _ => rfl
  | _ + 1, [] => rfl
  | d + 1, a :: l => by simp only [swapAt, List.length_cons, swapAt_length d l]

theorem swapAt_map {α β : Type*} (f : α → β) : ∀ (d : ℕ) (l : List α), swapAt d (l.map f) = (swapAt d l).map f
  | 0, [] => rfl
  | 0, [_] => rfl
  | 0, _ :: _ :: _ => rfl
  | _ + 1, [] => rfl
  | d + 1, a :: l => by simp only [swapAt, List.map_cons, swapAt_map f d l]

theorem swapAt_zipWith {α β γ : Type*} (f : α → β → γ) : ∀ (d : ℕ) {l : List α} {m : List β}, l.length = m.length →
    List.zipWith f (swapAt d l) (swapAt d m) = swapAt d (List.zipWith f l m)
  | 0, [], [], _ => rfl
  | 0, [_], [_], _ => rfl
  | 0, _ :: _ :: _, _ :: _ :: _, _ => rfl
  | _ + 1, [], [], _ => rfl
  | d + 1, a :: l, b :: m, h => by simp only [swapAt, List.zipWith_cons_cons, swapAt_zipWith f d (show l.length = m.length by simpa using h)]
  | _, [], _ :: _, h => by simp at h
  | _, _ :: _, [], h => by simp at h
  | 0, [_], _ :: _ :: _, h => by simp at h
  | 0, _ :: _ :: _, [_], h => by simp at h

theorem swapAt_prod : ∀ (d : ℕ) (l : List ℕ), (swapAt d l).prod = l.prod
  | 0, [] => rfl
  | 0, [_] => rfl
  | 0, a :: b :: l => by simp only [swapAt, List.prod_cons]; ring
  | _ + 1, [] => rfl
  | d + 1, a :: l => by simp only [swapAt, List.prod_cons, swapAt_prod d l]

theorem swapAt_inBox : ∀ (d : ℕ) {ns I : List ℕ}, InBox ns I → InBox (swapAt d ns) (swapAt d I)
  | 0, [], [], _ => .nil
  | 0, [_], [_], h => h
  | 0, _ :: _ :: _, _ :: _ :: _, h => by
    simp only [swapAt, inBox_cons] at h ⊢; tauto
  | _ + 1, [], [], _ => .nil
  | d + 1, n :: ns, i :: I, h => by
    simp only [swapAt, inBox_cons] at h ⊢
    exact ⟨h.1, swapAt_inBox d h.2⟩
  | _, [], _ :: _, h => by simp at h
  | _, _ :: _, [], h => by simp at h
  | 0, [_], _ :: _ :: _, h => by simp at h
  | 0, _ :: _ :: _, [_], h => by simp at h

theorem msum_swapAt {R : Type*} [AddCommMonoid R] : ∀ (d : ℕ) (ns : List ℕ) (G : List ℕ → R), msum (swapAt d ns) G = msum ns fun I => G (swapAt d I)
  | 0, [], G => rfl
  | 0, [n], G => by simp [swapAt, msum]
  | 0, a :: b :: ns, G => by
    simp only [swapAt, msum]
    rw [sum_comm]
  | _ + 1, [], G => rfl
  | d + 1, n :: ns, G => by
    simp only [swapAt, msum]
    exact sum_congr rfl fun i _ => msum_swapAt d ns fun I => G (i :: I)

theorem dprod_swapAt {R : Type*} [CommSemiring R] : ∀ (d : ℕ) {bs : List (ℕ → R)} {I : List ℕ}, bs.length = I.length →
    dprod (swapAt d bs) (swapAt d I) = dprod bs I
  | 0, [], [], _ => rfl
  | 0, [_], [_], _ => rfl
  | 0, _ :: _ :: _, _ :: _ :: _, _ => by simp only [swapAt, dprod]; ring
  | _ + 1, [], [], _ => rfl
  | d + 1, b :: bs, i :: I, h => by simp only [swapAt, dprod, dprod_swapAt d (show bs.length = I.length by simpa using h)]
  | _, [], _ :: _, h => by simp at h
  | _, _ :: _, [], h => by simp at h
  | 0, [_], _ :: _ :: _, h => by simp at h
  | 0, _ :: _ :: _, [_], h => by simp at h

theorem derivFns_swapAt : ∀ (d : ℕ) {Us : List (List K)} {ps : List ℕ} {xs : List K} {ks : List ℕ}, ps.length = Us.length → xs.length = Us.length →
    ks.length = Us.length → basisDerivFns (swapAt d Us) (swapAt d ps) (swapAt d xs) (swapAt d ks) = swapAt d (basisDerivFns Us ps xs ks) := by
  intro d
  induction d with
  | zero =>
    intro Us ps xs ks h1 h2 h3
    match Us, ps, xs, ks, h1, h2, h3 with
    | [], [], [], [], _, _, _ => rfl
    | [_], [_], [_], [_], _, _, _ => rfl
    | _ :: _ :: _, _ :: _ :: _, _ :: _ :: _, _ :: _ :: _, _, _, _ => rfl
  | succ d ih =>
    intro Us ps xs ks h1 h2 h3
    match Us, ps, xs, ks, h1, h2, h3 with
    | [], [], [], [], _, _, _ => rfl
    | U :: Us, p :: ps, x :: xs, k :: ks, h1, h2, h3 =>
      simp only [swapAt, basisDerivFns]
      rw [ih (by simpa using h1) (by simpa using h2) (by simpa using h3)]

theorem derivFns_length {Us : List (List K)} : ∀ {ps : List ℕ} {xs : List K} {ks : List ℕ}, ps.length = Us.length → xs.length = Us.length →
    ks.length = Us.length → (basisDerivFns Us ps xs ks).length = Us.length := by
  induction Us with
  | nil => intro ps xs ks _ _ _; simp [basisDerivFns]
  | cons U Us ih =>
    intro ps xs ks h1 h2 h3
    match ps, xs, ks, h1, h2, h3 with
    | p :: ps, x :: xs, k :: ks, h1, h2, h3 =>
      simp only [basisDerivFns, List.length_cons]
      rw [ih (by simpa using h1) (by simpa using h2) (by simpa using h3)]

theorem dom_swapAt : ∀ (d : ℕ) {Us : List (List K)} {xs : List K}, Dom Us xs → Dom (swapAt d Us) (swapAt d xs)
  | 0, [], [], _ => .nil
  | 0, [_], [_], h => h
  | 0, _ :: _ :: _, _ :: _ :: _, .cons h1 (.cons h2 h3) => .cons h2 (.cons h1 h3)
  | _ + 1, [], [], _ => .nil
  | d + 1, _ :: _, _ :: _, .cons h1 h2 => .cons h1 (dom_swapAt d h2)

theorem Renames.swap (d D : ℕ) : Renames (K := K) (swapAt d) D := by
  refine ⟨fun k hk G => ?_, fun k j hk hj => ?_, fun k j hk hj => ?_, fun k hk => ?_⟩
  · rw [← swapAt_map, msum_swapAt]
  · unfold mbinom
    rw [swapAt_zipWith _ _ (by omega), swapAt_prod]
  · unfold msub
    rw [swapAt_zipWith _ _ (by omega)]
  · rw [swapAt_map]

theorem Redesc.swap {s s' : Spl K} (h : WFSpl s) (h' : WFSpl s') (d : ℕ) (hk : s'.ps.knots = swapAt d s.ps.knots) (hdeg : s'.ps.degree = swapAt d s.ps.degree)
    (hdim : s'.ph.dim = s.ph.dim) (hkind : s'.ph.weights = none ↔ s.ph.weights = none) {x : List K} (hx : InDomain s x)
    (hc : ∀ I, InBox (npts s) I → ∀ c < s.ph.dim, cpt s' (swapAt d I) c = cpt s I c) (hw : ∀ I, InBox (npts s) I → wgt s' (swapAt d I) = wgt s I) :
    Redesc s s' x (swapAt d x) (swapAt d) (swapAt d) (fun _ => 1) 1 fun _ => True := by
  have hl := h.knots.length_eq
  have hxl : x.length = s.ps.knots.length := (List.Forall₂.length_eq hx).symm
  have hn : npts s' = swapAt d (npts s) := by
    rw [npts_eq, hk, hdeg, nptsOf, swapAt_zipWith _ _ hl, npts_eq, nptsOf]
  have hnl : (npts s).length = s.ps.knots.length := by
    rw [npts_eq, nptsOf, List.length_zipWith, hl]; simp
  refine ⟨h, h', hdim, hkind, hx, ?_, by rw [hk, swapAt_length], fun I hI => by rw [hn]; exact swapAt_inBox d hI, ?_, hc, fun I hI => by rw [hw I hI, one_mul],
    one_pos, trivial, rfl, ?_, fun k hk => by rw [swapAt_length, hk], Renames.swap d _, fun _ _ _ _ _ => ⟨trivial, trivial⟩, fun _ _ _ _ => one_mul 1⟩
  · show Dom s'.ps.knots _
    rw [hk]
    exact dom_swapAt d hx
  · intro G
    rw [hn, msum_swapAt]
  · intro k hkl _ I hI
    rw [hk, hdeg, derivFns_swapAt d hl.symm hxl hkl, dprod_swapAt d (by rw [derivFns_length hl.symm hxl hkl, hI.length, hnl]), one_mul]

end
end SplineLib
