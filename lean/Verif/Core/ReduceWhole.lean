import Verif.Core.ReduceSpline

/-!
# Degree reduction of a whole spline: the successful case (helper lemmas)
-/

namespace SplineLib
set_option linter.unusedSectionVars false
open Finset
variable {K : Type} [Field K] [LinearOrder K] [IsStrictOrderedRing K]

/-! ### The knot vector of lower degree -/

theorem runs_fill {p q : ℕ} {f l : K} {mid : List (K × ℕ)} (hr : Runs ([(f, p + 1)] ++ (mid ++ [(l, p + 1)]))) (hq : 1 ≤ q) :
    Runs ([(f, q + 1)] ++ (fill q mid ++ [(l, q + 1)])) := by
  refine ⟨increasing_of_fst hr.1 (by simp), ?_⟩
  intro a ha
  simp only [List.mem_append, List.mem_singleton, fill, List.mem_map] at ha
  rcases ha with rfl | ⟨b, _, rfl⟩ | rfl <;> dsimp only <;> omega

theorem mem_bezierKnots {p q : ℕ} (hp : 1 ≤ p) {f l : K} {mid : List (K × ℕ)} {x : K} (h : x ∈ bezierKnots q f l mid) : x ∈ bezierKnots p f l mid := by
  unfold bezierKnots at h ⊢
  simp only [expand_append, expand_cons, expand_nil, List.append_nil, List.mem_append, List.mem_replicate] at h ⊢
  rcases h with h | h | h
  · exact Or.inl ⟨by omega, h.2⟩
  · obtain ⟨a, ha, rfl⟩ := mem_expand h
    simp only [fill, List.mem_map] at ha
    obtain ⟨b, hb, rfl⟩ := ha
    exact Or.inr (Or.inl (mem_expand_of (a := (b.1, p)) (by simp only [fill, List.mem_map]; exact ⟨b, hb, rfl⟩) hp))
  · exact Or.inr (Or.inr ⟨by omega, h.2⟩)

theorem wfKnots_bezier {p q : ℕ} (hp : 1 ≤ p) (hq : 1 ≤ q) {f l : K} {mid : List (K × ℕ)} (hr : Runs ([(f, p + 1)] ++ (mid ++ [(l, p + 1)])))
    (hw : WFKnots (bezierKnots p f l mid) p) : WFKnots (bezierKnots q f l mid) q := by
  have hrq := runs_fill hr hq
  have hlen := bezierKnots_length q f l mid
  have hfl : f < l := by
    have := (List.pairwise_append.1 hr.1).2.2 (f, p + 1) (by simp) (l, p + 1) (by simp)
    exact this
  have h0 : ∀ j ≤ q, knot (bezierKnots q f l mid) j = f := fun j hj =>
    knot_expand_mid (pre := []) (a := f) (m := q + 1) (by simp) (by simp; omega)
  have hl : lastKnot (bezierKnots q f l mid) = l := by
    unfold bezierKnots
    rw [← List.append_assoc]
    exact lastKnot_expand (c := (l, q + 1)) (by simp)
  refine ⟨Runs.sorted hrq.1, ?_, fun j hj => by rw [h0 j hj, h0 0 (by omega)], fun j hj => ?_, ?_, ?_⟩
  · rw [hlen]; nlinarith
  · rw [hl, hlen]
    have e : bezierKnots q f l mid = expand (([(f, q + 1)] ++ fill q mid) ++ (l, q + 1) :: []) := by unfold bezierKnots; simp
    have hlen' : (expand ([(f, q + 1)] ++ fill q mid)).length = q * mid.length + q + 1 := by
      simp only [expand_append, List.length_append, length_fill, expand_cons, expand_nil, List.length_replicate, List.length_nil]; ring
    rw [e]
    apply knot_expand_mid
    · rw [hlen', mul_add]; omega
    · rw [hlen', mul_add]; omega
  · rw [h0 0 (by omega), hl]; exact hfl
  · intro a ha b hb hab
    exact hw.sep a (mem_bezierKnots hp ha) b (mem_bezierKnots hp hb) hab

theorem forall₂_set_both {α β : Type*} {R : α → β → Prop} {l : List α} {m : List β} (h : List.Forall₂ R l m) {d : ℕ} {a : α} {b : β} (hr : R a b) :
    List.Forall₂ R (l.set d a) (m.set d b) := by
  induction h generalizing d with
  | nil => simp
  | cons h1 h2 ih =>
    cases d with
    | zero => exact .cons hr h2
    | succ d => exact .cons h1 ih

theorem nptsOf_set_both {Us : List (List K)} : ∀ {ps : List ℕ} {d : ℕ} (V : List K) (q : ℕ),
    nptsOf (Us.set d V) (ps.set d q) = (nptsOf Us ps).set d (V.length - q - 1) := by
  induction Us with
  | nil => intro ps d V q; simp [nptsOf]
  | cons U0 Us ih =>
    intro ps d V q
    cases ps with
    | nil => simp [nptsOf]
    | cons p0 ps =>
      cases d with
      | zero => simp [nptsOf]
      | succ d =>
        have := ih (ps := ps) (d := d) V q
        unfold nptsOf at this ⊢
        simp only [List.set_cons_succ, List.zipWith_cons_cons]
        rw [this]

/-! ### The steps between the reduction of the segments and the writing of the control points -/

/-- What `reduceDegree` prepares before the control points are written. -/
structure Prepared (c : Spl K) (d p q n : ℕ) (V : List K) (ph : Phys K) (ps : PS K) : Prop where
  shape : ShapePhys ph ((npts c).set d (q * n + 1))
  dim : ph.dim = c.ph.dim
  kind : ph.weights = none ↔ c.ph.weights = none
  degree : ps.degree = c.ps.degree.set d q
  knots : ps.knots = c.ps.knots.set d V
  wf : WFPS ps
  npts : nptsOf ps.knots ps.degree = (npts c).set d (q * n + 1)

theorem prepare_ok {c : Spl K} (h : WFSpl c) {d p : ℕ} (hp : c.ps.degree[d]? = some p) (h2 : 2 ≤ p) {f l : K} {mid : List (K × ℕ)}
    (hU : c.ps.knots[d]? = some (bezierKnots p f l mid)) (hr : Runs ([(f, p + 1)] ++ (mid ++ [(l, p + 1)]))) :
    ∃ ph ps1 ps, c.ph.numCPs = .ok ((npts c).prod : ℤ) ∧
      Phys.removeCPs { c.ph with num := c.ph.num.modify d (· - ((mid.length + 1 : ℕ) : ℤ)) }
        (((npts c).prod : ℤ) - (MIH.mk' (c.ph.num.modify d (· - ((mid.length + 1 : ℕ) : ℤ)))).length1D) = .ok ph ∧
      c.ps.reduceDegree d = .ok ps1 ∧ ps1.decrementMultiplicities d = .ok ps ∧
      Prepared c d p (p - 1) (mid.length + 1) (bezierKnots (p - 1) f l mid) ph ps := by
  have hget : (npts c)[d]? = _ := nptsOf_get hU hp
  have hd : d < (npts c).length := lt_of_some hget
  have hdd : d < c.ps.degree.length := lt_of_some hp
  have hdk : d < c.ps.knots.length := lt_of_some hU
  have hix : ixd (npts c) d = p * (mid.length + 1) + 1 := by
    have : ixd (npts c) d = _ := nptsOf_ixd hU hp
    rw [this, bezierKnots_length]; omega
  obtain ⟨q, rfl⟩ : ∃ q, p = q + 1 := ⟨p - 1, by omega⟩
  rw [Nat.add_sub_cancel]
  have hmod : c.ph.num.modify d (· - ((mid.length + 1 : ℕ) : ℤ)) = zl ((npts c).set d (q * (mid.length + 1) + 1)) := by
    rw [h.num]
    exact modify_zl hd (by rw [hix]; push_cast; ring)
  have hle : ((npts c).set d (q * (mid.length + 1) + 1)).prod ≤ (npts c).prod := by
    rw [prod_set hd, prod_eq_ixd hd (ns := npts c), hix]
    exact Nat.mul_le_mul_right _ (by nlinarith)
  obtain ⟨ph, e1, e2, e3, e4⟩ := removeCPs_ok (h.phys.shape) hle
  have hwU : WFKnots (bezierKnots (q + 1) f l mid) (q + 1) := forall₂_getElem? h.knots hU hp
  have hwV := wfKnots_bezier (q := q) (by omega) (by omega) hr hwU
  -- the parameter space
  have hs1 : List.Forall₂ (fun U p => p + 1 ≤ U.length) c.ps.knots (c.ps.degree.set d q) := by
    have := forall₂_set_both (forall₂_size h.knots) (d := d) (a := bezierKnots (q + 1) f l mid) (b := q)
      (by have := hwU.size; omega)
    rwa [set_same hU] at this
  have e5 : c.ps.reduceDegree d = .ok ⟨c.ps.knots, c.ps.degree.set d q, mkTable c.ps.knots (c.ps.degree.set d q)⟩ := by
    unfold PS.reduceDegree
    rw [getN_some hp, ok_bind, if_neg (by omega), Nat.add_sub_cancel]
    unfold PS.recreate
    dsimp only
    rw [basisTable_eq hs1, ok_bind]
    rfl
  have hdec : dec ([(f, q + 1 + 1)] ++ (fill (q + 1) mid ++ [(l, q + 1 + 1)])) = [(f, q + 1)] ++ (fill q mid ++ [(l, q + 1)]) := by
    simp [fill, dec]
  obtain ⟨ps, g1, g2, g3, g4⟩ := decrement_ok (d := d) (q := q) (r := [(f, q + 1 + 1)] ++ (fill (q + 1) mid ++ [(l, q + 1 + 1)]))
    (ps := ⟨c.ps.knots, c.ps.degree.set d q, mkTable c.ps.knots (c.ps.degree.set d q)⟩) (List.getElem?_set_self hdd) hU
    (runs_fill hr (by omega)) (by simp) (by
      intro a ha
      simp only [List.mem_append, List.mem_singleton, fill, List.mem_map] at ha
      rcases ha with rfl | ⟨b, _, rfl⟩ | rfl <;> dsimp only <;> omega)
    hwU.sep hs1 (basisTable_eq hs1) (by
      rw [hdec]
      have := hwV.size
      unfold bezierKnots at this
      omega)
  rw [hdec] at g3
  refine ⟨ph, _, ps, numCPs_eq h, ?_, e5, g1, ?_⟩
  · rw [hmod, mk'_zl, length1D_zl]; exact e1
  · refine ⟨e2, e3, e4, g2, g3, ⟨?_, g4⟩, ?_⟩
    · rw [g2, g3]
      exact forall₂_set_both h.knots hwV
    · rw [g2, g3]
      dsimp only
      rw [nptsOf_set_both]
      have : (expand ([(f, q + 1)] ++ (fill q mid ++ [(l, q + 1)]))).length = _ := bezierKnots_length q f l mid
      rw [this, npts_eq]
      congr 1
      omega

/-! ### The values of the result -/

section values
variable [HasSqrt K] [LawfulSqrt K]

theorem segIx_mul {q n i j : ℕ} (hq : 1 ≤ q) (hi : i < n) (hj : j ≤ q) :
    segIx q n (i * q + j) = if j < q then (i, j) else if i + 1 < n then (i + 1, 0) else (n - 1, q) := by
  have hle : i * q + q ≤ q * n := by
    calc i * q + q = q * (i + 1) := by ring
      _ ≤ q * n := Nat.mul_le_mul_left q hi
  unfold segIx
  by_cases hjq : j < q
  · rw [if_pos (by omega), if_pos hjq, show i * q + j = q * i + j by ring, Nat.mul_add_div (by omega), Nat.div_eq_of_lt hjq,
      Nat.add_zero, Nat.mul_add_mod, Nat.mod_eq_of_lt hjq]
  · obtain rfl : j = q := by omega
    rw [if_neg hjq]
    by_cases hin : i + 1 < n
    · have : i * j + j < j * n := by
        calc i * j + j = j * (i + 1) := by ring
          _ < j * n := Nat.mul_lt_mul_of_pos_left hin (by omega)
      rw [if_pos this, if_pos hin, show i * j + j = j * (i + 1) by ring, Nat.mul_div_cancel_left _ (by omega), Nat.mul_mod_right]
    · have hn : n = i + 1 := by omega
      rw [if_neg (by rw [hn]; rw [show j * (i + 1) = i * j + j by ring]; omega), if_neg hin]

/-- All segments are reduced within the tolerance. -/
def AllRed (c : Spl K) (d p n : ℕ) (tol : K) (segs : List (List (List K))) : Prop :=
  segs.length = n ∧ ∀ j < n, ∃ b es err, err < tol ∧ SegRed c d p j tol (segs.getD j []) b es err

theorem segVal_line {c : Spl K} {d q n : ℕ} (hd : d < (npts c).length) (hq : 1 ≤ q) {tol : K} {segs : List (List (List K))}
    (ha : AllRed c d (q + 1) n tol segs) {i : ℕ} (hi : i < n) {j : ℕ} (hj : j ≤ q) {e : ℕ} (he : e < ((npts c).set d 1).prod)
    {cc : ℕ} (hc : cc < c.ph.dim + 1) :
    segVal segs ((npts c).set d (q * n + 1)) d q (lineIx (npts c) d e (i * q + j)) cc = lineCoord (q + 1) (segs.getD i []) e cc j := by
  have hl : lineIx (npts c) d e (i * q + j) = lineIx ((npts c).set d (q * n + 1)) d e (i * q + j) := by
    unfold lineIx; rw [List.set_set]
  have hd' : d < ((npts c).set d (q * n + 1)).length := by simpa using hd
  have he' : e < (((npts c).set d (q * n + 1)).set d 1).prod := by rw [List.set_set]; exact he
  unfold segVal
  rw [hl, lineIx_ixd hd', row_lineIx hd' he', ha.1, segIx_mul hq hi hj]
  by_cases hjq : j < q
  · rw [if_pos hjq]
  · obtain rfl : j = q := by omega
    rw [if_neg hjq]
    by_cases hin : i + 1 < n
    · rw [if_pos hin]
      dsimp only
      obtain ⟨b, es, err, _, h1⟩ := ha.2 i hi
      obtain ⟨b', es', err', _, h1'⟩ := ha.2 (i + 1) hin
      have a1 := (h1.line e he).1.last (by omega) hc
      have a2 := (h1'.line e he).1.first (by omega) hc
      rw [Nat.add_sub_cancel] at a1
      rw [a1, a2, h1.seg e he cc hc (j + 1) (le_refl _), h1'.seg e he cc hc 0 (by omega)]
      congr 2
      ring
    · rw [if_neg hin, show n - 1 = i by omega]

/-- For a B-spline the weights of the segments stay 1. -/
theorem segVal_one {c : Spl K} (hw : c.ph.weights = none) {d q n : ℕ} (hd : d < (npts c).length) (hq : 1 ≤ q) (hn : 1 ≤ n) {tol : K}
    {segs : List (List (List K))} (ha : AllRed c d (q + 1) n tol segs) {I : List ℕ} (hI : InBox ((npts c).set d (q * n + 1)) I) :
    segVal segs ((npts c).set d (q * n + 1)) d q I c.ph.dim = 1 := by
  obtain ⟨s1, s2⟩ := segIx_lt (k := ixd I d) hq hn
  unfold segVal
  rw [ha.1]
  obtain ⟨b, es, err, _, h1⟩ := ha.2 _ s1
  have hrow : row ((npts c).set d (q * n + 1)) d I < ((npts c).set d 1).prod := by
    have := row_lt (d := d) hI
    rwa [List.set_set] at this
  refine ((h1.line _ hrow).1.exact (c := c.ph.dim) (by omega) (by omega) (Q := fun _ => 1) (fun j hj => ?_)).1 _ (by omega)
  rw [h1.seg _ hrow _ (by omega) j hj]
  unfold hom wgt
  rw [if_pos rfl, hw]
  dsimp only
  ring

/-- The spline whose control points are the reduced segments. -/
structure ReducedSpl (c r : Spl K) (d q n : ℕ) (V : List K) (segs : List (List (List K))) : Prop where
  shape : ShapeSpl r
  degree : r.ps.degree = c.ps.degree.set d q
  knots : r.ps.knots = c.ps.knots.set d V
  npts : npts r = (npts c).set d (q * n + 1)
  dim : r.ph.dim = c.ph.dim
  kind : r.ph.weights = none ↔ c.ph.weights = none
  hom : ∀ I, InBox ((SplineLib.npts c).set d (q * n + 1)) I → ∀ cc < c.ph.dim + 1, hom r cc I = segVal segs ((SplineLib.npts c).set d (q * n + 1)) d q I cc
  ne : ∀ I, InBox ((SplineLib.npts c).set d (q * n + 1)) I → segVal segs ((SplineLib.npts c).set d (q * n + 1)) d q I c.ph.dim ≠ 0

theorem reduced_of_written {c : Spl K} {d q n : ℕ} (hd : d < (npts c).length) (hq : 1 ≤ q) (hn : 1 ≤ n) {V : List K} {tol : K}
    {segs : List (List (List K))} (ha : AllRed c d (q + 1) n tol segs) {ph : Phys K} {ps : PS K} (hp : Prepared c d (q + 1) q n V ph ps) {r : Spl K}
    (hps : r.ps = ps) (hw : Written ph r.ph segs ((npts c).set d (q * n + 1)) d q) : ReducedSpl c r d q n V segs := by
  have hnp : npts r = (npts c).set d (q * n + 1) := by rw [npts_eq, hps]; exact hp.npts
  have hcp : ∀ I cc, cpt r I cc = pcpt r.ph ((npts c).set d (q * n + 1)) I cc := fun I cc => by unfold cpt pcpt; rw [hnp]
  have hwg : ∀ I, wgt r I = pwgt r.ph ((npts c).set d (q * n + 1)) I := fun I => by unfold wgt pwgt; rw [hnp]; cases r.ph.weights <;> rfl
  have hkind := hw.kind.trans hp.kind
  have hdim := hw.dim.trans hp.dim
  refine ⟨⟨hps ▸ hp.wf, hnp ▸ hw.shape⟩, hps ▸ hp.degree, hps ▸ hp.knots, hnp, hdim, hkind, ?_, fun I hI => by
    have := hw.ne I hI; rwa [hp.dim] at this⟩
  intro I hI cc hc
  have hwt : wgt r I = segVal segs ((npts c).set d (q * n + 1)) d q I c.ph.dim := by
    by_cases hcw : c.ph.weights = none
    · rw [segVal_one hcw hd hq hn ha hI]
      unfold wgt
      rw [hkind.2 hcw]
    · rw [hwg, hw.weight (fun h => hcw (hp.kind.1 h)) I hI, hp.dim]
  unfold SplineLib.hom
  rw [hdim]
  by_cases hcd : cc = c.ph.dim
  · rw [if_pos hcd, hwt, hcd]
  · rw [if_neg hcd, hwt, hcp, hw.cp I hI cc (by rw [hp.dim]; omega), hp.dim]
    have := hw.ne I hI
    rw [hp.dim] at this
    rw [mul_div_cancel₀ _ this]

/-- The result is closer to the spline than the tolerance, in homogeneous coordinates. -/
theorem reduced_error {c r : Spl K} (h : WFSpl c) {d q : ℕ} (hp : c.ps.degree[d]? = some (q + 1)) (hq : 1 ≤ q) {f l : K} {mid : List (K × ℕ)}
    (hU : c.ps.knots[d]? = some (bezierKnots (q + 1) f l mid)) {tol : K} {segs : List (List (List K))} (ha : AllRed c d (q + 1) (mid.length + 1) tol segs)
    (hr : ReducedSpl c r d q (mid.length + 1) (bezierKnots q f l mid) segs) {x : List K} (hx : InDomain c x) :
    ∑ cc ∈ range (c.ph.dim + 1), (homSum c x cc - homSum r x cc) ^ 2 < tol ^ 2 := by
  have hd : d < (npts c).length := lt_of_some (nptsOf_get hU hp)
  have hdk : d < c.ps.knots.length := lt_of_some hU
  have hdd : d < c.ps.degree.length := lt_of_some hp
  have hpos : ∀ n ∈ npts c, 0 < n := nptsOf_pos h.knots
  have ht := List.getElem?_eq_getElem (show d < x.length by rw [← hx.length_eq]; exact hdk)
  set t := x[d]'(by rw [← hx.length_eq]; exact hdk) with htd
  have hwU : WFKnots (bezierKnots (q + 1) f l mid) (q + 1) := forall₂_getElem? h.knots hU hp
  obtain ⟨h0, h1⟩ := forall₂_getElem? hx hU ht
  obtain ⟨i, hi, hlt, hb1, hb2, hspan⟩ := bezier_locate (by omega) hwU h0 h1
  set a := (breaks f l mid).getD i 0 with hadef
  set b := (breaks f l mid).getD (i + 1) 0 with hbdef
  set u := (t - a) / (b - a) with hudef
  have hba : 0 < b - a := sub_pos.2 hlt
  have hu0 : 0 ≤ u := div_nonneg (sub_nonneg.2 hb1) hba.le
  have hu1 : u ≤ 1 := by rw [hudef, div_le_one hba]; linarith
  obtain ⟨bb, es, err, herr, hseg⟩ := ha.2 i hi
  -- the two tensor product sums
  have hrU : r.ps.knots[d]? = some (bezierKnots q f l mid) := by rw [hr.knots]; exact List.getElem?_set_self hdk
  have hrp : r.ps.degree[d]? = some q := by rw [hr.degree]; exact List.getElem?_set_self hdd
  have hwV : WFKnots (bezierKnots q f l mid) q := forall₂_getElem? hr.shape.ps.knots hrU hrp
  have hoth : others r.ps.knots r.ps.degree x d = others c.ps.knots c.ps.degree x d := by
    funext J
    unfold others
    rw [hr.knots, hr.degree, basisFns_set (bezierKnots q f l mid) q hU hp ht rfl, List.set_set]
  have hrn : nptsOf r.ps.knots r.ps.degree = (npts c).set d (q * (mid.length + 1) + 1) := hr.npts
  have ec : ∀ cc < c.ph.dim + 1, homSum c x cc = msum ((npts c).set d 1) (fun J => others c.ps.knots c.ps.degree x d J *
      bezier (q + 1) (lineCoord (q + 1 + 1) bb (lin ((npts c).set d 1) J) cc) u) := by
    intro cc hc
    unfold homSum tensorSum
    rw [npts_eq, bezier_tensor (by omega) hU hp ht hwU.sorted hi hlt (hspan (q + 1) (by omega)), ← npts_eq]
    apply msum_congr
    intro J hJ
    congr 1
    apply bezier_congr
    intro j hj
    rw [hseg.seg _ (lin_lt hJ) cc hc j hj]
    unfold lineIx
    have : unlin ((npts c).set d 1) (lin ((npts c).set d 1) J) = J := unlin_lin hJ
    rw [this]
  have er : ∀ cc < c.ph.dim + 1, homSum r x cc = msum ((npts c).set d 1) (fun J => others c.ps.knots c.ps.degree x d J *
      bezier q (lineCoord (q + 1) (segs.getD i []) (lin ((npts c).set d 1) J) cc) u) := by
    intro cc hc
    unfold homSum tensorSum
    rw [npts_eq, bezier_tensor hq hrU hrp ht hwV.sorted hi hlt (hspan q hq), hoth, hrn, List.set_set]
    apply msum_congr
    intro J hJ
    congr 1
    apply bezier_congr
    intro j hj
    have hle : i * q + j < q * (mid.length + 1) + 1 := by
      have : i * q + q ≤ q * (mid.length + 1) := by
        calc i * q + q = q * (i + 1) := by ring
          _ ≤ q * (mid.length + 1) := Nat.mul_le_mul_left q hi
      omega
    have hset : J.set d (i * q + j) = lineIx (npts c) d (lin ((npts c).set d 1) J) (i * q + j) := by
      unfold lineIx
      rw [unlin_lin hJ]
    rw [hset, hr.hom _ (by
      rw [← hset]
      have : InBox (((npts c).set d (q * (mid.length + 1) + 1)).set d 1) J := by rw [List.set_set]; exact hJ
      exact inBox_set_of this (by rw [ixd_set_self hd]; exact hle)) cc hc]
    exact segVal_line hd hq ha hi hj (lin_lt hJ) hc
  have hN : ∀ J, InBox ((npts c).set d 1) J → 0 ≤ others c.ps.knots c.ps.degree x d J := fun J hJ => others_nonneg h.knots hx hdk hJ
  have h1' : msum ((npts c).set d 1) (others c.ps.knots c.ps.degree x d) = 1 := others_sum h.knots hx hdk
  have step : ∀ cc ∈ range (c.ph.dim + 1), (homSum c x cc - homSum r x cc) ^ 2 ≤ msum ((npts c).set d 1) (fun J => others c.ps.knots c.ps.degree x d J *
      (bezier (q + 1) (lineCoord (q + 1 + 1) bb (lin ((npts c).set d 1) J) cc) u - bezier q (lineCoord (q + 1) (segs.getD i []) (lin ((npts c).set d 1) J) cc) u) ^ 2) := by
    intro cc hc
    have hc := mem_range.1 hc
    rw [ec cc hc, er cc hc, ← msum_sub]
    rw [msum_congr (g := fun J => others c.ps.knots c.ps.degree x d J *
      (bezier (q + 1) (lineCoord (q + 1 + 1) bb (lin ((npts c).set d 1) J) cc) u - bezier q (lineCoord (q + 1) (segs.getD i []) (lin ((npts c).set d 1) J) cc) u))
      (fun J _ => by ring), pow_two]
    refine (msum_sq_le hN h1').trans (le_of_eq (msum_congr fun J _ => by ring))
  have herr0 : 0 ≤ err := by
    rcases hseg.max with e | ⟨e, _, e'⟩
    · exact e.ge
    · rw [e']; exact twoNorm_nonneg _
  calc ∑ cc ∈ range (c.ph.dim + 1), (homSum c x cc - homSum r x cc) ^ 2
      ≤ ∑ cc ∈ range (c.ph.dim + 1), msum ((npts c).set d 1) (fun J => others c.ps.knots c.ps.degree x d J *
        (bezier (q + 1) (lineCoord (q + 1 + 1) bb (lin ((npts c).set d 1) J) cc) u - bezier q (lineCoord (q + 1) (segs.getD i []) (lin ((npts c).set d 1) J) cc) u) ^ 2) :=
        sum_le_sum step
    _ = msum ((npts c).set d 1) (fun J => others c.ps.knots c.ps.degree x d J * ∑ cc ∈ range (c.ph.dim + 1),
        (bezier (q + 1) (lineCoord (q + 1 + 1) bb (lin ((npts c).set d 1) J) cc) u - bezier q (lineCoord (q + 1) (segs.getD i []) (lin ((npts c).set d 1) J) cc) u) ^ 2) := by
        rw [← msum_finset_sum]
        exact msum_congr fun J _ => by rw [mul_sum]
    _ ≤ msum ((npts c).set d 1) (fun J => others c.ps.knots c.ps.degree x d J * err ^ 2) := by
        apply msum_le
        intro J hJ
        refine mul_le_mul_of_nonneg_left ?_ (hN J hJ)
        obtain ⟨l1, l2⟩ := hseg.line _ (lin_lt hJ)
        exact (l1.error (by omega) hu0 hu1).trans (pow_le_pow_left₀ (twoNorm_nonneg _) l2 2)
    _ = err ^ 2 := by
        have := msum_mul_right (err ^ 2) ((npts c).set d 1) (others c.ps.knots c.ps.degree x d)
        rw [this, h1', one_mul]
    _ < tol ^ 2 := pow_lt_pow_left₀ herr herr0 (by omega)

end values

end SplineLib
