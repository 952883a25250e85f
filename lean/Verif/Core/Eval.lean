import Verif.Spec.Spline
import Verif.Core.Loops

/-!
# Evaluation as a tensor product sum (helper lemmas)
-/

namespace SplineLib
set_option linter.unusedSectionVars false
open Finset

section
variable {K : Type} [Field K] [LinearOrder K] [IsStrictOrderedRing K]

theorem WFKnots.ne_nil {U : List K} {p : ℕ} (h : WFKnots U p) : U ≠ [] := by
  rintro rfl; have := h.size; simp at this

/-- The knot span of a coordinate in the range leaves `p` knots on the left and `p+1` on the right. -/
theorem span_bounds {U : List K} {p : ℕ} (h : WFKnots U p) {k : ℕ} (hk : k + 1 < U.length) {x : K} (hx : InSpan U k x) :
    p ≤ k ∧ k + p + 1 < U.length := by
  have hlt : knot U k < knot U (k + 1) := by
    rcases hx with ⟨h1, h2⟩ | ⟨h1, h2, _⟩
    · exact lt_of_le_of_lt h1 h2
    · rwa [h2] at h1
  constructor
  · by_contra hc
    have h1 := h.first (k + 1) (by omega)
    have h2 := h.first k (by omega)
    rw [h1, h2] at hlt; exact lt_irrefl _ hlt
  · by_contra hc
    have h1 := h.last (U.length - 1 - k) (by omega)
    have h2 := h.last (U.length - 1 - (k + 1)) (by omega)
    rw [show U.length - 1 - (U.length - 1 - k) = k by omega] at h1
    rw [show U.length - 1 - (U.length - 1 - (k + 1)) = k + 1 by omega] at h2
    rw [h1, h2] at hlt; exact lt_irrefl _ hlt

theorem inSpan_lt {U : List K} {k : ℕ} {x : K} (hx : InSpan U k x) : knot U k < knot U (k + 1) := by
  rcases hx with ⟨h1, h2⟩ | ⟨h1, h2, _⟩
  · exact lt_of_le_of_lt h1 h2
  · rwa [h2] at h1

theorem WFKnots.span {U : List K} {p : ℕ} (h : WFKnots U p) {x : K} (h0 : knot U 0 ≤ x) (h1 : x ≤ lastKnot U) :
    kvSpan U x = .ok (spanIx U x : ℤ) ∧ InSpan U (spanIx U x) x ∧ p ≤ spanIx U x ∧ spanIx U x + p + 1 < U.length := by
  obtain ⟨a, b, c⟩ := span_correct h.sorted h.sep h.range h0 h1
  exact ⟨a, c, span_bounds h b c⟩

theorem basisRow_eq {U : List K} {p : ℕ} (h : p + 1 ≤ U.length) :
    PS.basisRow U p = .ok ((List.range (U.length - p - 1)).map (mkBasis U p)) := by
  unfold PS.basisRow
  rw [if_neg (by omega)]
  exact buildList_eq fun i hi => create_eq (by omega)

/-- The table of basis functions that belongs to knot vectors and degrees. -/
def mkTable (Us : List (List K)) (ps : List ℕ) : List (List (Basis K)) :=
  List.zipWith (fun U p => (List.range (U.length - p - 1)).map (mkBasis U p)) Us ps

theorem basisTable_eq {Us : List (List K)} {ps : List ℕ} (h : List.Forall₂ (fun U p => p + 1 ≤ U.length) Us ps) :
    PS.basisTable Us ps = .ok (mkTable Us ps) := by
  induction h with
  | nil => rfl
  | cons h _ ih => simp [PS.basisTable, basisRow_eq h, ih, mkTable]

theorem forall₂_size {Us : List (List K)} {ps : List ℕ} (h : List.Forall₂ WFKnots Us ps) :
    List.Forall₂ (fun U p => p + 1 ≤ U.length) Us ps :=
  h.imp fun U p h => by have := h.size; omega

/-- First non-vanishing basis function per direction. -/
def offs : List (List K) → List ℕ → List K → List ℕ
  | U :: Us, p :: ps, x :: xs => (spanIx U x - p) :: offs Us ps xs
  | _, _, _ => []

/-- The coordinates lie in the range of the knot vectors. -/
def Dom (Us : List (List K)) (xs : List K) : Prop :=
  List.Forall₂ (fun U a => knot U 0 ≤ a ∧ a ≤ lastKnot U) Us xs

theorem firstNonZero_eq {Us : List (List K)} {ps : List ℕ} (h : List.Forall₂ WFKnots Us ps) :
    ∀ {xs : List K}, Dom Us xs → PS.firstNonZero Us ps xs = .ok (zl (offs Us ps xs)) := by
  induction h with
  | nil => intro xs hx; cases hx; rfl
  | cons h _ ih =>
    intro xs hx
    cases hx with
    | cons hx hxs =>
      obtain ⟨h1, h2, h3, h4⟩ := h.span hx.1 hx.2
      simp only [PS.firstNonZero, h1, ih hxs, ok_bind, pure_ok, offs, List.map_cons]
      congr 2; omega

theorem throwIfOutside_ok {Us : List (List K)} {ps : List ℕ} (h : List.Forall₂ WFKnots Us ps) :
    ∀ {xs : List K}, Dom Us xs → PS.throwIfOutside Us xs = .ok () := by
  induction h with
  | nil => intro xs hx; cases hx; rfl
  | cons h _ ih =>
    intro xs hx
    cases hx with
    | cons hx hxs => simp [PS.throwIfOutside, kvInRange_eq h.ne_nil, hx.1, hx.2, ih hxs]

theorem throwIfOutside_err {Us : List (List K)} {ps : List ℕ} (h : List.Forall₂ WFKnots Us ps) :
    ∀ {xs : List K}, xs.length = Us.length → ¬ Dom Us xs → PS.throwIfOutside Us xs = .error (.thrown .rangeError) := by
  induction h with
  | nil => intro xs hl hx; cases xs <;> simp_all [Dom]
  | cons h _ ih =>
    intro xs hl hx
    cases xs with
    | nil => simp at hl
    | cons a xs =>
      simp only [PS.throwIfOutside, kvInRange_eq h.ne_nil, ok_bind]
      split
      · rename_i hc
        apply ih (by simpa using hl)
        intro hd
        exact hx (List.Forall₂.cons (by simpa using hc) hd)
      · rfl

theorem zipWith_zl (a b : List ℕ) : List.zipWith (· + ·) (zl a) (zl b) = zl (List.zipWith (· + ·) a b) := by
  induction a generalizing b with
  | nil => simp
  | cons x a ih => cases b with
    | nil => simp
    | cons y b => simp [ih]

/-- The box of active basis functions. -/
abbrev actBox (ps : List ℕ) : List ℕ := ps.map (· + 1)

theorem numBasis_eq (s : Spl K) : s.numBasis = zl (actBox s.ps.degree) := by
  simp [Spl.numBasis, zl, actBox]

/-- The active index with box index `J` is a valid index. -/
theorem act_inBox {Us : List (List K)} {ps : List ℕ} (h : List.Forall₂ WFKnots Us ps) :
    ∀ {xs : List K} {J : List ℕ}, Dom Us xs → InBox (actBox ps) J →
      InBox (List.zipWith (fun U p => U.length - p - 1) Us ps) (List.zipWith (· + ·) J (offs Us ps xs)) := by
  induction h with
  | nil => intro xs J hx hJ; cases hx; cases J <;> simp_all [offs]
  | cons h _ ih =>
    intro xs J hx hJ
    cases hx with
    | cons hx hxs =>
      cases J with
      | nil => simp at hJ
      | cons j J =>
        simp only [actBox, List.map_cons, inBox_cons] at hJ
        obtain ⟨h1, h2, h3, h4⟩ := h.span hx.1 hx.2
        simp only [List.zipWith_cons_cons, offs, inBox_cons]
        exact ⟨by omega, ih hxs hJ.2⟩

theorem getI_row {U : List K} {p i : ℕ} (h : i + p + 1 < U.length) :
    getI ((List.range (U.length - p - 1)).map (mkBasis U p)) (i : ℤ) = .ok (mkBasis U p i) := by
  rw [getI_nat, getN_of_lt (by simp; omega)]
  simp

theorem basisProd_eq {Us : List (List K)} {ps : List ℕ} (h : List.Forall₂ WFKnots Us ps) :
    ∀ {xs : List K} {J : List ℕ} (v : K), Dom Us xs → InBox (actBox ps) J →
      PS.basisProd (mkTable Us ps) (zl (List.zipWith (· + ·) J (offs Us ps xs))) xs v =
        .ok (v * dprod (basisFns Us ps xs) (List.zipWith (· + ·) J (offs Us ps xs))) := by
  induction h with
  | nil => intro xs J v hx hJ; cases hx; simp [offs, basisFns, dprod, PS.basisProd, mkTable]
  | @cons U p Us ps h _ ih =>
    intro xs J v hx hJ
    cases hx with
    | @cons _ a _ as hx hxs =>
      cases J with
      | nil => simp at hJ
      | cons j J =>
        simp only [actBox, List.map_cons, inBox_cons] at hJ
        obtain ⟨h1, h2, h3, h4⟩ := h.span hx.1 hx.2
        simp only [mkTable, List.zipWith_cons_cons, offs, List.map_cons, PS.basisProd, basisFns, dprod]
        rw [getI_row (by omega)]
        have hev : (mkBasis U p (j + (spanIx U a - p))).eval a = coxDeBoor U p (j + (spanIx U a - p)) a := by
          apply mkBasis_eval h.sorted h.sep a p _ (by omega)
          intro hp; left
          rw [show j + (spanIx U a - p) = spanIx U a by omega]
          exact inSpan_lt h2
        have := ih (v * coxDeBoor U p (j + (spanIx U a - p)) a) hxs hJ.2
        simp only [mkTable, zl] at this
        simp only [ok_bind, hev, this]
        rw [mul_assoc]

theorem basisDerivProd_eq {Us : List (List K)} {ps : List ℕ} (h : List.Forall₂ WFKnots Us ps) :
    ∀ {xs : List K} {J : List ℕ} {ks : List ℕ} (v : K), Dom Us xs → InBox (actBox ps) J → ks.length = Us.length →
      PS.basisDerivProd (mkTable Us ps) (zl (List.zipWith (· + ·) J (offs Us ps xs))) xs (zl ks) v =
        .ok (v * dprod (basisDerivFns Us ps xs ks) (List.zipWith (· + ·) J (offs Us ps xs))) := by
  induction h with
  | nil => intro xs J ks v hx hJ hk; cases hx; simp [offs, basisDerivFns, dprod, PS.basisDerivProd, mkTable]
  | @cons U p Us ps h _ ih =>
    intro xs J ks v hx hJ hk
    cases hx with
    | @cons _ a _ as hx hxs =>
      cases J with
      | nil => simp at hJ
      | cons j J =>
        cases ks with
        | nil => simp at hk
        | cons k ks =>
          simp only [actBox, List.map_cons, inBox_cons] at hJ
          obtain ⟨h1, h2, h3, h4⟩ := h.span hx.1 hx.2
          simp only [mkTable, List.zipWith_cons_cons, offs, List.map_cons, PS.basisDerivProd, basisDerivFns, dprod]
          rw [getI_row (by omega)]
          have hev : (mkBasis U p (j + (spanIx U a - p))).evalDeriv a (k : ℤ) =
              coxDeBoorDeriv U p k (j + (spanIx U a - p)) a := by
            apply mkBasis_evalDeriv h.sorted h.sep a p k _ (by omega)
            intro hp; left
            rw [show j + (spanIx U a - p) = spanIx U a by omega]
            exact inSpan_lt h2
          have := ih (v * coxDeBoorDeriv U p k (j + (spanIx U a - p)) a) hxs hJ.2 (by simpa using hk)
          simp only [mkTable, zl] at this
          simp only [ok_bind, hev, this]
          rw [mul_assoc]

theorem coxDeBoor_zero_of {U : List K} {p : ℕ} (h : WFKnots U p) {x : K} (h0 : knot U 0 ≤ x) (h1 : x ≤ lastKnot U) {i : ℕ}
    (hi : i + p + 1 < U.length) (hne : i < spanIx U x - p ∨ spanIx U x < i) : coxDeBoor U p i x = 0 := by
  obtain ⟨_, h2, h3, h4⟩ := h.span h0 h1
  apply cox_zero
  intro j hj1 hj2 hj3
  have := InSpan.unique h.sorted (by omega) (by omega) hj3 h2
  omega

theorem coxDeBoorDeriv_zero_of {U : List K} {p : ℕ} (h : WFKnots U p) {x : K} (h0 : knot U 0 ≤ x) (h1 : x ≤ lastKnot U)
    {i k : ℕ} (hi : i + p + 1 < U.length) (hne : i < spanIx U x - p ∨ spanIx U x < i) : coxDeBoorDeriv U p k i x = 0 := by
  obtain ⟨_, h2, h3, h4⟩ := h.span h0 h1
  apply coxDeriv_zero
  intro j hj1 hj2 hj3
  have := InSpan.unique h.sorted (by omega) (by omega) hj3 h2
  omega

/-- A sum over `range n` whose terms vanish outside a window. -/
theorem sum_window {R : Type*} [AddCommMonoid R] {n o w : ℕ} (h : o + w ≤ n) {f : ℕ → R}
    (hf : ∀ i < n, i < o ∨ o + w ≤ i → f i = 0) : ∑ i ∈ range n, f i = ∑ j ∈ range w, f (j + o) := by
  rw [show n = o + (w + (n - o - w)) by omega, sum_range_add, sum_range_add]
  rw [sum_eq_zero (fun i hi => hf i (by have := mem_range.1 hi; omega) (Or.inl (mem_range.1 hi))), zero_add]
  rw [sum_eq_zero (s := range (n - o - w)) (fun i hi => hf _ (by have := mem_range.1 hi; omega) (Or.inr (by omega))), add_zero]
  exact sum_congr rfl fun i _ => by rw [add_comm]

/-- The sum over the active box equals the sum over all control points. `bs` are the basis functions or their derivatives. -/
theorem msum_active {Us : List (List K)} {ps : List ℕ} (h : List.Forall₂ WFKnots Us ps) :
    ∀ {xs : List K} {ks : List ℕ} (F : List ℕ → K), Dom Us xs → ks.length = Us.length →
      msum (actBox ps) (fun J => dprod (basisDerivFns Us ps xs ks) (List.zipWith (· + ·) J (offs Us ps xs)) *
          F (List.zipWith (· + ·) J (offs Us ps xs))) =
        msum (List.zipWith (fun U p => U.length - p - 1) Us ps) (fun I => dprod (basisDerivFns Us ps xs ks) I * F I) := by
  induction h with
  | nil => intro xs ks F hx hk; cases hx; simp [msum]
  | @cons U p Us ps h _ ih =>
    intro xs ks F hx hk
    cases hx with
    | @cons _ a _ as hx hxs =>
      cases ks with
      | nil => simp at hk
      | cons k ks =>
        obtain ⟨h1, h2, h3, h4⟩ := h.span hx.1 hx.2
        simp only [actBox, List.map_cons, List.zipWith_cons_cons, offs, basisDerivFns, msum, dprod]
        rw [sum_window (n := U.length - p - 1) (o := spanIx U a - p) (w := p + 1) (by omega) ?_]
        · apply sum_congr rfl
          intro j hj
          have := ih (xs := as) (ks := ks) (fun I => F ((j + (spanIx U a - p)) :: I)) hxs (by simpa using hk)
          simp only [mul_assoc, msum_mul_left]
          rw [← this]
        · intro i hi hio
          rw [coxDeBoorDeriv_zero_of h hx.1 hx.2 (by omega) (by omega)]
          simp [msum_zero]

theorem basisDerivFns_zero (Us : List (List K)) : ∀ (ps : List ℕ) (xs : List K),
    basisDerivFns Us ps xs (Us.map fun _ => 0) = basisFns Us ps xs := by
  induction Us with
  | nil => intro ps xs; simp [basisDerivFns, basisFns]
  | cons U Us ih =>
    intro ps xs
    cases ps with
    | nil => simp [basisDerivFns, basisFns]
    | cons p ps => cases xs with
      | nil => simp [basisDerivFns, basisFns]
      | cons x xs =>
        simp only [List.map_cons, basisDerivFns, basisFns, ih]
        congr 1
        funext i
        cases p <;> rfl

theorem msum_active' {Us : List (List K)} {ps : List ℕ} (h : List.Forall₂ WFKnots Us ps) {xs : List K} (F : List ℕ → K)
    (hx : Dom Us xs) :
      msum (actBox ps) (fun J => dprod (basisFns Us ps xs) (List.zipWith (· + ·) J (offs Us ps xs)) *
          F (List.zipWith (· + ·) J (offs Us ps xs))) =
        msum (List.zipWith (fun U p => U.length - p - 1) Us ps) (fun I => dprod (basisFns Us ps xs) I * F I) := by
  have := msum_active h (ks := Us.map fun _ => 0) F hx (by simp)
  rwa [basisDerivFns_zero] at this

theorem addEach_eq {f : ℤ → M K} {g : ℤ → K} : ∀ {dims : List ℤ} (a : ℤ → K), (∀ c ∈ dims, f c = .ok (g c)) →
    Spl.addEach f dims (dims.map a) = .ok (dims.map fun c => a c + g c) := by
  intro dims
  induction dims with
  | nil => intro a _; rfl
  | cons c cs ih =>
    intro a h
    simp only [List.map_cons, Spl.addEach, h c (by simp), ih a (fun c hc => h c (by simp [hc])), ok_bind, pure_ok]

theorem evalWith_eq {s : Spl K} (h : List.Forall₂ WFKnots s.ps.knots s.ps.degree) {x : List K} (hx : Dom s.ps.knots x)
    {dims : List ℤ} {f : List ℤ → ℤ → M K} {g : List ℕ → ℤ → K}
    (hf : ∀ J, InBox (actBox s.ps.degree) J → ∀ c ∈ dims,
      f (zl (List.zipWith (· + ·) J (offs s.ps.knots s.ps.degree x))) c =
        .ok (g (List.zipWith (· + ·) J (offs s.ps.knots s.ps.degree x)) c)) :
    s.evalWith x dims f = .ok (dims.map fun c =>
      msum (actBox s.ps.degree) fun J => g (List.zipWith (· + ·) J (offs s.ps.knots s.ps.degree x)) c) := by
  have hpos : ∀ n ∈ actBox s.ps.degree, 0 < n := by simp [actBox]
  simp only [Spl.evalWith, throwIfOutside_ok h hx, firstNonZero_eq h hx, ok_bind, numBasis_eq]
  have := upLoop_fun (ns := actBox s.ps.degree)
    (body := fun h acc => Spl.addEach (f (List.zipWith (· + ·) h.cur (zl (offs s.ps.knots s.ps.degree x)))) dims acc)
    (fun n => dims.map fun c => ∑ j ∈ range n,
      g (List.zipWith (· + ·) (unlin (actBox s.ps.degree) j) (offs s.ps.knots s.ps.degree x)) c) (by
      intro k hk
      have hJ := unlin_inBox hpos k
      simp only [zipWith_zl]
      rw [addEach_eq (g := fun c => g (List.zipWith (· + ·) (unlin (actBox s.ps.degree) k) (offs s.ps.knots s.ps.degree x)) c)
        _ (fun c hc => hf _ hJ c hc)]
      congr 1
      apply List.map_congr_left
      intro c _
      rw [sum_range_succ])
  simp only [range_zero, sum_empty] at this
  rw [this]
  congr 1
  apply List.map_congr_left
  intro c _
  rw [msum_eq_sum_unlin]

theorem weightSumWith_eq {s : Spl K} (h : List.Forall₂ WFKnots s.ps.knots s.ps.degree) {x : List K} (hx : Dom s.ps.knots x)
    {f : List ℤ → M K} {g : List ℕ → K}
    (hf : ∀ J, InBox (actBox s.ps.degree) J →
      f (zl (List.zipWith (· + ·) J (offs s.ps.knots s.ps.degree x))) =
        .ok (g (List.zipWith (· + ·) J (offs s.ps.knots s.ps.degree x)))) :
    s.weightSumWith x f = .ok (
      msum (actBox s.ps.degree) fun J => g (List.zipWith (· + ·) J (offs s.ps.knots s.ps.degree x))) := by
  have hpos : ∀ n ∈ actBox s.ps.degree, 0 < n := by simp [actBox]
  simp only [Spl.weightSumWith, firstNonZero_eq h hx, ok_bind, numBasis_eq]
  have := upLoop_fun (ns := actBox s.ps.degree)
    (body := fun h sum => do
      let v ← f (List.zipWith (· + ·) h.cur (zl (offs s.ps.knots s.ps.degree x)))
      return sum + v)
    (fun n => ∑ j ∈ range n,
      g (List.zipWith (· + ·) (unlin (actBox s.ps.degree) j) (offs s.ps.knots s.ps.degree x))) (by
      intro k hk
      have hJ := unlin_inBox hpos k
      simp only [zipWith_zl, hf _ hJ, ok_bind, pure_ok]
      rw [sum_range_succ])
  simp only [range_zero, sum_empty] at this
  rw [this, msum_eq_sum_unlin]

/-! ### Physical space access -/

theorem mul_add_lt {d N k c : ℕ} (hk : k < N) (hc : c < d) : d * k + c < d * N := by
  calc d * k + c < d * k + d := by omega
    _ = d * (k + 1) := by ring
    _ ≤ d * N := Nat.mul_le_mul_left _ hk

theorem getCP_eq {ph : Phys K} {ns I : List ℕ} (hn : ph.num = zl ns) (hl : ph.cps.length = ph.dim * ns.prod)
    (hI : InBox ns I) :
    ph.getCP (zl I) = .ok ((List.range ph.dim).map fun c => ph.cps.getD (ph.dim * lin ns I + c) 0) := by
  unfold Phys.getCP
  apply buildList_eq
  intro c hc
  rw [hn, oneD_zl]
  rw [show ((ph.dim : ℤ) * (lin ns I : ℤ) + (c : ℤ)) = ((ph.dim * lin ns I + c : ℕ) : ℤ) by push_cast; rfl]
  exact getI_getD (by rw [hl]; exact mul_add_lt (lin_lt hI) hc) 0

theorem getI_map_range {f : ℕ → K} {n c : ℕ} (h : c < n) : getI ((List.range n).map f) (c : ℤ) = .ok (f c) := by
  rw [getI_nat, getN_of_lt (by simpa using h)]; simp

theorem controlPoint_eq {s : Spl K} (h : WFSpl s) {I : List ℕ} (hI : InBox (npts s) I) {c : ℕ} (hc : c < s.ph.dim) :
    s.controlPoint (zl I) (c : ℤ) = .ok (cpt s I c) := by
  simp only [Spl.controlPoint, getCP_eq h.num h.cps hI, ok_bind, getI_map_range hc, cpt]

theorem getWeight_eq {s : Spl K} (h : WFSpl s) {I : List ℕ} (hI : InBox (npts s) I) :
    s.ph.getWeight (zl I) = .ok (wgt s I) := by
  unfold Phys.getWeight wgt
  cases hw : s.ph.weights with
  | none => rfl
  | some w =>
    simp only
    rw [h.num, oneD_zl, getI_getD (by rw [(h.weights w hw).1]; exact lin_lt hI) 0]

theorem WFSpl.table {s : Spl K} (h : WFSpl s) : s.ps.basis = mkTable s.ps.knots s.ps.degree := by
  have := h.basis
  rw [basisTable_eq (forall₂_size h.knots)] at this
  exact (Except.ok.inj this).symm

theorem getBasisFunctions_eq {s : Spl K} (h : WFSpl s) {x : List K} (hx : Dom s.ps.knots x) {J : List ℕ}
    (hJ : InBox (actBox s.ps.degree) J) :
    s.ps.getBasisFunctions (zl (List.zipWith (· + ·) J (offs s.ps.knots s.ps.degree x))) x =
      .ok (dprod (basisFns s.ps.knots s.ps.degree x) (List.zipWith (· + ·) J (offs s.ps.knots s.ps.degree x))) := by
  simp only [PS.getBasisFunctions, h.table, basisProd_eq h.knots 1 hx hJ, one_mul]

theorem getBasisFunctionDerivatives_eq {s : Spl K} (h : WFSpl s) {x : List K} (hx : Dom s.ps.knots x) {J : List ℕ}
    (hJ : InBox (actBox s.ps.degree) J) {k : List ℕ} (hk : k.length = s.ps.knots.length) :
    s.ps.getBasisFunctionDerivatives (zl (List.zipWith (· + ·) J (offs s.ps.knots s.ps.degree x))) x (zl k) =
      .ok (dprod (basisDerivFns s.ps.knots s.ps.degree x k) (List.zipWith (· + ·) J (offs s.ps.knots s.ps.degree x))) := by
  simp only [PS.getBasisFunctionDerivatives, h.table, basisDerivProd_eq h.knots 1 hx hJ hk, one_mul]

theorem evaluatedWeightSum_eq {s : Spl K} (h : WFSpl s) {x : List K} (hx : Dom s.ps.knots x) :
    s.evaluatedWeightSum x = .ok (weightValue s x) := by
  unfold Spl.evaluatedWeightSum
  rw [weightSumWith_eq h.knots hx (g := fun I => dprod (basisFns s.ps.knots s.ps.degree x) I * wgt s I)]
  · rw [msum_active' h.knots _ hx]; rfl
  · intro J hJ
    have hI : InBox (npts s) _ := act_inBox h.knots hx hJ
    simp only [Spl.evaluatedWeight, getBasisFunctions_eq h hx hJ, getWeight_eq h hI, ok_bind, pure_ok]

theorem getHomCP_eq {s : Spl K} (h : WFSpl s) {I : List ℕ} (hI : InBox (npts s) I) (hn : IsNurbs s) :
    s.ph.getHomCP (zl I) = .ok ((List.range s.ph.dim).map (fun c => cpt s I c * wgt s I) ++ [wgt s I]) := by
  obtain ⟨w, hw⟩ := hn
  have hwl := (h.weights w hw).1
  have hg : getI w (MIH.oneD s.ph.num (zl I)) = .ok (wgt s I) := by
    have := getWeight_eq h hI
    simpa only [Phys.getWeight, hw] using this
  simp only [Phys.getHomCP, Phys.theWeights, hw, ok_bind, hg]
  rw [buildList_eq (g := fun c => cpt s I c * wgt s I)]
  · rfl
  · intro c hc
    have hd : ((s.ph.dim : ℤ) * MIH.oneD s.ph.num (zl I)).tdiv s.ph.dim = MIH.oneD s.ph.num (zl I) :=
      Int.mul_tdiv_cancel_left _ (by have := h.dim; omega)
    rw [hd, hg]
    have : getI s.ph.cps ((s.ph.dim : ℤ) * MIH.oneD s.ph.num (zl I) + (c : ℤ)) = .ok (cpt s I c) := by
      rw [h.num, oneD_zl]
      rw [show ((s.ph.dim : ℤ) * (lin (npts s) I : ℤ) + (c : ℤ)) = ((s.ph.dim * lin (npts s) I + c : ℕ) : ℤ) by push_cast; rfl]
      exact getI_getD (by rw [h.cps]; exact mul_add_lt (lin_lt hI) hc) 0
    simp only [this, ok_bind, pure_ok]

end
end SplineLib
