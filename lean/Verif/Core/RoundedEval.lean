import Verif.Core.Rounded
import Verif.Core.EvalProps

/-!
# Error of rounded evaluation (helper lemmas)
-/

namespace SplineLib
set_option linter.unusedSectionVars false
open Finset Rounding
variable {K : Type} [Field K] [LinearOrder K] [IsStrictOrderedRing K] {r : Rounding K}

theorem fl_span {U : List K} {p : ℕ} (h : WFKnots U p) {x : K} (h0 : knot U 0 ≤ x) (h1 : x ≤ lastKnot U) :
    Fl.span r U x = .ok (spanIx U x : ℤ) := by
  have hne := h.ne_nil
  have hx := (h.span h0 h1).1
  rw [← hx, kvSpan_eq hne]
  simp only [Fl.span, fl_isLast_eq hne, ok_bind]
  have hpos := kEps_pos (K := K)
  rcases eq_or_lt_of_le h1 with e | hlt
  · subst e
    simp [r.rnd_zero, hpos]
  · by_cases hc : kEps K ≤ lastKnot U - x
    · have h2 := r.mono _ _ hc
      rw [r.eps] at h2
      have e1 : ¬ |r.rnd (x - lastKnot U)| < kEps K := by
        rw [← neg_sub, r.neg, abs_neg, abs_of_nonneg (by linarith)]; exact not_lt.2 h2
      have e2 : ¬ |x - lastKnot U| < kEps K := by
        rw [← neg_sub, abs_neg, abs_of_nonneg (by linarith)]; exact not_lt.2 hc
      simp [e1, e2]
    · have hk : ∀ i < U.length, x ≠ knot U i := by
        rintro i hi rfl
        exact hc (h.sep _ (knot_mem hi) _ (lastKnot_mem hne) hlt)
      have e : lowerBound U x = upperBound U x := by
        obtain ⟨a1, a2, a3⟩ := lowerBound_spec h.sorted x
        obtain ⟨b1, b2, b3⟩ := upperBound_spec h.sorted x
        rcases lt_trichotomy (lowerBound U x) (upperBound U x) with hl | hl | hl
        · exact absurd (le_antisymm (a3 _ (by omega) le_rfl) (b2 _ (by omega) hl)) (hk _ (by omega))
        · exact hl
        · exact absurd (a2 _ (by omega) hl) (not_lt.2 (b3 _ (by omega) le_rfl).le)
      rw [e]
      simp only [pure_ok, ite_self]

/-- The table of basis functions that belongs to knot vectors and degrees. -/
def flTable (r : Rounding K) (Us : List (List K)) (ps : List ℕ) : List (List (Basis K)) :=
  List.zipWith (fun U p => (List.range (U.length - p - 1)).map (flBasis r U p)) Us ps

theorem fl_basisTable_eq {Us : List (List K)} {ps : List ℕ} (h : List.Forall₂ (fun U p => p + 1 ≤ U.length) Us ps) :
    Fl.basisTable r Us ps = .ok (flTable r Us ps) := by
  induction h with
  | nil => rfl
  | @cons U p Us ps h _ ih =>
    have hr : Fl.basisRow r U p = .ok ((List.range (U.length - p - 1)).map (flBasis r U p)) := by
      unfold Fl.basisRow
      rw [if_neg (by omega)]
      exact buildList_eq fun i hi => fl_create_eq (by omega)
    simp [Fl.basisTable, hr, ih, flTable]

theorem fl_firstNonZero_eq {Us : List (List K)} {ps : List ℕ} (h : List.Forall₂ WFKnots Us ps) :
    ∀ {xs : List K}, Dom Us xs → Fl.firstNonZero r Us ps xs = .ok (zl (offs Us ps xs)) := by
  induction h with
  | nil => intro xs hx; cases hx; rfl
  | cons h _ ih =>
    intro xs hx
    cases hx with
    | cons hx hxs =>
      obtain ⟨h1, h2, h3, h4⟩ := h.span hx.1 hx.2
      simp only [Fl.firstNonZero, fl_span h hx.1 hx.2, ih hxs, ok_bind, pure_ok, offs, List.map_cons]
      congr 2; omega

/-- Number of roundings in a product of basis functions. -/
def basisSteps (ps : List ℕ) : ℕ := (ps.map fun p => 6 * p + 1).sum

theorem fl_getI_row {U : List K} {p i : ℕ} (h : i + p + 1 < U.length) :
    getI ((List.range (U.length - p - 1)).map (flBasis r U p)) (i : ℤ) = .ok (flBasis r U p i) := by
  rw [getI_nat, getN_of_lt (by simp; omega)]
  simp

theorem fl_basisProd {Us : List (List K)} {ps : List ℕ} (h : List.Forall₂ WFKnots Us ps) :
    ∀ {xs : List K} {J : List ℕ} {m : ℕ} {a v : K}, Dom Us xs → InBox (actBox ps) J → r.Near m a v → 0 ≤ v →
      ∃ a', Fl.basisProd r (flTable r Us ps) (zl (List.zipWith (· + ·) J (offs Us ps xs))) xs a = .ok a' ∧
        r.Near (m + basisSteps ps) a' (v * dprod (basisFns Us ps xs) (List.zipWith (· + ·) J (offs Us ps xs))) ∧
        0 ≤ v * dprod (basisFns Us ps xs) (List.zipWith (· + ·) J (offs Us ps xs)) := by
  induction h with
  | nil =>
    intro xs J m a v hx hJ hn hv; cases hx
    exact ⟨a, rfl, by simpa [offs, basisFns, dprod, basisSteps] using hn, by simpa [offs, basisFns, dprod] using hv⟩
  | @cons U p Us ps h _ ih =>
    intro xs J m a v hx hJ hn hv
    cases hx with
    | @cons _ b _ bs hx hxs =>
      cases J with
      | nil => simp at hJ
      | cons j J =>
        simp only [actBox, List.map_cons, inBox_cons] at hJ
        obtain ⟨h1, h2, h3, h4⟩ := h.span hx.1 hx.2
        obtain ⟨e1, e2⟩ := flBasis_eval (r := r) h.sorted h.sep b p (j + (spanIx U b - p)) (by omega) (by
          intro hp; left
          rw [show j + (spanIx U b - p) = spanIx U b by omega]
          exact inSpan_lt h2)
        have hv' : 0 ≤ v * coxDeBoor U p (j + (spanIx U b - p)) b := mul_nonneg hv e2
        obtain ⟨a', i1, i2, i3⟩ := ih hxs hJ.2 ((hn.mul e1 hv e2).rnd hv') hv'
        refine ⟨a', ?_, ?_, ?_⟩
        · simp only [flTable, List.zipWith_cons_cons, offs, List.map_cons, Fl.basisProd]
          rw [fl_getI_row (by omega)]
          simp only [flTable, zl] at i1
          simp only [ok_bind, i1]
        · simp only [List.zipWith_cons_cons, offs, basisFns, dprod]
          rw [← mul_assoc]
          rwa [show m + 6 * p + 1 + basisSteps ps = m + basisSteps (p :: ps) by simp [basisSteps]; ring] at i2
        · simp only [List.zipWith_cons_cons, offs, basisFns, dprod]
          rwa [← mul_assoc]

/-- Bounds of the derivatives of the univariate basis functions. -/
def basisDerivMags : List (List K) → List ℕ → List K → List ℕ → List (ℕ → K)
  | U :: Us, p :: ps, x :: xs, k :: ks => (fun i => coxDerivMag U p k i x) :: basisDerivMags Us ps xs ks
  | _, _, _, _ => []

theorem fl_basisDerivProd {Us : List (List K)} {ps : List ℕ} (h : List.Forall₂ WFKnots Us ps) :
    ∀ {xs : List K} {J ks : List ℕ} {m : ℕ} {a v c : K}, Dom Us xs → InBox (actBox ps) J → ks.length = Us.length → r.Close m a v c →
      ∃ a', Fl.basisDerivProd r (flTable r Us ps) (zl (List.zipWith (· + ·) J (offs Us ps xs))) xs (zl ks) a = .ok a' ∧
        r.Close (m + basisSteps ps) a' (v * dprod (basisDerivFns Us ps xs ks) (List.zipWith (· + ·) J (offs Us ps xs)))
          (c * dprod (basisDerivMags Us ps xs ks) (List.zipWith (· + ·) J (offs Us ps xs))) := by
  induction h with
  | nil =>
    intro xs J ks m a v c hx hJ hk hn; cases hx
    exact ⟨a, by simp [flTable, Fl.basisDerivProd], by simpa [offs, basisDerivFns, basisDerivMags, dprod, basisSteps] using hn⟩
  | @cons U p Us ps h _ ih =>
    intro xs J ks m a v c hx hJ hk hn
    cases hx with
    | @cons _ b _ bs hx hxs =>
      cases J with
      | nil => simp at hJ
      | cons j J =>
        cases ks with
        | nil => simp at hk
        | cons k ks =>
          simp only [actBox, List.map_cons, inBox_cons] at hJ
          obtain ⟨h1, h2, h3, h4⟩ := h.span hx.1 hx.2
          have e1 := flBasis_evalDeriv (r := r) h.sorted h.sep b p k (j + (spanIx U b - p)) (by omega) (by
            intro hp; left
            rw [show j + (spanIx U b - p) = spanIx U b by omega]
            exact inSpan_lt h2)
          obtain ⟨a', i1, i2⟩ := ih hxs hJ.2 (ks := ks) (by simpa using hk) (hn.mul e1).rnd
          refine ⟨a', ?_, ?_⟩
          · simp only [flTable, List.zipWith_cons_cons, offs, List.map_cons, Fl.basisDerivProd]
            rw [fl_getI_row (by omega)]
            simp only [flTable, zl] at i1
            simp only [ok_bind, i1]
          · simp only [List.zipWith_cons_cons, offs, basisDerivFns, basisDerivMags, dprod]
            rw [← mul_assoc, ← mul_assoc]
            rwa [show m + 6 * p + 1 + basisSteps ps = m + basisSteps (p :: ps) by simp [basisSteps]; ring] at i2

theorem msum_active_mag {Us : List (List K)} {ps : List ℕ} (h : List.Forall₂ WFKnots Us ps) :
    ∀ {xs : List K} {ks : List ℕ} (F : List ℕ → K), Dom Us xs → ks.length = Us.length →
      msum (actBox ps) (fun J => dprod (basisDerivMags Us ps xs ks) (List.zipWith (· + ·) J (offs Us ps xs)) *
          F (List.zipWith (· + ·) J (offs Us ps xs))) =
        msum (List.zipWith (fun U p => U.length - p - 1) Us ps) (fun I => dprod (basisDerivMags Us ps xs ks) I * F I) := by
  induction h with
  | nil => intro xs ks F hx hk; cases hx; simp [msum]
  | @cons U p Us ps h _ ih =>
    intro xs ks F hx hk
    cases hx with
    | @cons _ a _ as hx hxs =>
      cases ks with
      | nil => simp at hk
      | cons k ks =>
        obtain ⟨h1, h2, h3, h4⟩ := h.span hx.1 hx.2
        simp only [actBox, List.map_cons, List.zipWith_cons_cons, offs, basisDerivMags, msum, dprod]
        rw [sum_window (n := U.length - p - 1) (o := spanIx U a - p) (w := p + 1) (by omega) ?_]
        · apply sum_congr rfl
          intro j hj
          have := ih (xs := as) (ks := ks) (fun I => F ((j + (spanIx U a - p)) :: I)) hxs (by simpa using hk)
          simp only [mul_assoc, msum_mul_left]
          rw [← this]
        · intro i hi hio
          rw [coxMag_zero]
          · simp [msum_zero]
          · intro j hj1 hj2 hj3
            have := InSpan.unique h.sorted (by omega) (by omega) hj3 h2
            omega

theorem forall₂_mem {α β : Type*} {R : α → β → Prop} {l : List α} {m : List β} (h : List.Forall₂ R l m) :
    List.Forall₂ (fun a b => a ∈ l ∧ R a b) l m := by
  induction h with
  | nil => exact .nil
  | cons h _ ih => exact .cons ⟨by simp, h⟩ (ih.imp fun a b h => ⟨by simp [h.1], h.2⟩)

/-- A spline object built with rounded arithmetic: as `WFSpl`, but with the rounded basis functions. -/
structure Fl.WF (r : Rounding K) (s : Spl K) : Prop where
  knots : List.Forall₂ WFKnots s.ps.knots s.ps.degree
  basis : Fl.basisTable r s.ps.knots s.ps.degree = .ok s.ps.basis
  num : s.ph.num = zl (npts s)
  dim : 0 < s.ph.dim
  cps : s.ph.cps.length = s.ph.dim * (npts s).prod
  weights : ∀ w, s.ph.weights = some w → w.length = (npts s).prod ∧ ∀ a ∈ w, 0 < a

/-- The same data with exact basis functions. -/
def exactOf (s : Spl K) : Spl K := ⟨{ s.ps with basis := mkTable s.ps.knots s.ps.degree }, s.ph⟩

variable {s : Spl K}

theorem Fl.WF.exact (h : Fl.WF r s) : WFSpl (exactOf s) :=
  ⟨h.knots, basisTable_eq (forall₂_size h.knots), h.num, h.dim, h.cps, h.weights⟩

theorem Fl.WF.table (h : Fl.WF r s) : s.ps.basis = flTable r s.ps.knots s.ps.degree := by
  have := h.basis
  rw [fl_basisTable_eq (forall₂_size h.knots)] at this
  exact (Except.ok.inj this).symm

theorem forall₂_addEach {f : ℤ → M K} {m k : ℕ} {S G g e : ℤ → K} : ∀ {dims : List ℤ} {v : List K},
    List.Forall₂ (fun c a => r.Close (m + k) a (S c) (G c)) dims v → (∀ c ∈ dims, ∃ a, f c = .ok a ∧ r.Close m a (g c) (e c)) →
    ∃ v', Fl.addEach r f dims v = .ok v' ∧ List.Forall₂ (fun c a => r.Close (m + (k + 1)) a (S c + g c) (G c + e c)) dims v' := by
  intro dims v h
  induction h with
  | nil => intro _; exact ⟨[], rfl, .nil⟩
  | @cons c a dims v h1 _ ih =>
    intro hf
    obtain ⟨b, e1, e2⟩ := hf c (by simp)
    obtain ⟨v', i1, i2⟩ := ih fun c hc => hf c (by simp [hc])
    exact ⟨_, by simp only [Fl.addEach, e1, i1, ok_bind, pure_ok], .cons ((h1.add (e2.mono (by omega))).rnd) i2⟩

theorem fl_evalWith (h : List.Forall₂ WFKnots s.ps.knots s.ps.degree) {x : List K} (hx : Dom s.ps.knots x) {dims : List ℤ}
    {f : List ℤ → ℤ → M K} {m : ℕ} {g e : List ℕ → ℤ → K}
    (hf : ∀ J, InBox (actBox s.ps.degree) J → ∀ c ∈ dims, ∃ a,
      f (zl (List.zipWith (· + ·) J (offs s.ps.knots s.ps.degree x))) c = .ok a ∧
        r.Close m a (g (List.zipWith (· + ·) J (offs s.ps.knots s.ps.degree x)) c)
          (e (List.zipWith (· + ·) J (offs s.ps.knots s.ps.degree x)) c)) :
    ∃ v, Fl.evalWith r s x dims f = .ok v ∧ List.Forall₂ (fun c a => r.Close (m + (actBox s.ps.degree).prod) a
      (msum (actBox s.ps.degree) fun J => g (List.zipWith (· + ·) J (offs s.ps.knots s.ps.degree x)) c)
      (msum (actBox s.ps.degree) fun J => e (List.zipWith (· + ·) J (offs s.ps.knots s.ps.degree x)) c)) dims v := by
  have hpos : ∀ n ∈ actBox s.ps.degree, 0 < n := by simp [actBox]
  simp only [Fl.evalWith, throwIfOutside_ok h hx, fl_firstNonZero_eq h hx, ok_bind, numBasis_eq]
  obtain ⟨v, e1, e2⟩ := upLoop_inv (ns := actBox s.ps.degree)
    (body := fun h acc => Fl.addEach r (f (List.zipWith (· + ·) h.cur (zl (offs s.ps.knots s.ps.degree x)))) dims acc)
    (s := dims.map fun _ => 0)
    (fun n v => List.Forall₂ (fun c a => r.Close (m + n) a
      (∑ j ∈ range n, g (List.zipWith (· + ·) (unlin (actBox s.ps.degree) j) (offs s.ps.knots s.ps.degree x)) c)
      (∑ j ∈ range n, e (List.zipWith (· + ·) (unlin (actBox s.ps.degree) j) (offs s.ps.knots s.ps.degree x)) c)) dims v) (by
        rw [List.forall₂_map_right_iff]
        exact List.forall₂_same.2 fun c _ => by simpa using Close.zero) (by
      intro k hk v hv
      have hJ := unlin_inBox hpos k
      simp only [zipWith_zl]
      obtain ⟨v', i1, i2⟩ := forall₂_addEach hv fun c hc => hf _ hJ c hc
      refine ⟨v', i1, i2.imp ?_⟩
      intro c a hca
      simp only [sum_range_succ]
      exact hca)
  refine ⟨v, e1, e2.imp ?_⟩
  intro c a hca
  simp only [msum_eq_sum_unlin]
  exact hca

theorem fl_weightSum (h : Fl.WF r s) {x : List K} (hx : Dom s.ps.knots x) :
    ∃ a, Fl.evaluatedWeightSum r s x = .ok a ∧
      r.Near (basisSteps s.ps.degree + 1 + (actBox s.ps.degree).prod) a (weightValue s x) := by
  have hpos : ∀ n ∈ actBox s.ps.degree, 0 < n := by simp [actBox]
  simp only [Fl.evaluatedWeightSum, fl_firstNonZero_eq h.knots hx, ok_bind, numBasis_eq]
  obtain ⟨v, e1, e2⟩ := upLoop_inv (ns := actBox s.ps.degree)
    (body := fun h sum => do
      let v ← Fl.evaluatedWeight r s x (List.zipWith (· + ·) h.cur (zl (offs s.ps.knots s.ps.degree x)))
      return r.rnd (sum + v))
    (s := (0 : K))
    (fun n a => r.Near (basisSteps s.ps.degree + 1 + n) a
      (∑ j ∈ range n, dprod (basisFns s.ps.knots s.ps.degree x)
          (List.zipWith (· + ·) (unlin (actBox s.ps.degree) j) (offs s.ps.knots s.ps.degree x)) *
        wgt s (List.zipWith (· + ·) (unlin (actBox s.ps.degree) j) (offs s.ps.knots s.ps.degree x))) ∧
      0 ≤ ∑ j ∈ range n, dprod (basisFns s.ps.knots s.ps.degree x)
          (List.zipWith (· + ·) (unlin (actBox s.ps.degree) j) (offs s.ps.knots s.ps.degree x)) *
        wgt s (List.zipWith (· + ·) (unlin (actBox s.ps.degree) j) (offs s.ps.knots s.ps.degree x)))
      (by simp [Near]) (by
      rintro k hk a ⟨h1, h2⟩
      have hJ := unlin_inBox hpos k
      have hI : InBox (npts s) _ := act_inBox h.knots hx hJ
      obtain ⟨b, b1, b2, b3⟩ := fl_basisProd (r := r) h.knots hx hJ (Near.refl 1 zero_le_one) zero_le_one
      rw [one_mul, zero_add] at b2
      rw [one_mul] at b3
      have hw : s.ph.getWeight (zl (List.zipWith (· + ·) (unlin (actBox s.ps.degree) k) (offs s.ps.knots s.ps.degree x))) =
          .ok (wgt s (List.zipWith (· + ·) (unlin (actBox s.ps.degree) k) (offs s.ps.knots s.ps.degree x))) := getWeight_eq h.exact hI
      have hwp : 0 < wgt s (List.zipWith (· + ·) (unlin (actBox s.ps.degree) k) (offs s.ps.knots s.ps.degree x)) := wgt_pos h.exact hI
      simp only [zipWith_zl, Fl.evaluatedWeight, h.table, b1, hw, ok_bind, pure_ok]
      refine ⟨_, rfl, ?_⟩
      have b4 := mul_nonneg b3 hwp.le
      have n1 := (b2.mul (Near.refl _ hwp.le) b3 hwp.le).rnd b4
      rw [sum_range_succ]
      refine ⟨?_, add_nonneg h2 b4⟩
      have := (h1.add (n1.mono b4 (l := basisSteps s.ps.degree + 1 + k) (by omega))).rnd (add_nonneg h2 b4)
      exact this)
  refine ⟨v, e1, ?_⟩
  have e3 : weightValue s x = msum (actBox s.ps.degree) fun J =>
      dprod (basisFns s.ps.knots s.ps.degree x) (List.zipWith (· + ·) J (offs s.ps.knots s.ps.degree x)) *
        wgt s (List.zipWith (· + ·) J (offs s.ps.knots s.ps.degree x)) := (msum_active' h.knots _ hx).symm
  rw [e3, msum_eq_sum_unlin]
  exact e2.1

end SplineLib
