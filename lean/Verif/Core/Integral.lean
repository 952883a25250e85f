import Verif.Core.Box
import Verif.Props.Quadrature
import Mathlib.Topology.Algebra.Polynomial
import Mathlib.Data.List.GetD
import Mathlib.Algebra.MvPolynomial.Degrees
import Mathlib.Algebra.MvPolynomial.Rename
import Mathlib.Algebra.MvPolynomial.Eval

/-!
# Iterated integrals and quadrature of functions that are polynomials in every element (helper mathematics)
-/

namespace SplineLib
set_option linter.unusedSectionVars false
open Finset

/-- The iterated integral over a box, one interval per direction. -/
noncomputable def boxInt : List (ℝ × ℝ) → (List ℝ → ℝ) → ℝ
  | [], g => g []
  | ab :: r, g => ∫ x in ab.1..ab.2, boxInt r fun xs => g (x :: xs)

/-- The half open box. -/
def InCell (box : List (ℝ × ℝ)) (x : List ℝ) : Prop := List.Forall₂ (fun ab a => ab.1 ≤ a ∧ a < ab.2) box x

/-- A product of polynomials, one per direction. -/
noncomputable def prodEval : List (Polynomial ℝ) → List ℝ → ℝ
  | p :: ps, x :: xs => p.eval x * prodEval ps xs
  | _, _ => 1

/-- The product of the integrals. -/
noncomputable def prodInt : List (Polynomial ℝ) → List (ℝ × ℝ) → ℝ
  | p :: ps, ab :: r => (∫ x in ab.1..ab.2, p.eval x) * prodInt ps r
  | _, _ => 1

/-- A sum of such products with degrees at most `m` in the box. -/
def SumProd (m : ℕ) (box : List (ℝ × ℝ)) (g : List ℝ → ℝ) : Prop :=
  ∃ (N : ℕ) (c : ℕ → ℝ) (F : ℕ → List (Polynomial ℝ)), (∀ i, (F i).length = box.length) ∧ (∀ i, ∀ p ∈ F i, p.natDegree ≤ m) ∧
    ∀ x, InCell box x → g x = ∑ i ∈ range N, c i * prodEval (F i) x

theorem boxInt_congr : ∀ {box : List (ℝ × ℝ)} {f g : List ℝ → ℝ}, (∀ ab ∈ box, ab.1 < ab.2) → (∀ x, InCell box x → f x = g x) →
    boxInt box f = boxInt box g
  | [], f, g, _, h => h [] List.Forall₂.nil
  | ab :: r, f, g, hb, h => by
    rw [boxInt, boxInt]
    apply intervalIntegral.integral_congr_uIoo
    intro x hx
    rw [Set.uIoo_of_lt (hb ab (by simp))] at hx
    exact boxInt_congr (fun cd hcd => hb cd (by simp [hcd])) fun xs hxs => h _ (List.Forall₂.cons ⟨hx.1.le, hx.2⟩ hxs)

theorem poly_integrable (p : Polynomial ℝ) (a b : ℝ) : IntervalIntegrable (fun x => p.eval x) MeasureTheory.volume a b :=
  p.continuous.intervalIntegrable _ _

theorem boxInt_sum : ∀ {box : List (ℝ × ℝ)} {N : ℕ} {c : ℕ → ℝ} {F : ℕ → List (Polynomial ℝ)}, (∀ i, (F i).length = box.length) →
    boxInt box (fun x => ∑ i ∈ range N, c i * prodEval (F i) x) = ∑ i ∈ range N, c i * prodInt (F i) box
  | [], N, c, F, hF => by
    rw [boxInt]
    refine sum_congr rfl fun i _ => ?_
    rw [List.length_eq_zero_iff.1 (hF i)]
    rfl
  | ab :: r, N, c, F, hF => by
    rw [boxInt]
    have hc : ∀ i, ∃ p ps, F i = p :: ps := fun i => List.exists_cons_of_length_eq_add_one (hF i)
    choose p ps hp using hc
    have e : ∀ x, boxInt r (fun xs => ∑ i ∈ range N, c i * prodEval (F i) (x :: xs)) =
        ∑ i ∈ range N, (c i * (p i).eval x) * prodInt (ps i) r := by
      intro x
      rw [← boxInt_sum (box := r) (c := fun i => c i * (p i).eval x) (F := ps) (fun i => by have := hF i; rw [hp] at this; simpa using this)]
      congr 1
      funext xs
      refine sum_congr rfl fun i _ => ?_
      rw [hp, prodEval, mul_assoc]
    simp only [e]
    rw [intervalIntegral.integral_finsetSum]
    · refine sum_congr rfl fun i _ => ?_
      rw [hp, prodInt]
      have : ∀ x, c i * (p i).eval x * prodInt (ps i) r = (c i * prodInt (ps i) r) * (p i).eval x := fun x => by ring
      simp only [this]
      rw [intervalIntegral.integral_const_mul]
      ring
    · intro i _
      have : (fun x => c i * (p i).eval x * prodInt (ps i) r) = fun x => (c i * prodInt (ps i) r) * (p i).eval x := by funext x; ring
      rw [this]
      exact (poly_integrable (p i) _ _).const_mul _

/-! ### The quadrature of one element -/

/-- The rule in every direction of the box. -/
noncomputable def boxQuad (rule : List (ℝ × ℝ)) : List (ℝ × ℝ) → (List ℝ → ℝ) → ℝ
  | [], g => g []
  | ab :: r, g => quad rule (fun t => boxQuad rule r fun xs => g (((ab.2 - ab.1) * t + (ab.2 + ab.1)) / 2 :: xs)) * ((ab.2 - ab.1) / 2)

theorem quad_congr {rule : List (ℝ × ℝ)} {f g : ℝ → ℝ} (h : ∀ p ∈ rule, f p.1 = g p.1) : quad rule f = quad rule g := by
  unfold quad
  congr 1
  apply List.map_congr_left
  intro p hp
  rw [h p hp]

theorem quad_sum' (rule : List (ℝ × ℝ)) (N : ℕ) (c : ℕ → ℝ) (f : ℕ → ℝ → ℝ) :
    quad rule (fun x => ∑ i ∈ range N, c i * f i x) = ∑ i ∈ range N, c i * quad rule (f i) := by
  unfold quad
  induction rule with
  | nil => simp
  | cons p rule ih =>
    simp only [List.map_cons, List.sum_cons]
    rw [ih]
    simp only [mul_add, sum_add_distrib, mul_sum]
    congr 1
    exact sum_congr rfl fun i _ => by ring

theorem refPoint_in {a b t : ℝ} (hab : a < b) (h1 : -1 ≤ t) (h2 : t < 1) : a ≤ ((b - a) * t + (b + a)) / 2 ∧ ((b - a) * t + (b + a)) / 2 < b := by
  constructor <;> nlinarith

theorem boxQuad_congr {rule : List (ℝ × ℝ)} (hr : ∀ p ∈ rule, -1 ≤ p.1 ∧ p.1 < 1) : ∀ {box : List (ℝ × ℝ)} {f g : List ℝ → ℝ},
    (∀ ab ∈ box, ab.1 < ab.2) → (∀ x, InCell box x → f x = g x) → boxQuad rule box f = boxQuad rule box g
  | [], f, g, _, h => h [] List.Forall₂.nil
  | ab :: r, f, g, hb, h => by
    rw [boxQuad, boxQuad]
    congr 1
    apply quad_congr
    intro p hp
    exact boxQuad_congr hr (fun cd hcd => hb cd (by simp [hcd])) fun xs hxs =>
      h _ (List.Forall₂.cons (refPoint_in (hb ab (by simp)) (hr p hp).1 (hr p hp).2) hxs)

/-- The rule integrates all polynomials of degree at most `m`, on every interval. -/
def ExactRule (rule : List (ℝ × ℝ)) (m : ℕ) : Prop := ∀ (p : Polynomial ℝ), p.natDegree ≤ m → ∀ a b : ℝ, a < b →
  quad rule (fun t => p.eval (((b - a) * t + (b + a)) / 2)) * ((b - a) / 2) = ∫ x in a..b, p.eval x

theorem boxQuad_sum {rule : List (ℝ × ℝ)} {m : ℕ} (hr : ExactRule rule m) : ∀ {box : List (ℝ × ℝ)} {N : ℕ} {c : ℕ → ℝ} {F : ℕ → List (Polynomial ℝ)},
    (∀ ab ∈ box, ab.1 < ab.2) → (∀ i, (F i).length = box.length) → (∀ i, ∀ p ∈ F i, p.natDegree ≤ m) →
    boxQuad rule box (fun x => ∑ i ∈ range N, c i * prodEval (F i) x) = ∑ i ∈ range N, c i * prodInt (F i) box
  | [], N, c, F, _, hF, _ => by
    rw [boxQuad]
    refine sum_congr rfl fun i _ => ?_
    rw [List.length_eq_zero_iff.1 (hF i)]
    rfl
  | ab :: r, N, c, F, hb, hF, hd => by
    rw [boxQuad]
    have hc : ∀ i, ∃ p ps, F i = p :: ps := fun i => List.exists_cons_of_length_eq_add_one (hF i)
    choose p ps hp using hc
    have e : ∀ x, boxQuad rule r (fun xs => ∑ i ∈ range N, c i * prodEval (F i) (x :: xs)) =
        ∑ i ∈ range N, (c i * prodInt (ps i) r) * (p i).eval x := by
      intro x
      have := boxQuad_sum hr (box := r) (N := N) (c := fun i => c i * (p i).eval x) (F := ps) (fun cd hcd => hb cd (by simp [hcd]))
        (fun i => by have := hF i; rw [hp] at this; simpa using this) (fun i q hq => hd i q (by rw [hp]; simp [hq]))
      rw [show (∑ i ∈ range N, (c i * prodInt (ps i) r) * (p i).eval x) = ∑ i ∈ range N, (c i * (p i).eval x) * prodInt (ps i) r from
        sum_congr rfl fun i _ => by ring, ← this]
      congr 1
      funext xs
      refine sum_congr rfl fun i _ => ?_
      rw [hp, prodEval, mul_assoc]
    simp only [e]
    rw [quad_sum' rule N (fun i => c i * prodInt (ps i) r) (fun i t => (p i).eval (((ab.2 - ab.1) * t + (ab.2 + ab.1)) / 2)), sum_mul]
    refine sum_congr rfl fun i _ => ?_
    rw [hp, prodInt, ← hr (p i) (hd i _ (by rw [hp]; simp)) ab.1 ab.2 (hb ab (by simp))]
    ring

theorem boxQuad_exact {rule : List (ℝ × ℝ)} {m : ℕ} (hr : ExactRule rule m) (hin : ∀ p ∈ rule, -1 ≤ p.1 ∧ p.1 < 1) {box : List (ℝ × ℝ)}
    (hb : ∀ ab ∈ box, ab.1 < ab.2) {g : List ℝ → ℝ} (h : SumProd m box g) : boxQuad rule box g = boxInt box g := by
  obtain ⟨N, c, F, hF, hd, hg⟩ := h
  rw [boxQuad_congr hin hb hg, boxInt_congr hb hg, boxQuad_sum hr hb hF hd, boxInt_sum hF]

/-! ### The elements together -/

/-- The box of the element `I`. -/
def cellOf : List (List (ℝ × ℝ)) → List ℕ → List (ℝ × ℝ)
  | E :: Es, i :: I => E.getD i (0, 0) :: cellOf Es I
  | _, _ => []

/-- One interval per direction from a list of increasing break points. -/
def cellsOf (ds : List (List ℝ)) : List (List (ℝ × ℝ)) := ds.map fun d => d.zip d.tail

/-- From the first to the last break point. -/
def hullOf (ds : List (List ℝ)) : List (ℝ × ℝ) := ds.map fun d => (d.getD 0 0, d.getD (d.length - 1) 0)

theorem zip_tail_getD {d : List ℝ} {i : ℕ} (h : i + 1 < d.length) : (d.zip d.tail).getD i (0, 0) = (d.getD i 0, d.getD (i + 1) 0) := by
  have h1 : i < (d.zip d.tail).length := by simp; omega
  rw [List.getD_eq_getElem _ _ h1, List.getElem_zip, List.getElem_tail, List.getD_eq_getElem _ _ (by omega), List.getD_eq_getElem _ _ h]

theorem cellOf_length : ∀ {Es : List (List (ℝ × ℝ))} {I : List ℕ}, I.length = Es.length → (cellOf Es I).length = Es.length
  | [], I, _ => by cases I <;> rfl
  | E :: Es, [], h => by simp at h
  | E :: Es, i :: I, h => by rw [cellOf, List.length_cons, cellOf_length (by simpa using h), List.length_cons]

theorem cellOf_lt : ∀ {ds : List (List ℝ)} {I : List ℕ}, (∀ d ∈ ds, d.Pairwise (· < ·)) → InBox ((cellsOf ds).map List.length) I →
    ∀ ab ∈ cellOf (cellsOf ds) I, ab.1 < ab.2
  | [], I, _, h, ab, hab => by
    cases I <;> simp [cellOf, cellsOf] at hab
  | d :: ds, [], _, h, ab, hab => by simp [cellsOf, InBox] at h
  | d :: ds, i :: I, hd, h, ab, hab => by
    simp only [cellsOf, List.map_cons, inBox_cons] at h
    simp only [cellsOf, List.map_cons, cellOf] at hab
    have hi : i + 1 < d.length := by have := h.1; simp at this; omega
    rcases List.mem_cons.1 hab with rfl | hab
    · rw [zip_tail_getD hi, List.getD_eq_getElem _ _ (by omega), List.getD_eq_getElem _ _ hi]
      exact List.pairwise_iff_getElem.1 (hd d (by simp)) i (i + 1) (by omega) hi (by omega)
    · exact cellOf_lt (fun d' h' => hd d' (by simp [h'])) h.2 ab hab

theorem SumProd.fix {m : ℕ} {ab : ℝ × ℝ} {r : List (ℝ × ℝ)} {g : List ℝ → ℝ} (h : SumProd m (ab :: r) g) {x : ℝ} (hx : ab.1 ≤ x ∧ x < ab.2) :
    SumProd m r fun xs => g (x :: xs) := by
  obtain ⟨N, c, F, hF, hd, hg⟩ := h
  have hc : ∀ i, ∃ p ps, F i = p :: ps := fun i => List.exists_cons_of_length_eq_add_one (hF i)
  choose p ps hp using hc
  refine ⟨N, fun i => c i * (p i).eval x, ps, fun i => by have := hF i; rw [hp] at this; simpa using this,
    fun i q hq => hd i q (by rw [hp]; simp [hq]), fun xs hxs => ?_⟩
  dsimp only
  rw [hg _ (List.Forall₂.cons hx hxs)]
  refine sum_congr rfl fun i _ => ?_
  rw [hp, prodEval, mul_assoc]

theorem SumProd.inner {m : ℕ} {ab : ℝ × ℝ} {r : List (ℝ × ℝ)} (hb : ∀ cd ∈ r, cd.1 < cd.2) {g : List ℝ → ℝ} (h : SumProd m (ab :: r) g) :
    ∃ q : Polynomial ℝ, ∀ x, ab.1 ≤ x → x < ab.2 → boxInt r (fun xs => g (x :: xs)) = q.eval x := by
  obtain ⟨N, c, F, hF, hd, hg⟩ := h
  have hc : ∀ i, ∃ p ps, F i = p :: ps := fun i => List.exists_cons_of_length_eq_add_one (hF i)
  choose p ps hp using hc
  refine ⟨∑ i ∈ range N, Polynomial.C (c i * prodInt (ps i) r) * p i, fun x h1 h2 => ?_⟩
  have e : ∀ xs, InCell r xs → g (x :: xs) = ∑ i ∈ range N, (c i * (p i).eval x) * prodEval (ps i) xs := by
    intro xs hxs
    rw [hg _ (List.Forall₂.cons ⟨h1, h2⟩ hxs)]
    refine sum_congr rfl fun i _ => ?_
    rw [hp, prodEval, mul_assoc]
  rw [boxInt_congr hb e, boxInt_sum (fun i => by have := hF i; rw [hp] at this; simpa using this), Polynomial.eval_finsetSum]
  refine sum_congr rfl fun i _ => ?_
  rw [Polynomial.eval_mul, Polynomial.eval_C]
  ring

theorem msum_poly (ns : List ℕ) (q : List ℕ → Polynomial ℝ) (x : ℝ) : msum ns (fun I => (q I).eval x) = (msum ns q).eval x := by
  rw [msum_eq_sum_unlin, msum_eq_sum_unlin, Polynomial.eval_finsetSum]

theorem msum_integral (ns : List ℕ) (q : List ℕ → Polynomial ℝ) (a b : ℝ) :
    ∫ x in a..b, (msum ns q).eval x = msum ns fun I => ∫ x in a..b, (q I).eval x := by
  have : ∀ x, (msum ns q).eval x = ∑ k ∈ range ns.prod, (q (unlin ns k)).eval x := fun x => by
    rw [← msum_poly, msum_eq_sum_unlin]
  simp only [this]
  rw [intervalIntegral.integral_finsetSum fun i _ => poly_integrable _ _ _, msum_eq_sum_unlin]

theorem hull_sum {m : ℕ} : ∀ {ds : List (List ℝ)} {g : List ℝ → ℝ}, (∀ d ∈ ds, d.Pairwise (· < ·)) → (∀ d ∈ ds, d ≠ []) →
    (∀ I, InBox ((cellsOf ds).map List.length) I → SumProd m (cellOf (cellsOf ds) I) g) →
    boxInt (hullOf ds) g = msum ((cellsOf ds).map List.length) fun I => boxInt (cellOf (cellsOf ds) I) g
  | [], g, _, _, _ => rfl
  | d :: ds, g, hd, hne, h => by
    have hd0 := hd d (by simp)
    have hd' : ∀ e ∈ ds, e.Pairwise (· < ·) := fun e he => hd e (by simp [he])
    have hne' : ∀ e ∈ ds, e ≠ [] := fun e he => hne e (by simp [he])
    have hlen : 0 < d.length := List.length_pos_iff.2 (hne d (by simp))
    have hcl : (d.zip d.tail).length = d.length - 1 := by simp
    simp only [cellsOf, List.map_cons, hullOf, boxInt, msum, cellOf] at h ⊢
    rw [hcl] at h ⊢
    -- the inner integrals in one interval of the first direction
    have key : ∀ i < d.length - 1, ∀ x, d.getD i 0 ≤ x → x < d.getD (i + 1) 0 →
        boxInt (hullOf ds) (fun xs => g (x :: xs)) =
          msum ((cellsOf ds).map List.length) fun I => boxInt (cellOf (cellsOf ds) I) fun xs => g (x :: xs) := by
      intro i hi x h1 h2
      apply hull_sum hd' hne'
      intro I hI
      have := h (i :: I) (inBox_cons.2 ⟨hi, hI⟩)
      rw [cellOf, zip_tail_getD (by omega)] at this
      exact this.fix ⟨h1, h2⟩
    have hq : ∀ i, ∀ I, ∃ q : Polynomial ℝ, i < d.length - 1 → InBox ((cellsOf ds).map List.length) I → ∀ x, d.getD i 0 ≤ x → x < d.getD (i + 1) 0 →
        boxInt (cellOf (cellsOf ds) I) (fun xs => g (x :: xs)) = q.eval x := by
      intro i I
      by_cases hc : i < d.length - 1 ∧ InBox ((cellsOf ds).map List.length) I
      · have := h (i :: I) (inBox_cons.2 hc)
        rw [cellOf, zip_tail_getD (by omega)] at this
        obtain ⟨q, hq⟩ := this.inner (cellOf_lt hd' hc.2)
        exact ⟨q, fun _ _ => hq⟩
      · exact ⟨0, fun h1 h2 => absurd ⟨h1, h2⟩ hc⟩
    choose q hq using hq
    have hlt : ∀ i < d.length - 1, d.getD i 0 < d.getD (i + 1) 0 := by
      intro i hi
      rw [List.getD_eq_getElem _ _ (by omega), List.getD_eq_getElem _ _ (by omega)]
      exact List.pairwise_iff_getElem.1 hd0 i (i + 1) (by omega) (by omega) (by omega)
    have hF : ∀ i < d.length - 1, ∀ x, d.getD i 0 ≤ x → x < d.getD (i + 1) 0 →
        boxInt (hullOf ds) (fun xs => g (x :: xs)) = (msum ((cellsOf ds).map List.length) (q i)).eval x := by
      intro i hi x h1 h2
      rw [key i hi x h1 h2, ← msum_poly]
      exact msum_congr fun I hI => hq i I hi hI x h1 h2
    have hsub : ∀ i < d.length - 1, Set.EqOn (fun x => boxInt (hullOf ds) fun xs => g (x :: xs))
        (fun x => (msum ((cellsOf ds).map List.length) (q i)).eval x) (Set.uIoo (d.getD i 0) (d.getD (i + 1) 0)) := by
      intro i hi x hx
      rw [Set.uIoo_of_lt (hlt i hi)] at hx
      exact hF i hi x hx.1.le hx.2
    have hsum := intervalIntegral.sum_integral_adjacent_intervals (f := fun x => boxInt (hullOf ds) fun xs => g (x :: xs))
      (μ := MeasureTheory.volume) (a := fun i => d.getD i 0) (n := d.length - 1)
      fun i hi => (intervalIntegrable_congr_uIoo (hsub i hi)).2 (poly_integrable _ _ _)
    have h0 : (hullOf ds) = ds.map fun d => (d.getD 0 0, d.getD (d.length - 1) 0) := rfl
    rw [← h0, ← hsum]
    refine sum_congr rfl fun i hi => ?_
    have hi' := mem_range.1 hi
    rw [intervalIntegral.integral_congr_uIoo (hsub i hi'), msum_integral]
    have h1 : (cellsOf ds) = ds.map fun d => d.zip d.tail := rfl
    rw [← h1]
    apply msum_congr
    intro I hI
    rw [zip_tail_getD (by omega)]
    apply intervalIntegral.integral_congr_uIoo
    intro x hx
    rw [Set.uIoo_of_lt (hlt i hi')] at hx
    exact (hq i I hi' hI x hx.1.le hx.2).symm

end SplineLib
