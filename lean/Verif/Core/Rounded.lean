import Verif.Model.Rounded
import Verif.Core.Unity
import Mathlib.Tactic.FieldSimp
import Mathlib.Tactic.Positivity
import Mathlib.Tactic.GCongr

/-!
# Error propagation in rounded arithmetic (helper lemmas)
-/

namespace SplineLib
set_option linter.unusedSectionVars false
open Finset
variable {K : Type} [Field K] [LinearOrder K] [IsStrictOrderedRing K]

namespace Rounding
variable (r : Rounding K)

/-- `1/(1-u)`, the factor that bounds the growth by one rounding. -/
def t : K := 1 / (1 - r.u)

theorem one_le_t : 1 ≤ r.t := by
  have h1 := r.u_nonneg
  have h2 := r.u_lt
  rw [t, le_div_iff₀ (by linarith)]; linarith

theorem t_pos : 0 < r.t := lt_of_lt_of_le one_pos r.one_le_t

theorem one_le_pow (k : ℕ) : 1 ≤ r.t ^ k := one_le_pow₀ r.one_le_t

theorem pow_pos' (k : ℕ) : 0 < r.t ^ k := pow_pos r.t_pos k

theorem one_add_le_t : 1 + r.u ≤ r.t := by
  have h1 := r.u_nonneg
  have h2 := r.u_lt
  rw [t, le_div_iff₀ (by linarith)]; nlinarith

theorem rnd_zero : r.rnd 0 = 0 := by
  have := r.err 0
  simpa using this

theorem rnd_nonneg {x : K} (h : 0 ≤ x) : 0 ≤ r.rnd x := by have := r.mono 0 x h; rwa [r.rnd_zero] at this

/-- `a` is between `b / t^k` and `b * t^k`. -/
def Near (k : ℕ) (a b : K) : Prop := a ≤ r.t ^ k * b ∧ b ≤ r.t ^ k * a

/-- `a` differs from `b` by at most `t^k - 1` times the bound `c` of `|b|`. -/
def Close (k : ℕ) (a b c : K) : Prop := |a - b| ≤ (r.t ^ k - 1) * c ∧ |b| ≤ c

variable {r} {a b c a' b' c' : K} {k l : ℕ}

theorem Near.refl (b : K) (hb : 0 ≤ b) : r.Near 0 b b := by simp [Near]

theorem Near.nonneg (h : r.Near k a b) (hb : 0 ≤ b) : 0 ≤ a := by
  by_contra hc
  have := mul_neg_of_pos_of_neg (r.pow_pos' k) (not_le.1 hc)
  linarith [h.2]

theorem Near.mono (h : r.Near k a b) (hb : 0 ≤ b) (hkl : k ≤ l) : r.Near l a b := by
  have hp : r.t ^ k ≤ r.t ^ l := pow_le_pow_right₀ r.one_le_t hkl
  exact ⟨h.1.trans (mul_le_mul_of_nonneg_right hp hb), h.2.trans (mul_le_mul_of_nonneg_right hp (h.nonneg hb))⟩

theorem Near.mul (h : r.Near k a b) (h' : r.Near l a' b') (hb : 0 ≤ b) (hb' : 0 ≤ b') : r.Near (k + l) (a * a') (b * b') := by
  have ha := h.nonneg hb
  have ha' := h'.nonneg hb'
  have p1 := r.pow_pos' k
  have p2 := r.pow_pos' l
  constructor
  · calc a * a' ≤ (r.t ^ k * b) * (r.t ^ l * b') := mul_le_mul h.1 h'.1 ha' (by positivity)
      _ = r.t ^ (k + l) * (b * b') := by rw [pow_add]; ring
  · calc b * b' ≤ (r.t ^ k * a) * (r.t ^ l * a') := mul_le_mul h.2 h'.2 hb' (by positivity)
      _ = r.t ^ (k + l) * (a * a') := by rw [pow_add]; ring

theorem Near.add (h : r.Near k a b) (h' : r.Near k a' b') : r.Near k (a + a') (b + b') :=
  ⟨by rw [mul_add]; exact add_le_add h.1 h'.1, by rw [mul_add]; exact add_le_add h.2 h'.2⟩

theorem Near.rnd (h : r.Near k a b) (hb : 0 ≤ b) : r.Near (k + 1) (r.rnd a) b := by
  have ha := h.nonneg hb
  have he := r.err a
  rw [abs_of_nonneg ha, abs_le] at he
  have hp := r.pow_pos' k
  have ht := r.one_add_le_t
  have hu := r.u_nonneg
  have hu1 := r.u_lt
  constructor
  · calc r.rnd a ≤ (1 + r.u) * a := by linarith [he.2]
      _ ≤ r.t * (r.t ^ k * b) := mul_le_mul ht h.1 ha r.t_pos.le
      _ = r.t ^ (k + 1) * b := by rw [pow_succ]; ring
  · have h1 : a ≤ r.t * r.rnd a := by
      rw [t, div_mul_eq_mul_div, le_div_iff₀ (by linarith)]
      linarith [he.1]
    calc b ≤ r.t ^ k * a := h.2
      _ ≤ r.t ^ k * (r.t * r.rnd a) := by gcongr
      _ = r.t ^ (k + 1) * r.rnd a := by rw [pow_succ]; ring

theorem Near.pos (h : r.Near k a b) (hb : 0 < b) : 0 < a := by
  by_contra hc
  have := mul_nonpos_of_nonneg_of_nonpos (r.pow_pos' k).le (not_lt.1 hc)
  linarith [h.2]

theorem Near.inv (h : r.Near k a b) (hb : 0 < b) : r.Near k (1 / a) (1 / b) := by
  have ha := h.pos hb
  constructor
  · rw [mul_one_div, div_le_div_iff₀ ha hb]; linarith [h.2]
  · rw [mul_one_div, div_le_div_iff₀ hb ha]; linarith [h.1]

theorem Near.close (h : r.Near k a b) (hb : 0 ≤ b) : r.Close k a b b := by
  refine ⟨?_, by rw [abs_of_nonneg hb]⟩
  have h1 := r.one_le_pow k
  have ha := h.nonneg hb
  rw [abs_le]
  constructor
  · nlinarith [h.2, h.1, mul_nonneg (sub_nonneg.2 h1) ha, mul_nonneg (sub_nonneg.2 h1) hb]
  · nlinarith [h.1]

theorem Close.nonneg (h : r.Close k a b c) : 0 ≤ c := (abs_nonneg b).trans h.2

theorem Close.mono (h : r.Close k a b c) (hkl : k ≤ l) : r.Close l a b c := by
  have hp : r.t ^ k ≤ r.t ^ l := pow_le_pow_right₀ r.one_le_t hkl
  exact ⟨h.1.trans (mul_le_mul_of_nonneg_right (by linarith) h.nonneg), h.2⟩

theorem Close.exact (b : K) : r.Close 0 b b |b| := by simp [Close]

theorem Close.abs_le (h : r.Close k a b c) : |a| ≤ r.t ^ k * c := by
  have : |a| ≤ |a - b| + |b| := by
    calc |a| = |a - b + b| := by rw [sub_add_cancel]
      _ ≤ _ := abs_add_le _ _
  have h1 := h.1
  have h2 := h.2
  nlinarith

theorem Close.rnd (h : r.Close k a b c) : r.Close (k + 1) (r.rnd a) b c := by
  refine ⟨?_, h.2⟩
  have h1 := r.err a
  have h2 := h.abs_le
  have h3 := h.1
  have hu := r.u_nonneg
  have hp := r.pow_pos' k
  have hc := h.nonneg
  have ht := r.one_add_le_t
  calc |r.rnd a - b| = |(r.rnd a - a) + (a - b)| := by congr 1; ring
    _ ≤ |r.rnd a - a| + |a - b| := abs_add_le _ _
    _ ≤ r.u * (r.t ^ k * c) + (r.t ^ k - 1) * c := add_le_add (h1.trans (mul_le_mul_of_nonneg_left h2 hu)) h3
    _ = ((1 + r.u) * r.t ^ k - 1) * c := by ring
    _ ≤ (r.t ^ (k + 1) - 1) * c := by
      refine mul_le_mul_of_nonneg_right ?_ hc
      rw [pow_succ]
      have := mul_le_mul_of_nonneg_right ht hp.le
      linarith

theorem Close.add (h : r.Close k a b c) (h' : r.Close k a' b' c') : r.Close k (a + a') (b + b') (c + c') := by
  refine ⟨?_, (abs_add_le _ _).trans (add_le_add h.2 h'.2)⟩
  calc |a + a' - (b + b')| = |(a - b) + (a' - b')| := by congr 1; ring
    _ ≤ |a - b| + |a' - b'| := abs_add_le _ _
    _ ≤ (r.t ^ k - 1) * (c + c') := by linarith [h.1, h'.1]

theorem Close.neg (h : r.Close k a b c) : r.Close k (-a) (-b) c := by
  refine ⟨?_, by rw [abs_neg]; exact h.2⟩
  rw [show -a - -b = -(a - b) by ring, abs_neg]; exact h.1

theorem Close.sub (h : r.Close k a b c) (h' : r.Close k a' b' c') : r.Close k (a - a') (b - b') (c + c') := by
  rw [sub_eq_add_neg, sub_eq_add_neg]; exact h.add h'.neg

theorem Close.mul (h : r.Close k a b c) (h' : r.Close l a' b' c') : r.Close (k + l) (a * a') (b * b') (c * c') := by
  refine ⟨?_, by rw [abs_mul]; exact mul_le_mul h.2 h'.2 (abs_nonneg _) h.nonneg⟩
  have h1 := h.abs_le
  have hc := h.nonneg
  have hc' := h'.nonneg
  have hp := r.pow_pos' k
  calc |a * a' - b * b'| = |a * (a' - b') + (a - b) * b'| := by congr 1; ring
    _ ≤ |a * (a' - b')| + |(a - b) * b'| := abs_add_le _ _
    _ = |a| * |a' - b'| + |a - b| * |b'| := by rw [abs_mul, abs_mul]
    _ ≤ (r.t ^ k * c) * ((r.t ^ l - 1) * c') + ((r.t ^ k - 1) * c) * c' :=
      add_le_add (mul_le_mul h1 h'.1 (abs_nonneg _) (by positivity))
        (mul_le_mul h.1 h'.2 (abs_nonneg _) (by have := r.one_le_pow k; have := sub_nonneg.2 this; positivity))
    _ = (r.t ^ (k + l) - 1) * (c * c') := by rw [pow_add]; ring

theorem Close.zero : r.Close k (0 : K) 0 0 := by simp [Close]

end Rounding

open Rounding
variable {r : Rounding K}

/-! ### Basis functions -/

/-- The object built for index `i` and degree `p`. -/
def flBasis (r : Rounding K) (U : List K) : ℕ → ℕ → Basis K
  | 0, i => .zero (knot U i) (knot U (i + 1)) (decide (|r.rnd (knot U (i + 1) - lastKnot U)| < kEps K))
  | p + 1, i => .node (p + 1) (knot U i) (knot U (i + p + 2)) (decide (|r.rnd (knot U (i + p + 2) - lastKnot U)| < kEps K))
      (Fl.invOrZero r (r.rnd (knot U (i + p + 1) - knot U i))) (Fl.invOrZero r (r.rnd (knot U (i + p + 2) - knot U (i + 1))))
      (flBasis r U p i) (flBasis r U p (i + 1))

theorem fl_isLast_eq {U : List K} (h : U ≠ []) (x : K) : Fl.isLast r U x = .ok (decide (|r.rnd (x - lastKnot U)| < kEps K)) := by
  simp only [Fl.isLast, kvLast_eq h]; rfl

theorem fl_create_eq {U : List K} : ∀ {p i : ℕ}, i + p + 1 < U.length → Fl.create r U i p = .ok (flBasis r U p i) := by
  intro p
  induction p with
  | zero =>
    intro i h
    have hne : U ≠ [] := by rintro rfl; simp at h
    simp [Fl.create, flBasis, kvGet_eq (show i < U.length by omega), kvGet_eq (show i + 1 < U.length by omega),
      fl_isLast_eq hne, bind, Except.bind, pure, Except.pure]
  | succ p ih =>
    intro i h
    have hne : U ≠ [] := by rintro rfl; simp at h
    simp only [Fl.create, flBasis, kvGet_eq (show i < U.length by omega), kvGet_eq (show i + 1 < U.length by omega),
      kvGet_eq (show i + (p + 1) + 1 < U.length by omega), kvGet_eq (show i + (p + 1) < U.length by omega),
      fl_isLast_eq hne, bind, Except.bind, pure, Except.pure, ih (show i + p + 1 < U.length by omega),
      ih (show i + 1 + p + 1 < U.length by omega)]
    rfl

theorem flBasis_start (U : List K) (p i : ℕ) : (flBasis r U p i).start = knot U i := by cases p <;> rfl
theorem flBasis_stop (U : List K) (p i : ℕ) : (flBasis r U p i).stop = knot U (i + p + 1) := by cases p <;> rfl
theorem flBasis_stopIsLast (U : List K) (p i : ℕ) :
    (flBasis r U p i).stopIsLast = decide (|r.rnd (knot U (i + p + 1) - lastKnot U)| < kEps K) := by cases p <;> rfl

/-- Rounding does not change the comparison of two knots. -/
theorem fl_isLast_knot {U : List K} (hs : SortedKnots U) (hsep : Separated U) {i : ℕ} (hi : i < U.length) :
    |r.rnd (knot U i - lastKnot U)| < kEps K ↔ |knot U i - lastKnot U| < kEps K := by
  have hne : U ≠ [] := by rintro rfl; simp at hi
  rw [isLast_iff hs hsep hi]
  constructor
  · intro h
    rcases lt_or_eq_of_le (hs.le_last hi) with h' | h'
    · have h1 := hsep _ (knot_mem hi) _ (lastKnot_mem hne) h'
      have h2 := r.mono _ _ h1
      rw [r.eps] at h2
      rw [← neg_sub, r.neg, abs_neg, abs_of_nonneg (by have := kEps_pos (K := K); linarith)] at h
      exact absurd h (not_lt.2 h2)
    · exact h'
  · intro h; rw [h, sub_self, r.rnd_zero]; simpa using kEps_pos

theorem flBasis_inSupport {U : List K} (hs : SortedKnots U) (hsep : Separated U) {p i : ℕ} (h : i + p + 1 < U.length) (x : K) :
    (flBasis r U p i).inSupport x = (mkBasis U p i).inSupport x := by
  have h1 : (decide (|r.rnd (knot U (i + p + 1) - lastKnot U)| < kEps K)) = decide (|knot U (i + p + 1) - lastKnot U| < kEps K) :=
    decide_eq_decide.2 (fl_isLast_knot hs hsep h)
  simp only [Basis.inSupport, flBasis_start, flBasis_stop, flBasis_stopIsLast, mkBasis_start, mkBasis_stop, mkBasis_stopIsLast, h1]

/-- The stored inverse, if the two knots differ. -/
theorem fl_inv_near {U : List K} (hs : SortedKnots U) (hsep : Separated U) {i j : ℕ} (hij : i ≤ j) (hj : j < U.length) :
    r.Near 2 (Fl.invOrZero r (r.rnd (knot U j - knot U i))) (1 / (knot U j - knot U i)) := by
  unfold Fl.invOrZero
  rcases lt_or_eq_of_le (hs.mono hij hj) with h' | h'
  · have h1 := hsep _ (knot_mem (show i < U.length by omega)) _ (knot_mem hj) h'
    have h2 := r.mono _ _ h1
    rw [r.eps] at h2
    have hp : 0 < knot U j - knot U i := by linarith
    rw [if_neg (by rw [abs_of_nonneg (by have := kEps_pos (K := K); linarith)]; exact not_lt.2 h2)]
    exact ((((Near.refl _ hp.le).rnd hp.le).inv hp).rnd (by positivity))
  · rw [h', sub_self, r.rnd_zero]
    simp [kEps_pos, Near]

theorem flBasis_eval {U : List K} (hs : SortedKnots U) (hsep : Separated U) (x : K) : ∀ (p i : ℕ), i + p + 1 < U.length →
    (p = 0 → knot U i < knot U (i + 1) ∨ x ≠ lastKnot U) →
    r.Near (6 * p) (Fl.eval r (flBasis r U p i) x) (coxDeBoor U p i x) ∧ 0 ≤ coxDeBoor U p i x := by
  intro p
  induction p with
  | zero =>
    intro i h hnd
    have h1 := mkBasis_eval hs hsep x 0 i h hnd
    have h2 : Fl.eval r (flBasis r U 0 i) x = (mkBasis U 0 i).eval x := by
      have := flBasis_inSupport (r := r) (p := 0) (i := i) hs hsep h x
      simp only [flBasis, mkBasis, Fl.eval, Basis.eval] at this ⊢
      rw [this]
    have h3 : 0 ≤ coxDeBoor U 0 i x := by
      rw [coxDeBoor]; split
      · exact zero_le_one
      · exact le_rfl
    rw [h2, h1]
    exact ⟨Near.refl _ h3, h3⟩
  | succ p ih =>
    intro i h _
    have hin := flBasis_inSupport (r := r) hs hsep h x
    by_cases hsup : (mkBasis U (p + 1) i).inSupport x = true
    · have he : Fl.eval r (flBasis r U (p + 1) i) x =
          r.rnd (r.rnd (r.rnd (r.rnd (x - knot U i) * Fl.invOrZero r (r.rnd (knot U (i + p + 1) - knot U i))) *
              Fl.eval r (flBasis r U p i) x) +
            r.rnd (r.rnd (r.rnd (knot U (i + p + 2) - x) * Fl.invOrZero r (r.rnd (knot U (i + p + 2) - knot U (i + 1)))) *
              Fl.eval r (flBasis r U p (i + 1)) x)) := by
        rw [← hin] at hsup
        simp only [flBasis, Fl.eval] at hsup ⊢
        rw [if_pos hsup]
      have hx : knot U i ≤ x ∧ x ≤ knot U (i + p + 2) := by
        rcases (inSupport_iff hs hsep h x).1 hsup with h1 | ⟨h1, h2⟩
        · exact ⟨h1.1, h1.2.le⟩
        · exact ⟨by rw [h2]; exact hs.le_last (by omega), by rw [h2]; exact h1.ge⟩
      have key : ∀ {j m : ℕ} {d : K}, 0 ≤ d → m + p + 1 < U.length → j = m + p + 1 →
          r.Near (5 + 6 * p) (r.rnd (r.rnd (r.rnd d * Fl.invOrZero r (r.rnd (knot U j - knot U m))) * Fl.eval r (flBasis r U p m) x))
            (d / (knot U j - knot U m) * coxDeBoor U p m x) ∧ 0 ≤ d / (knot U j - knot U m) * coxDeBoor U p m x := by
        rintro j m d hd hm rfl
        have hdiff : 0 ≤ knot U (m + p + 1) - knot U m := sub_nonneg.2 (hs.mono (by omega) hm)
        by_cases hz : knot U (m + p + 1) - knot U m = 0
        · have h0 : Fl.invOrZero r (0 : K) = 0 := by simp [Fl.invOrZero, kEps_pos]
          simp [hz, r.rnd_zero, h0, Near]
        · obtain ⟨i1, i2⟩ := ih m hm (by
            rintro rfl
            left
            exact lt_of_le_of_ne (hs.mono (by omega) (by omega)) (fun e => hz (by simp [e])))
          have q1 : 0 ≤ 1 / (knot U (m + p + 1) - knot U m) := by positivity
          have n1 := (Near.refl (r := r) d hd).rnd hd
          have n2 := (n1.mul (fl_inv_near hs hsep (show m ≤ m + p + 1 by omega) hm) hd q1).rnd (by positivity)
          have n3 := (n2.mul i1 (by positivity) i2).rnd (by positivity)
          have e1 : d / (knot U (m + p + 1) - knot U m) * coxDeBoor U p m x =
              d * (1 / (knot U (m + p + 1) - knot U m)) * coxDeBoor U p m x := by rw [mul_one_div]
          rw [e1]
          refine ⟨?_, by positivity⟩
          have e2 : 0 + 1 + 2 + 1 + 6 * p + 1 = 5 + 6 * p := by ring
          rwa [e2] at n3
      obtain ⟨k1, k2⟩ := key (j := i + p + 1) (m := i) (sub_nonneg.2 hx.1) (by omega) rfl
      obtain ⟨k3, k4⟩ := key (j := i + p + 2) (m := i + 1) (sub_nonneg.2 hx.2) (by omega) (by omega)
      rw [he, coxDeBoor]
      refine ⟨?_, add_nonneg k2 k4⟩
      have := (k1.add k3).rnd (add_nonneg k2 k4)
      rwa [show 5 + 6 * p + 1 = 6 * (p + 1) by ring] at this
    · have he : Fl.eval r (flBasis r U (p + 1) i) x = 0 := by
        rw [← hin] at hsup
        simp only [flBasis, Fl.eval] at hsup ⊢
        rw [if_neg hsup]
      rw [he, cox_zero (not_inSpan_of_not_support hs hsep h hsup)]
      simp [Near]

/-- The derivative recursion with all terms added. It bounds the absolute value of the derivative. -/
def coxDerivMag (U : List K) : ℕ → ℕ → ℕ → K → K
  | p, 0, i, x => coxDeBoor U p i x
  | 0, _ + 1, _, _ => 0
  | p + 1, k + 1, i, x =>
    (p + 1) * (coxDerivMag U p k i x / (knot U (i + p + 1) - knot U i) +
      coxDerivMag U p k (i + 1) x / (knot U (i + p + 2) - knot U (i + 1)))

theorem coxMag_zero {U : List K} {x : K} : ∀ (k p i : ℕ), (∀ j, i ≤ j → j ≤ i + p → ¬ InSpan U j x) → coxDerivMag U p k i x = 0 := by
  intro k
  induction k with
  | zero => intro p i h; cases p <;> simpa [coxDerivMag] using cox_zero h
  | succ k ih =>
    intro p i h
    cases p with
    | zero => simp [coxDerivMag]
    | succ p =>
      simp only [coxDerivMag]
      rw [ih p i (fun j h1 h2 => h j h1 (by omega)), ih p (i + 1) (fun j h1 h2 => h j (by omega) (by omega))]
      simp

theorem flBasis_evalDeriv {U : List K} (hs : SortedKnots U) (hsep : Separated U) (x : K) : ∀ (p k i : ℕ), i + p + 1 < U.length →
    (p = 0 → knot U i < knot U (i + 1) ∨ x ≠ lastKnot U) →
    r.Close (6 * p) (Fl.evalDeriv r (flBasis r U p i) x (k : ℤ)) (coxDeBoorDeriv U p k i x) (coxDerivMag U p k i x) := by
  intro p
  induction p with
  | zero =>
    intro k i h hnd
    cases k with
    | zero =>
      have : Fl.evalDeriv r (flBasis r U 0 i) x ((0 : ℕ) : ℤ) = Fl.eval r (flBasis r U 0 i) x := by simp [flBasis, Fl.evalDeriv]
      obtain ⟨h1, h2⟩ := flBasis_eval (r := r) hs hsep x 0 i h hnd
      rw [this]; exact h1.close h2
    | succ k =>
      have hne : ¬ ((k : ℤ) + 1 = 0) := by omega
      simp [flBasis, Fl.evalDeriv, coxDeBoorDeriv, coxDerivMag, hne, Close.zero]
  | succ p ih =>
    intro k i h hnd
    cases k with
    | zero =>
      have : Fl.evalDeriv r (flBasis r U (p + 1) i) x ((0 : ℕ) : ℤ) = Fl.eval r (flBasis r U (p + 1) i) x := by
        simp [flBasis, Fl.evalDeriv]
      obtain ⟨h1, h2⟩ := flBasis_eval (r := r) hs hsep x (p + 1) i h hnd
      rw [this]; exact h1.close h2
    | succ k =>
      have hne : ¬ (((k + 1 : ℕ) : ℤ) = 0) := by omega
      have hk : ((k + 1 : ℕ) : ℤ) - 1 = (k : ℤ) := by omega
      have hin := flBasis_inSupport (r := r) hs hsep h x
      by_cases hsup : (mkBasis U (p + 1) i).inSupport x = true
      · have he : Fl.evalDeriv r (flBasis r U (p + 1) i) x ((k + 1 : ℕ) : ℤ) = r.rnd (((p + 1 : ℕ) : K) *
            r.rnd (r.rnd (Fl.invOrZero r (r.rnd (knot U (i + p + 1) - knot U i)) * Fl.evalDeriv r (flBasis r U p i) x (k : ℤ)) -
              r.rnd (Fl.invOrZero r (r.rnd (knot U (i + p + 2) - knot U (i + 1))) * Fl.evalDeriv r (flBasis r U p (i + 1)) x (k : ℤ)))) := by
          rw [← hin] at hsup
          simp only [flBasis, Fl.evalDeriv] at hsup ⊢
          rw [if_pos hsup, if_neg hne, hk]
        have key : ∀ {j m : ℕ}, m + p + 1 < U.length → j = m + p + 1 →
            r.Close (3 + 6 * p) (r.rnd (Fl.invOrZero r (r.rnd (knot U j - knot U m)) * Fl.evalDeriv r (flBasis r U p m) x (k : ℤ)))
              (coxDeBoorDeriv U p k m x / (knot U j - knot U m)) (coxDerivMag U p k m x / (knot U j - knot U m)) := by
          rintro j m hm rfl
          have hdiff : 0 ≤ knot U (m + p + 1) - knot U m := sub_nonneg.2 (hs.mono (by omega) hm)
          by_cases hz : knot U (m + p + 1) - knot U m = 0
          · have h0 : Fl.invOrZero r (0 : K) = 0 := by simp [Fl.invOrZero, kEps_pos]
            simp [hz, r.rnd_zero, h0, Close.zero]
          · have i1 := ih k m hm (by
              rintro rfl
              left
              exact lt_of_le_of_ne (hs.mono (by omega) (by omega)) (fun e => hz (by simp [e])))
            have q1 : 0 ≤ 1 / (knot U (m + p + 1) - knot U m) := by positivity
            have n1 := (((fl_inv_near (r := r) hs hsep (show m ≤ m + p + 1 by omega) hm).close q1).mul i1).rnd
            rw [one_div_mul_eq_div, one_div_mul_eq_div, show 2 + 6 * p + 1 = 3 + 6 * p by ring] at n1
            exact n1
        have k1 := key (j := i + p + 1) (m := i) (by omega) rfl
        have k3 := key (j := i + p + 2) (m := i + 1) (by omega) (by omega)
        have hp : (0 : K) ≤ ((p + 1 : ℕ) : K) := Nat.cast_nonneg _
        have k5 := ((Close.exact (r := r) ((p + 1 : ℕ) : K)).mul (k1.sub k3).rnd).rnd
        rw [abs_of_nonneg hp] at k5
        rw [he]
        simp only [coxDeBoorDeriv, coxDerivMag]
        push_cast at k5 ⊢
        exact k5.mono (by omega)
      · have he : Fl.evalDeriv r (flBasis r U (p + 1) i) x ((k + 1 : ℕ) : ℤ) = 0 := by
          rw [← hin] at hsup
          simp only [flBasis, Fl.evalDeriv] at hsup ⊢
          rw [if_neg hsup, if_neg hne]
        rw [he, coxDeriv_zero _ _ _ (not_inSpan_of_not_support hs hsep h hsup),
          coxMag_zero _ _ _ (not_inSpan_of_not_support hs hsep h hsup)]
        exact Close.zero

end SplineLib
