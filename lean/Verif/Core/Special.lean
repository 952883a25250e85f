import Verif.Model.Special
import Verif.Core.EvalProps
import Verif.Core.Unity

/-!
# Lemmas on evaluation with NaN and infinite values
-/

namespace SplineLib
set_option linter.unusedSectionVars false
open Finset X
variable {K : Type} [Field K] [LinearOrder K] [IsStrictOrderedRing K]

namespace X

theorem add_def (a b : X K) : a + b = add a b := rfl
theorem mul_def (a b : X K) : a * b = mul a b := rfl
theorem sub_def (a b : X K) : a - b = add a (neg b) := rfl

@[simp] theorem fin_add (a b : K) : (fin a + fin b : X K) = fin (a + b) := rfl
@[simp] theorem fin_mul (a b : K) : (fin a * fin b : X K) = fin (a * b) := rfl
@[simp] theorem nan_add (a : X K) : nan + a = nan := by cases a <;> rfl
@[simp] theorem add_nan (a : X K) : a + nan = nan := by cases a <;> rfl
@[simp] theorem nan_mul (a : X K) : nan * a = nan := by cases a <;> rfl
@[simp] theorem mul_nan (a : X K) : a * nan = nan := by cases a <;> rfl
@[simp] theorem isFin_fin (a : K) : IsFin (fin a) := trivial
@[simp] theorem not_isFin_nan : ¬ IsFin (nan : X K) := id
@[simp] theorem not_isFin_pinf : ¬ IsFin (pinf : X K) := id
@[simp] theorem not_isFin_ninf : ¬ IsFin (ninf : X K) := id

theorem isFin_iff {a : X K} : IsFin a ↔ ∃ b, a = fin b := by
  cases a <;> simp

theorem scale_not_fin (a : K) (b : Bool) : ¬ IsFin (scale a b) := by
  unfold scale; split
  · simp
  · split <;> simp

theorem add_isFin {a b : X K} : IsFin (a + b) ↔ IsFin a ∧ IsFin b := by
  cases a <;> cases b <;> simp [add_def, add]

theorem mul_isFin {a b : X K} : IsFin (a * b) ↔ IsFin a ∧ IsFin b := by
  cases a <;> cases b <;> simp [mul_def, mul, scale_not_fin]

theorem mul_inf_zero {v : X K} (h : ¬ IsFin v) : fin 0 * v = nan := by
  cases v <;> simp_all [mul_def, mul, scale]

theorem mul_pinf {a : K} (h : 0 < a) : fin a * pinf = (pinf : X K) := by
  simp [mul_def, mul, scale, h, h.ne']

/-- Repeated addition, from the left, starting with zero. -/
def xsum : ℕ → (ℕ → X K) → X K
  | 0, _ => fin 0
  | n + 1, t => xsum n t + t n

theorem xsum_fin {t : ℕ → X K} {f : ℕ → K} : ∀ {n : ℕ}, (∀ j < n, t j = fin (f j)) → xsum n t = fin (∑ j ∈ range n, f j)
  | 0, _ => rfl
  | n + 1, h => by
    rw [xsum, xsum_fin fun j hj => h j (by omega), h n (by omega), sum_range_succ, fin_add]

theorem xsum_nan {t : ℕ → X K} : ∀ {n : ℕ}, (∃ j < n, t j = nan) → xsum n t = nan
  | 0, h => by obtain ⟨j, hj, _⟩ := h; omega
  | n + 1, h => by
    obtain ⟨j, hj, e⟩ := h
    rw [xsum]
    rcases Nat.lt_or_ge j n with h' | h'
    · rw [xsum_nan ⟨j, h', e⟩, nan_add]
    · rw [show j = n by omega] at e
      rw [e, add_nan]

theorem xsum_isFin {t : ℕ → X K} : ∀ {n : ℕ}, IsFin (xsum n t) ↔ ∀ j < n, IsFin (t j)
  | 0 => by simp [xsum]
  | n + 1 => by
    rw [xsum, add_isFin, xsum_isFin]
    constructor
    · rintro ⟨h, h'⟩ j hj
      rcases Nat.lt_or_ge j n with h1 | h1
      · exact h j h1
      · rwa [show j = n by omega]
    · exact fun h => ⟨fun j hj => h j (by omega), h n (by omega)⟩

theorem xsum_fin_or_pinf {t : ℕ → X K} : ∀ {n : ℕ}, (∀ j < n, IsFin (t j) ∨ t j = pinf) → IsFin (xsum n t) ∨ xsum n t = pinf
  | 0, _ => Or.inl trivial
  | n + 1, h => by
    rw [xsum]
    rcases xsum_fin_or_pinf (n := n) fun j hj => h j (by omega) with h1 | h1 <;>
    rcases h n (by omega) with h2 | h2
    · exact Or.inl (add_isFin.2 ⟨h1, h2⟩)
    · obtain ⟨a, e⟩ := isFin_iff.1 h1; rw [e, h2]; exact Or.inr rfl
    · obtain ⟨a, e⟩ := isFin_iff.1 h2; rw [e, h1]; exact Or.inr rfl
    · rw [h1, h2]; exact Or.inr rfl

theorem xsum_pinf {t : ℕ → X K} {n : ℕ} (h : ∀ j < n, IsFin (t j) ∨ t j = pinf) (h' : ∃ j < n, t j = pinf) :
    xsum n t = pinf := by
  rcases xsum_fin_or_pinf h with h1 | h1
  · obtain ⟨j, hj, e⟩ := h'
    have := xsum_isFin.1 h1 j hj
    rw [e] at this; exact absurd this id
  · exact h1

/-- The number behind a value; 1 stands for NaN and the infinities. -/
def toK : X K → K
  | fin a => a
  | _ => 1

theorem toK_fin {a : X K} (h : IsFin a) : a = fin (toK a) := by
  cases a <;> simp_all [toK]

/-- The result of a division by anything but zero. -/
def divT (a b : X K) : X K :=
  match div a b with
  | .ok v => v
  | .error _ => nan

theorem div_ok {a b : X K} (h : b ≠ fin 0) : div a b = .ok (divT a b) := by
  cases a <;> cases b <;> simp_all [divT, div]

theorem divT_fin {a b : K} (h : b ≠ 0) : divT (fin a) (fin b) = fin (a / b) := by
  simp [divT, div, h, ← mul_def, div_eq_mul_inv]

theorem divT_nan_left {b : X K} : divT nan b = nan := by
  cases b <;> simp [divT, div]
  rename_i b
  by_cases h : b = 0 <;> simp [h, ← mul_def]

theorem divT_nan_right {a : X K} : divT a nan = nan := by
  cases a <;> simp [divT, div]

theorem divT_not_fin {a : X K} {b : X K} (ha : ¬ IsFin a) : ¬ IsFin (divT a b) := by
  cases b with
  | fin b =>
    by_cases h : b = 0
    · cases a <;> simp_all [divT, div]
    · have := mul_isFin (a := a) (b := fin (1 / b))
      simp only [divT, div, h, if_false]
      rw [mul_def] at this
      rw [this]; exact fun h => ha h.1
  | _ => cases a <;> simp_all [divT, div]

theorem divT_inf_inf {a b : X K} (ha : ¬ IsFin a) (hb : ¬ IsFin b) : divT a b = nan := by
  cases a <;> cases b <;> simp_all [divT, div]

theorem divT_pinf {b : K} (h : 0 < b) : divT pinf (fin b) = (pinf : X K) := by
  simp [divT, div, h.ne', mul, scale, h]

end X

namespace Sp

/-- The spline with every NaN or infinite control point coordinate and weight replaced by 1. -/
def shadow (s : S K) : Spl K :=
  ⟨s.ps, { dim := s.ph.dim, num := s.ph.num, cps := s.ph.cps.map toK, weights := s.ph.weights.map fun w => w.map toK }⟩

/-- Well-formed, and the finite weights are positive. -/
def WF (s : S K) : Prop := WFSpl (shadow s)

/-- Coordinate `c` of the control point with multi-index `I`. -/
def pt (s : S K) (I : List ℕ) (c : ℕ) : X K := s.ph.cps.getD (s.ph.dim * lin (npts (shadow s)) I + c) (fin 0)

/-- Weight of the control point with multi-index `I`; 1 for a B-spline. -/
def wt (s : S K) (I : List ℕ) : X K :=
  match s.ph.weights with
  | none => fin 1
  | some w => w.getD (lin (npts (shadow s)) I) (fin 0)

variable {s : S K}

theorem WF.cps (h : WF s) : s.ph.cps.length = s.ph.dim * (npts (shadow s)).prod := by
  have := WFSpl.cps h
  simpa [shadow] using this

theorem WF.weights (h : WF s) {w : List (X K)} (hw : s.ph.weights = some w) : w.length = (npts (shadow s)).prod := by
  have := (WFSpl.weights h (w.map toK) (by simp [shadow, hw])).1
  simpa using this

theorem cpt_shadow (h : WF s) {I : List ℕ} (hI : InBox (npts (shadow s)) I) {c : ℕ} (hc : c < s.ph.dim) :
    cpt (shadow s) I c = toK (pt s I c) := by
  have hl : s.ph.dim * lin (npts (shadow s)) I + c < s.ph.cps.length := by
    rw [h.cps]; exact mul_add_lt (lin_lt hI) hc
  unfold cpt pt
  have : (shadow s).ph.cps = s.ph.cps.map toK := rfl
  rw [this, show (shadow s).ph.dim = s.ph.dim from rfl]
  simp [List.getD_eq_getElem?_getD, hl]

theorem wgt_shadow (h : WF s) {I : List ℕ} (hI : InBox (npts (shadow s)) I) : wgt (shadow s) I = toK (wt s I) := by
  unfold wgt wt
  cases hw : s.ph.weights with
  | none => simp [shadow, hw, toK]
  | some w =>
    have hl := lin_lt hI
    rw [← h.weights hw] at hl
    simp only [shadow, hw, Option.map_some] at hl ⊢
    simp [List.getD_eq_getElem?_getD, hl]

theorem controlPoint_eq (h : WF s) {I : List ℕ} (hI : InBox (npts (shadow s)) I) {c : ℕ} (hc : c < s.ph.dim) :
    controlPoint s (zl I) (c : ℤ) = .ok (pt s I c) := by
  have hn : s.ph.num = zl (npts (shadow s)) := WFSpl.num h
  have : s.ph.getCP (zl I) = .ok ((List.range s.ph.dim).map fun c => pt s I c) := by
    unfold Phys.getCP
    apply buildList_eq
    intro c hc
    rw [hn, oneD_zl]
    rw [show ((s.ph.dim : ℤ) * (lin (npts (shadow s)) I : ℤ) + (c : ℤ)) = ((s.ph.dim * lin (npts (shadow s)) I + c : ℕ) : ℤ) by
      push_cast; rfl]
    exact getI_getD (by rw [h.cps]; exact mul_add_lt (lin_lt hI) hc) _
  simp only [controlPoint, this, ok_bind]
  rw [getI_nat, getN_of_lt (by simpa using hc)]; simp

theorem getWeight_eq (h : WF s) {I : List ℕ} (hI : InBox (npts (shadow s)) I) : s.ph.getWeight (zl I) = .ok (wt s I) := by
  have hn : s.ph.num = zl (npts (shadow s)) := WFSpl.num h
  unfold Phys.getWeight wt
  cases hw : s.ph.weights with
  | none => rfl
  | some w =>
    simp only
    rw [hn, oneD_zl, getI_getD (by rw [h.weights hw]; exact lin_lt hI) (fin 0)]

theorem homCP_eq (h : WF s) {I : List ℕ} (hI : InBox (npts (shadow s)) I) {w : List (X K)} (hw : s.ph.weights = some w) :
    s.ph.getHomCP (zl I) = .ok ((List.range s.ph.dim).map (fun c => pt s I c * wt s I) ++ [wt s I]) := by
  have hn : s.ph.num = zl (npts (shadow s)) := WFSpl.num h
  have hg : getI w (MIH.oneD s.ph.num (zl I)) = .ok (wt s I) := by
    have := getWeight_eq h hI
    simpa only [Phys.getWeight, hw] using this
  simp only [Phys.getHomCP, Phys.theWeights, hw, ok_bind, hg]
  rw [buildList_eq (g := fun c => pt s I c * wt s I)]
  · rfl
  · intro c hc
    have hd : ((s.ph.dim : ℤ) * MIH.oneD s.ph.num (zl I)).tdiv s.ph.dim = MIH.oneD s.ph.num (zl I) :=
      Int.mul_tdiv_cancel_left _ (by omega)
    rw [hd, hg]
    have : getI s.ph.cps ((s.ph.dim : ℤ) * MIH.oneD s.ph.num (zl I) + (c : ℤ)) = .ok (pt s I c) := by
      rw [hn, oneD_zl]
      rw [show ((s.ph.dim : ℤ) * (lin (npts (shadow s)) I : ℤ) + (c : ℤ)) = ((s.ph.dim * lin (npts (shadow s)) I + c : ℕ) : ℤ) by
        push_cast; rfl]
      exact getI_getD (by rw [h.cps]; exact mul_add_lt (lin_lt hI) hc) _
    simp only [this, ok_bind, pure_ok]

/-! ### Parameters -/

theorem inRange_eq {U : List K} (h : U ≠ []) (x : X K) :
    inRange U x = .ok (le (fin (knot U 0)) x && le x (fin (lastKnot U))) := by
  have h1 := kvInRange_eq h (knot U 0)
  unfold kvInRange at h1
  unfold inRange
  have hg : getN U 0 = .ok (knot U 0) := getN_getD (List.length_pos_of_ne_nil h) _
  have hlast : kvLast U = .ok (lastKnot U) := by
    cases hk : kvLast U with
    | error e => rw [hg, ok_bind, hk] at h1; cases h1
    | ok a =>
      have := hk
      unfold kvLast at this
      rw [lastKnot, knot]
      rw [List.getLast?_eq_getElem?] at this
      rw [List.getD_eq_getElem?_getD]
      cases hu : U[U.length - 1]? with
      | none => rw [hu] at this; cases this
      | some b => rw [hu] at this; simpa using this.symm
  rw [hg, hlast]
  rfl

theorem throwIfOutside_ok {Us : List (List K)} {ps : List ℕ} (h : List.Forall₂ WFKnots Us ps) :
    ∀ {xs : List K}, Dom Us xs → throwIfOutside Us (xs.map fin) = .ok () := by
  induction h with
  | nil => intro xs hx; cases hx; rfl
  | cons h _ ih =>
    intro xs hx
    cases hx with
    | cons hx hxs => simp [throwIfOutside, inRange_eq h.ne_nil, le, hx.1, hx.2, ih hxs]

theorem throwIfOutside_err {Us : List (List K)} {ps : List ℕ} (h : List.Forall₂ WFKnots Us ps) :
    ∀ {xs : List (X K)}, xs.length = Us.length → (¬ ∃ y, xs = y.map fin ∧ Dom Us y) →
      throwIfOutside Us xs = .error (.thrown .rangeError) := by
  induction h with
  | nil => intro xs hl hx; cases xs with
    | nil => exact absurd ⟨[], rfl, .nil⟩ hx
    | cons => simp at hl
  | cons h _ ih =>
    intro xs hl hx
    cases xs with
    | nil => simp at hl
    | cons a xs =>
      simp only [throwIfOutside, inRange_eq h.ne_nil, ok_bind]
      split
      · rename_i hc
        apply ih (by simpa using hl)
        rintro ⟨y, rfl, hd⟩
        cases a with
        | fin a => exact hx ⟨a :: y, rfl, List.Forall₂.cons (by simpa [le] using hc) hd⟩
        | _ => simp [le] at hc
      · rfl

theorem numbers_fin : ∀ y : List K, numbers (y.map fin) = .ok y
  | [] => rfl
  | a :: y => by simp [numbers, numbers_fin y]

/-! ### The sums -/

theorem addEach_eq {f : ℤ → M (X K)} {g : ℤ → X K} : ∀ {dims : List ℤ} (a : ℤ → X K), (∀ c ∈ dims, f c = .ok (g c)) →
    addEach f dims (dims.map a) = .ok (dims.map fun c => a c + g c) := by
  intro dims
  induction dims with
  | nil => intro a _; rfl
  | cons c cs ih =>
    intro a h
    simp only [List.map_cons, addEach, h c (by simp), ih a (fun c hc => h c (by simp [hc])), ok_bind, pure_ok]

/-- The `j`th multi-index of the window at `x`. -/
def act (s : S K) (x : List K) (j : ℕ) : List ℕ :=
  List.zipWith (· + ·) (unlin (actBox s.ps.degree) j) (offs s.ps.knots s.ps.degree x)

theorem act_box (h : WF s) {x : List K} (hx : Dom s.ps.knots x) (j : ℕ) : InBox (npts (shadow s)) (act s x j) :=
  act_inBox (WFSpl.knots h) hx (unlin_inBox (by simp [actBox]) j)

theorem evalWith_eq (h : WF s) {x : List K} (hx : Dom s.ps.knots x) {dims : List ℤ} {f : List K → List ℤ → ℤ → M (X K)}
    {g : List ℕ → ℤ → X K} (hf : ∀ j, ∀ c ∈ dims, f x (zl (act s x j)) c = .ok (g (act s x j) c)) :
    evalWith s (x.map fin) dims f =
      .ok (dims.map fun c => xsum (actBox s.ps.degree).prod fun j => g (act s x j) c) := by
  have hk : List.Forall₂ WFKnots s.ps.knots s.ps.degree := WFSpl.knots h
  have hnb : numBasis s = zl (actBox s.ps.degree) := numBasis_eq (shadow s)
  simp only [evalWith, throwIfOutside_ok hk hx, numbers_fin, firstNonZero_eq hk hx, ok_bind, hnb]
  have := upLoop_fun (ns := actBox s.ps.degree)
    (body := fun h acc => addEach (f x (List.zipWith (· + ·) h.cur (zl (offs s.ps.knots s.ps.degree x)))) dims acc)
    (fun n => dims.map fun c => xsum n fun j => g (act s x j) c) (by
      intro k _
      simp only [zipWith_zl]
      have := addEach_eq (f := f x (zl (act s x k))) (g := fun c => g (act s x k) c) (dims := dims)
        (fun c => xsum k fun j => g (act s x j) c) (fun c hc => hf k c hc)
      exact this)
  exact this

theorem weightSum_eq (h : WF s) {x : List K} (hx : Dom s.ps.knots x) :
    evaluatedWeightSum s x = .ok (xsum (actBox s.ps.degree).prod fun j =>
      fin (dprod (basisFns s.ps.knots s.ps.degree x) (act s x j)) * wt s (act s x j)) := by
  have hk : List.Forall₂ WFKnots s.ps.knots s.ps.degree := WFSpl.knots h
  have hnb : numBasis s = zl (actBox s.ps.degree) := numBasis_eq (shadow s)
  simp only [evaluatedWeightSum, firstNonZero_eq hk hx, ok_bind, hnb]
  exact upLoop_fun (ns := actBox s.ps.degree)
    (fun n => xsum n fun j => fin (dprod (basisFns s.ps.knots s.ps.degree x) (act s x j)) * wt s (act s x j)) (by
      intro k _
      have hb := getBasisFunctions_eq (s := shadow s) h hx (unlin_inBox (ns := actBox s.ps.degree) (by simp [actBox]) k)
      have hw := getWeight_eq h (act_box h hx k)
      simp only [shadow] at hb
      simp only [zipWith_zl]
      simp only [act] at hw ⊢
      rw [hb]
      simp only [ok_bind, hw, pure_ok]
      rfl)

end Sp
end SplineLib
