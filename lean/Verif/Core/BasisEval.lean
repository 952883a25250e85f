import Verif.Core.Span
import Verif.Core.Nb
import Verif.Model.Basis

/-!
# Basis function objects compute the Cox-de Boor functions (helper lemmas)
-/

namespace SplineLib
set_option linter.unusedSectionVars false
variable {K : Type} [Field K] [LinearOrder K] [IsStrictOrderedRing K]

/-! ### Knots extended to a monotone sequence -/

/-- The knots, continued constantly beyond the end. -/
def ku (U : List K) (i : ℕ) : K := knot U (min i (U.length - 1))

theorem ku_eq {U : List K} {i : ℕ} (h : i < U.length) : ku U i = knot U i := by
  unfold ku; congr 1; omega

theorem ku_mono {U : List K} (hs : SortedKnots U) : Monotone (ku U) := by
  intro i j hij
  by_cases h : U = []
  · subst h; simp [ku, knot]
  · have := List.length_pos_iff.2 h
    exact hs.mono (by omega) (by omega)

theorem ku_le_last {U : List K} (hs : SortedKnots U) (i : ℕ) : ku U i ≤ lastKnot U := by
  by_cases h : U = []
  · subst h; simp [ku, lastKnot, knot]
  · have := List.length_pos_iff.2 h
    exact hs.le_last (by omega)

/-! ### Cox-de Boor functions as `Nb` -/

theorem cox_eq_Nb_ind (U : List K) (x : K) : ∀ p i, coxDeBoor U p i x =
    Nb (knot U) x (fun j => if InSpan U j x then 1 else 0) p i := by
  intro p
  induction p with
  | zero => intro i; rfl
  | succ p ih => intro i; simp only [coxDeBoor, Nb, ih]

theorem cox_eq_Nb {U : List K} (hs : SortedKnots U) {k : ℕ} (hk : k + 1 < U.length) {x : K} (hx : InSpan U k x)
    {p i : ℕ} (h : i + p + 1 < U.length) : coxDeBoor U p i x = Nb (ku U) x (delta k) p i := by
  rw [cox_eq_Nb_ind]
  apply Nb_congr
  · intro j _ h2; rw [ku_eq (by omega)]
  · intro j _ h2
    simp only [delta]
    by_cases hj : j = k
    · subst hj; simp [hx]
    · have : ¬ InSpan U j x := fun hc => hj (hc.unique hs (by omega) hk hx)
      simp [hj, this]

theorem cox_zero {U : List K} {x : K} {p i : ℕ} (h : ∀ j, i ≤ j → j ≤ i + p → ¬ InSpan U j x) :
    coxDeBoor U p i x = 0 := by
  rw [cox_eq_Nb_ind]
  exact Nb_zero p i fun j h1 h2 => by simp [h j h1 h2]

theorem coxDeriv_zero {U : List K} {x : K} : ∀ (k p i : ℕ), (∀ j, i ≤ j → j ≤ i + p → ¬ InSpan U j x) →
    coxDeBoorDeriv U p k i x = 0 := by
  intro k
  induction k with
  | zero => intro p i h; cases p <;> simpa [coxDeBoorDeriv] using cox_zero h
  | succ k ih =>
    intro p i h
    cases p with
    | zero => simp [coxDeBoorDeriv]
    | succ p =>
      simp only [coxDeBoorDeriv]
      rw [ih p i (fun j h1 h2 => h j h1 (by omega)), ih p (i + 1) (fun j h1 h2 => h j (by omega) (by omega))]
      simp

/-- Derivatives of `Nb` (formally). -/
def DNb (u : ℕ → K) (x : K) (c : ℕ → K) : ℕ → ℕ → ℕ → K
  | p, 0, i => Nb u x c p i
  | 0, _ + 1, _ => 0
  | p + 1, k + 1, i =>
    (p + 1) * (DNb u x c p k i / (u (i + p + 1) - u i) - DNb u x c p k (i + 1) / (u (i + p + 2) - u (i + 1)))

theorem coxDeriv_eq_DNb {U : List K} (hs : SortedKnots U) {s : ℕ} (hk : s + 1 < U.length) {x : K} (hx : InSpan U s x) :
    ∀ (k p i : ℕ), i + p + 1 < U.length → coxDeBoorDeriv U p k i x = DNb (ku U) x (delta s) p k i := by
  intro k
  induction k with
  | zero => intro p i h; cases p <;> simp only [coxDeBoorDeriv, DNb] <;> exact cox_eq_Nb hs hk hx h
  | succ k ih =>
    intro p i h
    cases p with
    | zero => simp only [coxDeBoorDeriv, DNb]
    | succ p =>
      simp only [coxDeBoorDeriv, DNb]
      rw [ih p i (by omega), ih p (i + 1) (by omega), ku_eq (by omega), ku_eq (by omega), ku_eq (by omega), ku_eq (by omega)]

/-! ### Basis function objects -/

/-- The object built for index `i` and degree `p`, without the checks. -/
def mkBasis (U : List K) : ℕ → ℕ → Basis K
  | 0, i => .zero (knot U i) (knot U (i + 1)) (decide (|knot U (i + 1) - lastKnot U| < kEps K))
  | p + 1, i => .node (p + 1) (knot U i) (knot U (i + p + 2)) (decide (|knot U (i + p + 2) - lastKnot U| < kEps K))
      (Basis.invOrZero (knot U (i + p + 1) - knot U i)) (Basis.invOrZero (knot U (i + p + 2) - knot U (i + 1)))
      (mkBasis U p i) (mkBasis U p (i + 1))

theorem create_eq {U : List K} : ∀ {p i : ℕ}, i + p + 1 < U.length → Basis.create U i p = .ok (mkBasis U p i) := by
  intro p
  induction p with
  | zero =>
    intro i h
    have hne : U ≠ [] := by rintro rfl; simp at h
    simp [Basis.create, mkBasis, kvGet_eq (show i < U.length by omega), kvGet_eq (show i + 1 < U.length by omega),
      kvIsLast_eq hne, bind, Except.bind, pure, Except.pure]
  | succ p ih =>
    intro i h
    have hne : U ≠ [] := by rintro rfl; simp at h
    simp only [Basis.create, mkBasis, kvGet_eq (show i < U.length by omega), kvGet_eq (show i + 1 < U.length by omega),
      kvGet_eq (show i + (p + 1) + 1 < U.length by omega), kvGet_eq (show i + (p + 1) < U.length by omega),
      kvIsLast_eq hne, bind, Except.bind, pure, Except.pure, ih (show i + p + 1 < U.length by omega),
      ih (show i + 1 + p + 1 < U.length by omega)]
    rfl

theorem create_error {U : List K} {p i : ℕ} (h : U.length ≤ i + p + 1) : Basis.create U i p = .error .ub := by
  have e : ∀ j, U.length ≤ j → kvGet U j = .error .ub := by
    intro j hj; simp [kvGet, getN, List.getElem?_eq_none hj]
  cases p with
  | zero =>
    simp only [Basis.create]
    rcases lt_or_ge i U.length with h' | h'
    · rw [kvGet_eq h', e (i + 1) (by omega)]; rfl
    · rw [e i h']; rfl
  | succ p =>
    simp only [Basis.create]
    rcases lt_or_ge i U.length with h' | h'
    · rw [kvGet_eq h', e (i + (p + 1) + 1) (by omega)]; rfl
    · rw [e i h']; rfl

theorem mkBasis_start (U : List K) (p i : ℕ) : (mkBasis U p i).start = knot U i := by cases p <;> rfl
theorem mkBasis_stop (U : List K) (p i : ℕ) : (mkBasis U p i).stop = knot U (i + p + 1) := by cases p <;> rfl
theorem mkBasis_stopIsLast (U : List K) (p i : ℕ) :
    (mkBasis U p i).stopIsLast = decide (|knot U (i + p + 1) - lastKnot U| < kEps K) := by cases p <;> rfl

theorem isLast_iff {U : List K} (hs : SortedKnots U) (hsep : Separated U) {i : ℕ} (hi : i < U.length) :
    |knot U i - lastKnot U| < kEps K ↔ knot U i = lastKnot U := by
  have hne : U ≠ [] := by rintro rfl; simp at hi
  constructor
  · intro h
    rcases lt_or_eq_of_le (hs.le_last hi) with h' | h'
    · have := hsep _ (knot_mem hi) _ (lastKnot_mem hne) h'
      rw [abs_lt] at h; linarith [h.1]
    · exact h'
  · intro h; rw [h]; simpa using kEps_pos

theorem invOrZero_eq {U : List K} (hs : SortedKnots U) (hsep : Separated U) {i j : ℕ} (hij : i ≤ j) (hj : j < U.length) :
    Basis.invOrZero (knot U j - knot U i) = 1 / (knot U j - knot U i) := by
  unfold Basis.invOrZero
  split
  · rename_i h
    rcases lt_or_eq_of_le (hs.mono hij hj) with h' | h'
    · have := hsep _ (knot_mem (show i < U.length by omega)) _ (knot_mem hj) h'
      rw [abs_lt] at h; linarith [h.2]
    · rw [h']; simp
  · rfl

theorem inSupport_iff {U : List K} (hs : SortedKnots U) (hsep : Separated U) {p i : ℕ} (h : i + p + 1 < U.length) (x : K) :
    (mkBasis U p i).inSupport x = true ↔
      (knot U i ≤ x ∧ x < knot U (i + p + 1)) ∨ (knot U (i + p + 1) = lastKnot U ∧ x = lastKnot U) := by
  simp only [Basis.inSupport, mkBasis_start, mkBasis_stop, mkBasis_stopIsLast, Bool.or_eq_true, Bool.and_eq_true,
    decide_eq_true_eq, isLast_iff hs hsep h]
  constructor
  · rintro (h1 | ⟨h1, h2⟩)
    · exact Or.inl h1
    · exact Or.inr ⟨h1, h2.trans h1⟩
  · rintro (h1 | ⟨h1, h2⟩)
    · exact Or.inl h1
    · exact Or.inr ⟨h1, h2.trans h1.symm⟩

theorem not_inSpan_of_not_support {U : List K} (hs : SortedKnots U) (hsep : Separated U) {p i : ℕ}
    (h : i + p + 1 < U.length) {x : K} (hx : ¬ (mkBasis U p i).inSupport x = true) :
    ∀ j, i ≤ j → j ≤ i + p → ¬ InSpan U j x := by
  intro j h1 h2 h3
  rw [inSupport_iff hs hsep h] at hx
  apply hx
  have a1 := hs.mono h1 (by omega)
  have a2 := hs.mono (show j + 1 ≤ i + p + 1 by omega) h
  rcases h3 with ⟨b1, b2⟩ | ⟨b1, b2, b3⟩
  · exact Or.inl ⟨a1.trans b1, lt_of_lt_of_le b2 a2⟩
  · refine Or.inr ⟨le_antisymm (hs.le_last h) ?_, b3⟩
    rw [← b3, b2]; exact a2

theorem mkBasis_eval {U : List K} (hs : SortedKnots U) (hsep : Separated U) (x : K) : ∀ (p i : ℕ), i + p + 1 < U.length →
    (p = 0 → knot U i < knot U (i + 1) ∨ x ≠ lastKnot U) → (mkBasis U p i).eval x = coxDeBoor U p i x := by
  intro p
  induction p with
  | zero =>
    intro i h hnd
    have hsup := inSupport_iff (p := 0) (i := i) hs hsep h x
    simp only [Nat.add_zero] at hsup
    have he : (mkBasis U 0 i).eval x = if (mkBasis U 0 i).inSupport x then 1 else 0 := rfl
    rw [he, coxDeBoor]
    have : (mkBasis U 0 i).inSupport x = true ↔ InSpan U i x := by
      rw [hsup, InSpan]
      constructor
      · rintro (h1 | ⟨h1, h2⟩)
        · exact Or.inl h1
        · rcases hnd rfl with h3 | h3
          · exact Or.inr ⟨by rw [h2, ← h1]; exact h3, h2.trans h1.symm, h2⟩
          · exact absurd h2 h3
      · rintro (h1 | ⟨h1, h2, h3⟩)
        · exact Or.inl h1
        · exact Or.inr ⟨h2.symm.trans h3, h3⟩
    simp only [this]
  | succ p ih =>
    intro i h _
    by_cases hsup : (mkBasis U (p + 1) i).inSupport x = true
    · have he : (mkBasis U (p + 1) i).eval x =
          (x - knot U i) * Basis.invOrZero (knot U (i + p + 1) - knot U i) * (mkBasis U p i).eval x +
          (knot U (i + p + 2) - x) * Basis.invOrZero (knot U (i + p + 2) - knot U (i + 1)) * (mkBasis U p (i + 1)).eval x := by
        simp only [mkBasis, Basis.eval] at hsup ⊢
        rw [if_pos hsup]
      rw [he, coxDeBoor, invOrZero_eq hs hsep (show i ≤ i + p + 1 by omega) (by omega),
        invOrZero_eq hs hsep (show i + 1 ≤ i + p + 2 by omega) (by omega)]
      congr 1
      · by_cases hd : knot U (i + p + 1) - knot U i = 0
        · rw [hd]; simp
        · rw [ih i (by omega)]
          · rw [mul_one_div]
          · rintro rfl
            left
            exact lt_of_le_of_ne (hs.mono (by omega) (by omega)) (fun e => hd (by simp [e]))
      · by_cases hd : knot U (i + p + 2) - knot U (i + 1) = 0
        · rw [hd]; simp
        · rw [ih (i + 1) (by omega)]
          · rw [mul_one_div]
          · rintro rfl
            left
            exact lt_of_le_of_ne (hs.mono (by omega) (by omega)) (fun e => hd (by simp [e]))
    · have he : (mkBasis U (p + 1) i).eval x = 0 := by
        simp only [mkBasis, Basis.eval] at hsup ⊢
        rw [if_neg hsup]
      rw [he, cox_zero (not_inSpan_of_not_support hs hsep h hsup)]

theorem mkBasis_evalDeriv {U : List K} (hs : SortedKnots U) (hsep : Separated U) (x : K) : ∀ (p k i : ℕ), i + p + 1 < U.length →
    (p = 0 → knot U i < knot U (i + 1) ∨ x ≠ lastKnot U) →
    (mkBasis U p i).evalDeriv x (k : ℤ) = coxDeBoorDeriv U p k i x := by
  intro p
  induction p with
  | zero =>
    intro k i h hnd
    cases k with
    | zero =>
      have : (mkBasis U 0 i).evalDeriv x ((0 : ℕ) : ℤ) = (mkBasis U 0 i).eval x := by
        simp [mkBasis, Basis.evalDeriv]
      rw [this, mkBasis_eval hs hsep x 0 i h hnd]; rfl
    | succ k =>
      have hne : ¬ ((k : ℤ) + 1 = 0) := by omega
      simp [mkBasis, Basis.evalDeriv, coxDeBoorDeriv, hne]
  | succ p ih =>
    intro k i h hnd
    cases k with
    | zero =>
      have : (mkBasis U (p + 1) i).evalDeriv x ((0 : ℕ) : ℤ) = (mkBasis U (p + 1) i).eval x := by
        simp [mkBasis, Basis.evalDeriv]
      rw [this, mkBasis_eval hs hsep x (p + 1) i h hnd]; rfl
    | succ k =>
      have hne : ¬ (((k + 1 : ℕ) : ℤ) = 0) := by omega
      have hk : ((k + 1 : ℕ) : ℤ) - 1 = (k : ℤ) := by omega
      by_cases hsup : (mkBasis U (p + 1) i).inSupport x = true
      · have he : (mkBasis U (p + 1) i).evalDeriv x ((k + 1 : ℕ) : ℤ) = ((p + 1 : ℕ) : K) *
            (Basis.invOrZero (knot U (i + p + 1) - knot U i) * (mkBasis U p i).evalDeriv x (k : ℤ) -
            Basis.invOrZero (knot U (i + p + 2) - knot U (i + 1)) * (mkBasis U p (i + 1)).evalDeriv x (k : ℤ)) := by
          simp only [mkBasis, Basis.evalDeriv] at hsup ⊢
          rw [if_pos hsup, if_neg hne, hk]
        rw [he, coxDeBoorDeriv, invOrZero_eq hs hsep (show i ≤ i + p + 1 by omega) (by omega),
          invOrZero_eq hs hsep (show i + 1 ≤ i + p + 2 by omega) (by omega)]
        push_cast
        congr 2
        · by_cases hd : knot U (i + p + 1) - knot U i = 0
          · rw [hd]; simp
          · rw [ih k i (by omega)]
            · rw [one_div, inv_mul_eq_div]
            · rintro rfl
              left
              exact lt_of_le_of_ne (hs.mono (by omega) (by omega)) (fun e => hd (by simp [e]))
        · by_cases hd : knot U (i + p + 2) - knot U (i + 1) = 0
          · rw [hd]; simp
          · rw [ih k (i + 1) (by omega)]
            · rw [one_div, inv_mul_eq_div]
            · rintro rfl
              left
              exact lt_of_le_of_ne (hs.mono (by omega) (by omega)) (fun e => hd (by simp [e]))
      · have he : (mkBasis U (p + 1) i).evalDeriv x ((k + 1 : ℕ) : ℤ) = 0 := by
          simp only [mkBasis, Basis.evalDeriv] at hsup ⊢
          rw [if_neg hsup, if_neg hne]
        rw [he, coxDeriv_zero _ _ _ (not_inSpan_of_not_support hs hsep h hsup)]

end SplineLib
