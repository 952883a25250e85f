import Verif.Core.InsertOne

/-!
# Sign changes

Knot insertion does not create sign changes of the coefficients, and after inserting a parameter `p` times the value there is a coefficient. The knots
are scaled first so that all parameters have the distance from each other that the insertion of the library wants.
-/

namespace SplineLib
set_option linter.unusedSectionVars false
open Finset
variable {K : Type} [Field K] [LinearOrder K] [IsStrictOrderedRing K]

/-- The coefficients `c_0, …, c_{n-1}` have a subsequence with the signs of `v_0, …, v_m`. -/
def SameSigns (m : ℕ) (v : ℕ → K) (n : ℕ) (c : ℕ → K) : Prop :=
  ∃ i : ℕ → ℕ, (∀ j < m, i j < i (j + 1)) ∧ ∀ j ≤ m, i j < n ∧ 0 < v j * c (i j)

theorem SameSigns.congr {m n : ℕ} {v c c' : ℕ → K} (h : SameSigns m v n c) (hc : ∀ i < n, c i = c' i) : SameSigns m v n c' := by
  obtain ⟨i, h1, h2⟩ := h
  exact ⟨i, h1, fun j hj => ⟨(h2 j hj).1, by rw [← hc _ (h2 j hj).1]; exact (h2 j hj).2⟩⟩

/-- Indices that need not be distinct suffice if the signs alternate. -/
theorem SameSigns.of_le {m n : ℕ} {v c : ℕ → K} (hv : ∀ j < m, v j * v (j + 1) < 0) {i : ℕ → ℕ} (h1 : ∀ j < m, i j ≤ i (j + 1))
    (h2 : ∀ j ≤ m, i j < n ∧ 0 < v j * c (i j)) : SameSigns m v n c := by
  refine ⟨i, fun j hj => lt_of_le_of_ne (h1 j hj) fun he => ?_, h2⟩
  have a := (h2 j hj.le).2
  have b := (h2 (j + 1) hj).2
  rw [← he] at b
  have hp := mul_pos a b
  have := hv j hj
  have hsq : 0 ≤ c (i j) * c (i j) := mul_self_nonneg _
  nlinarith

/-- Averages of neighbouring coefficients have no more sign changes than the coefficients. -/
theorem SameSigns.of_blend {m n k first last : ℕ} {v f α : ℕ → K} (hv : ∀ j < m, v j * v (j + 1) < 0) (hf : 1 ≤ first) (hfk : first ≤ k + 1)
    (hlk : last ≤ k) (hkn : k < n) (hα : ∀ j, first ≤ j → j ≤ last → 0 ≤ α j ∧ α j ≤ 1)
    (h : SameSigns m v (n + 1) (blend1 first last α f)) : SameSigns m v n f := by
  obtain ⟨i, h1, h2⟩ := h
  have key : ∀ j, ∃ e, j ≤ m → (e ≤ i j ∧ i j ≤ e + 1) ∧ e < n ∧ 0 < v j * f e := by
    intro j
    by_cases hj : j ≤ m
    · obtain ⟨a, b⟩ := h2 j hj
      unfold blend1 at b
      split_ifs at b with c1 c2
      · exact ⟨i j - 1, fun _ => ⟨⟨by omega, by omega⟩, by omega, b⟩⟩
      · by_cases hc : 0 < v j * f (i j)
        · exact ⟨i j, fun _ => ⟨⟨by omega, by omega⟩, by omega, hc⟩⟩
        · refine ⟨i j - 1, fun _ => ⟨⟨by omega, by omega⟩, by omega, ?_⟩⟩
          by_contra hc'
          obtain ⟨q1, q2⟩ := hα (i j) c2 (by omega)
          have e : v j * (α (i j) * f (i j) + (1 - α (i j)) * f (i j - 1)) = α (i j) * (v j * f (i j)) + (1 - α (i j)) * (v j * f (i j - 1)) := by
            ring
          rw [e] at b
          have r1 := mul_nonpos_of_nonneg_of_nonpos q1 (not_lt.1 hc)
          have r2 := mul_nonpos_of_nonneg_of_nonpos (sub_nonneg.2 q2) (not_lt.1 hc')
          linarith
      · exact ⟨i j, fun _ => ⟨⟨by omega, by omega⟩, by omega, b⟩⟩
    · exact ⟨0, fun h => absurd h hj⟩
  choose e he using key
  refine SameSigns.of_le hv (i := e) (fun j hj => ?_) fun j hj => (he j hj).2
  have a := (he j hj.le).1
  have b := (he (j + 1) hj).1
  have := h1 j hj
  omega

/-- The spline with coefficients `c`. -/
def coxSum (U : List K) (p : ℕ) (c : ℕ → K) (x : K) : K := ∑ i ∈ range (U.length - p - 1), coxDeBoor U p i x * c i

/-- At `x` a coefficient of a function that is positive there does not vanish. -/
def Live (U : List K) (p : ℕ) (c : ℕ → K) (x : K) : Prop :=
  ∃ i < U.length - p - 1, c i ≠ 0 ∧ knot U i < x ∧ x < knot U (i + p + 1)

/-- `V`, `c'` describe the same function as `U`, `c`, and signs of `c'` can be found in `c`. -/
structure Finer (U : List K) (p : ℕ) (c : ℕ → K) (V : List K) (c' : ℕ → K) : Prop where
  wf : WFKnots V p
  first : knot V 0 = knot U 0
  last : lastKnot V = lastKnot U
  sum : ∀ x, knot U 0 ≤ x → x ≤ lastKnot U → coxSum V p c' x = coxSum U p c x
  signs : ∀ (m : ℕ) (v : ℕ → K), (∀ j < m, v j * v (j + 1) < 0) → SameSigns m v (V.length - p - 1) c' → SameSigns m v (U.length - p - 1) c
  count : ∀ t, U.count t ≤ V.count t
  live : ∀ x, V.count x = U.count x → Live U p c x → Live V p c' x

theorem Finer.refl {U : List K} {p : ℕ} {c : ℕ → K} (h : WFKnots U p) : Finer U p c U c :=
  ⟨h, rfl, rfl, fun _ _ _ => rfl, fun _ _ _ => id, fun _ => le_rfl, fun _ _ => id⟩

theorem Finer.trans {U V W : List K} {p : ℕ} {c c' c'' : ℕ → K} (h : Finer U p c V c') (g : Finer V p c' W c'') :
    Finer U p c W c'' :=
  ⟨g.wf, g.first.trans h.first, g.last.trans h.last,
    fun x h0 h1 => (g.sum x (by rw [h.first]; exact h0) (by rw [h.last]; exact h1)).trans (h.sum x h0 h1),
    fun m v hv hs => h.signs m v hv (g.signs m v hv hs), fun t => (h.count t).trans (g.count t),
    fun x e l => by
      have h1 := h.count x
      have h2 := g.count x
      exact g.live x (by omega) (h.live x (by omega) l)⟩

/-- Insertion elsewhere does not make all coefficients at `x` vanish. -/
theorem live_insert {U : List K} {p : ℕ} {c : ℕ → K} {t x : K} (h : WFKnots U p) (ht : Admissible U t) (hx : x ≠ t) (hl : Live U p c x) :
    Live (U.insertIdx (spanIx U t + 1) t) p (blend1 (spanIx U t + 1 - p) (spanIx U t - kvMult U t) (insα U p t) c) x := by
  classical
  obtain ⟨hi, hlt, hm, hl1, hl2⟩ := ht.pos h
  have hh := hi.hi
  have hlo := hi.lo
  have hle := hi.le
  have hlen := hi.length
  set k := spanIx U t with hk
  rcases lt_or_gt_of_ne hx with hxt | hxt
  · -- the first such coefficient stays
    have hex : ∃ i, i < U.length - p - 1 ∧ c i ≠ 0 ∧ knot U i < x ∧ x < knot U (i + p + 1) := hl
    obtain ⟨h1, h2, h3, h4⟩ := Nat.find_spec hex
    have hmin := fun j (hj : j < Nat.find hex) => Nat.find_min hex hj
    set i := Nat.find hex
    have hik : i ≤ k := by
      by_contra hc
      have := h.sorted.mono (i := k + 1) (j := i) (by omega) (by omega)
      linarith
    refine ⟨i, by omega, ?_, ?_, ?_⟩
    · unfold blend1
      have hil : ¬ k - kvMult U t < i := fun hc => by
        have := hl2 i hc hik
        linarith
      rw [if_neg hil]
      split_ifs with hf
      · have hc0 : c (i - 1) = 0 := by
          rcases Nat.eq_zero_or_pos i with h0 | h0
          · omega
          · by_contra hc
            refine hmin (i - 1) (by omega) ⟨by omega, hc, lt_of_le_of_lt (h.sorted.mono (by omega) (by omega)) h3, ?_⟩
            have := h.sorted.mono (i := k + 1) (j := i - 1 + p + 1) (by omega) (by omega)
            linarith
        rw [hc0, mul_zero, add_zero]
        refine mul_ne_zero (ne_of_gt ?_) h2
        have := h.sorted.mono (i := k + 1) (j := i + p) (by omega) (by omega)
        unfold insα
        exact div_pos (by linarith) (by linarith)
      · exact h2
    · rw [hi.knot, if_pos hik]; exact h3
    · rw [hi.knot]
      split_ifs with q1 q2
      · exact h4
      · exact hxt
      · have := h.sorted.mono (i := k + 1) (j := i + p + 1 - 1) (by omega) (by omega)
        linarith
  · -- the last such coefficient stays
    obtain ⟨i, ⟨h1, h2, h3, h4⟩, hmax⟩ : ∃ i, (i < U.length - p - 1 ∧ c i ≠ 0 ∧ knot U i < x ∧ x < knot U (i + p + 1)) ∧
        ∀ j, i < j → ¬ (j < U.length - p - 1 ∧ c j ≠ 0 ∧ knot U j < x ∧ x < knot U (j + p + 1)) := by
      have hex : ∃ d, U.length - p - 1 - d < U.length - p - 1 ∧ c (U.length - p - 1 - d) ≠ 0 ∧ knot U (U.length - p - 1 - d) < x ∧
          x < knot U (U.length - p - 1 - d + p + 1) := by
        obtain ⟨i, a, b⟩ := hl
        refine ⟨U.length - p - 1 - i, ?_⟩
        rw [show U.length - p - 1 - (U.length - p - 1 - i) = i by omega]
        exact ⟨a, b⟩
      refine ⟨_, Nat.find_spec hex, fun j hj hc => ?_⟩
      refine Nat.find_min hex (m := U.length - p - 1 - j) (by omega) ?_
      rw [show U.length - p - 1 - (U.length - p - 1 - j) = j by omega]
      exact hc
    have hik : k + 1 ≤ i + p + 1 := by
      by_contra hc
      have := h.sorted.mono (i := i + p + 1) (j := k) (by omega) (by omega)
      linarith
    refine ⟨i + 1, by omega, ?_, ?_, ?_⟩
    · unfold blend1
      split_ifs with q1 q2
      · exact h2
      · have hc0 : c (i + 1) = 0 := by
          by_contra hc
          refine hmax (i + 1) (by omega) ⟨by omega, hc, ?_, lt_of_lt_of_le h4 (h.sorted.mono (by omega) (by omega))⟩
          have := h.sorted.mono (i := i + 1) (j := k) (by omega) (by omega)
          linarith
        rw [hc0, mul_zero, zero_add, Nat.add_sub_cancel]
        refine mul_ne_zero (ne_of_gt ?_) h2
        have a1 : knot U (i + 1) ≤ knot U (k - kvMult U t) := h.sorted.mono (by omega) (by omega)
        unfold insα
        rw [show i + 1 + p = i + p + 1 by omega, sub_pos, div_lt_one (by linarith)]
        linarith
      · omega
    · rw [hi.knot]
      split_ifs with q1 q2
      · have := h.sorted.mono (i := i + 1) (j := k) (by omega) (by omega)
        linarith
      · exact hxt
      · exact h3
    · rw [hi.knot, if_neg (by omega), if_neg (by omega)]
      rw [show i + 1 + p + 1 - 1 = i + p + 1 by omega]
      exact h4

/-- One insertion. -/
theorem Finer.insert {U : List K} {p : ℕ} {c : ℕ → K} {t : K} (h : WFKnots U p) (ht : Admissible U t) :
    ∃ c', Finer U p c (U.insertIdx (spanIx U t + 1) t) c' := by
  obtain ⟨hi, hlt, hm, hl1, hl2⟩ := ht.pos h
  have hh := hi.hi
  have hlo := hi.lo
  have hlen := hi.length
  have hn : (U.insertIdx (spanIx U t + 1) t).length - p - 1 = U.length - p - 1 + 1 := by omega
  refine ⟨blend1 (spanIx U t + 1 - p) (spanIx U t - kvMult U t) (insα U p t) c, hi.wf', hi.firstKnot, hi.lastKnot, ?_, ?_, ?_, ?_⟩
  · intro x h0 h1
    rw [coxSum, hn, coxSum]
    exact (hi.sum h0 h1 (Nat.sub_le _ _) hl1 hl2 (fun j _ _ => rfl) c).symm
  · intro m v hv hs
    rw [hn] at hs
    exact SameSigns.of_blend hv (by omega) (by omega) (Nat.sub_le _ _) (by omega)
      (fun j h1 h2 => (insα_bounds hi (Nat.sub_le _ _) hl1 h1 h2).2.2) hs
  · intro s
    rw [count_insertIdx (by omega)]
    omega
  · intro x e hl
    refine live_insert h ht ?_ hl
    rintro rfl
    rw [count_insertIdx (by omega), if_pos rfl] at e
    omega

theorem mem_insertIdx_iff {U : List K} {k : ℕ} (hk : k ≤ U.length) {t a : K} : a ∈ U.insertIdx k t ↔ a = t ∨ a ∈ U := by
  rw [List.mem_insertIdx hk]

/-- Insertion of `t` until it is a `p`-fold knot. -/
theorem Finer.insertMany {p : ℕ} {t : K} : ∀ (r : ℕ) {U : List K} {c : ℕ → K},
    WFKnots U p → Admissible U t → p ≤ U.count t + r →
    ∃ V c', Finer U p c V c' ∧ p ≤ V.count t ∧ (∀ a, a ∈ V → a = t ∨ a ∈ U) ∧ ∀ a, a ≠ t → V.count a = U.count a
  | 0, U, c, h, _, hr => ⟨U, c, .refl h, hr, fun a ha => Or.inr ha, fun _ _ => rfl⟩
  | r + 1, U, c, h, ht, hr => by
    obtain ⟨c', hf⟩ := Finer.insert (c := c) h ht
    have hh := (ht.pos h).1.hi
    obtain ⟨V, c'', hg, h1, h2, h3⟩ := Finer.insertMany r (c := c') hf.wf (ht.next h) (by
      rw [count_insertIdx (by omega), if_pos rfl]; omega)
    refine ⟨V, c'', hf.trans hg, h1, fun a ha => ?_, fun a ha => ?_⟩
    · rcases h2 a ha with h3 | h3
      · exact Or.inl h3
      · exact (mem_insertIdx_iff (by omega)).1 h3
    · rw [h3 a ha, count_insertIdx (by omega), if_neg (by simpa [eq_comm] using ha), Nat.add_zero]

/-- Insertion of several parameters. -/
theorem Finer.insertAll {p : ℕ} : ∀ (ts : List K) {U : List K} {c : ℕ → K},
    WFKnots U p → Separated (ts ++ U) → (∀ t ∈ ts, knot U 0 ≤ t ∧ t ≤ lastKnot U) →
    ∃ V c', Finer U p c V c' ∧ (∀ t ∈ ts, t = knot V 0 ∨ t = lastKnot V ∨ p ≤ V.count t) ∧ (∀ a, a ∈ V → a ∈ ts ∨ a ∈ U) ∧
      ∀ a, a ∉ ts → V.count a = U.count a
  | [], U, c, h, _, _ => ⟨U, c, .refl h, by simp, fun a ha => Or.inr ha, fun _ _ => rfl⟩
  | t :: ts, U, c, h, hs, ht => by
    obtain ⟨V, c', hf, hfull, hmem, hct⟩ : ∃ V c', Finer U p c V c' ∧ (t = knot V 0 ∨ t = lastKnot V ∨ p ≤ V.count t) ∧
        (∀ a, a ∈ V → a = t ∨ a ∈ U) ∧ ∀ a, a ≠ t → V.count a = U.count a := by
      by_cases h0 : t = knot U 0
      · exact ⟨U, c, .refl h, Or.inl h0, fun a ha => Or.inr ha, fun _ _ => rfl⟩
      by_cases h1 : t = lastKnot U
      · exact ⟨U, c, .refl h, Or.inr (Or.inl h1), fun a ha => Or.inr ha, fun _ _ => rfl⟩
      have hb := ht t (by simp)
      have ha : Admissible U t := ⟨lt_of_le_of_ne hb.1 (Ne.symm h0), lt_of_le_of_ne hb.2 h1, fun a ha b hb hab => by
        refine hs a ?_ b ?_ hab
        · simp only [List.mem_cons, List.mem_append, List.cons_append] at ha ⊢; tauto
        · simp only [List.mem_cons, List.mem_append, List.cons_append] at hb ⊢; tauto⟩
      obtain ⟨V, c', hf, h2, h3⟩ := Finer.insertMany p (c := c) h ha (by omega)
      exact ⟨V, c', hf, Or.inr (Or.inr h2), h3⟩
    obtain ⟨W, c'', hg, h2, h3, h4⟩ := Finer.insertAll ts (c := c') hf.wf (fun a ha b hb hab => by
        refine hs a ?_ b ?_ hab
        · have := hmem a; simp only [List.mem_cons, List.mem_append, List.cons_append] at ha ⊢; tauto
        · have := hmem b; simp only [List.mem_cons, List.mem_append, List.cons_append] at hb ⊢; tauto)
      (fun s hs => by rw [hf.first, hf.last]; exact ht s (by simp [hs]))
    refine ⟨W, c'', hf.trans hg, fun s hs => ?_, fun a ha => ?_, fun a ha => ?_⟩
    · rcases List.mem_cons.1 hs with rfl | hs
      · rw [hg.first, hg.last]
        rcases hfull with h | h | h
        · exact Or.inl h
        · exact Or.inr (Or.inl h)
        · exact Or.inr (Or.inr (h.trans (hg.count _)))
      · exact h2 s hs
    · have := h3 a ha
      have := hmem a
      simp only [List.mem_cons]; tauto
    · rw [List.mem_cons, not_or] at ha
      rw [h4 a ha.2, hct a ha.1]

/-- The coefficient at a parameter that is an end of the range or a `p`-fold knot. -/
def valueIx (V : List K) (p : ℕ) (t : K) : ℕ := if t = lastKnot V then spanIx V t else spanIx V t - p

theorem coxSum_at {V : List K} {p : ℕ} (h : WFKnots V p) {t : K} (h0 : knot V 0 ≤ t) (h1 : t ≤ lastKnot V)
    (hf : t = knot V 0 ∨ t = lastKnot V ∨ p ≤ V.count t) (hs : Separated (t :: V)) (c : ℕ → K) :
    coxSum V p c t = c (valueIx V p t) ∧ valueIx V p t < V.length - p - 1 := by
  obtain ⟨_, h2, h3, h4⟩ := h.span h0 h1
  have hb : valueIx V p t < V.length - p - 1 := by unfold valueIx; split <;> omega
  refine ⟨?_, hb⟩
  have hcox : ∀ i < V.length - p - 1, coxDeBoor V p i t = if i = valueIx V p t then 1 else 0 := by
    intro i hi
    rw [cox_active h h0 h1 (by omega)]
    unfold valueIx
    by_cases hl : t = lastKnot V
    · rw [if_pos hl]
      have hlt : knot V (spanIx V t) < t := by
        have := inSpan_lt h2
        have := h.sorted.le_last (i := spanIx V t + 1) (by omega)
        rw [← hl] at this
        exact lt_of_lt_of_le ‹_› this
      have he : t = knot V (spanIx V t + 1) := by
        rcases h2 with h2 | h2
        · have := h.sorted.le_last (i := spanIx V t + 1) (by omega)
          rw [← hl] at this
          exact absurd h2.2 (not_lt.2 this)
        · exact h2.2.1
      refine Nb_right (by rw [ku_eq (by omega)]; exact hlt) p (fun j h5 h6 => ?_) i
      rw [ku_eq (by omega)]
      refine le_antisymm ?_ ?_
      · have := h.sorted.le_last (i := j) (by omega); rwa [← hl] at this
      · conv_lhs => rw [he]
        exact h.sorted.mono (by omega) (by omega)
    · rw [if_neg hl]
      have hin : knot V (spanIx V t) ≤ t ∧ t < knot V (spanIx V t + 1) := by
        rcases h2 with h2 | h2
        · exact h2
        · exact absurd h2.2.2 hl
      refine Nb_left (by rw [ku_eq (by omega)]; exact hin.2) p (spanIx V t - p) (by omega) (fun j h5 h6 => ?_) i
      rw [ku_eq (by omega)]
      by_cases hz : t = knot V 0
      · refine le_antisymm (le_trans (h.sorted.mono h6 (by omega)) hin.1) ?_
        conv_lhs => rw [hz]
        exact h.sorted.mono (by omega) (by omega)
      · have hc : p ≤ V.count t := by tauto
        have ha : Admissible V t := ⟨lt_of_le_of_ne h0 (Ne.symm hz), lt_of_le_of_ne h1 hl, hs⟩
        obtain ⟨-, -, -, -, g⟩ := ha.pos h
        exact g j (by unfold kvMult; omega) h6
  unfold coxSum
  rw [sum_eq_single (valueIx V p t)]
  · rw [hcox _ hb, if_pos rfl, one_mul]
  · intro i hi hne
    rw [hcox i (mem_range.1 hi), if_neg hne, zero_mul]
  · intro hn; exact absurd (mem_range.2 hb) hn

theorem spanIx_mono {V : List K} {p : ℕ} (h : WFKnots V p) {s t : K} (h0 : knot V 0 ≤ s) (hst : s ≤ t) (h1 : t ≤ lastKnot V) :
    spanIx V s ≤ spanIx V t := by
  obtain ⟨_, a2, a3, a4⟩ := h.span h0 (hst.trans h1)
  obtain ⟨_, b2, b3, b4⟩ := h.span (h0.trans hst) h1
  by_contra hc
  have hm : knot V (spanIx V t + 1) ≤ knot V (spanIx V s) := h.sorted.mono (by omega) (by omega)
  rcases a2 with a2 | a2 <;> rcases b2 with b2 | b2
  · linarith [a2.1, b2.2]
  · have : s = t := le_antisymm hst (by rw [b2.2.1]; linarith [a2.1])
    have := h.sorted.le_last (i := spanIx V s + 1) (by omega)
    linarith [a2.2, b2.2.2]
  · linarith [a2.1, b2.2]
  · linarith [a2.1, b2.2.1]

theorem valueIx_mono {V : List K} {p : ℕ} (h : WFKnots V p) {s t : K} (h0 : knot V 0 ≤ s) (hst : s ≤ t) (h1 : t ≤ lastKnot V) :
    valueIx V p s ≤ valueIx V p t := by
  have := spanIx_mono h h0 hst h1
  unfold valueIx
  by_cases ht : t = lastKnot V
  · rw [if_pos ht]; split <;> omega
  · rw [if_neg ht, if_neg (fun hs => ht (le_antisymm h1 (by rw [← hs]; exact hst)))]
    omega

/-- Variation diminishing, for parameters that differ by at least `kEpsilon` from each other and from the knots. -/
theorem variation_sep {U : List K} {p : ℕ} (h : WFKnots U p) {c : ℕ → K} {m : ℕ} {t : ℕ → K} (ht : ∀ j < m, t j < t (j + 1))
    (hr : ∀ j ≤ m, knot U 0 ≤ t j ∧ t j ≤ lastKnot U) (hs : Separated ((List.range (m + 1)).map t ++ U))
    (h0 : ∀ j ≤ m, coxSum U p c (t j) ≠ 0) (hv : ∀ j < m, coxSum U p c (t j) * coxSum U p c (t (j + 1)) < 0) :
    SameSigns m (fun j => coxSum U p c (t j)) (U.length - p - 1) c := by
  have hmem : ∀ j ≤ m, t j ∈ (List.range (m + 1)).map t := fun j hj => List.mem_map.2 ⟨j, by simp; omega, rfl⟩
  obtain ⟨V, c', hf, h1, h2, -⟩ := Finer.insertAll (c := c) _ h hs fun s hs => by
    obtain ⟨j, hj, rfl⟩ := List.mem_map.1 hs
    exact hr j (by simpa [Nat.lt_succ_iff] using hj)
  apply hf.signs _ _ hv
  have hat : ∀ j ≤ m, coxSum U p c (t j) = c' (valueIx V p (t j)) ∧ valueIx V p (t j) < V.length - p - 1 := by
    intro j hj
    rw [← hf.sum _ (hr j hj).1 (hr j hj).2]
    refine coxSum_at hf.wf (by rw [hf.first]; exact (hr j hj).1) (by rw [hf.last]; exact (hr j hj).2) (h1 _ (hmem j hj)) ?_ c'
    intro a ha b hb hab
    refine hs a ?_ b ?_ hab
    · have := hmem j hj
      rcases List.mem_cons.1 ha with rfl | ha
      · exact List.mem_append_left _ this
      · exact List.mem_append.2 (h2 a ha)
    · have := hmem j hj
      rcases List.mem_cons.1 hb with rfl | hb
      · exact List.mem_append_left _ this
      · exact List.mem_append.2 (h2 b hb)
  refine SameSigns.of_le hv (i := fun j => valueIx V p (t j)) (fun j hj => ?_) fun j hj => ⟨(hat j hj).2, ?_⟩
  · exact valueIx_mono hf.wf (by rw [hf.first]; exact (hr j hj.le).1) (ht j hj).le (by rw [hf.last]; exact (hr (j + 1) hj).2)
  · rw [← (hat j hj).1]
    exact mul_self_pos.2 (h0 j hj)

/-! ### Scaling -/

theorem knot_scale (U : List K) (r : K) (i : ℕ) : knot (U.map (r * ·)) i = r * knot U i := by
  unfold knot
  rw [List.getD_eq_getElem?_getD, List.getD_eq_getElem?_getD, List.getElem?_map]
  cases U[i]? <;> simp

theorem lastKnot_scale (U : List K) (r : K) : lastKnot (U.map (r * ·)) = r * lastKnot U := by
  unfold lastKnot; rw [List.length_map, knot_scale]

theorem inSpan_scale (U : List K) {r : K} (hr : 0 < r) (i : ℕ) (x : K) : InSpan (U.map (r * ·)) i (r * x) ↔ InSpan U i x := by
  unfold InSpan
  rw [knot_scale, knot_scale, lastKnot_scale, mul_le_mul_iff_right₀ hr, mul_lt_mul_iff_right₀ hr, mul_lt_mul_iff_right₀ hr,
    mul_right_inj' hr.ne', mul_right_inj' hr.ne']

theorem cox_scale (U : List K) {r : K} (hr : 0 < r) (x : K) : ∀ p i, coxDeBoor (U.map (r * ·)) p i (r * x) = coxDeBoor U p i x
  | 0, i => by simp only [coxDeBoor, inSpan_scale U hr]
  | p + 1, i => by
    simp only [coxDeBoor, knot_scale, ← mul_sub, cox_scale U hr x p]
    rw [mul_div_mul_left _ _ hr.ne', mul_div_mul_left _ _ hr.ne']

theorem exists_scale : ∀ l : List K, ∃ r : K, 1 ≤ r ∧ ∀ d ∈ l, 0 < d → kEps K ≤ r * d
  | [] => ⟨1, le_rfl, by simp⟩
  | d :: l => by
    obtain ⟨r, h1, h2⟩ := exists_scale l
    refine ⟨max r (kEps K / d), le_max_of_le_left h1, fun e he hp => ?_⟩
    rcases List.mem_cons.1 he with rfl | he
    · calc kEps K = kEps K / e * e := by rw [div_mul_cancel₀ _ hp.ne']
        _ ≤ _ := mul_le_mul_of_nonneg_right (le_max_right _ _) hp.le
    · exact (h2 e he hp).trans (mul_le_mul_of_nonneg_right (le_max_left _ _) hp.le)

theorem exists_separated (l : List K) : ∃ r : K, 1 ≤ r ∧ Separated (l.map (r * ·)) := by
  obtain ⟨r, h1, h2⟩ := exists_scale (l.flatMap fun a => l.map fun b => b - a)
  refine ⟨r, h1, fun a ha b hb hab => ?_⟩
  obtain ⟨a, ha', rfl⟩ := List.mem_map.1 ha
  obtain ⟨b, hb', rfl⟩ := List.mem_map.1 hb
  have hr : 0 < r := lt_of_lt_of_le one_pos h1
  have := h2 (b - a) (List.mem_flatMap.2 ⟨a, ha', List.mem_map.2 ⟨b, hb', rfl⟩⟩) (sub_pos.2 (lt_of_mul_lt_mul_left hab hr.le))
  rw [mul_sub] at this
  linarith

theorem WFKnots.scale {U : List K} {p : ℕ} (h : WFKnots U p) {r : K} (hr : 1 ≤ r) : WFKnots (U.map (r * ·)) p where
  sorted := by
    have hp : 0 ≤ r := le_trans zero_le_one hr
    unfold SortedKnots
    rw [List.pairwise_map]
    exact h.sorted.imp fun hab => mul_le_mul_of_nonneg_left hab hp
  size := by rw [List.length_map]; exact h.size
  first := fun j hj => by rw [knot_scale, knot_scale, h.first j hj]
  last := fun j hj => by rw [List.length_map, knot_scale, lastKnot_scale, h.last j hj]
  range := by
    rw [knot_scale, lastKnot_scale]
    exact mul_lt_mul_of_pos_left h.range (lt_of_lt_of_le one_pos hr)
  sep := by
    intro a ha b hb hab
    obtain ⟨a, ha', rfl⟩ := List.mem_map.1 ha
    obtain ⟨b, hb', rfl⟩ := List.mem_map.1 hb
    have hr0 : 0 < r := lt_of_lt_of_le one_pos hr
    have hab' := lt_of_mul_lt_mul_left hab hr0.le
    have := h.sep a ha' b hb' hab'
    have h3 : b - a ≤ r * (b - a) := le_mul_of_one_le_left (sub_pos.2 hab').le hr
    rw [mul_sub] at h3
    linarith

/-- Variation diminishing: the values of a spline at increasing parameters have no more sign changes than the coefficients. -/
theorem variation {U : List K} {p : ℕ} (h : WFKnots U p) {c : ℕ → K} {m : ℕ} {t : ℕ → K} (ht : ∀ j < m, t j < t (j + 1))
    (hr : ∀ j ≤ m, knot U 0 ≤ t j ∧ t j ≤ lastKnot U) (h0 : ∀ j ≤ m, coxSum U p c (t j) ≠ 0)
    (hv : ∀ j < m, coxSum U p c (t j) * coxSum U p c (t (j + 1)) < 0) :
    SameSigns m (fun j => coxSum U p c (t j)) (U.length - p - 1) c := by
  obtain ⟨r, hr1, hs⟩ := exists_separated ((List.range (m + 1)).map t ++ U)
  have hr0 : 0 < r := lt_of_lt_of_le one_pos hr1
  have hsum : ∀ x, coxSum (U.map (r * ·)) p c (r * x) = coxSum U p c x := by
    intro x
    unfold coxSum
    rw [List.length_map]
    exact sum_congr rfl fun i _ => by rw [cox_scale U hr0]
  have := variation_sep (h.scale hr1) (c := c) (m := m) (t := fun j => r * t j) (fun j hj => mul_lt_mul_of_pos_left (ht j hj) hr0)
    (fun j hj => by
      rw [knot_scale, lastKnot_scale]
      exact ⟨mul_le_mul_of_nonneg_left (hr j hj).1 hr0.le, mul_le_mul_of_nonneg_left (hr j hj).2 hr0.le⟩)
    (by rw [List.map_append, List.map_map] at hs; exact hs)
    (fun j hj => by rw [hsum]; exact h0 j hj) (fun j hj => by rw [hsum, hsum]; exact hv j hj)
  simp only [hsum, List.length_map] at this
  exact this

end SplineLib
