import Verif.Core.InsertMany
import Verif.Model.Degree

/-!
# Knot vectors as runs of equal knots (helper lemmas)
-/

namespace SplineLib
set_option linter.unusedSectionVars false

section order
variable {K : Type} [LinearOrder K]

/-- The knots with their multiplicities, written out. -/
def expand (r : List (K × ℕ)) : List K := r.flatMap fun a => List.replicate a.2 a.1

/-- Strictly increasing knots, each with a positive multiplicity. -/
def Runs (r : List (K × ℕ)) : Prop := r.Pairwise (fun a b => a.1 < b.1) ∧ ∀ a ∈ r, 1 ≤ a.2

@[simp] theorem expand_nil : expand ([] : List (K × ℕ)) = [] := rfl
@[simp] theorem expand_cons (a : K × ℕ) (r : List (K × ℕ)) : expand (a :: r) = List.replicate a.2 a.1 ++ expand r := by simp [expand]
@[simp] theorem expand_append (r q : List (K × ℕ)) : expand (r ++ q) = expand r ++ expand q := by simp [expand]

theorem mem_expand {r : List (K × ℕ)} {x : K} (h : x ∈ expand r) : ∃ a ∈ r, a.1 = x := by
  simp only [expand, List.mem_flatMap] at h
  obtain ⟨a, ha, hx⟩ := h
  exact ⟨a, ha, (List.eq_of_mem_replicate hx).symm⟩

theorem mem_expand_of {r : List (K × ℕ)} {a : K × ℕ} (ha : a ∈ r) (h : 1 ≤ a.2) : a.1 ∈ expand r := by
  simp only [expand, List.mem_flatMap]
  exact ⟨a, ha, List.mem_replicate.2 ⟨by omega, rfl⟩⟩

theorem exists_runs {U : List K} (h : U.Pairwise (· ≤ ·)) : ∃ r, Runs r ∧ expand r = U := by
  induction U with
  | nil => exact ⟨[], ⟨List.Pairwise.nil, by simp⟩, rfl⟩
  | cons a l ih =>
    obtain ⟨ha, hl⟩ := List.pairwise_cons.1 h
    obtain ⟨r, ⟨hr, hp⟩, he⟩ := ih hl
    match r, hr, hp, he with
    | [], _, _, he =>
      refine ⟨[(a, 1)], ⟨List.pairwise_singleton _ _, by simp⟩, ?_⟩
      simp only [expand_nil] at he
      simp [← he]
    | (b, m) :: r, hr, hp, he =>
      obtain ⟨h1, h2⟩ := List.pairwise_cons.1 hr
      have hb : b ∈ l := he ▸ mem_expand_of (List.mem_cons_self ..) (hp _ (List.mem_cons_self ..))
      rcases (ha b hb).lt_or_eq with hlt | heq
      · refine ⟨(a, 1) :: (b, m) :: r, ⟨List.pairwise_cons.2 ⟨?_, hr⟩, ?_⟩, ?_⟩
        · intro c hc
          rcases List.mem_cons.1 hc with rfl | hc
          · exact hlt
          · exact hlt.trans (h1 c hc)
        · intro c hc
          rcases List.mem_cons.1 hc with rfl | hc
          · exact le_refl _
          · exact hp c hc
        · rw [expand_cons, he]; rfl
      · subst heq
        refine ⟨(a, m + 1) :: r, ⟨List.pairwise_cons.2 ⟨h1, h2⟩, ?_⟩, ?_⟩
        · intro c hc
          rcases List.mem_cons.1 hc with rfl | hc
          · show 1 ≤ m + 1; omega
          · exact hp c (List.mem_cons_of_mem _ hc)
        · rw [← he, expand_cons, expand_cons]; rfl

theorem Runs.sorted {r : List (K × ℕ)} (h : r.Pairwise (fun a b => a.1 < b.1)) : (expand r).Pairwise (· ≤ ·) := by
  induction r with
  | nil => exact List.Pairwise.nil
  | cons a r ih =>
    obtain ⟨h1, h2⟩ := List.pairwise_cons.1 h
    rw [expand_cons, List.pairwise_append]
    refine ⟨List.pairwise_replicate_of_refl, ih h2, ?_⟩
    intro x hx y hy
    obtain ⟨b, hb, rfl⟩ := mem_expand hy
    rw [List.eq_of_mem_replicate hx]
    exact (h1 b hb).le

theorem count_expand_eq_zero {r : List (K × ℕ)} {x : K} (h : ∀ a ∈ r, a.1 ≠ x) : (expand r).count x = 0 := by
  rw [List.count_eq_zero]
  intro hx
  obtain ⟨a, ha, e⟩ := mem_expand hx
  exact h a ha e

theorem count_expand {pre post : List (K × ℕ)} {a : K} {m : ℕ} (h : (pre ++ (a, m) :: post).Pairwise (fun a b => a.1 < b.1)) :
    (expand (pre ++ (a, m) :: post)).count a = m := by
  obtain ⟨_, h2, h3⟩ := List.pairwise_append.1 h
  rw [expand_append, expand_cons, List.count_append, List.count_append, count_expand_eq_zero, count_expand_eq_zero,
    List.count_replicate_self]
  · omega
  · intro b hb; exact ne_of_gt ((List.pairwise_cons.1 h2).1 b hb)
  · intro b hb; exact ne_of_lt (h3 b hb (a, m) (List.mem_cons_self ..))

theorem kvNumDifferent_expand {r : List (K × ℕ)} (h : Runs r) (hr : r ≠ []) : kvNumDifferent (expand r) = r.length := by
  have rep : ∀ (m : ℕ) (a : K) (l : List K), kvNumDifferent (a :: (List.replicate m a ++ l)) = kvNumDifferent (a :: l) := by
    intro m a l
    induction m with
    | zero => rfl
    | succ m ih =>
      rw [List.replicate_succ, List.cons_append, kvNumDifferent, if_neg (lt_irrefl _), zero_add, ih]
  obtain ⟨hs, hp⟩ := h
  induction r with
  | nil => exact absurd rfl hr
  | cons a r ih =>
    obtain ⟨h1, h2⟩ := List.pairwise_cons.1 hs
    obtain ⟨m, hm⟩ : ∃ m, a.2 = m + 1 := ⟨a.2 - 1, by have := hp a (List.mem_cons_self ..); omega⟩
    rw [expand_cons, hm, List.replicate_succ, List.cons_append, rep]
    match r, h1, h2, hp, ih with
    | [], _, _, _, _ => rfl
    | b :: r, h1, h2, hp, ih =>
      have := ih (by simp) h2 (fun c hc => hp c (List.mem_cons_of_mem _ hc))
      obtain ⟨q, hq⟩ : ∃ q, b.2 = q + 1 := ⟨b.2 - 1, by have := hp b (by simp); omega⟩
      rw [expand_cons, hq, List.replicate_succ, List.cons_append] at this ⊢
      rw [kvNumDifferent, if_pos (h1 b (List.mem_cons_self ..)), this]
      simp only [List.length_cons]; omega

theorem sorted_eq_of_count {l l' : List K} (h : l.Pairwise (· ≤ ·)) (h' : l'.Pairwise (· ≤ ·)) (hc : ∀ y, l.count y = l'.count y) : l = l' :=
  (List.perm_iff_count.2 hc).eq_of_pairwise (fun _ _ _ _ => le_antisymm) h h'

end order

section field
variable {K : Type} [Field K] [LinearOrder K] [IsStrictOrderedRing K]

theorem Runs.knots_sorted {r : List (K × ℕ)} (h : r.Pairwise (fun a b => a.1 < b.1)) : SortedKnots (expand r) := Runs.sorted h

theorem insMany_expand {pre post : List (K × ℕ)} {a : K} {m p : ℕ} (h : (pre ++ (a, m) :: post).Pairwise (fun a b => a.1 < b.1))
    (hw : WFKnots (expand (pre ++ (a, m) :: post)) p) (ht : Admissible (expand (pre ++ (a, m) :: post)) a) (k : ℕ) :
    insMany (expand (pre ++ (a, m) :: post)) a k = expand (pre ++ (a, m + k) :: post) := by
  have hf := insMany_facts hw ht k
  have h' : (pre ++ (a, m + k) :: post).Pairwise (fun a b => a.1 < b.1) := by
    obtain ⟨h1, h2, h3⟩ := List.pairwise_append.1 h
    obtain ⟨h4, h5⟩ := List.pairwise_cons.1 h2
    refine List.pairwise_append.2 ⟨h1, List.pairwise_cons.2 ⟨h4, h5⟩, ?_⟩
    intro x hx y hy
    rcases List.mem_cons.1 hy with rfl | hy
    · exact h3 x hx (a, m) (List.mem_cons_self ..)
    · exact h3 x hx y (List.mem_cons_of_mem _ hy)
  refine sorted_eq_of_count hf.wf.sorted (Runs.sorted h') ?_
  intro y
  rw [hf.count]
  simp only [expand_append, expand_cons, List.count_append]
  rw [List.count_replicate, List.count_replicate]
  by_cases hy : y = a
  · subst hy; simp; omega
  · have : ¬ a = y := fun e => hy e.symm
    simp [hy, this]

theorem knot_expand_mid {pre post : List (K × ℕ)} {a : K} {m i : ℕ} (h1 : (expand pre).length ≤ i) (h2 : i < (expand pre).length + m) :
    knot (expand (pre ++ (a, m) :: post)) i = a := by
  unfold knot
  rw [expand_append, expand_cons, List.getD_eq_getElem?_getD, List.getElem?_append_right h1,
    List.getElem?_append_left (by simp; omega), List.getElem?_replicate, if_pos (by dsimp only; omega)]
  rfl

theorem length_expand_mid {pre post : List (K × ℕ)} {a : K} {m : ℕ} :
    (expand (pre ++ (a, m) :: post)).length = (expand pre).length + m + (expand post).length := by
  simp [add_assoc]

/-- The loop that skips equal knots ends at the last copy. -/
theorem skipEqual_expand {pre post : List (K × ℕ)} {a b : K} {m q : ℕ} (hab : a ≠ b) (hq : 1 ≤ q) : ∀ (fuel i : ℕ), (expand pre).length ≤ i →
    i < (expand pre).length + m → (expand pre).length + m - i ≤ fuel →
    Spl.skipEqual (expand (pre ++ (a, m) :: (b, q) :: post)) fuel i = .ok ((expand pre).length + m - 1) := by
  intro fuel
  have hl : (expand (pre ++ (a, m) :: (b, q) :: post)).length = (expand pre).length + m + (q + (expand post).length) := by
    rw [length_expand_mid]; simp
  induction fuel with
  | zero => intro i _ _ h; omega
  | succ fuel ih =>
    intro i h1 h2 h3
    rw [Spl.skipEqual, kvGet_eq (by omega), ok_bind, kvGet_eq (by omega), ok_bind, knot_expand_mid h1 h2]
    by_cases hi : i + 1 < (expand pre).length + m
    · rw [knot_expand_mid (by omega) hi, if_pos rfl, ih (i + 1) (by omega) hi (by omega)]
    · have e : knot (expand (pre ++ (a, m) :: (b, q) :: post)) (i + 1) = b := by
        rw [show pre ++ (a, m) :: (b, q) :: post = (pre ++ [(a, m)]) ++ (b, q) :: post by simp]
        apply knot_expand_mid
        · simp; omega
        · simp; omega
      rw [e, if_neg hab]
      show Except.ok i = _
      congr 1; omega

end field
end SplineLib
