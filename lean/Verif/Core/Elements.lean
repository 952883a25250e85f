import Verif.Model.Elements
import Verif.Core.Elevate
import Verif.Core.Eval
import Mathlib.Data.List.TakeWhile

/-!
# Elements (helper lemmas)
-/

namespace SplineLib
set_option linter.unusedSectionVars false
namespace Elem

variable {K : Type} [Field K] [LinearOrder K] [IsStrictOrderedRing K]

/-! ### Different knots -/

theorem uniq_ne_nil : ∀ {U : List K}, U ≠ [] → uniq U ≠ []
  | [], h => absurd rfl h
  | [_], _ => by simp [uniq]
  | a :: b :: l, _ => by
    rw [uniq]; split
    · exact uniq_ne_nil (by simp)
    · simp

theorem mem_uniq {x : K} : ∀ {U : List K}, x ∈ uniq U ↔ x ∈ U
  | [] => by simp [uniq]
  | [_] => by simp [uniq]
  | a :: b :: l => by
    rw [uniq]; split
    · rename_i h; rw [mem_uniq (U := b :: l)]; simp [h]
    · rw [List.mem_cons, mem_uniq (U := b :: l), List.mem_cons (l := b :: l)]

theorem uniq_sorted : ∀ {U : List K}, SortedKnots U → (uniq U).Pairwise (· < ·)
  | [], _ => by simp [uniq]
  | [_], _ => by simp [uniq]
  | a :: b :: l, h => by
    have h' : SortedKnots (b :: l) := (List.pairwise_cons.1 h).2
    rw [uniq]; split
    · exact uniq_sorted h'
    · rename_i hne
      refine List.pairwise_cons.2 ⟨fun c hc => ?_, uniq_sorted h'⟩
      have hab : a < b := lt_of_le_of_ne ((List.pairwise_cons.1 h).1 b (by simp)) hne
      rcases List.mem_cons.1 (mem_uniq.1 hc) with rfl | hc
      · exact hab
      · exact lt_of_lt_of_le hab ((List.pairwise_cons.1 h').1 c hc)

theorem sorted_ext {l r : List K} (hl : l.Pairwise (· < ·)) (hr : r.Pairwise (· < ·)) (h : ∀ x, x ∈ l ↔ x ∈ r) : l = r := by
  have nd : ∀ {t : List K}, t.Pairwise (· < ·) → t.Nodup := fun ht => ht.imp fun h => ne_of_lt h
  exact List.Perm.eq_of_pairwise (le := (· < ·)) (fun a b _ _ h1 h2 => absurd h1 (not_lt.2 h2.le)) hl hr
    ((List.perm_ext_iff_of_nodup (nd hl) (nd hr)).2 h)

theorem uniq_length {U : List K} (h : SortedKnots U) (hne : U ≠ []) : (uniq U).length = kvNumDifferent U := by
  rw [kvNumDifferent_eq_card h hne, ← List.toFinset_card_of_nodup ((uniq_sorted h).imp fun h => ne_of_lt h)]
  congr 1
  ext x; simp [mem_uniq]

/-! ### The element list -/

/-- The pairs of neighbours that differ. -/
def steps : List K → List (K × K)
  | a :: b :: l => if a - b ≠ 0 then (a, b) :: steps (b :: l) else steps (b :: l)
  | _ => []

theorem steps_eq_zip : ∀ (U : List K), steps U = (uniq U).zip (uniq U).tail
  | [] => rfl
  | [_] => rfl
  | a :: b :: l => by
    have ih := steps_eq_zip (b :: l)
    rw [steps, uniq]
    by_cases h : a = b
    · rw [if_neg (by simp [h]), if_pos h, ih]
    · rw [if_pos (sub_ne_zero.2 h), if_neg h, ih]
      have : ∀ {x : K} {l : List K}, ∃ r, uniq (x :: l) = x :: r := by
        intro x l
        induction l generalizing x with
        | nil => exact ⟨[], rfl⟩
        | cons y l ih =>
          rw [uniq]; split
          · rename_i e; subst e; exact ih
          · exact ⟨_, rfl⟩
      obtain ⟨r, hr⟩ := this (x := b) (l := l)
      rw [hr]; rfl

theorem elementLoop_eq {U : List K} : ∀ (n j : ℕ), j + n < U.length → elementLoop U n j = .ok (steps ((U.drop j).take (n + 1)))
  | 0, j, h => by
    rw [elementLoop]
    obtain ⟨a, r, hr⟩ := List.exists_cons_of_ne_nil (l := U.drop j) (by
      intro h0; have := congrArg List.length h0; rw [List.length_drop] at this; simp at this; omega)
    rw [hr]; rfl
  | n + 1, j, h => by
    rw [elementLoop, kvGet_eq (by omega), kvGet_eq (by omega), elementLoop_eq n (j + 1) (by omega)]
    simp only [ok_bind, pure_ok]
    have h1 : U.drop j = knot U j :: U.drop (j + 1) := by rw [knot_eq (by omega), List.drop_eq_getElem_cons (by omega)]
    have h2 : U.drop (j + 1) = knot U (j + 1) :: U.drop (j + 2) := by rw [knot_eq (by omega), List.drop_eq_getElem_cons (by omega)]
    rw [h1, h2]
    simp only [List.take_succ_cons, steps]

theorem steps_append_const : ∀ (l : List K) (a : K) (r : List K), (∀ x ∈ r, x = a) → steps (l ++ a :: r) = steps (l ++ [a])
  | [], a, r, h => by
    induction r with
    | nil => rfl
    | cons b r ih =>
      have hb : b = a := h b (by simp)
      subst hb
      rw [List.nil_append, steps, if_neg (by simp)]
      exact ih fun x hx => h x (by simp [hx])
  | [x], a, r, h => by
    have := steps_append_const [] a r h
    simp only [List.nil_append] at this
    simp only [List.singleton_append, steps, this]
  | x :: y :: l, a, r, h => by
    have := steps_append_const (y :: l) a r h
    simp only [List.cons_append, steps] at this ⊢
    rw [this]

theorem elementsDir_eq {U : List K} {p : ℕ} (h : WFKnots U p) (hl : U.length < 2 ^ 64) :
    elementsDir U p = .ok ((uniq U).zip (uniq U).tail) := by
  have hsz := h.size
  unfold elementsDir
  have e : toSizeT ((U.length : ℤ) - p - 1) = U.length - p - 1 := by
    unfold toSizeT; rw [Int.emod_eq_of_lt (by omega) (by omega)]; omega
  rw [e, elementLoop_eq _ _ (by omega), ← steps_eq_zip, List.drop_zero]
  congr 1
  -- the knots from index `n` on are equal
  have hn : U.length - p - 1 < U.length := by omega
  have h1 : U.take (U.length - p - 1 + 1) = U.take (U.length - p - 1) ++ [knot U (U.length - p - 1)] := by
    rw [List.take_succ_eq_append_getElem hn, knot_eq hn]
  have h2 : U = U.take (U.length - p - 1) ++ knot U (U.length - p - 1) :: U.drop (U.length - p - 1 + 1) := by
    rw [knot_eq hn, ← List.drop_eq_getElem_cons hn, List.take_append_drop]
  have hconst : ∀ x ∈ U.drop (U.length - p - 1 + 1), x = knot U (U.length - p - 1) := ?_
  · have h3 := steps_append_const (U.take (U.length - p - 1)) _ _ hconst
    rw [← h2] at h3
    rw [h1, h3]
  intro x hx
  obtain ⟨i, hi, rfl⟩ := List.mem_iff_getElem.1 hx
  rw [List.length_drop] at hi
  rw [List.getElem_drop, ← knot_eq (by omega)]
  have h3 := h.last p (le_refl _)
  have h4 := h.last (U.length - 1 - (U.length - p - 1 + 1 + i)) (by omega)
  rw [show U.length - 1 - (U.length - 1 - (U.length - p - 1 + 1 + i)) = U.length - p - 1 + 1 + i by omega] at h4
  rw [show U.length - 1 - p = U.length - p - 1 by omega] at h3
  rw [h3, h4]

/-- The elements of all directions. -/
def elemsOf (Us : List (List K)) : List (List (K × K)) := Us.map fun U => (uniq U).zip (uniq U).tail

theorem elements_eq {Us : List (List K)} {ps : List ℕ} (h : List.Forall₂ WFKnots Us ps) (hl : ∀ U ∈ Us, U.length < 2 ^ 64) :
    elements Us ps = .ok (elemsOf Us) := by
  induction h with
  | nil => rfl
  | cons h _ ih =>
    rw [elements, elementsDir_eq h (hl _ (by simp)), ok_bind, ih fun U hU => hl U (by simp [hU])]; rfl

/-! ### Elements and knot spans -/

theorem uniq_getElem_lt {U : List K} (h : SortedKnots U) {i j : ℕ} (hij : i < j) (hj : j < (uniq U).length) :
    (uniq U)[i] < (uniq U)[j] := List.pairwise_iff_getElem.1 (uniq_sorted h) i j (by omega) hj hij

/-- Element `e` is the knot span `[u_k, u_{k+1})`. -/
theorem element_span {U : List K} (h : SortedKnots U) {e : ℕ} (he : e + 1 < (uniq U).length) :
    ∃ k, k + 1 < U.length ∧ knot U k = (uniq U)[e] ∧ knot U (k + 1) = (uniq U)[e + 1] := by
  classical
  have hm : (uniq U)[e] ∈ U := mem_uniq.1 (List.getElem_mem _)
  have hm1 : (uniq U)[e + 1] ∈ U := mem_uniq.1 (List.getElem_mem _)
  have hlt := uniq_getElem_lt h (Nat.lt_succ_self e) he
  obtain ⟨j, hj, hje⟩ := mem_iff_knot.1 hm1
  -- the first index whose knot is beyond the lower bound
  have hex : ∃ j, j < U.length ∧ (uniq U)[e] < knot U j := ⟨j, hj, by rw [hje]; exact hlt⟩
  obtain ⟨hf1, hf2⟩ := Nat.find_spec hex
  have hmin := fun m (hm : m < Nat.find hex) => Nat.find_min hex hm
  set f := Nat.find hex
  obtain ⟨i, hi, hie⟩ := mem_iff_knot.1 hm
  have hif : i < f := by
    by_contra hc
    have := h.mono (not_lt.1 hc) hi
    rw [hie] at this; exact absurd hf2 (not_lt.2 this)
  have hfj : f ≤ j := by
    by_contra hc
    exact hmin j (not_le.1 hc) ⟨hj, by rw [hje]; exact hlt⟩
  refine ⟨f - 1, by omega, ?_, ?_⟩
  · have h1 := h.mono (show i ≤ f - 1 by omega) (by omega)
    rw [hie] at h1
    have h2 : ¬ (uniq U)[e] < knot U (f - 1) := fun hx => hmin (f - 1) (by omega) ⟨by omega, hx⟩
    exact le_antisymm (not_lt.1 h2) h1
  · rw [show f - 1 + 1 = f by omega]
    have h1 := h.mono hfj hj
    rw [hje] at h1
    -- `knot U f` is one of the different knots, beyond number `e`
    obtain ⟨m, hm, hme⟩ := List.mem_iff_getElem.1 (mem_uniq.2 (knot_mem hf1))
    rw [← hme] at hf2 h1 ⊢
    rcases Nat.lt_trichotomy m (e + 1) with hlt' | heq | hgt
    · exfalso
      rcases Nat.lt_or_ge m e with hh | hh
      · exact absurd hf2 (not_lt.2 (uniq_getElem_lt h hh (by omega)).le)
      · have : m = e := by omega
        subst this; exact lt_irrefl _ hf2
    · subst heq; rfl
    · exact absurd (uniq_getElem_lt h hgt hm) (not_lt.2 h1)

theorem keepThrough_eq {l : List K} {i : ℕ} (hi : i < l.length) (h : ∀ x ∈ l.drop (i + 1), x ≠ l[i]) :
    keepThrough l l[i] = l.take (i + 1) := by
  unfold keepThrough
  have h1 : l = l.take i ++ l[i] :: l.drop (i + 1) := by rw [← List.drop_eq_getElem_cons hi, List.take_append_drop]
  have h2 : l.reverse = (l.drop (i + 1)).reverse ++ l[i] :: (l.take i).reverse := by
    conv_lhs => rw [h1]
    simp
  rw [h2, List.dropWhile_append]
  have h3 : (l.drop (i + 1)).reverse.dropWhile (fun a => decide (a ≠ l[i])) = [] := by
    rw [List.dropWhile_eq_nil_iff]
    intro x hx
    simpa using h x (by simpa using hx)
  rw [h3]
  simp only [List.isEmpty_nil, if_true]
  rw [List.dropWhile_cons_of_neg (by simp), List.reverse_cons, List.reverse_reverse, List.take_succ_eq_append_getElem hi]

theorem internal_eq {U : List K} {p : ℕ} (h : WFKnots U p) : internalKnots U p = .ok ((U.drop p).take (U.length - 2 * p)) := by
  have := h.size
  unfold internalKnots; rw [if_pos (by omega)]

theorem internal_length {U : List K} {p : ℕ} (_h : WFKnots U p) : ((U.drop p).take (U.length - 2 * p)).length = U.length - 2 * p := by
  rw [List.length_take, List.length_drop]; omega

theorem internal_getElem {U : List K} {p : ℕ} (h : WFKnots U p) {i : ℕ} (hi : i < U.length - 2 * p) :
    ((U.drop p).take (U.length - 2 * p))[i]'(by rw [internal_length h]; exact hi) = knot U (p + i) := by
  rw [List.getElem_take, List.getElem_drop, knot_eq (by omega)]

theorem internal_sorted {U : List K} {p : ℕ} (h : WFKnots U p) : SortedKnots ((U.drop p).take (U.length - 2 * p)) :=
  h.sorted.sublist ((List.take_sublist _ _).trans (List.drop_sublist _ _))

theorem uniq_internal {U : List K} {p : ℕ} (h : WFKnots U p) : uniq ((U.drop p).take (U.length - 2 * p)) = uniq U := by
  have hsz := h.size
  refine sorted_ext (uniq_sorted (internal_sorted h)) (uniq_sorted h.sorted) fun x => ?_
  rw [mem_uniq, mem_uniq]
  constructor
  · intro hx; exact List.mem_of_mem_drop (List.mem_of_mem_take hx)
  · intro hx
    obtain ⟨i, hi, rfl⟩ := mem_iff_knot.1 hx
    have hmem : ∀ j, j < U.length - 2 * p → knot U (p + j) ∈ (U.drop p).take (U.length - 2 * p) := fun j hj => by
      rw [← internal_getElem h hj]; exact List.getElem_mem _
    rcases Nat.lt_or_ge i p with h1 | h1
    · rw [h.first i (by omega), ← h.first p (le_refl _)]
      exact hmem 0 (by omega)
    · rcases Nat.lt_or_ge i (U.length - p) with h2 | h2
      · have := hmem (i - p) (by omega)
        rwa [show p + (i - p) = i by omega] at this
      · have e1 := h.last (U.length - 1 - i) (by omega)
        have e2 := h.last p (le_refl _)
        rw [show U.length - 1 - (U.length - 1 - i) = i by omega] at e1
        rw [e1, ← e2]
        have := hmem (U.length - 1 - p - p) (by omega)
        rwa [show p + (U.length - 1 - p - p) = U.length - 1 - p by omega] at this

theorem indexShift_eq {U : List K} {p : ℕ} (h : WFKnots U p) {e k : ℕ} (he : e + 1 < (uniq U).length) (hk : k + 1 < U.length)
    (hk1 : knot U k = (uniq U)[e]) (hk2 : knot U (k + 1) = (uniq U)[e + 1]) :
    p ≤ k ∧ indexShift U p (e : ℤ) = .ok ((k : ℤ) - p - e) := by
  have hsz := h.size
  have hlt := uniq_getElem_lt h.sorted (Nat.lt_succ_self e) he
  have hin : InSpan U k (knot U k) := Or.inl ⟨le_refl _, by rw [hk1, hk2]; exact hlt⟩
  obtain ⟨hpk, hkp⟩ := span_bounds h hk hin
  refine ⟨hpk, ?_⟩
  unfold indexShift
  rw [internal_eq h, ok_bind]
  simp only [uniq_internal h]
  rw [getI_nat, getN_of_lt (by omega : e < (uniq U).length), ok_bind, pure_ok]
  congr 1
  have hkl : k - p < U.length - 2 * p := by omega
  have e1 : ((U.drop p).take (U.length - 2 * p))[k - p]'(by rw [internal_length h]; exact hkl) = (uniq U)[e] := by
    rw [internal_getElem h hkl, ← hk1]; congr 1; omega
  have h1 := keepThrough_eq (l := (U.drop p).take (U.length - 2 * p)) (i := k - p) (by rw [internal_length h]; exact hkl) (by
    intro x hx hxe
    obtain ⟨j, hj, rfl⟩ := List.mem_iff_getElem.1 hx
    rw [List.length_drop, internal_length h] at hj
    rw [List.getElem_drop, internal_getElem h (by omega), e1, ← hk1] at hxe
    have := h.sorted.mono (show k + 1 ≤ p + (k - p + 1 + j) by omega) (by omega)
    rw [hxe, hk1, hk2] at this
    exact absurd hlt (not_lt.2 this))
  have h2 := keepThrough_eq (l := uniq U) (i := e) (by omega) (by
    intro x hx hxe
    obtain ⟨j, hj, rfl⟩ := List.mem_iff_getElem.1 hx
    rw [List.length_drop] at hj
    rw [List.getElem_drop] at hxe
    have := uniq_getElem_lt h.sorted (show e < e + 1 + j by omega) (by omega)
    rw [hxe] at this; exact lt_irrefl _ this)
  rw [e1] at h1
  have l1 : (((U.drop p).take (U.length - 2 * p)).take (k - p + 1)).length = k - p + 1 := by
    rw [List.length_take, internal_length h, Nat.min_eq_left (by omega)]
  have l2 : ((uniq U).take (e + 1)).length = e + 1 := by rw [List.length_take, Nat.min_eq_left (by omega)]
  rw [h1, h2, l1, l2]
  omega

end Elem
end SplineLib
