import Verif.Core.BezierSegment
import Verif.Props.KnotVector

/-!
# Lowering all multiplicities by one (helper lemmas)
-/

namespace SplineLib
set_option linter.unusedSectionVars false
open Finset
variable {K : Type} [Field K] [LinearOrder K] [IsStrictOrderedRing K]

/-- All multiplicities lowered by one. -/
def dec (r : List (K × ℕ)) : List (K × ℕ) := r.map fun a => (a.1, a.2 - 1)

@[simp] theorem dec_fst (r : List (K × ℕ)) : (dec r).map Prod.fst = r.map Prod.fst := by simp [dec]
@[simp] theorem dec_nil : dec ([] : List (K × ℕ)) = [] := rfl
@[simp] theorem dec_cons (a : K × ℕ) (r : List (K × ℕ)) : dec (a :: r) = (a.1, a.2 - 1) :: dec r := rfl
@[simp] theorem dec_append (r q : List (K × ℕ)) : dec (r ++ q) = dec r ++ dec q := by simp [dec]

theorem uniqueCopy_cons_ne {a : K} : ∀ {l : List K}, (∀ x ∈ l, a ≠ x) → PS.uniqueCopy (a :: l) = a :: PS.uniqueCopy l
  | [], _ => rfl
  | b :: l, h => by simp only [PS.uniqueCopy]; rw [if_neg (h b (by simp))]

theorem uniqueCopy_replicate (a : K) (l : List K) : ∀ m, PS.uniqueCopy (List.replicate m a ++ a :: l) = PS.uniqueCopy (a :: l)
  | 0 => rfl
  | m + 1 => by
    have ih := uniqueCopy_replicate a l m
    rcases m with _ | m
    · simp only [List.replicate_succ, List.replicate_zero, List.nil_append, List.cons_append]
      simp [PS.uniqueCopy]
    · rw [List.replicate_succ, List.replicate_succ, List.cons_append, List.cons_append]
      rw [List.replicate_succ, List.cons_append] at ih
      rw [← ih]
      simp [PS.uniqueCopy]

theorem uniqueCopy_expand : ∀ {r : List (K × ℕ)}, Runs r → PS.uniqueCopy (expand r) = r.map Prod.fst
  | [], _ => rfl
  | a :: r, ⟨h1, h2⟩ => by
    obtain ⟨h3, h4⟩ := List.pairwise_cons.1 h1
    have ha := h2 a (by simp)
    have ih := uniqueCopy_expand (r := r) ⟨h4, fun b hb => h2 b (by simp [hb])⟩
    have e : expand (a :: r) = List.replicate (a.2 - 1) a.1 ++ a.1 :: expand r := by
      rw [expand_cons]
      conv_lhs => rw [show a.2 = a.2 - 1 + 1 by omega, List.replicate_succ']
      simp
    rw [e, uniqueCopy_replicate, uniqueCopy_cons_ne, ih]
    · rfl
    · intro x hx
      obtain ⟨b, hb, rfl⟩ := mem_expand hx
      exact ne_of_lt (h3 b hb)

theorem count_expand_succ (pre post : List (K × ℕ)) (a : K) (m : ℕ) (y : K) :
    (expand (pre ++ (a, m) :: post)).count y + (if y = a then 1 else 0) = (expand (pre ++ (a, m + 1) :: post)).count y := by
  simp only [expand_append, expand_cons, List.count_append, List.count_replicate, beq_iff_eq]
  by_cases h : a = y
  · subst h; simp; omega
  · rw [if_neg h, if_neg (Ne.symm h), if_neg h]; omega

theorem kvRemove_run {pre post : List (K × ℕ)} {a : K} {m : ℕ} (h : (pre ++ (a, m + 1) :: post).Pairwise (fun a b => a.1 < b.1))
    (hsep : Separated (expand (pre ++ (a, m + 1) :: post))) :
    kvRemove (expand (pre ++ (a, m + 1) :: post)) a = .ok (expand (pre ++ (a, m) :: post)) := by
  obtain ⟨V, e1, e2, _, e4⟩ := C29_remove_present _ (Runs.sorted h) hsep a (by
    refine mem_expand_of (a := (a, m + 1)) (by simp) (by simp))
  rw [e1]
  have h' : (pre ++ (a, m) :: post).Pairwise (fun a b => a.1 < b.1) := increasing_of_fst h (by simp)
  rw [sorted_eq_of_count e2 (Runs.sorted h') fun y => ?_]
  have := e4 y
  unfold kvMult at this
  rw [← count_expand_succ pre post a m y] at this
  omega

theorem dec_loop {d q : ℕ} : ∀ (r2 r1 : List (K × ℕ)) (ps : PS K), ps.degree[d]? = some q → ps.knots[d]? = some (expand (dec r1 ++ r2)) →
    (r1 ++ r2).Pairwise (fun a b => a.1 < b.1) → (∀ a ∈ r2, 2 ≤ a.2) → Separated (expand (dec r1 ++ r2)) →
    List.Forall₂ (fun U p => p + 1 ≤ U.length) ps.knots ps.degree → PS.basisTable ps.knots ps.degree = .ok ps.basis →
    q + 1 ≤ (expand (dec (r1 ++ r2))).length →
    ∃ ps', PS.forEach (fun ps x => PS.removeKnot ps x d) (r2.map Prod.fst) ps = .ok ps' ∧ ps'.degree = ps.degree ∧
      ps'.knots = ps.knots.set d (expand (dec (r1 ++ r2))) ∧ PS.basisTable ps'.knots ps'.degree = .ok ps'.basis
  | [], r1, ps, hq, hU, _, _, _, _, hb, _ => by
    refine ⟨ps, rfl, rfl, ?_, hb⟩
    rw [List.append_nil] at hU
    rw [List.append_nil, set_same hU]
  | a :: r2, r1, ps, hq, hU, hpw, h2, hsep, hs, hb, hlen => by
    obtain ⟨m, hm⟩ : ∃ m, a.2 = m + 1 := ⟨a.2 - 1, by have := h2 a (by simp); omega⟩
    obtain ⟨x, n⟩ := a
    dsimp only at hm
    subst hm
    have hd : d < ps.knots.length := lt_of_some hU
    have hpw' : (dec r1 ++ (x, m + 1) :: r2).Pairwise (fun a b => a.1 < b.1) := increasing_of_fst hpw (by simp)
    have e1 := kvRemove_run hpw' hsep
    have hle : (expand (dec (r1 ++ (x, m + 1) :: r2))).length ≤ (expand (dec r1 ++ (x, m) :: r2)).length := by
      rw [dec_append, expand_append, expand_append, List.length_append, List.length_append, dec_cons, expand_cons, expand_cons,
        List.length_append, List.length_append]
      have : ∀ r : List (K × ℕ), (expand (dec r)).length ≤ (expand r).length := by
        intro r
        induction r with
        | nil => simp
        | cons a r ih => simp only [dec_cons, expand_cons, List.length_append, List.length_replicate]; omega
      have := this r2
      simp only [List.length_replicate, Nat.add_sub_cancel]
      omega
    have hs' : List.Forall₂ (fun U p => p + 1 ≤ U.length) (ps.knots.set d (expand (dec r1 ++ (x, m) :: r2))) ps.degree :=
      forall₂_set hs hq (by omega)
    have e2 : PS.removeKnot ps x d = .ok ⟨ps.knots.set d (expand (dec r1 ++ (x, m) :: r2)), ps.degree, mkTable (ps.knots.set d (expand (dec r1 ++ (x, m) :: r2))) ps.degree⟩ := by
      unfold PS.removeKnot
      rw [getN_some hU, ok_bind, e1, ok_bind]
      unfold PS.recreate
      dsimp only
      rw [basisTable_eq hs', ok_bind]
      rfl
    have e3 : dec (r1 ++ [(x, m + 1)]) ++ r2 = dec r1 ++ (x, m) :: r2 := by simp
    have e4 : r1 ++ [(x, m + 1)] ++ r2 = r1 ++ (x, m + 1) :: r2 := by simp
    have hm1 : 1 ≤ m := by have := h2 (x, m + 1) (by simp); dsimp only at this; omega
    obtain ⟨ps', f1, f2, f3, f4⟩ := dec_loop r2 (r1 ++ [(x, m + 1)])
      ⟨ps.knots.set d (expand (dec r1 ++ (x, m) :: r2)), ps.degree, mkTable (ps.knots.set d (expand (dec r1 ++ (x, m) :: r2))) ps.degree⟩ hq
      (by rw [e3]; exact List.getElem?_set_self hd) (by rw [e4]; exact hpw) (fun b hb => h2 b (by simp [hb]))
      (by
        rw [e3]
        intro y hy z hz hyz
        have key : ∀ y, y ∈ expand (dec r1 ++ (x, m) :: r2) → y ∈ expand (dec r1 ++ (x, m + 1) :: r2) := by
          intro y hy
          simp only [expand_append, expand_cons, List.mem_append, List.mem_replicate] at hy ⊢
          tauto
        exact hsep y (key y hy) z (key z hz) hyz)
      hs' (basisTable_eq hs') (by rw [e4]; exact hlen)
    refine ⟨ps', ?_, f2, ?_, f4⟩
    · rw [List.map_cons, PS.forEach, e2, ok_bind]
      exact f1
    · rw [f3, e4, List.set_set]

theorem decrement_ok {d q : ℕ} {r : List (K × ℕ)} {ps : PS K} (hq : ps.degree[d]? = some q) (hU : ps.knots[d]? = some (expand r))
    (hr : Runs r) (hne : r ≠ []) (h2 : ∀ a ∈ r, 2 ≤ a.2) (hsep : Separated (expand r)) (hs : List.Forall₂ (fun U p => p + 1 ≤ U.length) ps.knots ps.degree)
    (hb : PS.basisTable ps.knots ps.degree = .ok ps.basis) (hlen : q + 1 ≤ (expand (dec r)).length) :
    ∃ ps', ps.decrementMultiplicities d = .ok ps' ∧ ps'.degree = ps.degree ∧ ps'.knots = ps.knots.set d (expand (dec r)) ∧
      PS.basisTable ps'.knots ps'.degree = .ok ps'.basis := by
  unfold PS.decrementMultiplicities
  rw [getN_some hU, ok_bind]
  unfold PS.uniqueKnots
  rw [uniqueCopy_expand hr, if_pos (by rw [kvNumDifferent_expand hr hne]; simp), ok_bind]
  exact dec_loop r [] ps hq hU hr.1 h2 hsep hs hb hlen

end SplineLib
