import Verif.Model.Projection
import Verif.Core.Elements
import Verif.Core.Elevate
import Verif.Core.Sqrt
import Mathlib.Tactic.LinearCombination
import Mathlib.Tactic.Linarith
import Mathlib.Tactic.FieldSimp

/-!
# Lemmas about the projection onto curves and surfaces
-/

namespace SplineLib
set_option linter.unusedSectionVars false

namespace Vec
variable {K : Type} [Field K] [LinearOrder K] [IsStrictOrderedRing K]

/-- The scalar product of two vectors. -/
def dot (a b : List K) : K := (List.zipWith (· * ·) a b).sum

/-- The difference of two vectors. -/
def sub (a b : List K) : List K := List.zipWith (· - ·) a b

theorem foldl_add (l : List K) : ∀ a : K, l.foldl (· + ·) a = a + l.sum := by
  induction l with
  | nil => simp
  | cons x l ih => intro a; rw [List.foldl_cons, ih, List.sum_cons]; ring

theorem difference_eq {a b : List K} (h : a.length = b.length) : difference a b = .ok (sub a b) := by
  unfold difference sub
  rw [if_neg (by omega), h, List.drop_length, List.append_nil]

theorem scalarProduct_eq {a b : List K} (h : a.length = b.length) : scalarProduct a b = .ok (dot a b) := by
  unfold scalarProduct dot
  rw [if_neg (by omega), h, List.drop_length, List.append_nil, foldl_add, zero_add]

theorem sub_length {a b : List K} (h : a.length = b.length) : (sub a b).length = a.length := by
  unfold sub; rw [List.length_zipWith]; omega

theorem dot_self (a : List K) : dot a a = (a.map fun x => x * x).sum := by
  unfold dot
  rw [List.zipWith_self]

theorem dot_self_nonneg (a : List K) : 0 ≤ dot a a := by rw [dot_self]; exact sum_sq_nonneg a

/-- The point `A + x D` of a straight line. -/
def pt (A D : List K) (x : K) : List K := List.zipWith (fun a d => a + x * d) A D

theorem pt_length {A D : List K} (h : A.length = D.length) (x : K) : (pt A D x).length = D.length := by
  unfold pt; rw [List.length_zipWith]; omega

theorem dot_sub_pt {P A D E : List K} (h1 : P.length = D.length) (h2 : A.length = D.length) (h3 : E.length = D.length) (x : K) :
    dot E (sub P (pt A D x)) = dot E (sub P A) - x * dot E D := by
  induction D generalizing P A E with
  | nil =>
    rw [List.length_eq_zero_iff.1 h1, List.length_eq_zero_iff.1 h2, List.length_eq_zero_iff.1 h3]
    simp [dot, sub, pt]
  | cons d D ih =>
    obtain ⟨a, P, rfl⟩ := List.exists_cons_of_length_eq_add_one h1
    obtain ⟨b, A, rfl⟩ := List.exists_cons_of_length_eq_add_one h2
    obtain ⟨e, E, rfl⟩ := List.exists_cons_of_length_eq_add_one h3
    have ih := ih (P := P) (A := A) (E := E) (by simpa using h1) (by simpa using h2) (by simpa using h3)
    simp only [dot, sub, pt, List.zipWith_cons_cons, List.sum_cons] at ih ⊢
    rw [ih]; ring

theorem dot_comm (a b : List K) : dot a b = dot b a := by
  unfold dot
  rw [List.zipWith_comm]
  simp only [mul_comm]

theorem dist_pt {P A D : List K} (h1 : P.length = D.length) (h2 : A.length = D.length) (x : K) :
    dot (sub P (pt A D x)) (sub P (pt A D x)) = dot (sub P A) (sub P A) - 2 * x * dot D (sub P A) + x * x * dot D D := by
  have hl : (sub P A).length = D.length := by rw [sub_length (h1.trans h2.symm), h1]
  have hl' : (sub P (pt A D x)).length = D.length := by rw [sub_length (h1.trans (pt_length h2 x).symm), h1]
  rw [dot_sub_pt h1 h2 hl', dot_comm _ (sub P A), dot_comm _ D, dot_sub_pt h1 h2 hl, dot_sub_pt h1 h2 rfl, dot_comm (sub P A) D]
  ring

theorem distance_eq [HasSqrt K] {a b : List K} (h : a.length = b.length) : distance a b = .ok (HasSqrt.sqrt (dot (sub a b) (sub a b))) := by
  unfold distance
  rw [difference_eq h, ok_bind]
  unfold Phys.twoNorm
  rw [foldl_sq, zero_add, ← dot_self]
  rfl

end Vec

namespace Proj
variable {K : Type} [Field K] [LinearOrder K] [IsStrictOrderedRing K]

theorem fdiv_eq_ok {a b c : K} : fdiv a b = .ok c ↔ b ≠ 0 ∧ a / b = c := by
  unfold fdiv
  split
  · rename_i h; simp [h]
  · rename_i h; simp [h]

theorem clamp_mem {lo hi : K} (h : lo ≤ hi) (x : K) : lo ≤ clamp lo hi x ∧ clamp lo hi x ≤ hi := by
  unfold clamp
  split
  · exact ⟨le_refl _, h⟩
  · split
    · exact ⟨h, le_refl _⟩
    · rename_i h1 h2; exact ⟨not_lt.1 h1, not_lt.1 h2⟩

theorem clamp_of_mem {lo hi x : K} (h0 : lo ≤ x) (h1 : x ≤ hi) : clamp lo hi x = x := by
  unfold clamp
  rw [if_neg (not_lt.2 h0), if_neg (not_lt.2 h1)]

theorem clamp_eq {lo hi : K} (h : lo ≤ hi) (x : K) : clamp lo hi x = max lo (min hi x) := by
  unfold clamp
  split
  · rename_i h1
    rw [min_eq_right (h1.le.trans h), max_eq_left h1.le]
  · split
    · rename_i h1 h2
      rw [min_eq_left (le_of_lt h2), max_eq_right h]
    · rename_i h1 h2
      rw [min_eq_right (not_lt.1 h2), max_eq_right (not_lt.1 h1)]

theorem check_eq {s : Spl K} {U : List K} {p : ℕ} (hU : s.ps.knots[0]? = some U) (hw : WFKnots U p) (x : List K) :
    check s x = .ok (x.map (clamp (knot U 0) (lastKnot U))) := by
  unfold check
  rw [getN_some hU, ok_bind, kvGet_eq (by have := hw.size; omega), ok_bind, kvLast_eq hw.ne_nil, ok_bind]
  rfl

theorem loop_result {step : List K → M (List K)} {s : Spl K} {tol : K} {I : List K → Prop}
    (hI : ∀ x δ y, I x → step x = .ok δ → check s (update x δ) = .ok y → I y) :
    ∀ {fuel it : ℕ} {x : List K} {r : List K × ℕ}, it + fuel = 1001 → I x → loop step s tol fuel it x = .ok r →
    r.2 ≤ 1001 ∧ ∃ x0 δ, I x0 ∧ step x0 = .ok δ ∧ check s (update x0 δ) = .ok r.1 ∧ (r.2 < 1001 → converged δ tol = true) := by
  intro fuel
  induction fuel with
  | zero => intro it x r _ _ h; cases h
  | succ n ih =>
    intro it x r hn hx h
    unfold loop at h
    obtain ⟨δ, h1, h⟩ := bind_eq_ok.1 h
    obtain ⟨y, h2, h⟩ := bind_eq_ok.1 h
    split at h
    · rename_i hc
      cases h
      refine ⟨by simp only; omega, x, δ, hx, h1, h2, fun hlt => ?_⟩
      simp only at hlt
      rw [Bool.or_eq_true, decide_eq_true_eq] at hc
      rcases hc with hc | hc
      · exact hc
      · omega
    · exact ih (by omega) (hI _ _ _ hx h1 h2) h

theorem loop_total {step : List K → M (List K)} {s : Spl K} {tol : K} {I : List K → Prop}
    (hstep : ∀ x, I x → step x = .error .nonfinite ∨ ∃ δ y, step x = .ok δ ∧ check s (update x δ) = .ok y ∧ I y) :
    ∀ {fuel it : ℕ} {x : List K}, it + fuel = 1001 → it < 1001 → I x →
      (∃ r, loop step s tol fuel it x = .ok r) ∨ (loop step s tol fuel it x = .error .nonfinite ∧ ∃ x, I x ∧ step x = .error .nonfinite) := by
  intro fuel
  induction fuel with
  | zero => intro it x h1 h2 _; omega
  | succ n ih =>
    intro it x h1 h2 hI
    unfold loop
    rcases hstep x hI with h | ⟨δ, y, e1, e2, hy⟩
    · rw [h]; exact Or.inr ⟨rfl, x, hI, h⟩
    · rw [e1, ok_bind, e2, ok_bind]
      split
      · exact Or.inl ⟨_, rfl⟩
      · rename_i hc
        rw [Bool.or_eq_true, decide_eq_true_eq, not_or] at hc
        exact ih (by omega) (by omega) hy

theorem dimensions_eq (P : List K) : dimensions P = zl (List.range P.length) := rfl

theorem converged_iff {δ : List K} {tol : K} : converged δ tol = true ↔ ∀ d ∈ δ, |d| < tol := by
  unfold converged
  rw [List.all_eq_true]
  exact forall₂_congr fun d _ => by simp

/-- One step on a curve. -/
theorem delta1_eq_ok {C dC P δ : List K} (hC : C.length = P.length) (hd : dC.length = P.length) :
    delta1 C dC P = .ok δ ↔ Vec.dot dC dC ≠ 0 ∧ δ = [Vec.dot dC (Vec.sub P C) / Vec.dot dC dC] := by
  unfold delta1
  rw [Vec.difference_eq hC.symm, ok_bind, Vec.scalarProduct_eq (by rw [Vec.sub_length hC.symm, hd]), ok_bind, Vec.scalarProduct_eq rfl, ok_bind]
  unfold fdiv
  split
  · rename_i h; simp [h]
  · rename_i h; rw [ok_bind]; simp only [ne_eq, h, not_false_eq_true, true_and]
    constructor
    · intro h; cases h; rfl
    · rintro rfl; rfl

theorem delta1_err {C dC P : List K} (hC : C.length = P.length) (hd : dC.length = P.length) (h0 : Vec.dot dC dC = 0) :
    delta1 C dC P = .error .nonfinite := by
  unfold delta1
  rw [Vec.difference_eq hC.symm, ok_bind, Vec.scalarProduct_eq (by rw [Vec.sub_length hC.symm, hd]), ok_bind, Vec.scalarProduct_eq rfl, ok_bind]
  unfold fdiv
  rw [if_pos h0]; rfl

theorem length3 {l : List K} (h : l.length = 3) : ∃ a b c, l = [a, b, c] := by
  match l, h with
  | [a, b, c], _ => exact ⟨a, b, c, rfl⟩

theorem cross3 (a b c x y z : K) : Vec.crossProduct [a, b, c] [x, y, z] = .ok [b * z - c * y, c * x - a * z, a * y - b * x] := rfl

theorem crossProduct_short {a b : List K} (h : a.length < 3) : Vec.crossProduct a b = .error .ub := by
  match a, h with
  | [], _ => rfl
  | [_], _ => rfl
  | [_, _], _ => rfl

variable [HasSqrt K]

/-- The Gram determinant of the two derivatives. -/
def gram (Su Sv : List K) : K := Vec.dot Su Su * Vec.dot Sv Sv - Vec.dot Sv Su * Vec.dot Sv Su

theorem getQ_eq_ok {P S Su Sv q : List K} (hP : P.length = 3) (hS : S.length = 3) (hu : Su.length = 3) (hv : Sv.length = 3)
    (h : getQ P S Su Sv = .ok q) : q.length = 3 ∧ Vec.dot (Vec.sub q S) Su = Vec.dot (Vec.sub P S) Su ∧
      Vec.dot (Vec.sub q S) Sv = Vec.dot (Vec.sub P S) Sv := by
  obtain ⟨p0, p1, p2, rfl⟩ := length3 hP
  obtain ⟨s0, s1, s2, rfl⟩ := length3 hS
  obtain ⟨a0, a1, a2, rfl⟩ := length3 hu
  obtain ⟨b0, b1, b2, rfl⟩ := length3 hv
  unfold getQ at h
  rw [cross3, ok_bind] at h
  obtain ⟨f, _, h⟩ := bind_eq_ok.1 h
  dsimp only at h
  rw [Vec.scalarProduct_eq (by simp [Vec.scale]), ok_bind, Vec.scalarProduct_eq (by simp [Vec.scale]), ok_bind,
    Vec.difference_eq (by simp [Vec.scale])] at h
  cases h
  refine ⟨by simp [Vec.sub, Vec.scale], ?_, ?_⟩ <;>
  · simp only [Vec.dot, Vec.sub, Vec.scale, List.map_cons, List.map_nil, List.zipWith_cons_cons, List.zipWith_nil_left, List.sum_cons,
      List.sum_nil]
    ring

theorem delta2_eq_ok {P S Su Sv δ : List K} (hP : P.length = 3) (hS : S.length = 3) (hu : Su.length = 3) (hv : Sv.length = 3)
    (h : delta2 S Su Sv P = .ok δ) : gram Su Sv ≠ 0 ∧ ∃ d1 d2, δ = [d1, d2] ∧
      d1 * Vec.dot Su Su + d2 * Vec.dot Sv Su = Vec.dot (Vec.sub P S) Su ∧
      d1 * Vec.dot Sv Su + d2 * Vec.dot Sv Sv = Vec.dot (Vec.sub P S) Sv := by
  unfold delta2 at h
  obtain ⟨q, hq, h⟩ := bind_eq_ok.1 h
  obtain ⟨l, e1, e2⟩ := getQ_eq_ok hP hS hu hv hq
  rw [Vec.difference_eq (by omega), ok_bind, Vec.scalarProduct_eq rfl, ok_bind, Vec.scalarProduct_eq (by omega), ok_bind,
    Vec.scalarProduct_eq (by rw [Vec.sub_length (by omega)]; omega), ok_bind, Vec.scalarProduct_eq rfl, ok_bind,
    Vec.scalarProduct_eq (by rw [Vec.sub_length (by omega)]; omega), ok_bind, e1, e2] at h
  obtain ⟨d2, h2, h⟩ := bind_eq_ok.1 h
  obtain ⟨d1, h1, h⟩ := bind_eq_ok.1 h
  cases h
  obtain ⟨n2, h2⟩ := fdiv_eq_ok.1 h2
  obtain ⟨n1, h1⟩ := fdiv_eq_ok.1 h1
  refine ⟨n2, d1, d2, rfl, ?_, ?_⟩
  · rw [← h1]; field_simp; ring
  · rw [← h1]
    have : d2 * (Vec.dot Su Su * Vec.dot Sv Sv - Vec.dot Sv Su * Vec.dot Sv Su) =
        Vec.dot Su Su * Vec.dot (Vec.sub P S) Sv - Vec.dot Sv Su * Vec.dot (Vec.sub P S) Su := by
      rw [← h2]; exact div_mul_cancel₀ _ n2
    field_simp
    linear_combination this

theorem gram_cross (a0 a1 a2 b0 b1 b2 : K) : gram [a0, a1, a2] [b0, b1, b2] =
    0 + (a1 * b2 - a2 * b1) * (a1 * b2 - a2 * b1) + (a2 * b0 - a0 * b2) * (a2 * b0 - a0 * b2) + (a0 * b1 - a1 * b0) * (a0 * b1 - a1 * b0) := by
  simp only [gram, Vec.dot, List.zipWith_cons_cons, List.zipWith_nil_left, List.sum_cons, List.sum_nil]
  ring

theorem gram_nonneg {Su Sv : List K} (hu : Su.length = 3) (hv : Sv.length = 3) : 0 ≤ gram Su Sv := by
  obtain ⟨a0, a1, a2, rfl⟩ := length3 hu
  obtain ⟨b0, b1, b2, rfl⟩ := length3 hv
  rw [gram_cross]
  exact add_nonneg (add_nonneg (add_nonneg le_rfl (mul_self_nonneg _)) (mul_self_nonneg _)) (mul_self_nonneg _)

/-- Without the tangent vectors being parallel the step is defined, otherwise it divides by zero. -/
theorem delta2_total [LawfulSqrt K] {P S Su Sv : List K} (hP : P.length = 3) (hS : S.length = 3) (hu : Su.length = 3) (hv : Sv.length = 3) :
    (gram Su Sv = 0 → delta2 S Su Sv P = .error .nonfinite) ∧ (gram Su Sv ≠ 0 → ∃ δ, delta2 S Su Sv P = .ok δ) := by
  obtain ⟨a0, a1, a2, rfl⟩ := length3 hu
  obtain ⟨b0, b1, b2, rfl⟩ := length3 hv
  have hn : Phys.twoNorm [a1 * b2 - a2 * b1, a2 * b0 - a0 * b2, a0 * b1 - a1 * b0] = HasSqrt.sqrt (gram [a0, a1, a2] [b0, b1, b2]) := by
    rw [gram_cross]; rfl
  have hg := gram_nonneg (Su := [a0, a1, a2]) (Sv := [b0, b1, b2]) rfl rfl
  constructor
  · intro h0
    unfold delta2 getQ
    rw [cross3, ok_bind, hn, h0, sqrt_zero]
    unfold fdiv
    rw [if_pos rfl]; rfl
  · intro h0
    have hs : HasSqrt.sqrt (gram [a0, a1, a2] [b0, b1, b2]) ≠ 0 := fun hc => by
      have := LawfulSqrt.sq _ hg
      rw [hc, mul_zero] at this
      exact h0 this.symm
    obtain ⟨q, hq⟩ : ∃ q, getQ P S [a0, a1, a2] [b0, b1, b2] = .ok q := by
      unfold getQ
      rw [cross3, ok_bind, hn]
      unfold fdiv
      rw [if_neg hs, ok_bind]
      dsimp only
      rw [Vec.scalarProduct_eq (by simp [Vec.scale, hS]), ok_bind, Vec.scalarProduct_eq (by simp [Vec.scale, hP]), ok_bind,
        Vec.difference_eq (by simp [Vec.scale, hP])]
      exact ⟨_, rfl⟩
    obtain ⟨l, e1, e2⟩ := getQ_eq_ok hP hS rfl rfl hq
    unfold delta2
    rw [hq, ok_bind, Vec.difference_eq (by omega), ok_bind, Vec.scalarProduct_eq (a := [a0, a1, a2]) (b := [a0, a1, a2]) rfl, ok_bind,
      Vec.scalarProduct_eq (a := [b0, b1, b2]) (b := [a0, a1, a2]) rfl, ok_bind,
      Vec.scalarProduct_eq (a := Vec.sub q S) (b := [a0, a1, a2]) (by rw [Vec.sub_length (by omega)]; exact l), ok_bind,
      Vec.scalarProduct_eq (a := [b0, b1, b2]) (b := [b0, b1, b2]) rfl, ok_bind,
      Vec.scalarProduct_eq (a := Vec.sub q S) (b := [b0, b1, b2]) (by rw [Vec.sub_length (by omega)]; exact l), ok_bind]
    have ha : Vec.dot [a0, a1, a2] [a0, a1, a2] ≠ 0 := fun hc => by
      have h1 : gram [a0, a1, a2] [b0, b1, b2] ≤ 0 := by
        unfold gram
        rw [hc, zero_mul, zero_sub]
        exact neg_nonpos.2 (mul_self_nonneg _)
      exact h0 (le_antisymm h1 hg)
    unfold fdiv
    rw [if_neg (show ¬ (Vec.dot [a0, a1, a2] [a0, a1, a2] * Vec.dot [b0, b1, b2] [b0, b1, b2] -
      Vec.dot [b0, b1, b2] [a0, a1, a2] * Vec.dot [b0, b1, b2] [a0, a1, a2] = 0) from h0), ok_bind, if_neg ha, ok_bind]
    exact ⟨_, rfl⟩

theorem delta2_short {P S Su Sv : List K} (hu : Su.length < 3) : delta2 S Su Sv P = .error .ub := by
  unfold delta2 getQ
  rw [crossProduct_short hu]
  rfl

end Proj
end SplineLib
