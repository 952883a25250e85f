import Verif.Core.Insert

/-!
# Constructors (helper lemmas)
-/

namespace SplineLib
set_option linter.unusedSectionVars false
open Finset

section
variable {K : Type} [Field K] [LinearOrder K] [IsStrictOrderedRing K]

theorem getElem?_knot {U : List K} {i j : ℕ} (hi : i < U.length) (hj : j < U.length) : U[i]? = U[j]? ↔ knot U i = knot U j := by
  rw [knot_eq hi, knot_eq hj, List.getElem?_eq_getElem hi, List.getElem?_eq_getElem hj]; simp

theorem clamped_iff {U : List K} {p : ℕ} : PS.clamped U p = true ↔
    (2 * p + 2 ≤ U.length ∧ (∀ j ≤ p, knot U j = knot U 0) ∧ ∀ j ≤ p, knot U (U.length - 1 - j) = lastKnot U) := by
  unfold PS.clamped
  simp only [Bool.and_eq_true, decide_eq_true_eq, List.all_eq_true, List.mem_range]
  constructor
  · rintro ⟨⟨h1, h2⟩, h3⟩
    refine ⟨h1, ?_, ?_⟩
    · intro j hj
      cases j with
      | zero => rfl
      | succ j => exact (getElem?_knot (by omega) (by omega)).1 (h2 j (by omega))
    · intro j hj
      cases j with
      | zero => rfl
      | succ j =>
        have := (getElem?_knot (U := U) (by omega) (by omega)).1 (h3 j (by omega))
        rw [show U.length - 1 - (j + 1) = U.length - 2 - j by omega]; exact this
  · rintro ⟨h1, h2, h3⟩
    refine ⟨⟨h1, ?_⟩, ?_⟩
    · intro j hj
      exact (getElem?_knot (by omega) (by omega)).2 (h2 (j + 1) (by omega))
    · intro j hj
      refine (getElem?_knot (by omega) (by omega)).2 ?_
      have := h3 (j + 1) (by omega)
      rw [show U.length - 1 - (j + 1) = U.length - 2 - j by omega] at this; exact this

theorem WFKnots.clamped {U : List K} {p : ℕ} (h : WFKnots U p) : PS.clamped U p = true := clamped_iff.2 ⟨h.size, h.first, h.last⟩

theorem checkKnots_ok {Us : List (List K)} {ps : List ℕ} (h : List.Forall₂ (fun U p => PS.clamped U p = true) Us ps) :
    PS.checkKnots Us ps = .ok () := by
  induction h with
  | nil => rfl
  | cons h _ ih => simp [PS.checkKnots, h, ih]

theorem checkKnots_err {Us : List (List K)} : ∀ {ps : List ℕ}, ps.length = Us.length →
    ¬ List.Forall₂ (fun U p => PS.clamped U p = true) Us ps → PS.checkKnots Us ps = .error (.thrown .runtimeError) := by
  induction Us with
  | nil => intro ps hl h; cases ps <;> simp_all
  | cons U Us ih =>
    intro ps hl h
    cases ps with
    | nil => simp at hl
    | cons p ps =>
      simp only [PS.checkKnots]
      by_cases hc : PS.clamped U p = true
      · rw [if_pos hc]
        exact ih (by simpa using hl) fun h' => h (.cons hc h')
      · rw [if_neg hc]

theorem clamped_sizes {Us : List (List K)} {ps : List ℕ} (h : List.Forall₂ (fun U p => PS.clamped U p = true) Us ps) :
    List.Forall₂ (fun U p => p + 1 ≤ U.length) Us ps := h.imp fun U p h => by have := (clamped_iff.1 h).1; omega

theorem pointNumbers_eq {Us : List (List K)} {ps : List ℕ} (h : List.Forall₂ (fun U p => p + 1 ≤ U.length) Us ps) :
    Spl.pointNumbers Us ps = zl (nptsOf Us ps) := by
  induction h with
  | nil => rfl
  | cons h _ ih => simp only [Spl.pointNumbers, nptsOf, List.zipWith_cons_cons, List.map_cons] at *; rw [ih]; congr 1; omega

theorem foldl_mul_zl (l : List ℕ) : ∀ a : ℕ, (zl l).foldl (· * ·) (a : ℤ) = ((a * l.prod : ℕ) : ℤ) := by
  induction l with
  | nil => intro a; simp
  | cons b l ih =>
    intro a
    simp only [List.map_cons, List.foldl_cons]
    rw [show ((a : ℤ) * (b : ℤ)) = ((a * b : ℕ) : ℤ) by push_cast; rfl, ih, List.prod_cons, Nat.mul_assoc]

theorem toSizeT_eq {n : ℕ} (h : n < 2 ^ 64) : toSizeT (n : ℤ) = n := by
  unfold toSizeT; omega

/-- The physical space constructor. -/
theorem physNew_eq {points : List (List K)} {ns : List ℕ} (hne : points ≠ []) (hsz : ns.prod < 2 ^ 64) :
    ((points.length = ns.prod ∧ ∃ m, ∀ q ∈ points, q.length = m) →
      Phys.new points (zl ns) = .ok ⟨(points.head hne).length, zl ns, points.flatten, none⟩) ∧
    (¬ (points.length = ns.prod ∧ ∃ m, ∀ q ∈ points, q.length = m) → Phys.new points (zl ns) = .error (.thrown .runtimeError)) := by
  cases points with
  | nil => exact absurd rfl hne
  | cons p0 pts =>
    have e : toSizeT ((zl ns).foldl (· * ·) 1) = ns.prod := by
      have := foldl_mul_zl ns 1
      rw [Nat.cast_one, Nat.one_mul] at this
      rw [this, toSizeT_eq hsz]
    have e2 : (p0 :: pts).all (fun p => p.length = p0.length) = true ↔ ∃ m, ∀ q ∈ (p0 :: pts), q.length = m := by
      rw [List.all_eq_true]
      simp only [decide_eq_true_eq]
      exact ⟨fun h => ⟨_, h⟩, fun ⟨m, hm⟩ q hq => by rw [hm q hq, hm p0 (by simp)]⟩
    simp only [Phys.new, e]
    constructor
    · rintro ⟨h1, h2⟩
      rw [if_neg (by omega), if_pos (e2.2 h2)]; rfl
    · intro h
      by_cases h1 : ns.prod = (p0 :: pts).length
      · rw [if_neg (by omega), if_neg]
        intro hc; exact h ⟨h1.symm, e2.1 hc⟩
      · rw [if_pos h1]

theorem flatten_getD {points : List (List K)} {m : ℕ} (h : ∀ q ∈ points, q.length = m) : ∀ {i c : ℕ}, c < m →
    points.flatten.getD (m * i + c) 0 = (points.getD i []).getD c 0 := by
  induction points with
  | nil => intro i c _; simp
  | cons q points ih =>
    intro i c hc
    have hq := h q (by simp)
    cases i with
    | zero =>
      simp only [List.getD_eq_getElem?_getD, List.flatten_cons, List.getElem?_append]
      rw [if_pos (by omega)]; simp
    | succ i =>
      have := ih (fun r hr => h r (by simp [hr])) (i := i) hc
      simp only [List.getD_eq_getElem?_getD, List.flatten_cons, List.getElem?_append] at this ⊢
      rw [if_neg (by rw [Nat.mul_add]; omega), hq, show m * (i + 1) + c - m = m * i + c by rw [Nat.mul_add]; omega, this]
      simp

theorem flatten_length' {points : List (List K)} {m : ℕ} (h : ∀ q ∈ points, q.length = m) : points.flatten.length = m * points.length := by
  induction points with
  | nil => simp
  | cons q points ih =>
    rw [List.flatten_cons, List.length_append, ih fun r hr => h r (by simp [hr]), h q (by simp), List.length_cons]
    ring

/-- The data of a spline. -/
structure Built (s : Spl K) (Us : List (List K)) (ps : List ℕ) (points : List (List K)) (ws : Option (List K)) : Prop where
  knots : s.ps.knots = Us
  degree : s.ps.degree = ps
  basis : s.ps.basis = mkTable Us ps
  dim : ∀ q ∈ points, s.ph.dim = q.length
  num : s.ph.num = zl (nptsOf Us ps)
  cps : s.ph.cps = points.flatten
  weights : s.ph.weights = ws

theorem Built.ext {s t : Spl K} {knots : List (List K)} {degree : List ℕ} {points : List (List K)} {weights : Option (List K)}
    (hne : points ≠ []) (h1 : Built s knots degree points weights) (h2 : Built t knots degree points weights) : s = t := by
  obtain ⟨⟨a1, a2, a3⟩, ⟨b1, b2, b3, b4⟩⟩ := s
  obtain ⟨⟨c1, c2, c3⟩, ⟨d1, d2, d3, d4⟩⟩ := t
  obtain ⟨h11, h12, h13, h14, h15, h16, h17⟩ := h1
  obtain ⟨h21, h22, h23, h24, h25, h26, h27⟩ := h2
  have e1 := h14 _ (List.head_mem hne)
  have e2 := h24 _ (List.head_mem hne)
  simp_all

theorem head_dim {points : List (List K)} (hne : points ≠ []) (h : ∃ m, ∀ q ∈ points, q.length = m) :
    ∀ q ∈ points, (points.head hne).length = q.length := by
  obtain ⟨m, hm⟩ := h
  intro q hq
  rw [hm q hq, hm _ (List.head_mem hne)]

theorem psNew_copy {knots : List (List K)} {degree : List ℕ} (h : List.Forall₂ (fun U p => PS.clamped U p = true) knots degree) :
    PS.new knots degree = .ok ⟨knots, degree, mkTable knots degree⟩ ∧
      PS.copy (⟨knots, degree, mkTable knots degree⟩ : PS K) = .ok ⟨knots, degree, mkTable knots degree⟩ := by
  simp only [PS.new, PS.copy, checkKnots_ok h, ok_bind, basisTable_eq (clamped_sizes h), pure_ok, and_self]

theorem newBSpline_ok {knots : List (List K)} {degree : List ℕ} {points : List (List K)} (hne : points ≠ [])
    (h : List.Forall₂ (fun U p => PS.clamped U p = true) knots degree) (hsz : (nptsOf knots degree).prod < 2 ^ 64)
    (hl : points.length = (nptsOf knots degree).prod) (hm : ∃ m, ∀ q ∈ points, q.length = m) :
    ∃ s, Spl.newBSpline knots degree points = .ok s ∧ Built s knots degree points none := by
  obtain ⟨e1, e2⟩ := psNew_copy h
  have e3 := (physNew_eq hne hsz).1 ⟨hl, hm⟩
  rw [← pointNumbers_eq (clamped_sizes h)] at e3
  refine ⟨⟨⟨knots, degree, mkTable knots degree⟩, ⟨(points.head hne).length, Spl.pointNumbers knots degree, points.flatten, none⟩⟩, ?_, ?_⟩
  · simp only [Spl.newBSpline, e1, e2, e3, ok_bind]; rfl
  · exact ⟨rfl, rfl, rfl, head_dim hne hm, pointNumbers_eq (clamped_sizes h), rfl, rfl⟩

theorem newNurbs_ok {knots : List (List K)} {degree : List ℕ} {points : List (List K)} {weights : List K} (hne : points ≠ [])
    (h : List.Forall₂ (fun U p => PS.clamped U p = true) knots degree) (hsz : (nptsOf knots degree).prod < 2 ^ 64)
    (hl : points.length = (nptsOf knots degree).prod) (hm : ∃ m, ∀ q ∈ points, q.length = m) (hw : weights.length = points.length) :
    ∃ s, Spl.newNurbs knots degree points weights = .ok s ∧ Built s knots degree points (some weights) := by
  obtain ⟨e1, e2⟩ := psNew_copy h
  have e3 := (physNew_eq hne hsz).1 ⟨hl, hm⟩
  rw [← pointNumbers_eq (clamped_sizes h)] at e3
  refine ⟨⟨⟨knots, degree, mkTable knots degree⟩, ⟨(points.head hne).length, Spl.pointNumbers knots degree, points.flatten, some weights⟩⟩, ?_, ?_⟩
  · simp only [Spl.newNurbs, Phys.newWeighted, e1, e2, e3, ok_bind, ne_eq, hw, not_true_eq_false, if_false]; rfl
  · exact ⟨rfl, rfl, rfl, head_dim hne hm, pointNumbers_eq (clamped_sizes h), rfl, rfl⟩

theorem newBSpline_err {knots : List (List K)} {degree : List ℕ} {points : List (List K)} (hne : points ≠ [])
    (hdl : degree.length = knots.length) (hsz : (nptsOf knots degree).prod < 2 ^ 64)
    (h : ¬ (List.Forall₂ (fun U p => PS.clamped U p = true) knots degree ∧ points.length = (nptsOf knots degree).prod ∧
      ∃ m, ∀ q ∈ points, q.length = m)) : Spl.newBSpline knots degree points = .error (.thrown .runtimeError) := by
  by_cases hc : List.Forall₂ (fun U p => PS.clamped U p = true) knots degree
  · obtain ⟨e1, e2⟩ := psNew_copy hc
    have e3 := (physNew_eq hne hsz).2 fun h' => h ⟨hc, h'⟩
    rw [← pointNumbers_eq (clamped_sizes hc)] at e3
    simp only [Spl.newBSpline, e1, e2, e3, ok_bind, error_bind]
  · simp only [Spl.newBSpline, PS.new, checkKnots_err hdl hc, error_bind]

theorem newNurbs_err {knots : List (List K)} {degree : List ℕ} {points : List (List K)} {weights : List K} (hne : points ≠ [])
    (hdl : degree.length = knots.length) (hsz : (nptsOf knots degree).prod < 2 ^ 64)
    (h : ¬ (List.Forall₂ (fun U p => PS.clamped U p = true) knots degree ∧ (points.length = (nptsOf knots degree).prod ∧
      ∃ m, ∀ q ∈ points, q.length = m) ∧ weights.length = points.length)) :
    Spl.newNurbs knots degree points weights = .error (.thrown .runtimeError) := by
  by_cases hc : List.Forall₂ (fun U p => PS.clamped U p = true) knots degree
  · obtain ⟨e1, e2⟩ := psNew_copy hc
    by_cases hp : points.length = (nptsOf knots degree).prod ∧ ∃ m, ∀ q ∈ points, q.length = m
    · have e3 := (physNew_eq hne hsz).1 hp
      rw [← pointNumbers_eq (clamped_sizes hc)] at e3
      have : ¬ points.length = weights.length := fun h' => h ⟨hc, hp, h'.symm⟩
      simp only [Spl.newNurbs, Phys.newWeighted, e1, e2, e3, ok_bind, ne_eq, this, not_false_eq_true, if_true, error_bind]
    · have e3 := (physNew_eq hne hsz).2 hp
      rw [← pointNumbers_eq (clamped_sizes hc)] at e3
      simp only [Spl.newNurbs, Phys.newWeighted, e1, e2, e3, ok_bind, error_bind]
  · simp only [Spl.newNurbs, PS.new, checkKnots_err hdl hc, error_bind]

theorem Built.wf {s : Spl K} {knots : List (List K)} {degree : List ℕ} {points : List (List K)} {weights : Option (List K)}
    (hb : Built s knots degree points weights) (hk : List.Forall₂ WFKnots knots degree) (hne : points ≠ [])
    (hl : points.length = (nptsOf knots degree).prod) {m : ℕ} (hm0 : 0 < m) (hm : ∀ q ∈ points, q.length = m)
    (hw : ∀ w, weights = some w → w.length = points.length ∧ ∀ a ∈ w, 0 < a) : WFSpl s := by
  have hdim : s.ph.dim = m := by rw [hb.dim _ (List.head_mem hne), hm _ (List.head_mem hne)]
  have hn : npts s = nptsOf knots degree := by rw [npts_eq, hb.knots, hb.degree]
  refine ⟨?_, ?_, ?_, ?_, ?_, ?_⟩
  · rw [hb.knots, hb.degree]; exact hk
  · rw [hb.knots, hb.degree, hb.basis]; exact basisTable_eq (forall₂_size hk)
  · rw [hb.num, hn]
  · omega
  · rw [hb.cps, hn, hdim, flatten_length' hm, hl]
  · intro w h
    rw [hb.weights] at h
    rw [hn, ← hl]; exact hw w h

/-- The copy constructor copies the data. -/
theorem Built.copy {s : Spl K} {knots : List (List K)} {degree : List ℕ} {points : List (List K)} {weights : Option (List K)}
    (hb : Built s knots degree points weights) (h : List.Forall₂ (fun U p => p + 1 ≤ U.length) knots degree) : s.copy = .ok s := by
  have : s.ps.copy = .ok s.ps := by
    simp only [PS.copy, hb.knots, hb.degree, basisTable_eq h, ok_bind, pure_ok]
    rw [← hb.basis, ← hb.knots, ← hb.degree]
  simp only [Spl.copy, this, ok_bind, pure_ok]

end
end SplineLib
