import Verif.Props.KnotVector
import Verif.Props.Evaluation
import Verif.Core.Sqrt
import Verif.Spec.Examples

/-!
# C30 (splines) and C31: comparison of splines
-/

namespace SplineLib
open Finset
set_option linter.unusedSectionVars false
variable {K : Type} [Field K] [LinearOrder K] [IsStrictOrderedRing K]

/-! ## C30: `AreEqual` of splines -/

/-- Two splines agree up to `tol`: the same class, degrees and numbers of points, and knots, control points and weights that are
pairwise closer than `tol`. -/
structure CloseSpl (tol : K) (a b : Spl K) : Prop where
  degree : a.ps.degree = b.ps.degree
  knots : List.Forall₂ (Close tol) a.ps.knots b.ps.knots
  num : a.ph.num = b.ph.num
  cps : Close tol a.ph.cps b.ph.cps
  kind : a.ph.weights = none ↔ b.ph.weights = none
  weights : ∀ v w, a.ph.weights = some v → b.ph.weights = some w → Close tol v w

theorem kEps_lt_one : kEps K < 1 := by
  unfold kEps
  rw [div_lt_one (by positivity)]
  norm_num

theorem areEqualInts_iff (a b : List ℤ) : PS.areEqualInts K a b = true ↔ a = b := by
  induction a generalizing b with
  | nil => cases b <;> simp [PS.areEqualInts]
  | cons x a ih =>
    cases b with
    | nil => simp [PS.areEqualInts]
    | cons y b =>
      simp only [PS.areEqualInts, Bool.and_eq_true, ih, areEqual, decide_eq_true_eq, List.cons.injEq]
      refine and_congr_left fun _ => ?_
      constructor
      · intro h
        have h1 : ((|x - y| : ℤ) : K) < 1 := by
          have := lt_trans h kEps_lt_one
          push_cast
          exact this
        have h2 : |x - y| < 1 := by exact_mod_cast h1
        have := Int.abs_lt_one_iff.1 h2
        omega
      · rintro rfl
        simp only [sub_self, abs_zero]
        unfold kEps; positivity

theorem areEqualKnots_iff (tol : K) (a b : List (List K)) : PS.areEqualKnots tol a b = true ↔ List.Forall₂ (Close tol) a b := by
  induction a generalizing b with
  | nil => cases b <;> simp [PS.areEqualKnots]
  | cons x a ih =>
    cases b with
    | nil => simp [PS.areEqualKnots]
    | cons y b => simp only [PS.areEqualKnots, Bool.and_eq_true, ih, C30_knotVector_areEqual_iff, List.forall₂_cons]

/-- **C30**: `AreEqual` of two splines decides the closeness of their data. -/
theorem C30_spline_areEqual_iff (a b : Spl K) (tol : K) : a.areEqualSpl b tol = true ↔ CloseSpl tol a b := by
  have hl : ∀ U V : List K, listClose tol U V = true ↔ Close tol U V := fun U V => C30_knotVector_areEqual_iff U V tol
  unfold Spl.areEqualSpl PS.areEqualPS Phys.areEqualPhys
  simp only [Bool.and_eq_true, areEqualInts_iff, areEqualKnots_iff, hl]
  have hdeg : a.ps.degree.map Int.ofNat = b.ps.degree.map Int.ofNat ↔ a.ps.degree = b.ps.degree :=
    (List.map_injective_iff.2 (fun _ _ h => Int.ofNat.inj h)).eq_iff
  rw [hdeg]
  constructor
  · rintro ⟨⟨h1, h2⟩, ⟨h3, h4⟩, h5⟩
    refine ⟨h1, h2, h5, h4, ?_, ?_⟩
    · cases ha : a.ph.weights <;> cases hb : b.ph.weights <;> rw [ha, hb] at h3 <;> simp at h3 ⊢
    · intro v w hv hw
      rw [hv, hw] at h3
      exact (hl v w).1 h3
  · rintro ⟨h1, h2, h3, h4, h5, h6⟩
    refine ⟨⟨h1, h2⟩, ⟨?_, h4⟩, h3⟩
    cases ha : a.ph.weights <;> cases hb : b.ph.weights
    · rfl
    · rw [ha, hb] at h5; simp at h5
    · rw [ha, hb] at h5; simp at h5
    · exact (hl _ _).2 (h6 _ _ ha hb)

theorem close_refl {tol : K} (h : 0 < tol) (U : List K) : Close tol U U := ⟨rfl, by simp [h]⟩

theorem close_symm {tol : K} {U V : List K} (h : Close tol U V) : Close tol V U :=
  ⟨h.1.symm, fun i hi => by rw [abs_sub_comm]; exact h.2 i (by rw [h.1]; exact hi)⟩

/-- **C30**: `AreEqual` of splines is reflexive for every positive tolerance and symmetric. -/
theorem C30_spline_refl_symm (a b : Spl K) (tol : K) :
    (0 < tol → a.areEqualSpl a tol = true) ∧ a.areEqualSpl b tol = b.areEqualSpl a tol := by
  constructor
  · intro h
    rw [C30_spline_areEqual_iff]
    refine ⟨rfl, ?_, rfl, close_refl h _, Iff.rfl, ?_⟩
    · exact List.forall₂_same.2 fun U _ => close_refl h U
    · intro v w hv hw
      rw [hv] at hw
      obtain rfl := Option.some.inj hw
      exact close_refl h v
  · have key : ∀ a b : Spl K, CloseSpl tol a b → CloseSpl tol b a := by
      intro a b h
      refine ⟨h.degree.symm, ?_, h.num.symm, close_symm h.cps, h.kind.symm, fun v w hv hw => close_symm (h.weights w v hw hv)⟩
      exact h.knots.flip.imp fun _ _ hc => close_symm hc
    rw [Bool.eq_iff_iff, C30_spline_areEqual_iff, C30_spline_areEqual_iff]
    exact ⟨key a b, key b a⟩

/-- **C30**: `AreEqual` splines that are well formed have control points of the same dimension. -/
theorem C30_spline_dim {a b : Spl K} (ha : WFSpl a) (hb : WFSpl b) {tol : K} (h : a.areEqualSpl b tol = true) :
    a.ph.dim = b.ph.dim ∧ npts a = npts b := by
  rw [C30_spline_areEqual_iff] at h
  have hn : npts a = npts b := by
    have := h.num
    rw [ha.num, hb.num] at this
    exact zl_inj this
  refine ⟨?_, hn⟩
  have h1 := h.cps.1
  rw [ha.cps, hb.cps, hn] at h1
  have hp : 0 < (npts b).prod := by
    refine prod_pos_of ?_
    have hk := hb.knots
    unfold npts
    generalize b.ps.knots = Us at hk
    generalize b.ps.degree = ps at hk
    clear * - hk
    induction hk with
    | nil => simp
    | @cons U p Us ps hU _ ih =>
      intro n hn
      simp only [List.zipWith_cons_cons, List.mem_cons] at hn
      rcases hn with rfl | hn
      · have := hU.size; omega
      · exact ih n hn
  exact Nat.eq_of_mul_eq_mul_right hp h1

example : exNurbsSurface.areEqualSpl exNurbsSurface (1/1000) = true := (C30_spline_refl_symm _ exNurbsSurface _).1 (by norm_num)

/-! ## C31: `AreGeometricallyEqual` -/

/-- The sampling parameters of `AreGeometricallyEqual`: multiples of the `n`-th part of the length of the range. -/
def sampleParam (Us : List (List K)) (n : ℕ) (I : List ℕ) : List K :=
  List.zipWith (fun U (i : ℕ) => (lastKnot U - knot U 0) / (n : K) * (i : K)) Us I

theorem samplePoint_eq {Us : List (List K)} {ps : List ℕ} (h : List.Forall₂ WFKnots Us ps) (n : ℕ) : ∀ {I : List ℕ},
    Spl.samplePoint n Us (zl I) = .ok (sampleParam Us n I) := by
  induction h with
  | nil => intro I; rfl
  | @cons U p Us ps hU _ ih =>
    intro I
    cases I with
    | nil => rfl
    | cons i I =>
      have hlen : 0 < U.length := by have := hU.size; omega
      have e1 : kvGet U 0 = .ok (knot U 0) := by unfold kvGet; rw [getN_getD hlen 0]; rfl
      have e2 : kvLast U = .ok (lastKnot U) := kvLast_eq (List.ne_nil_of_length_pos hlen)
      simp only [List.map_cons, Spl.samplePoint]
      have ih' : Spl.samplePoint n Us (List.map Nat.cast I) = .ok (sampleParam Us n I) := ih
      rw [e1, e2, ok_bind, ok_bind, ih', ok_bind, pure_ok]
      simp [sampleParam]

theorem sampleNumber_pos (d : ℕ) : 0 < Spl.sampleNumber d := by
  unfold Spl.sampleNumber
  cases h : (List.range 101).find? fun n => decide (100 ≤ n ^ d) with
  | none => simp
  | some n =>
    have := List.find?_some h
    simp only [decide_eq_true_eq] at this
    rw [Option.getD_some]
    rcases Nat.eq_zero_or_pos n with h0 | h0
    · subst h0
      rcases Nat.eq_zero_or_pos d with hd | hd
      · subst hd; simp at this
      · rw [Nat.zero_pow hd] at this; omega
    · exact h0

/-- The box of the sampling points. -/
def sampleBox (s : Spl K) : List ℕ := s.ps.knots.map fun _ => Spl.sampleNumber s.ps.knots.length + 1

theorem sampleParam_length {s : Spl K} {n : ℕ} {I : List ℕ} (hI : InBox (sampleBox s) I) :
    (sampleParam s.ps.knots n I).length = s.ps.knots.length := by
  have := hI.length
  simp [sampleParam, sampleBox] at *
  omega

section
variable [HasSqrt K]

/-- The loop of `AreGeometricallyEqual`, when all evaluations that it makes succeed. -/
theorem geomLoop_eq {a b : Spl K} (ha : List.Forall₂ WFKnots a.ps.knots a.ps.degree) {tol : K} {n : ℕ} {ns : List ℕ}
    (hpos : ∀ m ∈ ns, 0 < m) {dims : List ℤ} (va vb : List ℕ → List K)
    (hva : ∀ k < ns.prod, a.evaluate (sampleParam a.ps.knots n (unlin ns k)) dims = .ok (va (unlin ns k)))
    (hvb : ∀ k < ns.prod, b.evaluate (sampleParam a.ps.knots n (unlin ns k)) dims = .ok (vb (unlin ns k))) :
    ∀ m k, k + m = ns.prod → ∃ r, Spl.geomLoop a b tol n dims m ⟨zl ns, zl (unlin ns k)⟩ = .ok r ∧
      (r = true ↔ ∀ j, k ≤ j → j < ns.prod → Phys.distance (va (unlin ns j)) (vb (unlin ns j)) ≤ tol) := by
  intro m
  induction m with
  | zero => intro k hk; exact ⟨true, rfl, by simp; intro j h1 h2; omega⟩
  | succ m ih =>
    intro k hk
    rw [Spl.geomLoop, samplePoint_eq ha, ok_bind, hva k (by omega), ok_bind, hvb k (by omega), ok_bind]
    split_ifs with h
    · refine ⟨false, rfl, ?_⟩
      simp only [Bool.false_eq_true, false_iff, not_forall]
      exact ⟨k, le_refl _, by omega, not_le.2 h⟩
    · rw [incr_zl hpos]
      obtain ⟨r, h1, h2⟩ := ih (k + 1) (by omega)
      refine ⟨r, h1, h2.trans ?_⟩
      constructor
      · intro hh j hj1 hj2
        rcases Nat.lt_or_ge k j with h3 | h3
        · exact hh j h3 hj2
        · obtain rfl : j = k := by omega
          exact not_lt.1 h
      · intro hh j hj1 hj2
        exact hh j (by omega) hj2

theorem areGeometricallyEqual_unfold (a b : Spl K) (tol : K) : a.areGeometricallyEqual b tol
    = Spl.geomLoop a b tol (Spl.sampleNumber a.ps.knots.length) (zl (List.range a.ph.dim)) (sampleBox a).prod
      ⟨zl (sampleBox a), zl (unlin (sampleBox a) 0)⟩ := by
  unfold Spl.areGeometricallyEqual
  have e : (a.ps.knots.map fun _ => ((Spl.sampleNumber a.ps.knots.length : ℕ) : ℤ) + 1) = zl (sampleBox a) := by
    simp [sampleBox, zl]
  dsimp only
  rw [e, mk'_zl, length1D_zl, Int.toNat_natCast]
  rfl

theorem sampleBox_pos (s : Spl K) : ∀ m ∈ sampleBox s, 0 < m := by simp [sampleBox]

/-- The range of every direction starts at zero. -/
def StartsAtZero (s : Spl K) : Prop := ∀ U ∈ s.ps.knots, knot U 0 = 0

/-- If all ranges start at zero, all sampling parameters are in the domain. -/
theorem sample_inDomain {s : Spl K} (h : WFSpl s) (hz : StartsAtZero s) {I : List ℕ} (hI : InBox (sampleBox s) I) :
    InDomain s (sampleParam s.ps.knots (Spl.sampleNumber s.ps.knots.length) I) := by
  have hn := sampleNumber_pos s.ps.knots.length
  unfold InDomain
  unfold sampleBox at hI
  generalize Spl.sampleNumber s.ps.knots.length = n at hn hI
  have hk := h.knots
  unfold StartsAtZero at hz
  generalize s.ps.knots = Us at *
  generalize s.ps.degree = ps at *
  have hnK : (0 : K) < n := by exact_mod_cast hn
  clear h s
  induction hk generalizing I with
  | nil => obtain rfl := inBox_nil_iff.1 hI; exact .nil
  | @cons U p Us ps hU _ ih =>
    cases I with
    | nil => simp at hI
    | cons i I =>
      rw [List.map_cons, inBox_cons] at hI
      have h0 := hz U (by simp)
      have hle := hU.range.le
      refine .cons ?_ (ih (fun V hV => hz V (by simp [hV])) hI.2)
      beta_reduce
      rw [h0, sub_zero]
      rw [h0] at hle
      have hi : (i : K) ≤ n := by exact_mod_cast Nat.lt_succ_iff.1 hI.1
      constructor
      · positivity
      · rw [div_mul_eq_mul_div, div_le_iff₀ hnK]
        exact mul_le_mul_of_nonneg_left hi hle

theorem evaluate_all {s : Spl K} (h : WFSpl s) {x : List K} (hx : InDomain s x) {D : ℕ} (hD : D ≤ s.ph.dim) :
    ∃ v, s.evaluate x (zl (List.range D)) = .ok v := by
  obtain ⟨v, h1, -⟩ := (C02_evaluate h (x := x) (by have := List.Forall₂.length_eq hx; omega)).2 (List.range D)
    (fun c hc => by have := List.mem_range.1 hc; omega) hx
  exact ⟨v, h1⟩

theorem distance_self (h0 : HasSqrt.sqrt (0 : K) = 0) (v : List K) : Phys.distance v v = 0 := by
  unfold Phys.distance Phys.twoNorm
  rw [foldl_sq, zero_add]
  have : List.map (fun x => x * x) (List.zipWith (fun x1 x2 => x1 - x2) v v) = List.replicate v.length 0 := by
    induction v with
    | nil => rfl
    | cons a v ih => simp only [List.zipWith_cons_cons, List.map_cons, ih, sub_self, mul_zero, List.length_cons, List.replicate_succ]
  rw [this]
  simp [h0]

/-- **C31 (part), and more.** Two splines whose parameter ranges start at zero, the second defined where the first is: the comparison
does not throw, and if they have the same geometry, it accepts them, for every tolerance `tol ≥ 0`. In particular it accepts a spline
and itself. Missing: ranges that do not start at zero, for which the claim is false. -/
theorem C31_same_geometry_partial (h0 : HasSqrt.sqrt (0 : K) = 0) {a b : Spl K} (ha : WFSpl a) (hz : StartsAtZero a) {tol : K}
    (htol : 0 ≤ tol)
    (heq : ∀ x, InDomain a x → b.evaluate x (zl (List.range a.ph.dim)) = a.evaluate x (zl (List.range a.ph.dim))) :
    a.areGeometricallyEqual b tol = .ok true := by
  rw [areGeometricallyEqual_unfold]
  have hd : ∀ k < (sampleBox a).prod,
      InDomain a (sampleParam a.ps.knots (Spl.sampleNumber a.ps.knots.length) (unlin (sampleBox a) k)) :=
    fun k _ => sample_inDomain ha hz (unlin_inBox (sampleBox_pos a) k)
  choose! va hva using fun (x : List K) (hx : InDomain a x) => evaluate_all ha hx (le_refl a.ph.dim)
  obtain ⟨r, h1, h2⟩ := geomLoop_eq (a := a) (b := b) ha.knots (tol := tol) (n := Spl.sampleNumber a.ps.knots.length)
    (sampleBox_pos a) (dims := zl (List.range a.ph.dim))
    (fun I => va (sampleParam a.ps.knots (Spl.sampleNumber a.ps.knots.length) I))
    (fun I => va (sampleParam a.ps.knots (Spl.sampleNumber a.ps.knots.length) I))
    (fun k hk => hva _ (hd k hk)) (fun k hk => by rw [heq _ (hd k hk)]; exact hva _ (hd k hk)) (sampleBox a).prod 0 (by omega)
  rw [h1, h2.2 (fun j _ _ => by rw [distance_self h0]; exact htol)]

/-- **C31 (part)**: a spline whose parameter ranges start at zero is geometrically equal to itself. -/
theorem C31_self_partial (h0 : HasSqrt.sqrt (0 : K) = 0) {a : Spl K} (ha : WFSpl a) (hz : StartsAtZero a) {tol : K} (htol : 0 ≤ tol) :
    a.areGeometricallyEqual a tol = .ok true :=
  C31_same_geometry_partial h0 ha hz htol fun _ _ => rfl

/-- **C31**, soundness of rejections: whatever the ranges, if the answer is `false`, there is a parameter at which both splines can be
evaluated and the points are further apart than the tolerance. -/
theorem C31_rejection_sound {a b : Spl K} {tol : K} (ha : WFSpl a) (h : a.areGeometricallyEqual b tol = .ok false) :
    ∃ x va vb, a.evaluate x (zl (List.range a.ph.dim)) = .ok va ∧ b.evaluate x (zl (List.range a.ph.dim)) = .ok vb ∧
      tol < Phys.distance va vb := by
  rw [areGeometricallyEqual_unfold] at h
  generalize (⟨zl (sampleBox a), zl (unlin (sampleBox a) 0)⟩ : MIH) = st at h
  generalize (sampleBox a).prod = m at h
  induction m generalizing st with
  | zero => simp [Spl.geomLoop] at h
  | succ m ih =>
    rw [Spl.geomLoop] at h
    cases hx : Spl.samplePoint (Spl.sampleNumber a.ps.knots.length) a.ps.knots st.cur with
    | error e => rw [hx, error_bind] at h; simp at h
    | ok x =>
      rw [hx, ok_bind] at h
      cases hva : a.evaluate x (zl (List.range a.ph.dim)) with
      | error e => rw [hva, error_bind] at h; simp at h
      | ok va =>
        rw [hva, ok_bind] at h
        cases hvb : b.evaluate x (zl (List.range a.ph.dim)) with
        | error e => rw [hvb, error_bind] at h; simp at h
        | ok vb =>
          rw [hvb, ok_bind] at h
          split_ifs at h with hc
          · exact ⟨x, va, vb, hva, hvb, hc⟩
          · exact ih _ h

/-- The sampling parameters lie in the domain only if the ranges start at zero. -/
theorem starts_of_samples {s : Spl K} (h : WFSpl s)
    (hall : ∀ k < (sampleBox s).prod,
      InDomain s (sampleParam s.ps.knots (Spl.sampleNumber s.ps.knots.length) (unlin (sampleBox s) k))) : StartsAtZero s := by
  have hn := sampleNumber_pos s.ps.knots.length
  have hall' : ∀ I, InBox (sampleBox s) I → InDomain s (sampleParam s.ps.knots (Spl.sampleNumber s.ps.knots.length) I) := by
    intro I hI
    have := hall (lin (sampleBox s) I) (lin_lt hI)
    rwa [unlin_lin hI] at this
  clear hall
  have h1 := hall' (s.ps.knots.map fun _ => 0) (by
    unfold sampleBox
    generalize Spl.sampleNumber s.ps.knots.length = n
    clear * -
    induction s.ps.knots with
    | nil => simp
    | cons U Us ih => simpa using ih)
  have h2 := hall' (s.ps.knots.map fun _ => Spl.sampleNumber s.ps.knots.length) (by
    unfold sampleBox
    generalize Spl.sampleNumber s.ps.knots.length = n
    clear * -
    induction s.ps.knots with
    | nil => simp
    | cons U Us ih => simpa using ih)
  unfold InDomain sampleParam at h1 h2
  unfold StartsAtZero
  generalize Spl.sampleNumber s.ps.knots.length = n at *
  have hnK : (n : K) ≠ 0 := by exact_mod_cast hn.ne'
  generalize s.ps.knots = Us at *
  clear h hall'
  induction Us with
  | nil => simp
  | cons U Us ih =>
    simp only [List.map_cons, List.zipWith_cons_cons, List.forall₂_cons] at h1 h2
    intro V hV
    rcases List.mem_cons.1 hV with rfl | hV
    · have a1 := h1.1.1
      have a2 := h2.1.2
      rw [Nat.cast_zero, mul_zero] at a1
      rw [div_mul_cancel₀ _ hnK] at a2
      exact le_antisymm a1 (by linarith)
    · exact ih h1.2 h2.2 V hV

/-- **C31 is false** for every spline with a parameter range that does not start at zero: comparing it with itself throws a range
error, for every tolerance `tol ≥ 0`. -/
theorem C31_other_ranges_throw (h0 : HasSqrt.sqrt (0 : K) = 0) {a : Spl K} (ha : WFSpl a) (hz : ¬ StartsAtZero a) {tol : K}
    (htol : 0 ≤ tol) : a.areGeometricallyEqual a tol = .error (.thrown .rangeError) := by
  have hex : ∃ k, k < (sampleBox a).prod ∧
      ¬ InDomain a (sampleParam a.ps.knots (Spl.sampleNumber a.ps.knots.length) (unlin (sampleBox a) k)) := by
    by_contra hc
    simp only [not_exists, not_and, not_not] at hc
    exact hz (starts_of_samples ha hc)
  rw [areGeometricallyEqual_unfold]
  obtain ⟨k0, hk0, hbad⟩ := hex
  have key : ∀ m k, k ≤ k0 → k + m = (sampleBox a).prod →
      Spl.geomLoop a a tol (Spl.sampleNumber a.ps.knots.length) (zl (List.range a.ph.dim)) m
        ⟨zl (sampleBox a), zl (unlin (sampleBox a) k)⟩ = .error (.thrown .rangeError) := by
    intro m
    induction m with
    | zero => intro k h1 h2; omega
    | succ m ih =>
      intro k h1 h2
      rw [Spl.geomLoop, samplePoint_eq ha.knots, ok_bind]
      by_cases hin : InDomain a (sampleParam a.ps.knots (Spl.sampleNumber a.ps.knots.length) (unlin (sampleBox a) k))
      · obtain ⟨v, hv⟩ := evaluate_all ha hin (le_refl a.ph.dim)
        have hk : k ≠ k0 := by rintro rfl; exact hbad hin
        rw [hv, ok_bind, ok_bind, distance_self h0, if_neg (not_lt.2 htol), incr_zl (sampleBox_pos a)]
        exact ih (k + 1) (by omega) (by omega)
      · rw [(C02_evaluate ha (sampleParam_length (unlin_inBox (sampleBox_pos a) k))).1 _ hin, error_bind]
  exact key _ 0 (by omega) (by omega)

end

/-- Cases that meet the hypotheses: the ranges of `exCurve` start at zero, those of `exNurbsSurface` do not. -/
example : WFSpl exCurve ∧ StartsAtZero exCurve := ⟨exCurve_wf, by unfold StartsAtZero; decide +kernel⟩

example : WFSpl exNurbsSurface ∧ ¬ StartsAtZero exNurbsSurface := ⟨exNurbsSurface_wf, by unfold StartsAtZero; decide +kernel⟩

end SplineLib
