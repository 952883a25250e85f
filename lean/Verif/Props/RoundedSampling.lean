import Verif.Model.RoundedSampling
import Verif.Props.Rounding
import Verif.Props.Comparison
import Verif.Core.Vtk
import Verif.Props.KnotRemoval
import Verif.Props.RoundedText

/-!
# C104: sampling with rounded arithmetic

`AreGeometricallyEqual` and the VTK writer evaluate at parameters that they compute. With rounding the last one can lie behind the last
knot; then `Evaluate` throws.
-/

namespace SplineLib
set_option linter.unusedSectionVars false
open Finset Rounding
variable {K : Type} [Field K] [LinearOrder K] [IsStrictOrderedRing K] {r : Rounding K} {s a : Spl K}

/-! ### Evaluate -/

theorem fl_evaluate_outside (h : Fl.WF r s) {x : List K} (hl : x.length = s.ps.knots.length) (hx : ¬ InDomain s x) (dims : List ℤ) :
    Fl.evaluate r s x dims = .error (.thrown .rangeError) := by
  simp only [Fl.evaluate, Fl.evalWith, throwIfOutside_err h.knots hl hx, error_bind]

theorem fl_evaluate_inside (h : Fl.WF r s) {x : List K} (hx : InDomain s x) {dims : List ℕ} (hd : ∀ c ∈ dims, c < s.ph.dim) :
    ∃ v, Fl.evaluate r s x (zl dims) = .ok v ∧ v.length = dims.length := by
  cases hw : s.ph.weights with
  | none =>
    obtain ⟨v, h1, h2⟩ := C70_bspline r h hw hx dims hd
    exact ⟨v, h1, h2.length_eq.symm⟩
  | some w =>
    obtain ⟨v, h1, h2⟩ := C70_nurbs r h ⟨w, hw⟩ hx dims hd
    exact ⟨v, h1, h2.length_eq.symm⟩

/-! ### Comparison -/

/-- The sample with index `i` of `n` on the range of `U`. -/
def flSample (r : Rounding K) (n : ℕ) (U : List K) (i : ℕ) : K := r.rnd (r.rnd (r.rnd (lastKnot U - knot U 0) / (n : K)) * (i : K))

theorem fl_samplePoint_eq {Us : List (List K)} {ps : List ℕ} (h : List.Forall₂ WFKnots Us ps) (n : ℕ) : ∀ {I : List ℕ},
    Fl.samplePoint r n Us (zl I) = .ok (List.zipWith (flSample r n) Us I) := by
  induction h with
  | nil => intro I; rfl
  | @cons U p Us ps hU _ ih =>
    intro I
    cases I with
    | nil => rfl
    | cons i I =>
      have hlen : 0 < U.length := by have := hU.size; omega
      have e1 : kvGet U 0 = .ok (knot U 0) := by unfold kvGet; rw [getN_getD hlen 0]; rfl
      have e2 : kvLast U = .ok (lastKnot U) := kvLast_eq (List.ne_nil_of_length_pos hlen)
      have ih' : Fl.samplePoint r n Us (List.map Nat.cast I) = _ := ih (I := I)
      simp only [List.map_cons, Fl.samplePoint, e1, e2, ih', ok_bind, pure_ok, List.zipWith_cons_cons, flSample]
      push_cast
      rfl

theorem flSample_mono {U : List K} {p : ℕ} (h : WFKnots U p) (n : ℕ) {i j : ℕ} (hij : i ≤ j) : flSample r n U i ≤ flSample r n U j := by
  refine r.mono _ _ (mul_le_mul_of_nonneg_left (by exact_mod_cast hij) (r.rnd_nonneg (div_nonneg (r.rnd_nonneg ?_) (Nat.cast_nonneg n))))
  exact sub_nonneg.2 h.range.le

theorem flSample_zero (n : ℕ) (U : List K) : flSample r n U 0 = 0 := by simp [flSample, r.rnd_zero]

theorem fl_geomLoop_true [HasSqrt K] {b : Spl K} {tol : K} {n : ℕ} {dims : List ℤ} {ns : List ℕ} (hpos : ∀ m ∈ ns, 0 < m)
    (hk : List.Forall₂ WFKnots a.ps.knots a.ps.degree) : ∀ (m k : ℕ), k + m ≤ ns.prod →
    Fl.geomLoop r a b tol n dims m ⟨zl ns, zl (unlin ns k)⟩ = .ok true → ∀ j, k ≤ j → j < k + m →
      ∃ v, Fl.evaluate r a (List.zipWith (flSample r n) a.ps.knots (unlin ns j)) dims = .ok v := by
  intro m
  induction m with
  | zero => intro k _ _ j h1 h2; omega
  | succ m ih =>
    intro k hkm h j h1 h2
    rw [Fl.geomLoop, fl_samplePoint_eq hk, ok_bind] at h
    cases hva : Fl.evaluate r a (List.zipWith (flSample r n) a.ps.knots (unlin ns k)) dims with
    | error e => rw [hva] at h; cases h
    | ok va =>
      rcases Nat.lt_or_ge k j with h3 | h3
      · cases hvb : Fl.evaluate r b (List.zipWith (flSample r n) a.ps.knots (unlin ns k)) dims with
        | error e => rw [hva, hvb] at h; cases h
        | ok vb =>
          rw [hva, hvb, ok_bind, ok_bind] at h
          split_ifs at h with hd
          · cases h
          · rw [incr_zl hpos] at h
            exact ih (k + 1) (by omega) h j h3 (by omega)
      · obtain rfl : j = k := by omega
        exact ⟨va, hva⟩

theorem fl_distance_self [HasSqrt K] (h0 : HasSqrt.sqrt (0 : K) = 0) (v : List K) : Fl.distance r v v = 0 := by
  unfold Fl.distance Fl.twoNorm
  have : ∀ (v : List K), (List.zipWith (fun x y => r.rnd (x - y)) v v).foldl (fun s a => r.rnd (s + r.rnd (a * a))) 0 = 0 := by
    intro v
    induction v with
    | nil => rfl
    | cons a v ih => simpa [r.rnd_zero] using ih
  rw [this, h0, r.rnd_zero]

theorem fl_geomLoop_self [HasSqrt K] (h0 : HasSqrt.sqrt (0 : K) = 0) {tol : K} (htol : 0 ≤ tol) {n : ℕ} {dims : List ℤ} {ns : List ℕ}
    (hpos : ∀ m ∈ ns, 0 < m) (hk : List.Forall₂ WFKnots a.ps.knots a.ps.degree) {e : Err} : ∀ (m k : ℕ), k + m ≤ ns.prod →
    (∀ j, k ≤ j → j < k + m → (∃ v, Fl.evaluate r a (List.zipWith (flSample r n) a.ps.knots (unlin ns j)) dims = .ok v) ∨
      Fl.evaluate r a (List.zipWith (flSample r n) a.ps.knots (unlin ns j)) dims = .error e) →
    Fl.geomLoop r a a tol n dims m ⟨zl ns, zl (unlin ns k)⟩ = .ok true ∨
      Fl.geomLoop r a a tol n dims m ⟨zl ns, zl (unlin ns k)⟩ = .error e ∧
        ∃ j, k ≤ j ∧ j < k + m ∧ Fl.evaluate r a (List.zipWith (flSample r n) a.ps.knots (unlin ns j)) dims = .error e := by
  intro m
  induction m with
  | zero => intro k _ _; exact .inl rfl
  | succ m ih =>
    intro k hkm h
    rw [Fl.geomLoop, fl_samplePoint_eq hk, ok_bind]
    rcases h k le_rfl (by omega) with ⟨v, hv⟩ | hv
    · rw [hv, ok_bind, ok_bind, fl_distance_self h0, if_neg (not_lt.2 htol), incr_zl hpos]
      rcases ih (k + 1) (by omega) (fun j h1 h2 => h j (by omega) (by omega)) with h1 | ⟨h1, j, h2, h3, h4⟩
      · exact .inl h1
      · exact .inr ⟨h1, j, by omega, by omega, h4⟩
    · rw [hv]
      exact .inr ⟨rfl, k, le_rfl, by omega, hv⟩

theorem fl_areGeometricallyEqual_unfold [HasSqrt K] (a b : Spl K) (tol : K) : Fl.areGeometricallyEqual r a b tol
    = Fl.geomLoop r a b tol (Spl.sampleNumber a.ps.knots.length) (zl (List.range a.ph.dim)) (sampleBox a).prod
      ⟨zl (sampleBox a), zl (unlin (sampleBox a) 0)⟩ := by
  unfold Fl.areGeometricallyEqual
  have e : (a.ps.knots.map fun _ => ((Spl.sampleNumber a.ps.knots.length : ℕ) : ℤ) + 1) = zl (sampleBox a) := by
    simp [sampleBox, zl]
  dsimp only
  rw [e, mk'_zl, length1D_zl, Int.toNat_natCast]
  rfl

/-- The samples are in the range of the knots exactly if their indices are small enough. -/
theorem fl_samples_in {Us : List (List K)} {ps : List ℕ} (h : List.Forall₂ WFKnots Us ps) (hz : ∀ U ∈ Us, knot U 0 = 0) {n : ℕ}
    (hn : ∀ U ∈ Us, flSample r n U n ≤ lastKnot U) : ∀ {I : List ℕ}, InBox (Us.map fun _ => n + 1) I → Dom Us (List.zipWith (flSample r n) Us I) := by
  induction h with
  | nil => intro I _; exact .nil
  | @cons U p Us ps hU _ ih =>
    intro I hI
    cases I with
    | nil => simp at hI
    | cons i I =>
      simp only [List.map_cons, inBox_cons] at hI
      have m1 := flSample_mono (r := r) hU n (Nat.zero_le i)
      have m2 := flSample_mono (r := r) hU n (Nat.lt_succ_iff.1 hI.1)
      rw [flSample_zero] at m1
      exact .cons ⟨(hz U (by simp)).trans_le m1, m2.trans (hn U (by simp))⟩ (ih (fun V hV => hz V (by simp [hV])) (fun V hV => hn V (by simp [hV])) hI.2)

theorem fl_last_sample_out {Us : List (List K)} {n : ℕ} {U : List K} (hU : U ∈ Us) (h : lastKnot U < flSample r n U n) :
    ¬ Dom Us (List.zipWith (flSample r n) Us (Us.map fun _ => n)) := by
  induction Us with
  | nil => simp at hU
  | cons V Us ih =>
    intro hd
    simp only [List.map_cons, List.zipWith_cons_cons] at hd
    cases hd with
    | cons h1 h2 =>
      rcases List.mem_cons.1 hU with rfl | hU
      · exact absurd h1.2 (not_le.2 h)
      · exact ih hU h2

theorem last_inBox {α : Type} (Us : List α) (n : ℕ) : InBox (Us.map fun _ => n + 1) (Us.map fun _ => n) := by
  induction Us with
  | nil => exact .nil
  | cons U Us ih => simp only [List.map_cons, inBox_cons]; exact ⟨Nat.lt_succ_self n, ih⟩

/-- **C104**, comparison: if in some direction the last sample is rounded to a number behind the last knot, then `AreGeometricallyEqual` does
not return `true`, whatever the other spline and the tolerance are. -/
theorem C104_comparison_never_true [HasSqrt K] (h : Fl.WF r a) {U : List K} (hU : U ∈ a.ps.knots)
    (hover : lastKnot U < flSample r (Spl.sampleNumber a.ps.knots.length) U (Spl.sampleNumber a.ps.knots.length)) (b : Spl K) (tol : K) :
    Fl.areGeometricallyEqual r a b tol ≠ .ok true := by
  intro hc
  rw [fl_areGeometricallyEqual_unfold] at hc
  have hI := last_inBox a.ps.knots (Spl.sampleNumber a.ps.knots.length)
  have hlt := lin_lt (ns := sampleBox a) hI
  obtain ⟨v, hv⟩ := fl_geomLoop_true (sampleBox_pos a) h.knots (sampleBox a).prod 0 (by omega) hc _ (Nat.zero_le _) (by rwa [zero_add])
  rw [unlin_lin (ns := sampleBox a) hI, fl_evaluate_outside h (by simp) (fl_last_sample_out hU hover)] at hv
  cases hv

/-- **C104**, comparison of a spline with itself: over ranges that start at 0 it returns `true` if in every direction the last sample is not
behind the last knot, and otherwise it throws `range_error`. -/
theorem C104_comparison_self [HasSqrt K] (h0 : HasSqrt.sqrt (0 : K) = 0) (h : Fl.WF r a) (hz : StartsAtZero a) {tol : K} (htol : 0 ≤ tol) :
    ((∀ U ∈ a.ps.knots, flSample r (Spl.sampleNumber a.ps.knots.length) U (Spl.sampleNumber a.ps.knots.length) ≤ lastKnot U) →
      Fl.areGeometricallyEqual r a a tol = .ok true) ∧
    ((∃ U ∈ a.ps.knots, lastKnot U < flSample r (Spl.sampleNumber a.ps.knots.length) U (Spl.sampleNumber a.ps.knots.length)) →
      Fl.areGeometricallyEqual r a a tol = .error (.thrown .rangeError)) := by
  have hlen : ∀ j, (List.zipWith (flSample r (Spl.sampleNumber a.ps.knots.length)) a.ps.knots (unlin (sampleBox a) j)).length = a.ps.knots.length := by
    intro j
    have := (unlin_inBox (sampleBox_pos a) j).length
    simp [sampleBox] at this ⊢
  have key := fl_geomLoop_self (r := r) (a := a) h0 htol (n := Spl.sampleNumber a.ps.knots.length) (dims := zl (List.range a.ph.dim))
    (sampleBox_pos a) h.knots (e := .thrown .rangeError) (sampleBox a).prod 0 (by omega) (fun j _ _ => by
      by_cases hd : InDomain a (List.zipWith (flSample r (Spl.sampleNumber a.ps.knots.length)) a.ps.knots (unlin (sampleBox a) j))
      · obtain ⟨v, hv, -⟩ := fl_evaluate_inside h hd (dims := List.range a.ph.dim) (by simp)
        exact .inl ⟨v, hv⟩
      · exact .inr (fl_evaluate_outside h (hlen j) hd _))
  rw [← fl_areGeometricallyEqual_unfold] at key
  constructor
  · intro hle
    rcases key with k | ⟨-, j, -, -, k⟩
    · exact k
    · obtain ⟨v, hv, -⟩ := fl_evaluate_inside h (fl_samples_in h.knots hz hle (unlin_inBox (sampleBox_pos a) j)) (dims := List.range a.ph.dim) (by simp)
      rw [hv] at k
      cases k
  · rintro ⟨U, hU, hover⟩
    rcases key with k | ⟨k, -⟩
    · exact absurd k (C104_comparison_never_true h hU hover a tol)
    · exact k

/-! ### VTK files -/

/-- The grid point with index `i` of `n` cells on the range of `U`. -/
def flGrid (r : Rounding K) (U : List K) (n i : ℕ) : K :=
  r.rnd (knot U 0 + r.rnd (r.rnd ((i : K) * r.rnd (lastKnot U - knot U 0)) / (n : K)))

/-- The parameters of a grid point. -/
def flGridParam (r : Rounding K) : List (List K) → List ℕ → List ℕ → List K
  | U :: Us, n :: ns, i :: I => flGrid r U n i :: flGridParam r Us ns I
  | _, _, _ => []

theorem fl_gridCoord_eq {Us : List (List K)} {ps : List ℕ} (h : List.Forall₂ WFKnots Us ps) : ∀ {ns I : List ℕ},
    ns.length = Us.length → (∀ n ∈ ns, 0 < n) → I.length = ns.length →
    Fl.gridCoord r Us (zl I) (zl ns) = .ok (flGridParam r Us ns I) ∧ (flGridParam r Us ns I).length = Us.length := by
  induction h with
  | nil => intro ns I hl _ _; exact ⟨rfl, rfl⟩
  | @cons U p Us ps hU _ ih =>
    intro ns I hl hpos hI
    cases ns with
    | nil => simp at hl
    | cons n ns =>
      cases I with
      | nil => simp at hI
      | cons i I =>
        obtain ⟨h1, h2⟩ := ih (ns := ns) (I := I) (by simpa using hl) (fun m hm => hpos m (by simp [hm])) (by simpa using hI)
        have hn : 0 < n := hpos n (by simp)
        have hnK : ((n : ℤ) : K) ≠ 0 := by exact_mod_cast hn.ne'
        have hlen : 0 < U.length := by have := hU.size; omega
        have e1 : kvGet U 0 = .ok (knot U 0) := by unfold kvGet; rw [getN_getD hlen 0]; rfl
        have e2 : kvLast U = .ok (lastKnot U) := kvLast_eq (List.ne_nil_of_length_pos hlen)
        have h1' : Fl.gridCoord r Us (List.map Nat.cast I) (List.map Nat.cast ns) = _ := h1
        refine ⟨?_, by simp [flGridParam, h2]⟩
        simp only [List.map_cons, Fl.gridCoord, e1, e2, ok_bind, Fl.div, fdiv_ok hnK, h1', pure_ok, flGridParam, flGrid]
        push_cast
        rfl

theorem flGrid_mono {U : List K} {p : ℕ} (h : WFKnots U p) (n : ℕ) {i j : ℕ} (hij : i ≤ j) : flGrid r U n i ≤ flGrid r U n j := by
  have h1 : (i : K) * r.rnd (lastKnot U - knot U 0) ≤ (j : K) * r.rnd (lastKnot U - knot U 0) :=
    mul_le_mul_of_nonneg_right (by exact_mod_cast hij) (r.rnd_nonneg (sub_nonneg.2 h.range.le))
  exact r.mono _ _ (by linarith [r.mono _ _ (div_le_div_of_nonneg_right (r.mono _ _ h1) (Nat.cast_nonneg (α := K) n))])

theorem flGrid_zero {U : List K} (hf : r.rnd (knot U 0) = knot U 0) (n : ℕ) : flGrid r U n 0 = knot U 0 := by simp [flGrid, r.rnd_zero, hf]

theorem fl_grid_in {Us : List (List K)} {ps : List ℕ} (h : List.Forall₂ WFKnots Us ps) (hf : ∀ U ∈ Us, r.rnd (knot U 0) = knot U 0) :
    ∀ {ns : List ℕ}, List.Forall₂ (fun U n => flGrid r U n n ≤ lastKnot U) Us ns → ∀ {I}, InBox (ns.map (· + 1)) I → Dom Us (flGridParam r Us ns I) := by
  induction h with
  | nil => intro ns _ I _; exact .nil
  | @cons U p Us ps hU _ ih =>
    intro ns hn I hI
    cases hn with
    | @cons _ n _ ns h1 h2 =>
      cases I with
      | nil => simp at hI
      | cons i I =>
        simp only [List.map_cons, inBox_cons] at hI
        have m1 := flGrid_mono (r := r) hU n (Nat.zero_le i)
        have m2 := flGrid_mono (r := r) hU n (Nat.lt_succ_iff.1 hI.1)
        rw [flGrid_zero (hf U (by simp))] at m1
        exact .cons ⟨m1, m2.trans h1⟩ (ih (fun V hV => hf V (by simp [hV])) h2 hI.2)

theorem fl_last_grid_out : ∀ {Us : List (List K)} {ns : List ℕ}, ns.length = Us.length →
    Dom Us (flGridParam r Us ns ns) → List.Forall₂ (fun U n => flGrid r U n n ≤ lastKnot U) Us ns
  | [], [], _, _ => .nil
  | [], _ :: _, h, _ => by simp at h
  | _ :: _, [], h, _ => by simp at h
  | U :: Us, n :: ns, h, hd => by
    simp only [flGridParam] at hd
    cases hd with
    | cons h1 h2 => exact .cons h1.2 (fl_last_grid_out (by simpa using h) h2)

theorem box_last_inBox : ∀ ns : List ℕ, InBox (ns.map (· + 1)) ns
  | [] => .nil
  | n :: ns => by simp only [List.map_cons, inBox_cons]; exact ⟨Nat.lt_succ_self n, box_last_inBox ns⟩

theorem upLoop_ok_or_error {σ : Type} {ns : List ℕ} (hpos : ∀ n ∈ ns, 0 < n) {body : MIH → σ → M σ} {e : Err}
    (hstep : ∀ k < ns.prod, (∀ st, ∃ st', body ⟨zl ns, zl (unlin ns k)⟩ st = .ok st') ∨ ∀ st, body ⟨zl ns, zl (unlin ns k)⟩ st = .error e) :
    ∀ (m k : ℕ) (st : σ), k + m ≤ ns.prod →
    ((∃ st', upLoop body m ⟨zl ns, zl (unlin ns k)⟩ st = .ok st') ∧ (∀ j, k ≤ j → j < k + m → ∀ st, ∃ st', body ⟨zl ns, zl (unlin ns j)⟩ st = .ok st')) ∨
      upLoop body m ⟨zl ns, zl (unlin ns k)⟩ st = .error e ∧ ∃ j, k ≤ j ∧ j < k + m ∧ ∀ st, body ⟨zl ns, zl (unlin ns j)⟩ st = .error e := by
  intro m
  induction m with
  | zero => intro k st _; exact .inl ⟨⟨st, rfl⟩, fun j h1 h2 => by omega⟩
  | succ m ih =>
    intro k st hkm
    rw [upLoop]
    rcases hstep k (by omega) with h | h
    · obtain ⟨st', hst⟩ := h st
      rw [hst, ok_bind, incr_zl hpos]
      rcases ih (k + 1) st' (by omega) with ⟨h1, h2⟩ | ⟨h1, j, h2, h3, h4⟩
      · refine .inl ⟨h1, fun j h3 h4 => ?_⟩
        rcases Nat.lt_or_ge k j with h5 | h5
        · exact h2 j h5 (by omega)
        · obtain rfl : j = k := by omega
          exact h
      · exact .inr ⟨h1, j, by omega, by omega, h4⟩
    · rw [h]
      exact .inr ⟨rfl, k, le_rfl, by omega, h⟩

theorem fl_pointLine_inside (h : Fl.WF r s) {x : List K} (hx : InDomain s x) : ∃ l, Fl.pointLine r s x = .ok l := by
  unfold Fl.pointLine
  have hc : ∀ k : ℕ, ∃ v : K, (if k < s.ph.dim then (do let v ← Fl.evaluate r s x [(k : ℤ)]; getN v 0) else .ok 0 : M K) = .ok v := by
    intro k
    split_ifs with hk
    · obtain ⟨v, hv, hl⟩ := fl_evaluate_inside h hx (dims := [k]) (by simpa using hk)
      simp only [List.map_cons, List.map_nil] at hv
      match v, hl with
      | [w], _ => exact ⟨w, by rw [hv, ok_bind]; rfl⟩
    · exact ⟨0, rfl⟩
  choose g hg using hc
  exact ⟨_, buildList_eq (g := g) fun k _ => hg k⟩

theorem fl_pointLine_outside (h : Fl.WF r s) {x : List K} (hl : x.length = s.ps.knots.length) (hx : ¬ InDomain s x) :
    Fl.pointLine r s x = .error (.thrown .rangeError) := by
  unfold Fl.pointLine
  have hd := h.dim
  simp only [buildList, fl_evaluate_outside h hl hx]
  simp [hd, error_bind]

/-- **C104**, VTK files: let the first knots be floating point numbers. The points of the grid can be written if in every direction the last
point of the grid is not behind the last knot; otherwise the writer throws `range_error`. -/
theorem C104_vtk_points (h : Fl.WF r s) (hf : ∀ U ∈ s.ps.knots, r.rnd (knot U 0) = knot U 0) {ns : List ℕ} (hl : ns.length = s.ps.knots.length)
    (hpos : ∀ n ∈ ns, 0 < n) :
    (List.Forall₂ (fun U n => flGrid r U n n ≤ lastKnot U) s.ps.knots ns → ∃ l, Fl.writePoints r s (zl ns) = .ok l) ∧
    (¬ List.Forall₂ (fun U n => flGrid r U n n ≤ lastKnot U) s.ps.knots ns → Fl.writePoints r s (zl ns) = .error (.thrown .rangeError)) := by
  have hp : ∀ n ∈ ns.map (· + 1), 0 < n := by simp
  have hlen : ∀ k, (unlin (ns.map (· + 1)) k).length = ns.length := fun k => by have := (unlin_inBox hp k).length; simp at this ⊢
  let body : MIH → List (List K) → M (List (List K)) := fun h acc => do
    let x ← Fl.gridCoord r s.ps.knots h.cur (zl ns)
    let l ← Fl.pointLine r s x
    return acc ++ [l]
  have hin : ∀ k, InDomain s (flGridParam r s.ps.knots ns (unlin (ns.map (· + 1)) k)) →
      ∀ st, ∃ st', body ⟨zl (ns.map (· + 1)), zl (unlin (ns.map (· + 1)) k)⟩ st = .ok st' := by
    intro k hd st
    obtain ⟨h1, h2⟩ := fl_gridCoord_eq (r := r) h.knots hl hpos (hlen k)
    obtain ⟨l, hl⟩ := fl_pointLine_inside h hd
    exact ⟨st ++ [l], by simp only [body, h1, hl, ok_bind, pure_ok]⟩
  have hout : ∀ k, ¬ InDomain s (flGridParam r s.ps.knots ns (unlin (ns.map (· + 1)) k)) →
      ∀ st, body ⟨zl (ns.map (· + 1)), zl (unlin (ns.map (· + 1)) k)⟩ st = .error (.thrown .rangeError) := by
    intro k hd st
    obtain ⟨h1, h2⟩ := fl_gridCoord_eq (r := r) h.knots hl hpos (hlen k)
    simp only [body, h1, fl_pointLine_outside h h2 hd, ok_bind, error_bind]
  have key := upLoop_ok_or_error hp (body := body) (e := .thrown .rangeError) (fun k _ => by
    by_cases hd : InDomain s (flGridParam r s.ps.knots ns (unlin (ns.map (· + 1)) k))
    · exact .inl (hin k hd)
    · exact .inr (hout k hd)) (ns.map (· + 1)).prod 0 [] (by omega)
  have e : Fl.writePoints r s (zl ns) = upLoop body (ns.map (· + 1)).prod ⟨zl (ns.map (· + 1)), zl (unlin (ns.map (· + 1)) 0)⟩ [] := by
    unfold Fl.writePoints
    have e : (zl ns).map (· + 1) = zl (ns.map (· + 1)) := by simp [zl]
    rw [e, mk'_zl]
    dsimp only
    rw [length1D_zl, Int.toNat_natCast]
  rw [← e] at key
  constructor
  · intro hle
    rcases key with ⟨k, -⟩ | ⟨-, j, -, -, k⟩
    · exact k
    · obtain ⟨st', k'⟩ := hin j (fl_grid_in h.knots hf hle (unlin_inBox hp j)) []
      rw [k] at k'
      cases k'
  · intro hle
    rcases key with ⟨-, k⟩ | ⟨k, -⟩
    · have hI := box_last_inBox ns
      have hlt := lin_lt hI
      obtain ⟨st', k'⟩ := k _ (Nat.zero_le _) (by rwa [zero_add]) []
      rw [hout _ (by rw [unlin_lin hI]; exact fun hd => hle (fl_last_grid_out hl hd))] at k'
      cases k'
    · exact k

/-! ### When nothing is thrown -/

/-- **C104** If the length of the range and a part of it are floating point numbers, the last sample is the end of a range from 0. -/
theorem C104_exact_step {n : ℕ} (hn : 0 < n) {U : List K} (h0 : knot U 0 = 0) (h1 : r.rnd (lastKnot U) = lastKnot U)
    (h2 : r.rnd (lastKnot U / n) = lastKnot U / n) : flSample r n U n = lastKnot U := by
  have hnK : (n : K) ≠ 0 := by exact_mod_cast hn.ne'
  rw [flSample, h0, sub_zero, h1, h2, div_mul_cancel₀ _ hnK, h1]

/-- **C104** If the ends of the range are integers, and integers up to the length of the range times the number of cells are floating point numbers,
the last point of the grid of a VTK file is the last knot. -/
theorem C104_integer_range {N : ℕ} (hN : ∀ m : ℤ, |m| ≤ N → r.rnd (m : K) = m) {U : List K} {u v : ℤ} (hu : knot U 0 = u) (hv : lastKnot U = v)
    (huv : u ≤ v) {n : ℕ} (hn : 0 < n) (h1 : n * (v - u) ≤ N) (h2 : |v| ≤ N) : flGrid r U n n = lastKnot U := by
  have hnK : (n : K) ≠ 0 := by exact_mod_cast hn.ne'
  have hn1 : (1 : ℤ) ≤ n := by exact_mod_cast hn
  have hd : 0 ≤ v - u := by omega
  have hle : v - u ≤ n * (v - u) := by nlinarith
  have e1 : r.rnd (lastKnot U - knot U 0) = ((v - u : ℤ) : K) := by
    rw [hu, hv, ← Int.cast_sub]; exact hN _ (by rw [abs_of_nonneg hd]; omega)
  have e2 : r.rnd ((n : K) * ((v - u : ℤ) : K)) = (n : K) * ((v - u : ℤ) : K) := by
    have := hN (n * (v - u)) (by rw [abs_of_nonneg (by positivity)]; exact h1)
    push_cast at this ⊢
    exact this
  rw [flGrid, e1, e2, mul_div_cancel_left₀ _ hnK, hN (v - u) (by rw [abs_of_nonneg hd]; omega), hu, ← Int.cast_add, show u + (v - u) = v by ring, hN v h2, hv]

/-- **C104** The parameters of the grid differ from the exact ones only by rounding errors. -/
theorem C104_grid_error {U : List K} {p : ℕ} (h : WFKnots U p) (n i : ℕ) :
    |flGrid r U n i - (knot U 0 + (i : K) * (lastKnot U - knot U 0) / (n : K))| ≤
      growth r 4 * (|knot U 0| + (i : K) * (lastKnot U - knot U 0) / (n : K)) := by
  have hS : 0 ≤ lastKnot U - knot U 0 := sub_nonneg.2 h.range.le
  have hi : (0 : K) ≤ i := Nat.cast_nonneg i
  have hn : (0 : K) ≤ 1 / n := by positivity
  have n1 := (Near.refl (r := r) _ hS).rnd hS
  have n2 := ((Near.refl (r := r) (i : K) hi).mul n1 hi hS).rnd (mul_nonneg hi hS)
  have n3 := (n2.mul (Near.refl (r := r) (1 / (n : K)) hn) (mul_nonneg hi hS) hn).rnd (mul_nonneg (mul_nonneg hi hS) hn)
  rw [mul_one_div, mul_one_div] at n3
  have hq : 0 ≤ (i : K) * (lastKnot U - knot U 0) / (n : K) := div_nonneg (mul_nonneg hi hS) (Nat.cast_nonneg n)
  have := (((Close.exact (r := r) (knot U 0)).mono (l := 3) (by omega)).add ((n3.mono hq (l := 3) (by omega)).close hq)).rnd
  exact this.1

/-- **C104** Without rounding this is the exact model, for all arguments. -/
theorem C104_exact_arithmetic [HasSqrt K] :
    (∀ (a b : Spl K) (tol : K), Fl.areGeometricallyEqual (exactRounding K) a b tol = a.areGeometricallyEqual b tol) ∧
    ∀ (s : Spl K) (scat : List ℤ), Fl.writePoints (exactRounding K) s scat = Vtk.writePoints s scat := by
  have ev : ∀ (s : Spl K) x dims, Fl.evaluate (exactRounding K) s x dims = s.evaluate x dims := C70_exact_arithmetic.2.2.1
  have hsp : ∀ n (Us : List (List K)) is, Fl.samplePoint (exactRounding K) n Us is = Spl.samplePoint n Us is := by
    intro n Us
    induction Us with
    | nil => intro is; rfl
    | cons U Us ih => intro is; cases is with
      | nil => rfl
      | cons i is => simp only [Fl.samplePoint, Spl.samplePoint, ih]; rfl
  have hgc : ∀ (Us : List (List K)) is ns, Fl.gridCoord (exactRounding K) Us is ns = Vtk.gridCoord Us is ns := by
    intro Us
    induction Us with
    | nil => intro is ns; rfl
    | cons U Us ih => intro is ns; cases is with
      | nil => rfl
      | cons i is => cases ns with
        | nil => rfl
        | cons n ns =>
          have hdiv : ∀ a b : K, Fl.div (exactRounding K) a b = fdiv a b := fun a b => by
            simp only [Fl.div]
            cases fdiv a b <;> rfl
          simp only [Fl.gridCoord, Vtk.gridCoord, ih, hdiv]
          rfl
  refine ⟨fun a b tol => ?_, fun s scat => ?_⟩
  · have : ∀ n dims m h, Fl.geomLoop (exactRounding K) a b tol n dims m h = Spl.geomLoop a b tol n dims m h := by
      intro n dims m
      induction m with
      | zero => intro h; rfl
      | succ m ih => intro h; simp only [Fl.geomLoop, Spl.geomLoop, hsp, ev, ih]; rfl
    simp only [Fl.areGeometricallyEqual, Spl.areGeometricallyEqual, this]
  · simp only [Fl.writePoints, Vtk.writePoints, hgc, Fl.pointLine, Vtk.pointLine, ev]

/-! ### Double precision -/

attribute [local instance] ratSqrt

theorem doubleSeven {U : List ℚ} (h0 : knot U 0 = 0) (h1 : lastKnot U = 7) : lastKnot U < flSample doubleRounding 100 U 100 := by
  rw [flSample, h0, h1]
  decide +kernel

/-- **C104**, counterexample: in double precision no curve over the range from 0 to 7 is geometrically equal to anything, and the comparison
with itself throws `range_error`: `7.0 / 100 * 100` is greater than `7.0`. -/
theorem C104_seven {a : Spl ℚ} (h : Fl.WF doubleRounding a) {U : List ℚ} (hU : a.ps.knots = [U]) (h0 : knot U 0 = 0) (h1 : lastKnot U = 7) :
    (∀ b tol, Fl.areGeometricallyEqual doubleRounding a b tol ≠ .ok true) ∧
    ∀ tol, 0 ≤ tol → Fl.areGeometricallyEqual doubleRounding a a tol = .error (.thrown .rangeError) := by
  have hs : Spl.sampleNumber a.ps.knots.length = 100 := by rw [hU]; exact (by decide +kernel : Spl.sampleNumber 1 = 100)
  have hover := doubleSeven h0 h1
  refine ⟨fun b tol => C104_comparison_never_true h (U := U) (by rw [hU]; simp) (by rw [hs]; exact hover) b tol, fun tol htol => ?_⟩
  refine (C104_comparison_self (by decide +kernel) h (fun V hV => ?_) htol).2 ⟨U, by rw [hU]; simp, by rw [hs]; exact hover⟩
  rw [hU, List.mem_singleton] at hV
  rw [hV, h0]

/-- The numbers `0.1`, `0.3` and `0.9` in double precision. -/
def double01 : ℚ := 3602879701896397 / 2 ^ 55
def double03 : ℚ := 5404319552844595 / 2 ^ 54
def double09 : ℚ := 8106479329266893 / 2 ^ 53

/-- **C104**, counterexample: in double precision no curve over the range from 0.3 to 0.9 can be written to a VTK file with one cell:
`0.3 + 1 * (0.9 - 0.3) / 1` is greater than `0.9`. -/
theorem C104_vtk_one_cell {s : Spl ℚ} (h : Fl.WF doubleRounding s) {U : List ℚ} (hU : s.ps.knots = [U]) (h0 : knot U 0 = double03)
    (h1 : lastKnot U = double09) : Fl.writePoints doubleRounding s [1] = .error (.thrown .rangeError) := by
  refine (C104_vtk_points h (ns := [1]) (fun V hV => ?_) (by rw [hU]; rfl) (by simp)).2 fun hc => ?_
  · rw [hU, List.mem_singleton] at hV
    rw [hV, h0]
    decide +kernel
  · rw [hU] at hc
    cases hc with
    | cons hc _ =>
      rw [flGrid, h0, h1] at hc
      exact absurd hc (by decide +kernel)

/-- **C104**, counterexample: the same for the range from 0 to 0.1 and three cells. -/
theorem C104_vtk_three_cells {s : Spl ℚ} (h : Fl.WF doubleRounding s) {U : List ℚ} (hU : s.ps.knots = [U]) (h0 : knot U 0 = 0)
    (h1 : lastKnot U = double01) : Fl.writePoints doubleRounding s [3] = .error (.thrown .rangeError) := by
  refine (C104_vtk_points h (ns := [3]) (fun V hV => ?_) (by rw [hU]; rfl) (by simp)).2 fun hc => ?_
  · rw [hU, List.mem_singleton] at hV
    rw [hV, h0, doubleRounding.rnd_zero]
  · rw [hU] at hc
    cases hc with
    | cons hc _ =>
      rw [flGrid, h0, h1] at hc
      exact absurd hc (by decide +kernel)

theorem double_int (m : ℤ) (h : |m| ≤ ((2 ^ 53 : ℕ) : ℤ)) : doubleRounding.rnd (m : ℚ) = m := by
  rcases le_total 0 m with h0 | h0
  · obtain ⟨n, rfl⟩ := Int.eq_ofNat_of_zero_le h0
    have := roundBits_nat (t := 53) (n := n) (by norm_num) (by simp at h; omega)
    exact_mod_cast this
  · obtain ⟨n, hn⟩ := Int.eq_ofNat_of_zero_le (neg_nonneg.2 h0)
    obtain rfl : m = -(n : ℤ) := by omega
    have := roundBits_nat (t := 53) (n := n) (by norm_num) (by simp at h; omega)
    push_cast
    rw [doubleRounding.neg]
    exact congrArg Neg.neg this

/-- The ends of the range are integers, not too large for `n` cells. -/
def IntegerRange (U : List ℚ) (n : ℕ) : Prop :=
  ∃ u v : ℤ, knot U 0 = (u : ℚ) ∧ lastKnot U = (v : ℚ) ∧ |u| ≤ 2 ^ 53 ∧ |v| ≤ 2 ^ 53 ∧ n * (v - u) ≤ 2 ^ 53

/-- **C104**, double precision: splines over ranges with integer ends can be written to VTK files with any numbers of cells `n`, as long as
`n` times the length of the range is at most `2^53`. -/
theorem C104_vtk_integer_ranges {s : Spl ℚ} (h : Fl.WF doubleRounding s) {ns : List ℕ} (hpos : ∀ n ∈ ns, 0 < n)
    (hint : List.Forall₂ IntegerRange s.ps.knots ns) :
    ∃ l, Fl.writePoints doubleRounding s (zl ns) = .ok l := by
  refine (C104_vtk_points h (fun U hU => ?_) hint.length_eq.symm hpos).1 ?_
  · have : ∀ {Us : List (List ℚ)} {ns : List ℕ}, List.Forall₂ IntegerRange Us ns → U ∈ Us → doubleRounding.rnd (knot U 0) = knot U 0 := by
      intro Us ns hf hU
      induction hf with
      | nil => simp at hU
      | cons h1 _ ih =>
        rcases List.mem_cons.1 hU with rfl | hU
        · obtain ⟨u, v, h1, -, h2, -⟩ := h1
          rw [h1]
          exact double_int u (by exact_mod_cast h2)
        · exact ih hU
    exact this hint hU
  · have hk := h.knots
    revert hk hint
    generalize s.ps.knots = Us
    generalize s.ps.degree = ps
    intro hint hk
    induction hint generalizing ps with
    | nil => exact .nil
    | @cons U n Us ns h1 _ ih =>
      cases hk with
      | cons hU hk =>
        obtain ⟨u, v, e1, e2, b1, b2, b3⟩ := h1
        have huv : u ≤ v := by
          have := hU.range.le
          rw [e1, e2] at this
          exact_mod_cast this
        exact .cons (C104_integer_range (N := 2 ^ 53) double_int e1 e2 huv (hpos n (by simp)) (by exact_mod_cast b3) (by exact_mod_cast b2)).le
          (ih (fun m hm => hpos m (by simp [hm])) _ hk)

/-- The line over a range, built with double precision. -/
def flLineOver (u v : ℚ) : Spl ℚ := ⟨⟨[[u, u, v, v]], [1], flTable doubleRounding [[u, u, v, v]] [1]⟩, ⟨1, [2], [1, 3], none⟩⟩

/-- Inputs for `C104_seven`, `C104_vtk_one_cell` and `C104_vtk_three_cells`. -/
example : Fl.WF doubleRounding (flLineOver 0 7) ∧ Fl.WF doubleRounding (flLineOver double03 double09) ∧ Fl.WF doubleRounding (flLineOver 0 double01) :=
  ⟨⟨.cons (by decide +kernel) .nil, fl_basisTable_eq (.cons (by decide +kernel) .nil), by decide +kernel, by decide +kernel, by decide +kernel, by simp [flLineOver]⟩,
    ⟨.cons (by decide +kernel) .nil, fl_basisTable_eq (.cons (by decide +kernel) .nil), by decide +kernel, by decide +kernel, by decide +kernel, by simp [flLineOver]⟩,
    ⟨.cons (by decide +kernel) .nil, fl_basisTable_eq (.cons (by decide +kernel) .nil), by decide +kernel, by decide +kernel, by decide +kernel, by simp [flLineOver]⟩⟩

/-- `C104_vtk_integer_ranges`: the line over the range from -3 to 7 with any number of cells up to `2^49`. -/
example {n : ℕ} (hn : 0 < n) (h : n ≤ 2 ^ 49) : ∃ l, Fl.writePoints doubleRounding (flLineOver (-3) 7) (zl [n]) = .ok l :=
  C104_vtk_integer_ranges ⟨.cons (by decide +kernel) .nil, fl_basisTable_eq (.cons (by decide +kernel) .nil), by decide +kernel, by decide +kernel, by decide +kernel,
    by simp [flLineOver]⟩ (by simpa using hn) (.cons ⟨-3, 7, by decide +kernel, by decide +kernel, by norm_num, by norm_num, by push_cast; omega⟩ .nil)

/-- `C104_comparison_self`: over the range from 0 to 1 the last sample is the last knot. -/
example : flSample doubleRounding 100 [0, 0, 1, 1] 100 = 1 ∧ Fl.WF doubleRounding (flLineOver 0 1) ∧ StartsAtZero (flLineOver 0 1) :=
  ⟨by decide +kernel, ⟨.cons (by decide +kernel) .nil, fl_basisTable_eq (.cons (by decide +kernel) .nil), by decide +kernel, by decide +kernel, by decide +kernel,
    by simp [flLineOver]⟩, by simp [StartsAtZero, flLineOver, knot]⟩

end SplineLib
