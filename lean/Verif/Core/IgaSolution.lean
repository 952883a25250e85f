import Verif.Core.IgaBoundary
import Verif.Core.Vtk
import Verif.Core.Surface

/-!
# Boundary splines and solution splines of the isogeometric example (helper lemmas)
-/

namespace SplineLib
set_option linter.unusedSectionVars false
open Finset
open Vtk (gridParam)

namespace Iga
variable {K : Type} [Field K] [LinearOrder K] [IsStrictOrderedRing K]

/-! ### The solution spline -/

/-- The points of the solution spline: the control points with the value of the solution as an additional coordinate. -/
def liftPoints (s : Spl K) (u : ℕ → K) : List (List K) :=
  (List.range (npts s).prod).map fun k => ((List.range s.ph.dim).map fun c => cpt s (unlin (npts s) k) c) ++ [u k]

theorem liftPoints_length (s : Spl K) (u : ℕ → K) : (liftPoints s u).length = (npts s).prod := by simp [liftPoints]

theorem liftPoints_mem {s : Spl K} {u : ℕ → K} : ∀ q ∈ liftPoints s u, q.length = s.ph.dim + 1 := by
  intro q hq
  obtain ⟨k, -, rfl⟩ := List.mem_map.1 hq
  simp

theorem solutionSpline_ok {s : Spl K} (h : WFSpl s) (hn : IsNurbs s) (hsz : (npts s).prod < 2 ^ 64) (u : ℕ → K) :
    ∃ t, solutionSpline s (vecOf (npts s).prod u) = .ok t ∧ Built t s.ps.knots s.ps.degree (liftPoints s u) s.ph.weights := by
  obtain ⟨w, hw⟩ := hn
  have hpos : 0 < (npts s).prod := prod_pos_iff.2 (npts_pos h)
  have h1 : upLoop (solutionBody s (vecOf (npts s).prod u)) (npts s).prod (MIH.mk' (zl (npts s))) [] = .ok (liftPoints s u) := by
    have := upLoop_fun (ns := npts s) (body := solutionBody s (vecOf (npts s).prod u)) (fun k =>
      (List.range k).map fun k => ((List.range s.ph.dim).map fun c => cpt s (unlin (npts s) k) c) ++ [u k]) (by
      intro k hk
      unfold solutionBody
      dsimp only
      rw [buildList_eq (fun c hc => controlPoint_eq h (unlin_inBox (npts_pos h) k) hc), ok_bind, List.length_map, List.length_range,
        getVec_eq hk, ok_bind, pure_ok, List.range_succ, List.map_append]
      rfl)
    rw [mk'_zl, length1D_zl, Int.toNat_natCast] at this
    rw [mk'_zl]
    exact this
  have hcopy : s.ps.copy = .ok s.ps := by
    unfold PS.copy
    rw [h.basis, ok_bind, pure_ok]
  have hne : liftPoints s u ≠ [] := by
    intro e
    have := liftPoints_length s u
    rw [e] at this
    simp at this
    omega
  have e5 := (physNew_eq hne hsz).1 ⟨liftPoints_length s u, _, liftPoints_mem⟩
  have hwl := (h.weights w hw).1
  refine ⟨⟨s.ps, ⟨((liftPoints s u).head hne).length, zl (npts s), (liftPoints s u).flatten, some w⟩⟩, ?_, ?_⟩
  · unfold solutionSpline
    rw [h.num, numCPs_eq h]
    dsimp only
    rw [ok_bind, Int.toNat_natCast, h1, ok_bind, hcopy, ok_bind]
    unfold Phys.theWeights
    rw [hw]
    dsimp only
    rw [ok_bind]
    unfold Phys.newWeighted
    rw [e5, ok_bind, if_neg (by rw [liftPoints_length, hwl]; simp), pure_ok, ok_bind, pure_ok]
  · refine ⟨rfl, rfl, ?_, head_dim hne ⟨_, liftPoints_mem⟩, rfl, rfl, hw.symm⟩
    have := h.basis
    rw [basisTable_eq (forall₂_size h.knots)] at this
    exact (Except.ok.inj this).symm

/-- The solution spline: the coordinates and weights of `s`, and the solution as the last coordinate. -/
structure Lifted (s t : Spl K) (u : ℕ → K) : Prop where
  wf : WFSpl t
  nurbs : IsNurbs t
  knots : t.ps.knots = s.ps.knots
  degree : t.ps.degree = s.ps.degree
  dim : t.ph.dim = s.ph.dim + 1
  wgt : ∀ I, wgt t I = SplineLib.wgt s I
  cpt : ∀ I, InBox (npts s) I → ∀ c < s.ph.dim, cpt t I c = SplineLib.cpt s I c
  last : ∀ I, InBox (npts s) I → SplineLib.cpt t I s.ph.dim = u (lin (npts s) I)

theorem solutionSpline_eq {s : Spl K} (h : WFSpl s) (hn : IsNurbs s) (hsz : (npts s).prod < 2 ^ 64) (u : ℕ → K) :
    ∃ t, solutionSpline s (vecOf (npts s).prod u) = .ok t ∧ Lifted s t u := by
  obtain ⟨t, h1, hb⟩ := solutionSpline_ok h hn hsz u
  have hne : liftPoints s u ≠ [] := by
    intro e
    have h1 := liftPoints_length s u
    have h2 := prod_pos_iff.2 (npts_pos h)
    rw [← h1, e] at h2
    simp at h2
  have hnp : npts t = npts s := by rw [npts_eq, hb.knots, hb.degree, npts_eq]
  have hd : t.ph.dim = s.ph.dim + 1 := by rw [hb.dim _ (List.head_mem hne), liftPoints_mem _ (List.head_mem hne)]
  have hc : ∀ I, InBox (npts s) I → ∀ c < s.ph.dim + 1, cpt t I c =
      (((List.range s.ph.dim).map fun c => cpt s I c) ++ [u (lin (npts s) I)]).getD c 0 := by
    intro I hI c hc
    unfold cpt
    rw [hb.cps, hd, hnp, flatten_getD liftPoints_mem hc]
    congr 1
    unfold liftPoints
    rw [List.getD_eq_getElem?_getD, List.getElem?_map, List.getElem?_range (lin_lt hI)]
    simp only [Option.map_some, Option.getD_some, unlin_lin hI]
    rfl
  refine ⟨t, h1, hb.wf h.knots hne (by rw [liftPoints_length, npts_eq]) (Nat.succ_pos _) liftPoints_mem ?_, ?_, hb.knots, hb.degree, hd, ?_, ?_, ?_⟩
  · intro w hw
    rw [liftPoints_length]
    exact h.weights w hw
  · obtain ⟨w, hw⟩ := hn
    exact ⟨w, by rw [hb.weights, hw]⟩
  · intro I
    unfold wgt
    rw [hb.weights, hnp]
  · intro I hI c hc'
    rw [hc I hI c (by omega), List.getD_eq_getElem?_getD, List.getElem?_append_left (by simpa using hc')]
    simp [hc']
  · intro I hI
    rw [hc I hI _ (by omega), List.getD_eq_getElem?_getD, List.getElem?_append_right (by simp)]
    simp

theorem solutionCoord_eq {Us : List (List K)} {ps : List ℕ} (h : List.Forall₂ WFKnots Us ps) : (∀ U ∈ Us, U.length < 2 ^ 64) →
    ∀ {ns I : List ℕ}, ns.length = Us.length → (∀ n ∈ ns, 0 < n) → InBox (ns.map (· + 1)) I →
    solutionCoord Us (zl I) (zl ns) = .ok (gridParam Us ns I) := by
  induction h with
  | nil => intro _ ns I hl _ _; rfl
  | @cons U p Us ps hU _ ih =>
    intro hl64 ns I hl hpos hI
    cases ns with
    | nil => simp at hl
    | cons n ns =>
      cases I with
      | nil => simp at hI
      | cons i I =>
        simp only [List.map_cons, inBox_cons] at hI
        have h1 := ih (fun V hV => hl64 V (by simp [hV])) (ns := ns) (I := I) (by simpa using hl) (fun m hm => hpos m (by simp [hm])) hI.2
        have hn : 0 < n := hpos n (by simp)
        have hnK : (0 : K) < n := by exact_mod_cast hn
        have hlen : 0 < U.length := by have := hU.size; omega
        have h64 := hl64 U (by simp)
        have e1 : kvGet U 0 = .ok (knot U 0) := kvGet_eq hlen
        have e2 : kvGet U (toSizeT ((U.length : ℤ) - 1)) = .ok (lastKnot U) := by
          rw [toSizeT_of (n := U.length - 1) (by omega) (by omega), kvGet_eq (by omega)]
          rfl
        have e3 : fdiv (lastKnot U - knot U 0) ((n : ℤ) : K) = .ok ((lastKnot U - knot U 0) / n) := by
          unfold fdiv; rw [if_neg (by exact_mod_cast hnK.ne')]; push_cast; rfl
        have h1' : solutionCoord Us (List.map Nat.cast I) (List.map Nat.cast ns) = .ok (gridParam Us ns I) := h1
        simp only [List.map_cons, solutionCoord]
        rw [e1, ok_bind, e2, ok_bind, e3, ok_bind, h1', ok_bind, pure_ok]
        unfold gridParam
        simp only [List.zip_cons_cons, List.zipWith_cons_cons]
        congr 2
        push_cast
        ring

/-- The field with the coefficients `u`. -/
def field (s : Spl K) (u : ℕ → K) (x : List K) : K := ∑ a ∈ range (npts s).prod, fnAt s x a * u a

theorem lifted_value {s t : Spl K} {u : ℕ → K} (L : Lifted s t u) (x : List K) : nurbsValue t x s.ph.dim = field s u x := by
  have hnp : npts t = npts s := by rw [npts_eq, L.knots, L.degree, npts_eq]
  have hw : weightValue t x = weightValue s x := by
    unfold weightValue tensorSum
    rw [hnp, L.knots, L.degree]
    simp only [L.wgt]
  unfold nurbsValue tensorSum field
  rw [hw, hnp, L.knots, L.degree, ← msum_div, msum_eq_sum_unlin]
  apply sum_congr rfl
  intro a ha
  have hpos : ∀ n ∈ npts s, 0 < n := prod_pos_iff.1 (Nat.lt_of_le_of_lt (Nat.zero_le _) (Finset.mem_range.1 ha))
  dsimp only
  rw [L.wgt, L.last _ (unlin_inBox hpos a), lin_unlin (Finset.mem_range.1 ha)]
  unfold fnAt ratFn
  ring

theorem lifted_coord {s t : Spl K} {u : ℕ → K} (L : Lifted s t u) (x : List K) {c : ℕ} (hc : c < s.ph.dim) :
    nurbsValue t x c = nurbsValue s x c := by
  have hnp : npts t = npts s := by rw [npts_eq, L.knots, L.degree, npts_eq]
  have hw : weightValue t x = weightValue s x := by
    unfold weightValue tensorSum
    rw [hnp, L.knots, L.degree]
    simp only [L.wgt]
  unfold nurbsValue tensorSum
  rw [hw, hnp, L.knots, L.degree]
  congr 1
  apply msum_congr
  intro I hI
  dsimp only
  rw [L.wgt, L.cpt I hI c hc]

theorem solutionData_eq {s : Spl K} (h : WFSpl s) (hn : IsNurbs s) (hsz : (npts s).prod < 2 ^ 64) (hl : ∀ U ∈ s.ps.knots, U.length < 2 ^ 64)
    (u : ℕ → K) {ns : List ℕ} (hns : ns.length = s.ps.knots.length) (hpos : ∀ n ∈ ns, 0 < n) :
    solutionData s (vecOf (npts s).prod u) (zl ns) = .ok ((List.range (ns.map (· + 1)).prod).map fun k =>
      field s u (gridParam s.ps.knots ns (unlin (ns.map (· + 1)) k))) := by
  obtain ⟨t, h1, L⟩ := solutionSpline_eq h hn hsz u
  unfold solutionData
  rw [h1, ok_bind]
  have e : (zl ns).map (· + 1) = zl (ns.map (· + 1)) := by simp [zl]
  have hp : ∀ n ∈ ns.map (· + 1), 0 < n := by simp
  rw [e]
  dsimp only
  have := upLoop_fun (ns := ns.map (· + 1)) (body := fun h acc => do
    let x ← solutionCoord s.ps.knots h.cur (zl ns)
    let v ← t.evaluate x [(s.ph.dim : ℤ)]
    let a ← getN v 0
    return acc ++ [a]) (fun k => (List.range k).map fun k => field s u (gridParam s.ps.knots ns (unlin (ns.map (· + 1)) k))) (by
      intro k hk
      have h2 := (Vtk.gridCoord_eq h.knots hns hpos (unlin_inBox hp k)).2
      dsimp only
      rw [solutionCoord_eq h.knots hl hns hpos (unlin_inBox hp k), ok_bind]
      have h3 := evaluate_nurbs L.wf L.nurbs (x := gridParam s.ps.knots ns (unlin (ns.map (· + 1)) k)) (by
        unfold InDomain; rw [L.knots]; exact h2) [s.ph.dim] (by simp [L.dim])
      simp only [List.map_cons, List.map_nil] at h3
      rw [h3, ok_bind, if_neg (by rw [L.dim]; omega), lifted_value L]
      simp only [getN, List.getElem?_cons_zero]
      rw [ok_bind, pure_ok, List.range_succ, List.map_append]
      rfl)
  exact this

/-! ### Boundary splines -/

theorem range_mul (n N : ℕ) : List.range (n * N) = (List.range N).flatMap fun k => (List.range n).map fun i => i + n * k := by
  induction N with
  | zero => simp
  | succ N ih =>
    rw [Nat.mul_succ, List.range_add, ih, List.range_succ, List.flatMap_append]
    simp only [List.flatMap_cons, List.flatMap_nil, List.append_nil]
    congr 1
    apply List.map_congr_left
    intro i _
    omega

/-- The numbers of the control points with index `c` in direction `d`. -/
theorem filter_face : ∀ {ns : List ℕ} {d n c : ℕ}, (∀ m ∈ ns, 0 < m) → ns[d]? = some n → c < n →
    (List.range ns.prod).filter (fun k => ((unlin ns k)[d]? == some c)) =
      (List.range (ns.eraseIdx d).prod).map fun m => lin ns ((unlin (ns.eraseIdx d) m).insertIdx d c)
  | [], d, n, c, _, h, _ => by simp at h
  | m :: ns, 0, n, c, hp, h, hc => by
    simp only [List.getElem?_cons_zero, Option.some.injEq] at h
    subst h
    simp only [List.prod_cons, List.eraseIdx_cons_zero, unlin, List.getElem?_cons_zero, Option.some_beq_some, List.insertIdx_zero, lin]
    rw [range_mul, List.filter_flatMap]
    have e : ∀ k, ((List.range m).map fun i => i + m * k).filter (fun a => (a % m == c)) = [c + m * k] := by
      intro k
      rw [List.filter_map]
      have e2 : ∀ i ∈ List.range m, ((fun a => (a % m == c)) ∘ fun i => i + m * k) i = (i == c) := by
        intro i hi
        simp only [Function.comp]
        rw [Nat.add_mul_mod_self_left, Nat.mod_eq_of_lt (List.mem_range.1 hi)]
      rw [List.filter_congr e2]
      have e3 : (List.range m).filter (fun i => (i == c)) = [c] := by
        have := List.nodup_range (n := m)
        have h4 := List.filter_beq (l := List.range m) c
        have h5 : (List.range m).count c = 1 := List.count_eq_one_of_mem this (List.mem_range.2 hc)
        rw [h5] at h4
        simpa using h4
      rw [e3]
      rfl
    simp only [e]
    rw [← List.map_eq_flatMap]
    apply List.map_congr_left
    intro k hk
    rw [lin_unlin (List.mem_range.1 hk)]
  | m :: ns, d + 1, n, c, hp, h, hc => by
    have ih := filter_face (ns := ns) (d := d) (n := n) (c := c) (fun a ha => hp a (by simp [ha])) (by simpa using h) hc
    have hm : 0 < m := hp m (by simp)
    simp only [List.prod_cons, List.eraseIdx_cons_succ, unlin, List.getElem?_cons_succ, List.insertIdx_succ_cons, lin]
    rw [range_mul m ns.prod, List.filter_flatMap]
    have e : ∀ k, ((List.range m).map fun i => i + m * k).filter (fun a => ((unlin ns (a / m))[d]? == some c)) =
        if (unlin ns k)[d]? = some c then (List.range m).map fun i => i + m * k else [] := by
      intro k
      rw [List.filter_map]
      have e2 : ∀ i ∈ List.range m, ((fun a => ((unlin ns (a / m))[d]? == some c)) ∘ fun i => i + m * k) i =
          ((unlin ns k)[d]? == some c) := by
        intro i hi
        simp only [Function.comp]
        rw [Nat.add_mul_div_left _ _ hm, Nat.div_eq_of_lt (List.mem_range.1 hi), Nat.zero_add]
      rw [List.filter_congr e2]
      by_cases hk : (unlin ns k)[d]? = some c
      · simp [hk]
      · simp [hk]
    simp only [e]
    have e4 : (List.range ns.prod).flatMap (fun k => if (unlin ns k)[d]? = some c then (List.range m).map fun i => i + m * k else []) =
        ((List.range ns.prod).filter (fun k => ((unlin ns k)[d]? == some c))).flatMap fun k => (List.range m).map fun i => i + m * k := by
      induction (List.range ns.prod) with
      | nil => rfl
      | cons a l ih =>
        rw [List.flatMap_cons, ih, List.filter_cons]
        by_cases hk : (unlin ns a)[d]? = some c
        · simp [hk]
        · simp [hk]
    rw [e4, ih, range_mul m (ns.eraseIdx d).prod, List.map_flatMap, List.flatMap_map]
    congr 1
    funext k
    rw [List.map_map]
    apply List.map_congr_left
    intro i hi
    simp only [Function.comp]
    rw [Nat.add_mul_mod_self_left, Nat.mod_eq_of_lt (List.mem_range.1 hi), Nat.add_mul_div_left _ _ hm,
      Nat.div_eq_of_lt (List.mem_range.1 hi), Nat.zero_add]

theorem insertIdx_inBox : ∀ {ns : List ℕ} {d n c : ℕ} {J : List ℕ}, ns[d]? = some n → c < n → InBox (ns.eraseIdx d) J →
    InBox ns (J.insertIdx d c)
  | [], d, n, c, J, h, _, _ => by simp at h
  | m :: ns, 0, n, c, J, h, hc, hJ => by
    simp only [List.getElem?_cons_zero, Option.some.injEq] at h
    subst h
    simp only [List.insertIdx_zero, inBox_cons]
    exact ⟨hc, by simpa using hJ⟩
  | m :: ns, d + 1, n, c, J, h, hc, hJ => by
    cases J with
    | nil => simp at hJ
    | cons j J =>
      simp only [List.eraseIdx_cons_succ, inBox_cons] at hJ
      simp only [List.insertIdx_succ_cons, inBox_cons]
      exact ⟨hJ.1, insertIdx_inBox (by simpa using h) hc hJ.2⟩

/-- The numbers of the control points on the side `c` of direction `d`, in the order of the other directions. -/
def faceNumbers (s : Spl K) (d c : ℕ) : List ℕ :=
  (List.range ((npts s).eraseIdx d).prod).map fun m => lin (npts s) ((unlin ((npts s).eraseIdx d) m).insertIdx d c)

theorem boundaryConnectivity_eq {s : Spl K} (h : WFSpl s) {d n : ℕ} (hd : (npts s)[d]? = some n) :
    boundaryConnectivity s d = .ok (zl (faceNumbers s d 0), zl (faceNumbers s d (n - 1))) := by
  have hn : 0 < n := npts_pos h n (List.mem_of_getElem? hd)
  have hdl : d < (npts s).length := lt_of_some hd
  unfold boundaryConnectivity
  rw [h.num]
  dsimp only
  have := upLoop_fun (ns := npts s) (body := connectivityBody (zl (npts s)) d) (fun k =>
    (zl ((List.range k).filter (fun k => ((unlin (npts s) k)[d]? == some 0))),
      zl ((List.range k).filter (fun k => ((unlin (npts s) k)[d]? == some (n - 1)))))) (by
    intro k hk
    unfold connectivityBody
    obtain ⟨i, hi⟩ : ∃ i, (unlin (npts s) k)[d]? = some i := ⟨_, List.getElem?_eq_getElem (by simpa using hdl)⟩
    dsimp only
    rw [getN_some (a := (i : ℤ)) (by simp [zl, hi]), ok_bind, getN_some (a := (n : ℤ)) (by simp [zl, hd]), ok_bind, get1D_zl_unlin hk,
      pure_ok, List.range_succ, List.filter_append, List.filter_append]
    simp only [List.filter_cons, List.filter_nil, hi, Option.some_beq_some, zl, List.map_append]
    congr 2
    · by_cases e : i = 0
      · simp [e]
      · simp [e]
    · by_cases e : i = n - 1
      · rw [if_pos (by omega)]; simp [e]
      · rw [if_neg (by omega)]; simp [e])
  simp only [List.range_zero, List.filter_nil, zl, List.map_nil] at this
  rw [show zl (npts s) = List.map Nat.cast (npts s) from rfl, this]
  rw [filter_face (npts_pos h) hd hn, filter_face (npts_pos h) hd (by omega)]
  rfl

/-- The sum over the functions at a point of a face. -/
theorem face_sum : ∀ {Us : List (List K)} {ps : List ℕ} {d : ℕ} {U : List K} {p : ℕ} {y : List K} {a : K} {c : ℕ} (F : List ℕ → K),
    Us.length = ps.length → Us[d]? = some U → ps[d]? = some p → c < U.length - p - 1 → y.length + 1 = Us.length →
    (∀ i < U.length - p - 1, coxDeBoor U p i a = if i = c then 1 else 0) →
    msum (nptsOf Us ps) (fun I => dprod (basisFns Us ps (y.insertIdx d a)) I * F I) =
      msum (nptsOf (Us.eraseIdx d) (ps.eraseIdx d)) fun J => dprod (basisFns (Us.eraseIdx d) (ps.eraseIdx d) y) J * F (J.insertIdx d c)
  | [], ps, d, U, p, y, a, c, F, _, h, _, _, _, _ => by simp at h
  | V :: Us, [], d, U, p, y, a, c, F, hl, _, _, _, _, _ => by simp at hl
  | V :: Us, q :: ps, 0, U, p, y, a, c, F, hl, hU, hp, hc, hy, hcox => by
    simp only [List.getElem?_cons_zero, Option.some.injEq] at hU hp
    subst hU; subst hp
    simp only [nptsOf, List.zipWith_cons_cons, List.insertIdx_zero, List.eraseIdx_cons_zero, msum, basisFns, dprod]
    rw [Finset.sum_eq_single c]
    · apply msum_congr
      intro J _
      rw [hcox c hc, if_pos rfl, one_mul]
    · intro i hi hne
      rw [← msum_zero (List.zipWith (fun U p => U.length - p - 1) Us ps)]
      apply msum_congr
      intro J _
      rw [hcox i (Finset.mem_range.1 hi), if_neg hne, zero_mul, zero_mul]
    · intro h; exact absurd (Finset.mem_range.2 hc) h
  | V :: Us, q :: ps, d + 1, U, p, [], a, c, F, hl, hU, hp, hc, hy, hcox => by
    simp only [List.length_nil, List.length_cons] at hy
    simp only [List.getElem?_cons_succ] at hU
    have := lt_of_some hU
    omega
  | V :: Us, q :: ps, d + 1, U, p, b :: y, a, c, F, hl, hU, hp, hc, hy, hcox => by
    simp only [nptsOf, List.zipWith_cons_cons, List.insertIdx_succ_cons, List.eraseIdx_cons_succ, msum, basisFns, dprod]
    apply sum_congr rfl
    intro i _
    have := face_sum (Us := Us) (ps := ps) (d := d) (U := U) (p := p) (y := y) (a := a) (c := c) (fun J => coxDeBoor V q i b * F (i :: J))
      (by simpa using hl) (by simpa using hU) (by simpa using hp) hc (by simpa using hy) hcox
    unfold nptsOf at this
    have e1 : ∀ J, coxDeBoor V q i b * dprod (basisFns Us ps (y.insertIdx d a)) J * F (i :: J) =
        dprod (basisFns Us ps (y.insertIdx d a)) J * (coxDeBoor V q i b * F (i :: J)) := fun J => by ring
    simp only [e1]
    rw [this]
    apply msum_congr
    intro J _
    ring

theorem nptsOf_erase : ∀ (Us : List (List K)) (ps : List ℕ) (d : ℕ), (nptsOf Us ps).eraseIdx d = nptsOf (Us.eraseIdx d) (ps.eraseIdx d)
  | [], ps, d => by cases ps <;> simp [nptsOf]
  | U :: Us, [], d => by simp [nptsOf]
  | U :: Us, p :: ps, 0 => by simp [nptsOf]
  | U :: Us, p :: ps, d + 1 => by
    have := nptsOf_erase Us ps d
    unfold nptsOf at this ⊢
    simp only [List.zipWith_cons_cons, List.eraseIdx_cons_succ, this]

theorem forall₂_take {α β : Type*} {R : α → β → Prop} : ∀ {l : List α} {m : List β} (n : ℕ), List.Forall₂ R l m →
    List.Forall₂ R (l.take n) (m.take n)
  | _, _, 0, _ => by simp
  | [], [], n + 1, _ => by simp
  | a :: l, b :: m, n + 1, h => by
    obtain ⟨h1, h2⟩ := List.forall₂_cons.1 h
    simp only [List.take_succ_cons, List.forall₂_cons]
    exact ⟨h1, forall₂_take n h2⟩

theorem buildList_take {α : Type} (l : List α) {n : ℕ} (h : n ≤ l.length) : buildList (fun m => getN l m) n = .ok (l.take n) := by
  cases n with
  | zero => rfl
  | succ n =>
    cases l with
    | nil => simp at h
    | cons a l =>
      rw [buildList_eq (g := fun m => (a :: l).getD m a) (by
        intro m hm
        rw [getN_of_lt (by omega)]
        rw [List.getD_eq_getElem?_getD, List.getElem?_eq_getElem (by omega)]
        rfl)]
      congr 1
      apply List.ext_getElem
      · simp at h ⊢; omega
      · intro k h1 h2
        have hk : k < n + 1 := by simpa using h1
        simp only [List.getElem_map, List.getElem_range, List.getElem_take, List.getD_eq_getElem?_getD]
        rw [List.getElem?_eq_getElem (by omega)]
        rfl

/-- The control points and weights on a side. -/
def facePoints (s : Spl K) (side : List ℕ) : List (List K) := side.map fun k => (List.range s.ph.dim).map fun c => cpt s (unlin (npts s) k) c

def faceWeights (s : Spl K) (side : List ℕ) : List K := side.map fun k => wgt s (unlin (npts s) k)

theorem boundarySide_data {s : Spl K} (h : WFSpl s) {side : List ℕ} :
    boundarySide s (zl side) = Spl.newNurbs (s.ps.knots.take (D s - 1)) (s.ps.degree.take (D s - 1)) (facePoints s side) (faceWeights s side) := by
  unfold boundarySide
  rw [buildList_take _ (Nat.sub_le _ _), ok_bind, buildList_take _ (by rw [← h.knots.length_eq]; exact Nat.sub_le _ _), ok_bind, h.num]
  have e : ∀ k : ℕ, ((MIH.mk' (zl (npts s))).plus (k : ℤ)).cur = zl (unlin (npts s) k) := by
    intro k
    unfold MIH.plus
    rw [Int.toNat_natCast, mk'_iter_zl (npts_pos h)]
  have e1 : (zl side).mapM (fun n => s.ph.getCP ((MIH.mk' (zl (npts s))).plus n).cur) = .ok (facePoints s side) := by
    unfold facePoints
    induction side with
    | nil => rfl
    | cons k side ih =>
      simp only [List.map_cons, List.mapM_cons]
      rw [e, getCP_eq h.num h.cps (unlin_inBox (npts_pos h) k), ok_bind]
      have ih' : List.mapM (fun n => s.ph.getCP ((MIH.mk' (zl (npts s))).plus n).cur) (List.map Nat.cast side) = _ := ih
      rw [ih', ok_bind]
      rfl
  have e2 : (zl side).mapM (fun n => s.ph.getWeight ((MIH.mk' (zl (npts s))).plus n).cur) = .ok (faceWeights s side) := by
    clear e1
    unfold faceWeights
    induction side with
    | nil => rfl
    | cons k side ih =>
      simp only [List.map_cons, List.mapM_cons]
      rw [e, getWeight_eq h (unlin_inBox (npts_pos h) k), ok_bind]
      have ih' : List.mapM (fun n => s.ph.getWeight ((MIH.mk' (zl (npts s))).plus n).cur) (List.map Nat.cast side) = _ := ih
      rw [ih', ok_bind]
      rfl
  rw [e1, ok_bind, e2, ok_bind]

/-- What `GetBoundarySplines` should return for direction `d` and the side with index `c`: the control points and weights of the side with
the knot vectors of the other directions. -/
structure Face (s t : Spl K) (d c : ℕ) : Prop where
  wf : WFSpl t
  nurbs : IsNurbs t
  knots : t.ps.knots = s.ps.knots.eraseIdx d
  degree : t.ps.degree = s.ps.degree.eraseIdx d
  dim : t.ph.dim = s.ph.dim
  cpt : ∀ J, InBox (npts t) J → ∀ i < s.ph.dim, cpt t J i = SplineLib.cpt s (J.insertIdx d c) i
  wgt : ∀ J, InBox (npts t) J → wgt t J = SplineLib.wgt s (J.insertIdx d c)

theorem prod_eraseIdx_le : ∀ {ns : List ℕ} (d : ℕ), (∀ n ∈ ns, 0 < n) → (ns.eraseIdx d).prod ≤ ns.prod
  | [], d, _ => by simp
  | n :: ns, 0, h => by
    simp only [List.eraseIdx_cons_zero, List.prod_cons]
    exact Nat.le_mul_of_pos_left _ (h n (by simp))
  | n :: ns, d + 1, h => by
    simp only [List.eraseIdx_cons_succ, List.prod_cons]
    exact Nat.mul_le_mul_left _ (prod_eraseIdx_le d fun m hm => h m (by simp [hm]))

theorem boundarySide_face {s : Spl K} (h : WFSpl s) (hsz : (npts s).prod < 2 ^ 64) {d n c : ℕ} (hd : (npts s)[d]? = some n) (hc : c < n)
    (hk : s.ps.knots.take (D s - 1) = s.ps.knots.eraseIdx d) (hp : s.ps.degree.take (D s - 1) = s.ps.degree.eraseIdx d) :
    ∃ t, boundarySide s (zl (faceNumbers s d c)) = .ok t ∧ Face s t d c := by
  have hpos := npts_pos h
  have hkn : List.Forall₂ WFKnots (s.ps.knots.eraseIdx d) (s.ps.degree.eraseIdx d) := by
    rw [← hk, ← hp]; exact forall₂_take _ h.knots
  have hns : nptsOf (s.ps.knots.eraseIdx d) (s.ps.degree.eraseIdx d) = (npts s).eraseIdx d := by rw [npts_eq, nptsOf_erase]
  have hpos' : ∀ m ∈ (npts s).eraseIdx d, 0 < m := fun m hm => hpos m (List.mem_of_mem_eraseIdx hm)
  have hprod : 0 < ((npts s).eraseIdx d).prod := prod_pos_iff.2 hpos'
  have hlen : (faceNumbers s d c).length = ((npts s).eraseIdx d).prod := by simp [faceNumbers]
  have hmem : ∀ q ∈ facePoints s (faceNumbers s d c), q.length = s.ph.dim := by
    intro q hq
    obtain ⟨k, -, rfl⟩ := List.mem_map.1 hq
    simp
  have hfl : (facePoints s (faceNumbers s d c)).length = ((npts s).eraseIdx d).prod := by simp [facePoints, hlen]
  have hne : facePoints s (faceNumbers s d c) ≠ [] := by
    intro e
    rw [e] at hfl
    simp at hfl
    omega
  obtain ⟨t, h1, hb⟩ := newNurbs_ok (weights := faceWeights s (faceNumbers s d c)) hne
    (hkn.imp fun U p hU => clamped_iff.2 ⟨hU.size, hU.first, hU.last⟩) (by
      rw [hns]; exact lt_of_le_of_lt (prod_eraseIdx_le d hpos) hsz) (by rw [hns, hfl]) ⟨_, hmem⟩ (by simp [facePoints, faceWeights])
  have hnp : npts t = (npts s).eraseIdx d := by rw [npts_eq, hb.knots, hb.degree, hns]
  have hdim : t.ph.dim = s.ph.dim := by rw [hb.dim _ (List.head_mem hne), hmem _ (List.head_mem hne)]
  have hix : ∀ J, InBox (npts t) J → (faceNumbers s d c)[lin (npts t) J]? = some (lin (npts s) (J.insertIdx d c)) := by
    intro J hJ
    unfold faceNumbers
    rw [List.getElem?_map, List.getElem?_range (by rw [← hnp]; exact lin_lt hJ)]
    simp only [Option.map_some]
    rw [← hnp, unlin_lin hJ]
  have hun : ∀ J, InBox (npts t) J → unlin (npts s) (lin (npts s) (J.insertIdx d c)) = J.insertIdx d c := by
    intro J hJ
    rw [hnp] at hJ
    exact unlin_lin (insertIdx_inBox hd hc hJ)
  refine ⟨t, ?_, ?_, ⟨_, hb.weights⟩, hb.knots, hb.degree, hdim, ?_, ?_⟩
  · rw [boundarySide_data h, hk, hp, h1]
  · refine hb.wf hkn hne (by rw [hfl, hns]) h.dim hmem ?_
    intro w hw
    obtain rfl := Option.some.inj hw
    refine ⟨by simp [facePoints, faceWeights], ?_⟩
    intro a ha
    obtain ⟨k, -, rfl⟩ := List.mem_map.1 ha
    exact wgt_pos' h (unlin_inBox hpos k)
  · intro J hJ i hi
    unfold cpt
    rw [hb.cps, hdim, flatten_getD hmem hi]
    unfold facePoints
    rw [List.getD_eq_getElem?_getD (l := List.map _ _), List.getElem?_map, hix J hJ]
    simp only [Option.map_some, Option.getD_some, hun J hJ]
    simp [List.getD, hi, cpt]
  · intro J hJ
    conv_lhs => unfold wgt
    rw [hb.weights]
    dsimp only
    unfold faceWeights
    rw [List.getD_eq_getElem?_getD, List.getElem?_map, hix J hJ]
    simp only [Option.map_some, Option.getD_some, hun J hJ]

/-- The spline of a side is the restriction of the spline to the side. -/
theorem Face.value {s t : Spl K} {d c : ℕ} (F : Face s t d c) (h : WFSpl s) {U : List K} {p : ℕ} (hU : s.ps.knots[d]? = some U)
    (hp : s.ps.degree[d]? = some p) {a : K} (hc : c < U.length - p - 1)
    (hcox : ∀ i < U.length - p - 1, coxDeBoor U p i a = if i = c then 1 else 0) {y : List K} (hy : y.length + 1 = s.ps.knots.length)
    {i : ℕ} (hi : i < s.ph.dim) : nurbsValue t y i = nurbsValue s (y.insertIdx d a) i := by
  have hnp : npts t = nptsOf (s.ps.knots.eraseIdx d) (s.ps.degree.eraseIdx d) := by rw [npts_eq, F.knots, F.degree]
  have key : ∀ G : List ℕ → K, tensorSum s (y.insertIdx d a) G = tensorSum t y fun J => G (J.insertIdx d c) := by
    intro G
    unfold tensorSum
    rw [npts_eq s, face_sum G h.knots.length_eq hU hp hc hy hcox, hnp, F.knots, F.degree]
  unfold nurbsValue weightValue
  rw [key, key]
  congr 1
  · unfold tensorSum
    apply msum_congr
    intro J hJ
    dsimp only
    rw [F.wgt J hJ, F.cpt J hJ i hi]
  · unfold tensorSum
    apply msum_congr
    intro J hJ
    dsimp only
    rw [F.wgt J hJ]

end Iga
end SplineLib
