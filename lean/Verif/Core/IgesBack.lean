import Verif.Core.IgesRead

/-!
# Building the splines of an IGES file (helper lemmas)
-/

namespace SplineLib
set_option linter.unusedSectionVars false
open Str Prn

theorem buildList_error {α : Type} {f : ℕ → M α} {e : Err} : ∀ {n : ℕ}, (∀ i < n, (∃ v, f i = .ok v) ∨ f i = .error e) →
    (∃ i < n, f i = .error e) → buildList f n = .error e
  | 0, _, h => by obtain ⟨i, hi, _⟩ := h; omega
  | n + 1, h, hx => by
    rw [buildList]
    by_cases hp : ∃ i < n, f i = .error e
    · rw [buildList_error (fun i hi => h i (by omega)) hp]; rfl
    · have hall : ∀ i < n, ∃ v, f i = .ok v := fun i hi => (h i (by omega)).resolve_right fun he => hp ⟨i, hi, he⟩
      obtain ⟨i, hi, he⟩ := hx
      have hin : i = n := by
        by_contra hne
        exact hp ⟨i, by omega, he⟩
      subst hin
      obtain ⟨l, hl⟩ : ∃ l, buildList f i = .ok l := by
        clear h hp he hi
        induction i with
        | zero => exact ⟨[], rfl⟩
        | succ i ih =>
          obtain ⟨l, hl⟩ := ih fun j hj => hall j (by omega)
          obtain ⟨v, hv⟩ := hall i (by omega)
          exact ⟨l ++ [v], by rw [buildList, hl, ok_bind, hv, ok_bind]; rfl⟩
      rw [hl, ok_bind, he]; rfl

section
variable {K : Type} [LinearOrder K] [Field K] [IsStrictOrderedRing K]

theorem slice_mid {a b c : List K} {first last : ℤ} (h1 : first = a.length) (h2 : last = first + b.length - 1) :
    Iges.slice (a ++ (b ++ c)) first last = .ok b := by
  unfold Iges.slice
  rw [show (last - first + 1).toNat = b.length by omega, buildList_eq (g := fun i => b.getD i 0)]
  · congr 1
    refine List.ext_getElem? fun i => ?_
    by_cases hi : i < b.length
    · simp [hi, List.getD_eq_getElem?_getD]
    · simp [hi]
  · intro i hi
    rw [h1, show (a.length : ℤ) + (i : ℤ) = ((a.length + i : ℕ) : ℤ) by push_cast; ring, getI_getD (a := 0) (by simp; omega)]
    congr 1
    rw [List.getD_eq_getElem?_getD, List.getD_eq_getElem?_getD, List.getElem?_append_right (by omega), Nat.add_sub_cancel_left,
      List.getElem?_append_left hi]

theorem slice_over {a : List K} {first last : ℤ} (h0 : 0 ≤ first) (h1 : first ≤ last) (h2 : (a.length : ℤ) ≤ last) :
    Iges.slice a first last = .error .ub := by
  unfold Iges.slice
  have key : ∀ i : ℕ, getI a (first + i) = .error .ub ∨ ∃ v, getI a (first + i) = .ok v := by
    intro i
    rw [show first + (i : ℤ) = ((first.toNat + i : ℕ) : ℤ) by omega, getI_nat]
    unfold getN
    cases a[first.toNat + i]? with
    | none => exact Or.inl rfl
    | some v => exact Or.inr ⟨v, rfl⟩
  refine buildList_error (fun i _ => (key i).symm) ⟨(last - first).toNat, by omega, ?_⟩
  rw [show first + ((last - first).toNat : ℤ) = ((last.toNat : ℕ) : ℤ) by omega, getI_nat]
  unfold getN
  rw [List.getElem?_eq_none (by omega)]

theorem triples_flatten : ∀ (l : List (List K)), (∀ q ∈ l, q.length = 3) → Iges.triples l.flatten = .ok l
  | [], _ => rfl
  | q :: l, h => by
    obtain ⟨x, y, z, rfl⟩ := List.length_eq_three.1 (h q (by simp))
    rw [List.flatten_cons]
    simp only [List.cons_append, List.nil_append]
    rw [Iges.triples, triples_flatten l fun q hq => h q (by simp [hq]), ok_bind]; rfl

theorem triplesBut2_flatten : ∀ (l : List (List K)) (r : List K), (∀ q ∈ l, q.length = 3) → r.length = 2 →
    Iges.triplesBut2 (l.flatten ++ r) = l
  | [], r, _, hr => by
    obtain ⟨x, y, rfl⟩ := List.length_eq_two.1 hr
    rfl
  | q :: l, r, h, hr => by
    obtain ⟨x, y, z, rfl⟩ := List.length_eq_three.1 (h q (by simp))
    rw [List.flatten_cons]
    simp only [List.cons_append, List.nil_append]
    rw [Iges.triplesBut2, triplesBut2_flatten l r (fun q hq => h q (by simp [hq])) hr]

variable [FloorRing K]

theorem toInt_nat {n : ℕ} (h : n < 2 ^ 31) : Iges.toInt (n : K) = .ok (n : ℤ) := by
  unfold Iges.toInt
  have h1 : ((n : ℕ) : K) < 2 ^ 31 := by exact_mod_cast h
  have h0 : (0 : K) ≤ (n : K) := Nat.cast_nonneg n
  have h2 : (-2 ^ 31 - 1 : K) < n := by
    have : (0 : K) < 2 ^ 31 := by positivity
    linarith
  rw [if_pos ⟨h2, h1⟩, truncate_nat]

theorem toDegree_nat {n : ℕ} (h : n < 2 ^ 31) : Iges.toDegree (n : K) = .ok n := by
  unfold Iges.toDegree
  rw [toInt_nat h, ok_bind, if_neg (by omega), Int.toNat_natCast]; rfl

theorem clamped_map (f : K → K) {U : List K} {p : ℕ} (h : PS.clamped U p = true) : PS.clamped (U.map f) p = true := by
  obtain ⟨h1, h2, h3⟩ := clamped_iff.1 h
  have hk : ∀ i < U.length, knot (U.map f) i = f (knot U i) := by
    intro i hi
    simp [knot, List.getD_eq_getElem?_getD, hi]
  refine clamped_iff.2 ⟨by simpa using h1, fun j hj => ?_, fun j hj => ?_⟩
  · rw [hk j (by omega), hk 0 (by omega), h2 j hj]
  · unfold lastKnot
    rw [List.length_map, hk _ (by omega), hk _ (by omega), h3 j hj]; rfl

theorem clampedAll_map (f : K → K) {Us : List (List K)} {ps : List ℕ} (h : List.Forall₂ (fun U p => PS.clamped U p = true) Us ps) :
    List.Forall₂ (fun U p => PS.clamped U p = true) (Us.map fun U => U.map f) ps := by
  induction h with
  | nil => exact .nil
  | cons h _ ih => exact .cons (clamped_map f h) ih

theorem nptsOf_map (f : K → K) (Us : List (List K)) (ps : List ℕ) : nptsOf (Us.map fun U => U.map f) ps = nptsOf Us ps := by
  unfold nptsOf
  rw [List.zipWith_map_left]
  simp

variable [LawfulGen K]

/-- The control points that are read. -/
def backPoints3 (s : Spl K) : List (List K) := (points3 s).map fun q => q.map gd

/-- The spline that is read. -/
def igesBack (s : Spl K) : M (Spl K) :=
  match s.ph.weights with
  | none => Spl.newBSpline (s.ps.knots.map fun U => U.map gd) s.ps.degree (backPoints3 s)
  | some w => Spl.newNurbs (s.ps.knots.map fun U => U.map gd) s.ps.degree (backPoints3 s) (w.map gd)

theorem backPoints3_dims (s : Spl K) : ∀ q ∈ backPoints3 s, q.length = 3 := by
  intro q hq
  obtain ⟨r, hr, rfl⟩ := List.mem_map.1 hq
  obtain ⟨k, _, rfl⟩ := List.mem_map.1 hr
  simp [igesPoint3]

theorem backPoints3_length (s : Spl K) : (backPoints3 s).length = (npts s).prod := by simp [backPoints3, points3]

theorem backPoints3_ne {s : Spl K} (h : WFSpl s) : backPoints3 s ≠ [] := by
  have h1 := backPoints3_length s
  have h2 := npts_prod_pos h
  intro h0; rw [h0, List.length_nil] at h1; omega

theorem igesBack_ok {s : Spl K} (h : WFSpl s) (hsz : (npts s).prod < 2 ^ 64) :
    ∃ r, igesBack s = .ok r ∧ Built r (s.ps.knots.map fun U => U.map gd) s.ps.degree (backPoints3 s) (s.ph.weights.map fun w => w.map gd) := by
  have hc := clampedAll_map gd (h.knots.imp fun U p h => h.clamped)
  have hn := nptsOf_map gd s.ps.knots s.ps.degree
  have hne := backPoints3_ne h
  have hsz' : (nptsOf (s.ps.knots.map fun U => U.map gd) s.ps.degree).prod < 2 ^ 64 := by rw [hn]; exact hsz
  have hl : (backPoints3 s).length = (nptsOf (s.ps.knots.map fun U => U.map gd) s.ps.degree).prod := by rw [hn]; exact backPoints3_length s
  unfold igesBack
  cases hw : s.ph.weights with
  | none => exact newBSpline_ok hne hc hsz' hl ⟨_, backPoints3_dims s⟩
  | some w => exact newNurbs_ok hne hc hsz' hl ⟨_, backPoints3_dims s⟩ (by rw [backPoints3_length, List.length_map, (h.weights w hw).1])

theorem flag_one {s : Spl K} {r : ℕ} (hr : r = if s.ph.weights.isSome then 0 else 1) : ((r : ℕ) : K) = 1 ↔ s.ph.weights = none := by
  cases hw : s.ph.weights with
  | none => simp [hr, hw]
  | some w => simp [hr, hw]

theorem back_flatten (s : Spl K) : (points3 s).flatten.map gd = (backPoints3 s).flatten := by
  unfold backPoints3
  rw [List.map_flatten]

theorem points_flat_length (s : Spl K) : ((backPoints3 s).flatten).length = 3 * (npts s).prod := by
  rw [← back_flatten, List.length_map, points3_flatten_length]

/-- The choice between the two kinds. -/
theorem back_choice {s : Spl K} {r : ℕ} (hr : r = if s.ph.weights.isSome then 0 else 1) :
    (if ((r : ℕ) : K) = 1 then Spl.newBSpline (s.ps.knots.map fun U => U.map gd) s.ps.degree (backPoints3 s)
      else Spl.newNurbs (s.ps.knots.map fun U => U.map gd) s.ps.degree (backPoints3 s) ((weightList s).map gd)) = igesBack s := by
  by_cases hw : s.ph.weights = none
  · rw [if_pos ((flag_one hr).2 hw)]; unfold igesBack; rw [hw]
  · rw [if_neg fun e => hw ((flag_one hr).1 e)]
    obtain ⟨w, hw⟩ := Option.ne_none_iff_exists'.1 hw
    unfold igesBack weightList; rw [hw]

theorem create1D_eq {s : Spl K} (h : WFSpl s) (hk : s.ps.knots.length = 1) (hl : s.ps.knots.flatten.length < 10 ^ 7) :
    Iges.create1D (backNums s) = igesBack s := by
  obtain ⟨U, hU⟩ := List.length_eq_one_iff.1 hk
  have hkn := h.knots
  rw [hU] at hkn
  obtain ⟨p, ps, hp, hps, hdeg⟩ := List.forall₂_cons_left_iff.1 hkn
  rw [List.forall₂_nil_left_iff] at hps
  subst hps
  have hn : npts s = [U.length - p - 1] := by rw [npts_eq, hU, hdeg]; rfl
  have hsize := hp.size
  have hlU : U.length < 10 ^ 7 := by rw [hU] at hl; simpa using hl
  have hwl := weightList_length h
  rw [hn] at hwl
  simp only [List.prod_cons, List.prod_nil, mul_one] at hwl
  have hpl := points_flat_length s
  rw [hn] at hpl
  simp only [List.prod_cons, List.prod_nil, mul_one] at hpl
  set r : ℕ := if s.ph.weights.isSome then 0 else 1 with hr
  have hhead : headNats s = [126, U.length - p - 1 - 1, p, 0, 0, r, 0] := by unfold headNats; rw [hn, hdeg]
  have hdata : backNums s = (headNats s).map (fun n : ℕ => (n : K)) ++ (U.map gd ++ ((weightList s).map gd ++ (backPoints3 s).flatten)) := by
    unfold backNums bodyNums
    rw [hU, List.map_append, List.map_append, back_flatten]; simp
  have g1 : getN (backNums s) 1 = .ok ((U.length - p - 1 - 1 : ℕ) : K) := by rw [hdata, hhead]; rfl
  have g2 : getN (backNums s) 2 = .ok ((p : ℕ) : K) := by rw [hdata, hhead]; rfl
  have g5 : getN (backNums s) 5 = .ok ((r : ℕ) : K) := by rw [hdata, hhead]; rfl
  have hhl : ((headNats s).map (fun n : ℕ => (n : K))).length = 7 := by rw [hhead]; rfl
  unfold Iges.create1D
  rw [g1, ok_bind, toInt_nat (by omega), ok_bind, g2, ok_bind, toDegree_nat (by omega), ok_bind]
  rw [hdata, slice_mid (by rw [hhl]; rfl) (by rw [List.length_map]; omega), ok_bind]
  rw [← List.append_assoc, slice_mid (by rw [List.length_append, hhl, List.length_map]; push_cast; omega)
    (by rw [List.length_map, hwl]; omega), ok_bind]
  rw [show (List.map (fun n : ℕ => (n : K)) (headNats s) ++ List.map gd U) ++ (List.map gd (weightList s) ++ (backPoints3 s).flatten) =
    (List.map (fun n : ℕ => (n : K)) (headNats s) ++ List.map gd U ++ List.map gd (weightList s)) ++ ((backPoints3 s).flatten ++ []) by simp,
    slice_mid (by rw [List.length_append, List.length_append, hhl, List.length_map, List.length_map, hwl]; push_cast; omega)
    (by rw [hpl]; push_cast; omega), ok_bind, triples_flatten _ (backPoints3_dims s), ok_bind]
  rw [show (List.map (fun n : ℕ => (n : K)) (headNats s) ++ List.map gd U ++ List.map gd (weightList s)) ++ ((backPoints3 s).flatten ++ []) =
    backNums s by rw [hdata]; simp, g5, ok_bind]
  have := back_choice (s := s) hr
  rw [hU, hdeg] at this
  exact this

/-- The beginning of the numbers of a surface. -/
theorem surface_data {s : Spl K} (h : WFSpl s) (hk : s.ps.knots.length = 2) (hl : s.ps.knots.flatten.length < 10 ^ 7) :
    ∃ (U V : List K) (p q n m : ℕ), s.ps.knots = [U, V] ∧ s.ps.degree = [p, q] ∧ U.length = n + p + 2 ∧ V.length = m + q + 2 ∧
      U.length + V.length < 10 ^ 7 ∧ (npts s).prod = (1 + n) * (1 + m) ∧
      backNums s = ([126 + 2, n, m, p, q, 0, 0, if s.ph.weights.isSome then 0 else 1, 0, 0] : List ℕ).map (fun n : ℕ => (n : K)) ++
        (U.map gd ++ (V.map gd ++ ((weightList s).map gd ++ (backPoints3 s).flatten))) := by
  obtain ⟨U, V, hU⟩ := List.length_eq_two.1 hk
  have hkn := h.knots
  rw [hU] at hkn
  obtain ⟨p, ps, hp, hps, hdeg⟩ := List.forall₂_cons_left_iff.1 hkn
  obtain ⟨q, qs, hq, hqs, e'⟩ := List.forall₂_cons_left_iff.1 hps
  rw [List.forall₂_nil_left_iff] at hqs
  subst hqs
  subst e'
  have hn : npts s = [U.length - p - 1, V.length - q - 1] := by rw [npts_eq, hU, hdeg]; rfl
  have h1 := hp.size
  have h2 := hq.size
  refine ⟨U, V, p, q, U.length - p - 1 - 1, V.length - q - 1 - 1, hU, hdeg, by omega, by omega, ?_, ?_, ?_⟩
  · rw [hU] at hl; simpa using hl
  · rw [hn, show 1 + (U.length - p - 1 - 1) = U.length - p - 1 by omega, show 1 + (V.length - q - 1 - 1) = V.length - q - 1 by omega]
    simp
  · unfold backNums bodyNums headNats
    rw [hU, hn, hdeg, List.map_append, List.map_append, back_flatten]
    simp

theorem create2D_eq {s : Spl K} (h : WFSpl s) (hk : s.ps.knots.length = 2) (hl : s.ps.knots.flatten.length < 10 ^ 7) {extra : List K}
    (he : 2 ≤ extra.length) : Iges.create2D (backNums s ++ extra) = igesBack s := by
  obtain ⟨U, V, p, q, n, m, hU, hdeg, hlU, hlV, hsum, hprod, hdata⟩ := surface_data h hk hl
  have hwl := weightList_length h
  have hpl := points_flat_length s
  set r : ℕ := if s.ph.weights.isSome then 0 else 1 with hr
  set hd : List K := ([126 + 2, n, m, p, q, 0, 0, r, 0, 0] : List ℕ).map (fun n : ℕ => (n : K)) with hhd
  have hhl : hd.length = 10 := rfl
  obtain ⟨x2, rest, hx, hx2⟩ : ∃ x2 rest, extra = x2 ++ rest ∧ x2.length = 2 := ⟨extra.take 2, extra.drop 2, by simp, by simp; omega⟩
  set data := backNums s ++ extra with hdd
  have d0 : data = hd ++ (U.map gd ++ (V.map gd ++ ((weightList s).map gd ++ ((backPoints3 s).flatten ++ x2) ++ rest))) := by
    rw [hdd, hdata, hx]; simp
  have d1 : data = (hd ++ U.map gd) ++ (V.map gd ++ ((weightList s).map gd ++ ((backPoints3 s).flatten ++ x2) ++ rest)) := by rw [d0]; simp
  have d2 : data = (hd ++ U.map gd ++ V.map gd) ++ ((weightList s).map gd ++ (((backPoints3 s).flatten ++ x2) ++ rest)) := by rw [d0]; simp
  have d3 : data = (hd ++ U.map gd ++ V.map gd ++ (weightList s).map gd) ++ (((backPoints3 s).flatten ++ x2) ++ rest) := by rw [d0]; simp
  have g1 : getN data 1 = .ok ((n : ℕ) : K) := by rw [d0]; rfl
  have g2 : getN data 2 = .ok ((m : ℕ) : K) := by rw [d0]; rfl
  have g3 : getN data 3 = .ok ((p : ℕ) : K) := by rw [d0]; rfl
  have g4 : getN data 4 = .ok ((q : ℕ) : K) := by rw [d0]; rfl
  have g7 : getN data 7 = .ok ((r : ℕ) : K) := by rw [d0]; rfl
  have hwl' : ((weightList s).length : ℤ) = (1 + n) * (1 + m) := by rw [hwl, hprod]; push_cast; rfl
  have hpl' : (((backPoints3 s).flatten).length : ℤ) = 3 * (1 + n) * (1 + m) := by rw [hpl, hprod]; push_cast; ring
  have s0 : Iges.slice data 10 (10 + (n : ℤ) + p + 1) = .ok (U.map gd) := by
    rw [d0]; exact slice_mid (by rw [hhl]; rfl) (by rw [List.length_map]; omega)
  have s1 : Iges.slice data (10 + (n : ℤ) + p + 1 + 1) (10 + (n : ℤ) + p + 1 + 1 + m + q + 1) = .ok (V.map gd) := by
    rw [d1]; exact slice_mid (by rw [List.length_append, hhl, List.length_map]; push_cast; omega) (by rw [List.length_map]; omega)
  have s2 : Iges.slice data (10 + (n : ℤ) + p + 1 + 1 + m + q + 1 + 1) (10 + (n : ℤ) + p + 1 + 1 + m + q + 1 + 1 - 1 + (1 + n) * (1 + m)) =
      .ok ((weightList s).map gd) := by
    rw [d2]
    refine slice_mid ?_ ?_
    · simp only [List.length_append, hhl, List.length_map]; push_cast; omega
    · rw [List.length_map, hwl']; ring
  have s3 : Iges.slice data (10 + (n : ℤ) + p + 1 + 1 + m + q + 1 + 1 - 1 + (1 + n) * (1 + m) + 1)
      (10 + (n : ℤ) + p + 1 + 1 + m + q + 1 + 1 - 1 + (1 + n) * (1 + m) + 1 - 1 + 3 * (1 + n) * (1 + m) + 2) =
      .ok ((backPoints3 s).flatten ++ x2) := by
    rw [d3]
    refine slice_mid ?_ ?_
    · simp only [List.length_append, hhl, List.length_map]
      push_cast
      rw [hwl', hlU, hlV]; push_cast; ring
    · simp only [List.length_append, hx2]
      push_cast
      rw [hpl']; ring
  unfold Iges.create2D
  rw [g1, ok_bind, toInt_nat (by omega), ok_bind, g2, ok_bind, toInt_nat (by omega), ok_bind, g3, ok_bind, toDegree_nat (by omega), ok_bind,
    g4, ok_bind, toDegree_nat (by omega), ok_bind]
  dsimp only
  rw [s0, ok_bind, s1, ok_bind, s2, ok_bind, s3, ok_bind]
  unfold Iges.surfacePoints
  rw [if_neg (by rw [List.length_append]; omega), ok_bind, triplesBut2_flatten _ _ (backPoints3_dims s) hx2, g7, ok_bind]
  have := back_choice (s := s) hr
  rw [hU, hdeg] at this
  exact this

theorem create2D_over {s : Spl K} (h : WFSpl s) (hk : s.ps.knots.length = 2) (hl : s.ps.knots.flatten.length < 10 ^ 7) {extra : List K}
    (he : extra.length < 2) : Iges.create2D (backNums s ++ extra) = .error .ub := by
  obtain ⟨U, V, p, q, n, m, hU, hdeg, hlU, hlV, hsum, hprod, hdata⟩ := surface_data h hk hl
  have hwl := weightList_length h
  have hpl := points_flat_length s
  set r : ℕ := if s.ph.weights.isSome then 0 else 1 with hr
  set hd : List K := ([126 + 2, n, m, p, q, 0, 0, r, 0, 0] : List ℕ).map (fun n : ℕ => (n : K)) with hhd
  have hhl : hd.length = 10 := rfl
  set data := backNums s ++ extra with hdd
  have d0 : data = hd ++ (U.map gd ++ (V.map gd ++ ((weightList s).map gd ++ ((backPoints3 s).flatten ++ extra)))) := by
    rw [hdd, hdata]; simp
  have d1 : data = (hd ++ U.map gd) ++ (V.map gd ++ ((weightList s).map gd ++ ((backPoints3 s).flatten ++ extra))) := by rw [d0]; simp
  have d2 : data = (hd ++ U.map gd ++ V.map gd) ++ ((weightList s).map gd ++ ((backPoints3 s).flatten ++ extra)) := by rw [d0]; simp
  have g1 : getN data 1 = .ok ((n : ℕ) : K) := by rw [d0]; rfl
  have g2 : getN data 2 = .ok ((m : ℕ) : K) := by rw [d0]; rfl
  have g3 : getN data 3 = .ok ((p : ℕ) : K) := by rw [d0]; rfl
  have g4 : getN data 4 = .ok ((q : ℕ) : K) := by rw [d0]; rfl
  have hwl' : ((weightList s).length : ℤ) = (1 + n) * (1 + m) := by rw [hwl, hprod]; push_cast; rfl
  have hpl' : (((backPoints3 s).flatten).length : ℤ) = 3 * (1 + n) * (1 + m) := by rw [hpl, hprod]; push_cast; ring
  have s0 : Iges.slice data 10 (10 + (n : ℤ) + p + 1) = .ok (U.map gd) := by
    rw [d0]; exact slice_mid (by rw [hhl]; rfl) (by rw [List.length_map]; omega)
  have s1 : Iges.slice data (10 + (n : ℤ) + p + 1 + 1) (10 + (n : ℤ) + p + 1 + 1 + m + q + 1) = .ok (V.map gd) := by
    rw [d1]; exact slice_mid (by rw [List.length_append, hhl, List.length_map]; push_cast; omega) (by rw [List.length_map]; omega)
  have s2 : Iges.slice data (10 + (n : ℤ) + p + 1 + 1 + m + q + 1 + 1) (10 + (n : ℤ) + p + 1 + 1 + m + q + 1 + 1 - 1 + (1 + n) * (1 + m)) =
      .ok ((weightList s).map gd) := by
    rw [d2]
    refine slice_mid ?_ ?_
    · simp only [List.length_append, hhl, List.length_map]; push_cast; omega
    · rw [List.length_map, hwl']; ring
  have hnm : (0 : ℤ) ≤ (1 + n) * (1 + m) := by positivity
  have s3 : Iges.slice data (10 + (n : ℤ) + p + 1 + 1 + m + q + 1 + 1 - 1 + (1 + n) * (1 + m) + 1)
      (10 + (n : ℤ) + p + 1 + 1 + m + q + 1 + 1 - 1 + (1 + n) * (1 + m) + 1 - 1 + 3 * (1 + n) * (1 + m) + 2) = .error .ub := by
    rw [show (3 : ℤ) * (1 + n) * (1 + m) = 3 * ((1 + n) * (1 + m)) by ring] at hpl' ⊢
    refine slice_over (by omega) (by omega) ?_
    rw [d0]
    simp only [List.length_append, hhl, List.length_map]
    push_cast
    rw [hpl', hwl']
    omega
  unfold Iges.create2D
  rw [g1, ok_bind, toInt_nat (by omega), ok_bind, g2, ok_bind, toInt_nat (by omega), ok_bind, g3, ok_bind, toDegree_nat (by omega), ok_bind,
    g4, ok_bind, toDegree_nat (by omega), ok_bind]
  dsimp only
  rw [s0, ok_bind, s1, ok_bind, s2, ok_bind, s3]
  rfl

/-! ### The whole file -/

theorem readEntity_curve {a : List (Spl K)} {s : Spl K} {b : List (Spl K)} (ht : pTotal (a ++ s :: b) + 1 < 10 ^ 7) (h : IgesOne s)
    (hk : s.ps.knots.length = 1) (hr : ∀ x ∈ bodyNums s, ShortExp x ∧ IgesReadable x) :
    Iges.readEntity K ((secD (a ++ s :: b) 0 0).map fun l => l.take 72) ((secP (a ++ s :: b) 0 0).map fun l => l.take 64) a.length =
      (igesBack s).map fun r => [r] := by
  obtain ⟨l, t, h1, h2, h3⟩ := read_kind ht
  have he : entityNo s = 126 := by unfold entityNo; rw [if_pos hk]
  unfold Iges.readEntity
  rw [h1, ok_bind, h2, ok_bind, h3, ok_bind, if_pos (by rw [he]; rfl), read_pointers ht, ok_bind, read_parameters h hr, ok_bind,
    create1D_eq h.wf hk h.knots]
  cases igesBack s <;> rfl

theorem readEntity_surface {a : List (Spl K)} {s : Spl K} {b : List (Spl K)} (ht : pTotal (a ++ s :: b) + 1 < 10 ^ 7) (h : IgesOne s)
    (hk : s.ps.knots.length = 2) (hr : ∀ x ∈ bodyNums s, ShortExp x ∧ IgesReadable x) :
    Iges.readEntity K ((secD (a ++ s :: b) 0 0).map fun l => l.take 72) ((secP (a ++ s :: b) 0 0).map fun l => l.take 64) a.length =
      .error .ub := by
  obtain ⟨l, t, h1, h2, h3⟩ := read_kind ht
  have he : entityNo s = 128 := by unfold entityNo; rw [if_neg (by omega)]
  have hc := create2D_over h.wf hk h.knots (extra := []) (by simp)
  rw [List.append_nil] at hc
  unfold Iges.readEntity
  rw [h1, ok_bind, h2, ok_bind, h3, ok_bind, if_neg (by rw [he]; decide), if_pos (by rw [he]; rfl), read_pointers ht, ok_bind,
    read_parameters h hr, ok_bind, hc]
  rfl

end
end SplineLib
