import Verif.Core.Surface
import Mathlib.Algebra.Order.Floor.Ring
import Mathlib.Algebra.Order.BigOperators.Group.List

/-!
# The random generators and the square generator
-/

namespace SplineLib
set_option linter.unusedSectionVars false

section
variable {K : Type} [Field K] [LinearOrder K] [IsStrictOrderedRing K]

/-- Equidistant knots: `p+1` times `a`, then `a + h, ..., a + k h`, then `p+1` times `a + (k+1) h`. -/
def uniformKnots (a h : K) (p k : ℕ) : List K := (List.range (2 * p + 2 + k)).map fun i => a + h * (min (i - p) (k + 1) : ℕ)

theorem uniformKnots_length (a h : K) (p k : ℕ) : (uniformKnots a h p k).length = 2 * p + 2 + k := by simp [uniformKnots]

theorem uniformKnots_knot (a h : K) (p k : ℕ) {i : ℕ} (hi : i < 2 * p + 2 + k) :
    knot (uniformKnots a h p k) i = a + h * (min (i - p) (k + 1) : ℕ) := by
  unfold knot uniformKnots
  rw [List.getD_eq_getElem?_getD, List.getElem?_map, List.getElem?_range hi]; rfl

theorem uniformKnots_first (a h : K) (p k : ℕ) : knot (uniformKnots a h p k) 0 = a := by
  rw [uniformKnots_knot a h p k (by omega)]; simp

theorem uniformKnots_last (a h : K) (p k : ℕ) : lastKnot (uniformKnots a h p k) = a + h * ((k : K) + 1) := by
  unfold lastKnot
  rw [uniformKnots_length, uniformKnots_knot a h p k (by omega), show min (2 * p + 2 + k - 1 - p) (k + 1) = k + 1 by omega]
  push_cast; ring

theorem uniformKnots_clamped (a h : K) (p k : ℕ) : PS.clamped (uniformKnots a h p k) p = true := by
  rw [clamped_iff, uniformKnots_length]
  refine ⟨by omega, ?_, ?_⟩
  · intro j hj
    rw [uniformKnots_knot a h p k (by omega), uniformKnots_knot a h p k (by omega), show min (j - p) (k + 1) = 0 by omega]; simp
  · intro j hj
    unfold lastKnot
    rw [uniformKnots_length, uniformKnots_knot a h p k (by omega), uniformKnots_knot a h p k (by omega),
      show min (2 * p + 2 + k - 1 - j - p) (k + 1) = k + 1 by omega, show min (2 * p + 2 + k - 1 - p) (k + 1) = k + 1 by omega]

theorem kEps_pos' : 0 < kEps K := by unfold kEps; positivity

theorem uniformKnots_wf {a h : K} (p k : ℕ) (hh : kEps K ≤ h) : WFKnots (uniformKnots a h p k) p := by
  have h0 : 0 < h := lt_of_lt_of_le kEps_pos' hh
  obtain ⟨c1, c2, c3⟩ := clamped_iff.1 (uniformKnots_clamped a h p k)
  refine ⟨?_, c1, c2, c3, ?_, ?_⟩
  · unfold SortedKnots uniformKnots
    rw [List.pairwise_map]
    refine List.Pairwise.imp ?_ (List.pairwise_lt_range)
    intro i j hij
    have : ((min (i - p) (k + 1) : ℕ) : K) ≤ ((min (j - p) (k + 1) : ℕ) : K) := by
      exact_mod_cast (by omega : min (i - p) (k + 1) ≤ min (j - p) (k + 1))
    have := mul_le_mul_of_nonneg_left this h0.le
    linarith
  · rw [uniformKnots_first, uniformKnots_last]
    have : 0 < h * ((k : K) + 1) := by positivity
    linarith
  · intro x hx y hy hxy
    unfold uniformKnots at hx hy
    rw [List.mem_map] at hx hy
    obtain ⟨i, _, rfl⟩ := hx
    obtain ⟨j, _, rfl⟩ := hy
    generalize min (i - p) (k + 1) = m at *
    generalize min (j - p) (k + 1) = n at *
    have h1 : (m : K) < n := by
      by_contra hc
      have := mul_le_mul_of_nonneg_left (not_lt.1 hc) h0.le
      linarith
    have h2 : (m : K) + 1 ≤ n := by exact_mod_cast (by exact_mod_cast h1 : m < n)
    have h3 := mul_le_mul_of_nonneg_left h2 h0.le
    rw [mul_add, mul_one] at h3
    linarith

theorem uniformKnots_exactEnds {a h : K} (p k : ℕ) (h0 : 0 < h) : ExactEnds (uniformKnots a h p k) p := by
  unfold ExactEnds
  rw [uniformKnots_last, uniformKnots_length, uniformKnots_knot a h p k (by omega), uniformKnots_knot a h p k (by omega),
    uniformKnots_knot a h p k (by omega), show min (p - p) (k + 1) = 0 by omega, show min (p + 1 - p) (k + 1) = 1 by omega,
    show min (2 * p + 2 + k - p - 2 - p) (k + 1) = k by omega]
  constructor
  · push_cast; linarith
  · rw [mul_add, mul_one]; linarith

/-- The list of knots in three parts. -/
theorem uniformKnots_parts (a h : K) (p k : ℕ) {b : K} (hb : b = a + h * ((k : K) + 1)) :
    List.replicate (p + 1) a ++ (List.range k).map (fun j : ℕ => h * ((j : K) + 1) + a) ++ List.replicate (p + 1) b =
      uniformKnots a h p k := by
  apply List.ext_getElem
  · simp [uniformKnots]; omega
  · intro i h1 h2
    simp only [uniformKnots, List.getElem_map, List.getElem_range]
    rw [uniformKnots_length] at h2
    by_cases c1 : i < p + 1
    · rw [List.getElem_append_left (by simp; omega), List.getElem_append_left (by simpa using c1), List.getElem_replicate,
        show min (i - p) (k + 1) = 0 by omega]; simp
    · by_cases c2 : i < p + 1 + k
      · rw [List.getElem_append_left (by simp; omega), List.getElem_append_right (by simp; omega), List.getElem_map,
          List.getElem_range, List.length_replicate, show min (i - p) (k + 1) = (i - (p + 1)) + 1 by omega]
        push_cast; ring
      · rw [List.getElem_append_right (by simp; omega), List.getElem_replicate, show min (i - p) (k + 1) = k + 1 by omega, hb]
        push_cast; ring

end

section
variable {K : Type} [Field K] [LinearOrder K] [IsStrictOrderedRing K] [FloorRing K]

theorem truncate_nonneg {x : K} (h : 0 ≤ x) : Prn.truncate x = ⌊x⌋ := by unfold Prn.truncate; rw [if_pos h]

theorem binomial_range (e : ℕ → ℕ) (i : ℕ) {lo hi d : K} (h : lo ≤ hi) (hd : 0 < d) :
    ∃ v, Gen.binomial e i lo hi d = .ok v ∧ lo ≤ v ∧ v ≤ hi := by
  have hq : 0 ≤ (hi - lo) / d := div_nonneg (by linarith) hd.le
  have hf : 0 ≤ ⌊(hi - lo) / d⌋ := Int.floor_nonneg.2 hq
  have hv : Gen.binomial e i lo hi d = .ok ((Gen.draw e i ⌊(hi - lo) / d⌋.toNat : K) * d + lo) := by
    simp only [Gen.binomial, fdiv, if_neg hd.ne', ok_bind, truncate_nonneg hq, if_neg (not_lt.2 hf), pure_ok]
  refine ⟨_, hv, ?_, ?_⟩
  · have : 0 ≤ (Gen.draw e i ⌊(hi - lo) / d⌋.toNat : K) * d := by positivity
    linarith
  · have h1 : Gen.draw e i ⌊(hi - lo) / d⌋.toNat ≤ ⌊(hi - lo) / d⌋.toNat := min_le_right _ _
    have h2 : (Gen.draw e i ⌊(hi - lo) / d⌋.toNat : K) ≤ (hi - lo) / d := by
      calc (Gen.draw e i ⌊(hi - lo) / d⌋.toNat : K) ≤ (⌊(hi - lo) / d⌋.toNat : K) := by exact_mod_cast h1
        _ = ((⌊(hi - lo) / d⌋ : ℤ) : K) := by
            have := Int.toNat_of_nonneg hf
            exact_mod_cast this
        _ ≤ _ := Int.floor_le _
    have := (le_div_iff₀ hd).1 h2
    linarith

theorem binomialInt_eq (e : ℕ → ℕ) (i lo t : ℕ) :
    Gen.binomialInt K e i lo (lo + t : ℕ) 1 = .ok ((lo + Gen.draw e i t : ℕ) : ℤ) := by
  have hq : (((lo + t : ℕ) : ℤ) : K) - ((lo : ℤ) : K) = (t : K) := by push_cast; ring
  have h0 : (0 : K) ≤ t := Nat.cast_nonneg _
  unfold Gen.binomialInt Gen.binomial
  rw [hq]
  simp only [fdiv, Int.cast_one, if_neg one_ne_zero, div_one, ok_bind, truncate_nonneg h0, Int.floor_natCast]
  rw [if_neg (by omega), pure_ok, ok_bind, Int.toNat_natCast, mul_one]
  have : ((Gen.draw e i t : ℕ) : K) + ((lo : ℤ) : K) = ((lo + Gen.draw e i t : ℕ) : K) := by push_cast; ring
  rw [this, truncate_nonneg (Nat.cast_nonneg _), Int.floor_natCast]; rfl

/-- The degree that is drawn for direction `i`. -/
def drawnDegree (ei : ℕ → ℕ) (maxDegree i : ℕ) : ℕ := 1 + Gen.draw ei i (maxDegree - 1)

/-- The number of interior knots that is drawn for direction `i`. -/
def drawnInner (ei : ℕ → ℕ) (D maxDegree i : ℕ) : ℕ := Gen.draw ei (D + i) (2 * drawnDegree ei maxDegree i - 2)

theorem drawnDegree_range (ei : ℕ → ℕ) {maxDegree : ℕ} (h : 1 ≤ maxDegree) (i : ℕ) :
    1 ≤ drawnDegree ei maxDegree i ∧ drawnDegree ei maxDegree i ≤ maxDegree := by
  unfold drawnDegree Gen.draw; omega

theorem drawnInner_le (ei : ℕ → ℕ) (D maxDegree i : ℕ) : drawnInner ei D maxDegree i ≤ 2 * drawnDegree ei maxDegree i - 2 :=
  min_le_right _ _

theorem degrees_eq (ei : ℕ → ℕ) (D : ℕ) {m : ℕ} (h : 1 ≤ m) :
    Gen.degrees K ei D (m : ℤ) = .ok ((List.range D).map (drawnDegree ei m)) := by
  unfold Gen.degrees
  apply buildList_eq
  intro i hi
  have := binomialInt_eq (K := K) ei i 1 (m - 1)
  rw [show 1 + (m - 1) = m by omega] at this
  rw [show Gen.binomialInt K ei i 1 (m : ℤ) 1 = .ok ((1 + Gen.draw ei i (m - 1) : ℕ) : ℤ) from this]
  rfl

theorem getN_map_range {α : Type} (f : ℕ → α) {D i : ℕ} (h : i < D) : getN ((List.range D).map f) i = .ok (f i) := by
  rw [getN_of_lt (by simpa using h)]; simp

theorem numberOfKnots_eq (ei : ℕ → ℕ) (D : ℕ) {m : ℕ} (h : 1 ≤ m) :
    Gen.numberOfKnots K ei ((List.range D).map (drawnDegree ei m)) =
      .ok ((List.range D).map fun i => ((2 * drawnDegree ei m i + 2 + drawnInner ei D m i : ℕ) : ℤ)) := by
  unfold Gen.numberOfKnots
  simp only [List.length_map, List.length_range]
  apply buildList_eq
  intro i hi
  rw [getN_map_range _ hi, ok_bind]
  have hp := (drawnDegree_range ei h i).1
  have := binomialInt_eq (K := K) ei (D + i) (2 * drawnDegree ei m i + 2) (2 * drawnDegree ei m i - 2)
  rw [show 2 * drawnDegree ei m i + 2 + (2 * drawnDegree ei m i - 2) = 4 * drawnDegree ei m i by omega] at this
  push_cast at this ⊢
  exact this

theorem knots_eq (a b : K) (p k : ℕ) :
    Gen.knots a b p ((2 * p + 2 + k : ℕ) : ℤ) = .ok (uniformKnots a ((b - a) / ((k : K) + 1)) p k) := by
  unfold Gen.knots
  have hn : ((2 * p + 2 + k : ℕ) : ℤ) - 2 * p - 2 = (k : ℤ) := by push_cast; ring
  have hk : (k : K) + 1 ≠ 0 := by positivity
  rw [hn]
  simp only [Int.toNat_natCast, Int.cast_natCast, fdiv, if_neg hk, ok_bind]
  rw [buildList_eq (g := fun j : ℕ => (b - a) / ((k : K) + 1) * ((j : K) + 1) + a) (f := fun j : ℕ => pure ((b - a) / ((k : K) + 1) * ((j : K) + 1) + a)) (fun _ _ => rfl), ok_bind, pure_ok]
  rw [uniformKnots_parts]
  field_simp; ring

theorem knotVectors_eq (ei : ℕ → ℕ) (a b : K) (D : ℕ) {m : ℕ} (h : 1 ≤ m) :
    Gen.knotVectors ei a b ((List.range D).map (drawnDegree ei m)) = .ok ((List.range D).map fun i =>
      uniformKnots a ((b - a) / ((drawnInner ei D m i : K) + 1)) (drawnDegree ei m i) (drawnInner ei D m i)) := by
  unfold Gen.knotVectors
  rw [numberOfKnots_eq ei D h, ok_bind]
  simp only [List.length_map, List.length_range]
  apply buildList_eq
  intro i hi
  rw [getN_map_range _ hi, ok_bind, getN_map_range _ hi, ok_bind, knots_eq]

theorem mk_length1D (ns : List ℕ) : (MIH.mk' (zl ns)).length1D.toNat = ns.prod := by
  unfold MIH.length1D MIH.mk'
  have := foldl_mul_zl ns 1
  rw [Nat.cast_one, Nat.one_mul] at this
  dsimp only
  rw [this, Int.toNat_natCast]

theorem buildList_exists {α : Type} {f : ℕ → M α} {P : α → Prop} : ∀ {n : ℕ}, (∀ i < n, ∃ a, f i = .ok a ∧ P a) →
    ∃ l, buildList f n = .ok l ∧ l.length = n ∧ ∀ a ∈ l, P a := by
  intro n
  induction n with
  | zero => intro _; exact ⟨[], rfl, rfl, by simp⟩
  | succ n ih =>
    intro h
    obtain ⟨l, h1, h2, h3⟩ := ih fun i hi => h i (by omega)
    obtain ⟨a, h4, h5⟩ := h n (by omega)
    refine ⟨l ++ [a], ?_, by simp [h2], ?_⟩
    · simp only [buildList, h1, h4, ok_bind, pure_ok]
    · intro b hb
      rw [List.mem_append, List.mem_singleton] at hb
      rcases hb with hb | rfl
      · exact h3 b hb
      · exact h5

theorem controlPoints_ok (ed : ℕ → ℕ) (dimension : ℕ) (ns : List ℕ) :
    ∃ points : List (List K), Gen.controlPoints ed dimension (zl ns) = .ok points ∧ points.length = ns.prod ∧
      ∀ q ∈ points, q.length = dimension ∧ ∀ x ∈ q, -5 ≤ x ∧ x ≤ 5 := by
  unfold Gen.controlPoints
  rw [mk_length1D]
  apply buildList_exists
  intro i _
  apply buildList_exists
  intro j _
  exact binomial_range _ _ (by norm_num) (by norm_num)

theorem weights_ok (ed : ℕ → ℕ) (first : ℕ) (ns : List ℕ) :
    ∃ ws : List K, Gen.weights ed first (zl ns) = .ok ws ∧ ws.length = ns.prod ∧ ∀ x ∈ ws, 1 / 10 ≤ x ∧ x ≤ 2 := by
  unfold Gen.weights
  rw [mk_length1D]
  apply buildList_exists
  intro i _
  exact binomial_range _ _ (by norm_num) (by norm_num)

/-- The drawn numbers of points. -/
theorem drawn_npts (ei : ℕ → ℕ) (a b : K) (D : ℕ) {m : ℕ} :
    nptsOf ((List.range D).map fun i =>
      uniformKnots a ((b - a) / ((drawnInner ei D m i : K) + 1)) (drawnDegree ei m i) (drawnInner ei D m i))
      ((List.range D).map (drawnDegree ei m)) = (List.range D).map fun i => drawnDegree ei m i + 1 + drawnInner ei D m i := by
  unfold nptsOf
  rw [List.zipWith_map, List.zipWith_self]
  apply List.map_congr_left
  intro i _
  rw [uniformKnots_length]; omega

theorem drawn_prod (ei : ℕ → ℕ) (D : ℕ) {m : ℕ} (h : 1 ≤ m) :
    0 < ((List.range D).map fun i => drawnDegree ei m i + 1 + drawnInner ei D m i).prod ∧
    ((List.range D).map fun i => drawnDegree ei m i + 1 + drawnInner ei D m i).prod ≤ (3 * m) ^ D := by
  constructor
  · rw [prod_pos_iff]
    intro n hn
    rw [List.mem_map] at hn
    obtain ⟨i, _, rfl⟩ := hn
    omega
  · have := List.prod_le_pow_card ((List.range D).map fun i => drawnDegree ei m i + 1 + drawnInner ei D m i) (3 * m) (by
      intro n hn
      rw [List.mem_map] at hn
      obtain ⟨i, _, rfl⟩ := hn
      have := drawnDegree_range ei h i
      have := drawnInner_le ei D m i
      omega)
    simpa using this

/-- What the random generators produce. -/
structure RandomData (D : ℕ) (a b : K) (m dimension : ℕ) (Us : List (List K)) (ps : List ℕ) (points : List (List K)) : Prop where
  directions : ps.length = D
  degrees : ∀ p ∈ ps, 1 ≤ p ∧ p ≤ m
  clamped : List.Forall₂ (fun U p => PS.clamped U p = true) Us ps
  ends : ∀ U ∈ Us, knot U 0 = a ∧ lastKnot U = b
  wf : kEps K * (2 * m) ≤ b - a → List.Forall₂ (fun U p => WFKnots U p ∧ ExactEnds U p) Us ps
  points_length : points.length = (nptsOf Us ps).prod
  points_ne : points ≠ []
  small : (nptsOf Us ps).prod ≤ (3 * m) ^ D
  coords : ∀ q ∈ points, q.length = dimension ∧ ∀ x ∈ q, -5 ≤ x ∧ x ≤ 5

theorem random_data (ei ed : ℕ → ℕ) (D : ℕ) (a b : K) {m : ℕ} (h : 1 ≤ m) (dimension : ℕ) :
    ∃ Us ps points, Gen.degrees K ei D (m : ℤ) = .ok ps ∧ Gen.knotVectors ei a b ps = .ok Us ∧
      Spl.pointNumbers Us ps = zl (nptsOf Us ps) ∧
      Gen.controlPoints ed dimension (zl (nptsOf Us ps)) = .ok points ∧ RandomData D a b m dimension Us ps points := by
  obtain ⟨points, h1, h2, h3⟩ := controlPoints_ok (K := K) ed dimension
    ((List.range D).map fun i => drawnDegree ei m i + 1 + drawnInner ei D m i)
  have hcl : List.Forall₂ (fun U p => PS.clamped U p = true) ((List.range D).map fun i =>
      uniformKnots a ((b - a) / ((drawnInner ei D m i : K) + 1)) (drawnDegree ei m i) (drawnInner ei D m i))
      ((List.range D).map (drawnDegree ei m)) := by
    rw [List.forall₂_map_left_iff, List.forall₂_map_right_iff, List.forall₂_same]
    intro i _
    exact uniformKnots_clamped _ _ _ _
  refine ⟨_, _, points, degrees_eq ei D h, knotVectors_eq ei a b D h, pointNumbers_eq (clamped_sizes hcl), ?_, ?_⟩
  · rw [drawn_npts]; exact h1
  · refine ⟨by simp, ?_, hcl, ?_, ?_, ?_, ?_, ?_, h3⟩
    · intro p hp
      rw [List.mem_map] at hp
      obtain ⟨i, _, rfl⟩ := hp
      exact drawnDegree_range ei h i
    · intro U hU
      rw [List.mem_map] at hU
      obtain ⟨i, _, rfl⟩ := hU
      refine ⟨uniformKnots_first _ _ _ _, ?_⟩
      rw [uniformKnots_last]
      have : (drawnInner ei D m i : K) + 1 ≠ 0 := by positivity
      field_simp; ring
    · intro hw
      rw [List.forall₂_map_left_iff, List.forall₂_map_right_iff, List.forall₂_same]
      intro i _
      have hle : kEps K ≤ (b - a) / ((drawnInner ei D m i : K) + 1) := by
        rw [le_div_iff₀ (by positivity)]
        have h4 : (drawnInner ei D m i : K) + 1 ≤ 2 * m := by
          have := drawnDegree_range ei h i
          have := drawnInner_le ei D m i
          exact_mod_cast (by omega : drawnInner ei D m i + 1 ≤ 2 * m)
        exact le_trans (mul_le_mul_of_nonneg_left h4 kEps_pos'.le) hw
      exact ⟨uniformKnots_wf _ _ hle, uniformKnots_exactEnds _ _ (lt_of_lt_of_le kEps_pos' hle)⟩
    · rw [h2, drawn_npts]
    · intro h0
      rw [h0] at h2
      have := (drawn_prod ei D h).1
      simp only [List.length_nil] at h2
      omega
    · rw [drawn_npts]; exact (drawn_prod ei D h).2

theorem randomBSpline_ok (ei ed : ℕ → ℕ) (D : ℕ) (a b : K) {m : ℕ} (h : 1 ≤ m) (hsz : (3 * m) ^ D < 2 ^ 64) (dimension : ℕ) :
    ∃ s Us ps points, Gen.randomBSpline ei ed D a b (m : ℤ) dimension = .ok s ∧ Built s Us ps points none ∧
      RandomData D a b m dimension Us ps points := by
  obtain ⟨Us, ps, points, h1, h2, h3, h4, h5⟩ := random_data ei ed D a b h dimension
  have e3 := (physNew_eq h5.points_ne (lt_of_le_of_lt h5.small hsz)).1 ⟨h5.points_length, dimension, fun q hq => (h5.coords q hq).1⟩
  refine ⟨⟨⟨Us, ps, mkTable Us ps⟩, ⟨(points.head h5.points_ne).length, zl (nptsOf Us ps), points.flatten, none⟩⟩, Us, ps, points,
    ?_, ?_, h5⟩
  · simp only [Gen.randomBSpline, h1, h2, h3, h4, e3, (psNew_copy h5.clamped).1, ok_bind, pure_ok]
  · exact ⟨rfl, rfl, rfl, head_dim h5.points_ne ⟨_, fun q hq => (h5.coords q hq).1⟩, rfl, rfl, rfl⟩

theorem randomNurbs_ok (ei ed : ℕ → ℕ) (D : ℕ) (a b : K) {m : ℕ} (h : 1 ≤ m) (hsz : (3 * m) ^ D < 2 ^ 64) (dimension : ℕ) :
    ∃ s Us ps points ws, Gen.randomNurbs ei ed D a b (m : ℤ) dimension = .ok s ∧ Built s Us ps points (some ws) ∧
      RandomData D a b m dimension Us ps points ∧ ws.length = points.length ∧ ∀ x ∈ ws, 1 / 10 ≤ x ∧ x ≤ 2 := by
  obtain ⟨Us, ps, points, h1, h2, h3, h4, h5⟩ := random_data ei ed D a b h dimension
  obtain ⟨ws, h6, h7, h8⟩ := weights_ok (K := K) ed (dimension * points.length) (nptsOf Us ps)
  have e3 := (physNew_eq h5.points_ne (lt_of_le_of_lt h5.small hsz)).1 ⟨h5.points_length, dimension, fun q hq => (h5.coords q hq).1⟩
  have h9 : ws.length = points.length := by rw [h7, h5.points_length]
  refine ⟨⟨⟨Us, ps, mkTable Us ps⟩, ⟨(points.head h5.points_ne).length, zl (nptsOf Us ps), points.flatten, some ws⟩⟩, Us, ps, points, ws,
    ?_, ?_, h5, h9, h8⟩
  · simp only [Gen.randomNurbs, h1, h2, h3, h4, h6, Phys.newWeighted, e3, (psNew_copy h5.clamped).1, ok_bind, h9, ne_eq,
      not_true_eq_false, if_false]; rfl
  · exact ⟨rfl, rfl, rfl, head_dim h5.points_ne ⟨_, fun q hq => (h5.coords q hq).1⟩, rfl, rfl, rfl⟩

end

/-! ### The square -/

section
variable {K : Type} [Field K] [LinearOrder K] [IsStrictOrderedRing K]

theorem squareLoop_eq (h : K) (p n : ℕ) : ∀ k : ℕ, p + k < n → ∃ l, Gen.squareLoop h p k (List.replicate n 0) = .ok l ∧
    l.length = n ∧ ∀ i ≤ p + k, l.getD i 0 = h * (i - p : ℕ) := by
  intro k
  induction k with
  | zero =>
    intro hk
    refine ⟨_, rfl, by simp, ?_⟩
    intro i hi
    rw [show i - p = 0 by omega]
    simp only [List.getD_eq_getElem?_getD, List.getElem?_replicate, Nat.cast_zero, mul_zero]
    split <;> rfl
  | succ k ih =>
    intro hk
    obtain ⟨l, h1, h2, h3⟩ := ih (by omega)
    refine ⟨l.set (p + k + 1) (l.getD (p + k) 0 + h), ?_, by simp [h2], ?_⟩
    · simp only [Gen.squareLoop, h1, ok_bind]
      rw [getN_getD (by omega) 0, ok_bind]
      have := setI_nat (v := l) (i := p + k + 1) (by omega) (l.getD (p + k) 0 + h)
      push_cast at this
      exact this
    · intro i hi
      by_cases hc : i = p + k + 1
      · subst hc
        rw [List.getD_eq_getElem?_getD, List.getElem?_set_self (by omega), Option.getD_some, h3 _ (by omega),
          show p + k - p = k by omega, show p + k + 1 - p = k + 1 by omega]
        push_cast; ring
      · rw [List.getD_eq_getElem?_getD, List.getElem?_set_ne (by omega), ← List.getD_eq_getElem?_getD, h3 _ (by omega)]

theorem squareKnots_eq (p k : ℕ) : Gen.squareKnots (K := K) p (2 * p + 2 + k) = .ok (uniformKnots 0 (1 / ((k : K) + 1)) p k) := by
  unfold Gen.squareKnots
  have hk : (k : K) + 1 ≠ 0 := by positivity
  have hn : (((2 * p + 2 + k : ℕ)) : K) - 2 * p - 1 = (k : K) + 1 := by push_cast; ring
  rw [if_neg (by omega), hn]
  simp only [fdiv, if_neg hk, ok_bind]
  rw [show 2 * p + 2 + k - 2 * p - 2 = k by omega]
  obtain ⟨l, h1, h2, h3⟩ := squareLoop_eq (1 / ((k : K) + 1)) p (2 * p + 2 + k) k (by omega)
  rw [h1, ok_bind, pure_ok]
  congr 1
  apply List.ext_getElem
  · rw [uniformKnots_length, List.length_append, List.length_take, List.length_replicate, h2]; omega
  · intro i i1 i2
    rw [uniformKnots_length] at i2
    simp only [uniformKnots, List.getElem_map, List.getElem_range]
    by_cases c : i < p + 1 + k
    · rw [List.getElem_append_left (by rw [List.length_take, h2]; omega), List.getElem_take]
      have := h3 i (by omega)
      rw [List.getD_eq_getElem?_getD, List.getElem?_eq_getElem (by omega), Option.getD_some] at this
      rw [this, show min (i - p) (k + 1) = i - p by omega]; simp
    · rw [List.getElem_append_right (by rw [List.length_take, h2]; omega), List.getElem_replicate,
        show min (i - p) (k + 1) = k + 1 by omega]
      push_cast
      field_simp; simp

theorem squareCoords_eq (delta : K) : ∀ (n : ℕ) (val : K), Gen.squareCoords delta n val = (List.range n).map fun i : ℕ => val + delta * (i : K) := by
  intro n
  induction n with
  | zero => intro val; rfl
  | succ n ih =>
    intro val
    rw [Gen.squareCoords, ih, List.range_succ_eq_map, List.map_cons, List.map_map]
    congr 1
    · simp
    · apply List.map_congr_left
      intro i _
      simp only [Function.comp_apply]; push_cast; ring

theorem squarePoints_eq (delta : K) (n : ℕ) (val : K) :
    Gen.squarePoints (Gen.squareCoords delta n val) =
      ((List.range n).map fun i : ℕ => (List.range n).map fun j : ℕ => [val + delta * (j : K), val + delta * (i : K)]).flatten := by
  rw [squareCoords_eq, Gen.squarePoints, List.flatMap_def, List.map_map]
  congr 1
  apply List.map_congr_left
  intro i _
  simp [Function.comp_def]

theorem square_ok {p k : ℕ} (hp : 1 ≤ p) (hsz : (p + 1 + k) * (p + 1 + k) < 2 ^ 64) :
    ∃ s : Spl K, Gen.square p (2 * p + 2 + k) = .ok s ∧
      Built s [uniformKnots 0 (1 / ((k : K) + 1)) p k, uniformKnots 0 (1 / ((k : K) + 1)) p k] [p, p]
        (((List.range (p + 1 + k)).map fun i : ℕ => (List.range (p + 1 + k)).map fun j : ℕ =>
          [-1 + 2 / ((p : K) + k) * (j : K), -1 + 2 / ((p : K) + k) * (i : K)]).flatten) none := by
  have hcl : List.Forall₂ (fun U p => PS.clamped U p = true)
      [uniformKnots 0 (1 / ((k : K) + 1)) p k, uniformKnots 0 (1 / ((k : K) + 1)) p k] [p, p] :=
    .cons (uniformKnots_clamped _ _ _ _) (.cons (uniformKnots_clamped _ _ _ _) .nil)
  obtain ⟨e1, e2⟩ := psNew_copy hcl
  have hnum : 2 * p + 2 + k - p - 1 = p + 1 + k := by omega
  have hden : ((p + 1 + k : ℕ) : K) - 1 = (p : K) + k := by push_cast; ring
  have hne0 : (p : K) + k ≠ 0 := by
    have : (1 : K) ≤ p := by exact_mod_cast hp
    positivity
  have hpl := grid_length (fun i j : ℕ => [-1 + 2 / ((p : K) + k) * (j : K), -1 + 2 / ((p : K) + k) * (i : K)]) (p + 1 + k) (p + 1 + k)
  have hm : ∀ q ∈ ((List.range (p + 1 + k)).map fun i : ℕ => (List.range (p + 1 + k)).map fun j : ℕ =>
          [-1 + 2 / ((p : K) + k) * (j : K), -1 + 2 / ((p : K) + k) * (i : K)]).flatten, q.length = 2 := by
    intro q hq
    obtain ⟨i, _, j, _, rfl⟩ := mem_grid hq
    rfl
  have hne : ((List.range (p + 1 + k)).map fun i : ℕ => (List.range (p + 1 + k)).map fun j : ℕ =>
          [-1 + 2 / ((p : K) + k) * (j : K), -1 + 2 / ((p : K) + k) * (i : K)]).flatten ≠ [] := by
    intro h0; rw [h0] at hpl; simp only [List.length_nil] at hpl
    have : 0 < (p + 1 + k) * (p + 1 + k) := by positivity
    omega
  have e5 := (physNew_eq (ns := [p + 1 + k, p + 1 + k]) hne (by simpa using hsz)).1 ⟨by rw [hpl]; simp, 2, hm⟩
  simp only [List.map_cons, List.map_nil] at e5
  have e6 := squarePoints_eq (2 / ((p : K) + k)) (p + 1 + k) (-1)
  generalize ((List.range (p + 1 + k)).map fun i : ℕ => (List.range (p + 1 + k)).map fun j : ℕ =>
          [-1 + 2 / ((p : K) + k) * (j : K), -1 + 2 / ((p : K) + k) * (i : K)]).flatten = P at *
  refine ⟨⟨⟨[uniformKnots 0 (1 / ((k : K) + 1)) p k, uniformKnots 0 (1 / ((k : K) + 1)) p k], [p, p],
      mkTable [uniformKnots 0 (1 / ((k : K) + 1)) p k, uniformKnots 0 (1 / ((k : K) + 1)) p k] [p, p]⟩,
    ⟨(P.head hne).length, [((p + 1 + k : ℕ) : ℤ), ((p + 1 + k : ℕ) : ℤ)], P.flatten, none⟩⟩, ?_, ?_⟩
  · simp only [Gen.square, squareKnots_eq, e1, e2, ok_bind, hnum, hden, fdiv, if_neg hne0, e6, e5, pure_ok]
  · refine ⟨rfl, rfl, rfl, head_dim hne ⟨_, hm⟩, ?_, rfl, rfl⟩
    simp [nptsOf, uniformKnots_length, hnum]

end
end SplineLib
