import Mathlib.Algebra.Order.BigOperators.Ring.Finset
import Verif.Core.RemoveErrorNurbs
import Verif.Core.IgesWrite
import Verif.Model.Projection
import Verif.Props.KnotRemoval
import Verif.Props.Evaluation

/-!
# C65, C66: vector utilities, and the bounds that a spline computes from its control points
-/

namespace SplineLib
set_option linter.unusedSectionVars false
open Finset
variable {K : Type} [Field K] [LinearOrder K] [IsStrictOrderedRing K]

/-- Entry `i` of a vector. -/
def coord (v : List K) (i : ℕ) : K := v.getD i 0

/-- The scalar product. -/
def dotSum (n : ℕ) (a b : List K) : K := ∑ i ∈ range n, coord a i * coord b i

theorem zipWith_getD (f : K → K → K) : ∀ (a b : List K), a.length = b.length → List.zipWith f a b =
    (List.range a.length).map fun i => f (a.getD i 0) (b.getD i 0)
  | [], [], _ => rfl
  | x :: a, y :: b, h => by
    rw [List.zipWith_cons_cons, zipWith_getD f a b (by simpa using h), List.length_cons, List.range_succ_eq_map, List.map_cons, List.map_map]
    rfl
  | [], _ :: _, h => by simp at h
  | _ :: _, [], h => by simp at h

theorem foldl_add_eq : ∀ (l : List K) (a : K), l.foldl (· + ·) a = a + l.sum
  | [], a => by simp
  | x :: l, a => by rw [List.foldl_cons, foldl_add_eq l, List.sum_cons]; ring

theorem sum_map_range' (n : ℕ) (h : ℕ → K) : ((List.range n).map h).sum = ∑ c ∈ range n, h c := by
  rw [← List.sum_toFinset h List.nodup_range]; congr 1; ext; simp

/-- **C65** The difference of two vectors of the same length is computed entry by entry. -/
theorem C65_difference {a b : List K} (h : a.length = b.length) :
    ∃ d, Vec.difference a b = .ok d ∧ d.length = a.length ∧ ∀ i < a.length, coord d i = coord a i - coord b i := by
  refine ⟨(List.range a.length).map fun i => a.getD i 0 - b.getD i 0, ?_, by simp, fun i hi => ?_⟩
  · unfold Vec.difference
    rw [if_neg (by omega), zipWith_getD _ _ _ h, h, List.drop_length, List.append_nil]
  · simp [coord, List.getD_eq_getElem?_getD, hi]

/-- **C65** The scalar product of two vectors of the same length. -/
theorem C65_scalar_product {a b : List K} (h : a.length = b.length) : Vec.scalarProduct a b = .ok (dotSum a.length a b) := by
  unfold Vec.scalarProduct
  rw [if_neg (by omega), zipWith_getD _ _ _ h, h, List.drop_length, List.append_nil, foldl_add_eq, zero_add, sum_map_range']
  rfl

/-- **C65** For vectors of different lengths: undefined if the second one is shorter; if it is longer, its remaining entries are added
to the scalar product. -/
theorem C65_scalar_product_lengths (a b : List K) :
    (b.length < a.length → Vec.scalarProduct a b = .error .ub ∧ Vec.difference a b = .error .ub) ∧
    (a.length ≤ b.length → Vec.scalarProduct a b = .ok (dotSum a.length a b + ∑ i ∈ range (b.length - a.length), coord b (a.length + i))) := by
  refine ⟨fun h => ⟨if_pos h, if_pos h⟩, fun h => ?_⟩
  have e : List.zipWith (· * ·) a b = List.zipWith (· * ·) a (b.take a.length) := by
    rw [List.zipWith_eq_zipWith_take_min]
    conv_rhs => rw [List.zipWith_eq_zipWith_take_min]
    simp [h, List.take_take]
  unfold Vec.scalarProduct
  rw [if_neg (by omega), e, zipWith_getD _ _ _ (by simp [h]), foldl_add_eq, zero_add, List.sum_append, sum_map_range']
  congr 2
  · refine sum_congr rfl fun i hi => ?_
    rw [Finset.mem_range] at hi
    simp [coord, List.getD_eq_getElem?_getD, hi]
  · have e2 : b.drop a.length = (List.range (b.length - a.length)).map fun i => coord b (a.length + i) := by
      refine List.ext_getElem (by simp) fun i h1 h2 => ?_
      rw [List.length_drop] at h1
      have : a.length + i < b.length := by omega
      simp [coord, List.getD_eq_getElem?_getD, this]
    rw [e2, sum_map_range']

/-- **C65** Scaling multiplies every entry. -/
theorem C65_scale (a : List K) (f : K) : (Vec.scale a f).length = a.length ∧ ∀ i, coord (Vec.scale a f) i = f * coord a i := by
  refine ⟨by simp [Vec.scale], fun i => ?_⟩
  by_cases hi : i < a.length
  · simp [Vec.scale, coord, List.getD_eq_getElem?_getD, hi]
  · simp [Vec.scale, coord, List.getD_eq_getElem?_getD, List.getElem?_eq_none (not_lt.1 hi)]

/-- **C65** The cross product of two vectors with three entries: orthogonal to both, with the squared length given by Lagrange's
identity, and with the orientation of the unit vectors. -/
theorem C65_cross_product {a b : List K} (ha : a.length = 3) (hb : b.length = 3) :
    ∃ c, Vec.crossProduct a b = .ok c ∧ c.length = 3 ∧ dotSum 3 a c = 0 ∧ dotSum 3 b c = 0 ∧
      dotSum 3 c c = dotSum 3 a a * dotSum 3 b b - dotSum 3 a b ^ 2 ∧
      ∀ d : List K, d.length = 3 → dotSum 3 c d =
        coord a 0 * (coord b 1 * coord d 2 - coord b 2 * coord d 1) - coord a 1 * (coord b 0 * coord d 2 - coord b 2 * coord d 0) +
          coord a 2 * (coord b 0 * coord d 1 - coord b 1 * coord d 0) := by
  obtain ⟨a0, a1, a2, rfl⟩ := List.length_eq_three.1 ha
  obtain ⟨b0, b1, b2, rfl⟩ := List.length_eq_three.1 hb
  refine ⟨[a1 * b2 - a2 * b1, a2 * b0 - a0 * b2, a0 * b1 - a1 * b0], rfl, rfl, ?_, ?_, ?_, ?_⟩
  · simp [dotSum, sum_range_succ, coord]; ring
  · simp [dotSum, sum_range_succ, coord]; ring
  · simp [dotSum, sum_range_succ, coord]; ring
  · intro d hd
    obtain ⟨d0, d1, d2, rfl⟩ := List.length_eq_three.1 hd
    simp [dotSum, sum_range_succ, coord]; ring

/-- **C65** With fewer than three entries the cross product is undefined. -/
theorem C65_cross_product_short {a b : List K} (h : a.length < 3 ∨ b.length < 3) : Vec.crossProduct a b = .error .ub := by
  have key : ∀ (l : List K) (i : ℕ), (l.length ≤ i → getN l i = .error .ub) ∧ (i < l.length → ∃ v, getN l i = .ok v) := fun l i =>
    ⟨fun h => by unfold getN; rw [List.getElem?_eq_none h], fun h => ⟨_, getN_of_lt h⟩⟩
  have step : ∀ {β : Type} (l : List K) (i : ℕ) (f : K → M β), (∀ v, f v = .error .ub) → (getN l i >>= f) = .error .ub := by
    intro β l i f hf
    by_cases hi : i < l.length
    · obtain ⟨v, hv⟩ := (key l i).2 hi
      rw [hv, ok_bind, hf]
    · rw [(key l i).1 (by omega)]; rfl
  unfold Vec.crossProduct
  rcases h with h | h
  · refine step _ _ _ fun _ => step _ _ _ fun _ => ?_
    rw [(key a 2).1 (by omega)]; rfl
  · refine step _ _ _ fun _ => step _ _ _ fun _ => step _ _ _ fun _ => step _ _ _ fun _ => step _ _ _ fun _ => ?_
    rw [(key b 2).1 (by omega)]; rfl

/-- **C65** The positions of a filter may be in any order and repeated; a position that is too high is refused. -/
theorem C65_filter (input : List K) (ps : List ℕ) :
    ((∀ p ∈ ps, p < input.length) → Vec.filter input (ps.map fun p : ℕ => (p : ℤ)) = .ok (ps.map (coord input))) ∧
    ((∃ p ∈ ps, input.length ≤ p) → Vec.filter input (ps.map fun p : ℕ => (p : ℤ)) = .error (.thrown .runtimeError)) := by
  induction ps with
  | nil => exact ⟨fun _ => rfl, by simp⟩
  | cons p ps ih =>
    have e : p < input.length → getI input (p : ℤ) = .ok (coord input p) := fun hp => by
      rw [getI_nat, getN_of_lt hp]; simp [coord, List.getD_eq_getElem?_getD, hp]
    constructor
    · intro h
      have hp := h p (by simp)
      rw [List.map_cons, Vec.filter, if_pos (by exact_mod_cast hp), e hp, ok_bind, ih.1 fun q hq => h q (by simp [hq])]
      rfl
    · intro h
      rw [List.map_cons, Vec.filter]
      by_cases hp : p < input.length
      · rw [if_pos (by exact_mod_cast hp), e hp, ok_bind, ih.2]
        · rfl
        · obtain ⟨q, hq, hq2⟩ := h
          rcases List.mem_cons.1 hq with rfl | hq
          · omega
          · exact ⟨q, hq, hq2⟩
      · rw [if_neg (by exact_mod_cast hp)]

section
variable [HasSqrt K] [LawfulSqrt K]

/-- The sum of the squares. -/
theorem twoNorm_sq (v : List K) : 0 ≤ Phys.twoNorm v ∧ Phys.twoNorm v ^ 2 = dotSum v.length v v := by
  refine ⟨twoNorm_nonneg v, ?_⟩
  unfold Phys.twoNorm
  rw [foldl_sq, zero_add, sq, LawfulSqrt.sq _ (sum_sq_nonneg v)]
  have : (v.map fun x => x * x) = (List.range v.length).map fun i => coord v i * coord v i := by
    refine List.ext_getElem (by simp) fun i h1 h2 => ?_
    rw [List.length_map] at h1
    simp [coord, List.getD_eq_getElem?_getD, h1]
  rw [this, sum_map_range']; rfl

/-- **C65** The norm is the non-negative root of the sum of the squares. -/
theorem C65_two_norm (v : List K) : 0 ≤ Phys.twoNorm v ∧ Phys.twoNorm v ^ 2 = ∑ i ∈ range v.length, coord v i ^ 2 := by
  refine ⟨(twoNorm_sq v).1, (twoNorm_sq v).2.trans ?_⟩
  exact sum_congr rfl fun i _ => (sq _).symm

/-- The Euclidean distance. -/
def IsDistance (a b : List K) (r : K) : Prop := 0 ≤ r ∧ r ^ 2 = ∑ i ∈ range a.length, (coord a i - coord b i) ^ 2

/-- **C65** The distance of two vectors of the same length. -/
theorem C65_distance {a b : List K} (h : a.length = b.length) : ∃ r, Vec.distance a b = .ok r ∧ IsDistance a b r := by
  obtain ⟨d, h1, h2, h3⟩ := C65_difference h
  refine ⟨Phys.twoNorm d, by unfold Vec.distance; rw [h1]; rfl, (C65_two_norm d).1, ?_⟩
  rw [(C65_two_norm d).2, h2]
  exact sum_congr rfl fun i hi => by rw [h3 i (mem_range.1 hi)]

/-- **C65** The distance is a metric on the vectors of a given length. -/
theorem C65_metric {n : ℕ} {a b c : List K} (ha : a.length = n) (hb : b.length = n) (hc : c.length = n) :
    ∃ ab ba bc ac, Vec.distance a b = .ok ab ∧ Vec.distance b a = .ok ba ∧ Vec.distance b c = .ok bc ∧ Vec.distance a c = .ok ac ∧
      0 ≤ ab ∧ (ab = 0 ↔ a = b) ∧ ab = ba ∧ ac ≤ ab + bc := by
  obtain ⟨ab, e1, p1, q1⟩ := C65_distance (ha.trans hb.symm)
  obtain ⟨ba, e2, p2, q2⟩ := C65_distance (hb.trans ha.symm)
  obtain ⟨bc, e3, p3, q3⟩ := C65_distance (hb.trans hc.symm)
  obtain ⟨ac, e4, p4, q4⟩ := C65_distance (ha.trans hc.symm)
  refine ⟨ab, ba, bc, ac, e1, e2, e3, e4, p1, ?_, ?_, ?_⟩
  · constructor
    · rintro rfl
      rw [zero_pow (by norm_num)] at q1
      have := (sum_eq_zero_iff_of_nonneg fun i _ => sq_nonneg (coord a i - coord b i)).1 q1.symm
      refine List.ext_getElem (ha.trans hb.symm) fun i h1 h2 => ?_
      have h3 := pow_eq_zero_iff (by norm_num) |>.1 (this i (mem_range.2 h1))
      simp only [coord, List.getD_eq_getElem?_getD, List.getElem?_eq_getElem h1, List.getElem?_eq_getElem h2, Option.getD_some] at h3
      exact sub_eq_zero.1 h3
    · rintro rfl
      have : ab ^ 2 = 0 := by rw [q1]; simp
      exact pow_eq_zero_iff (by norm_num) |>.1 this
  · have : ab ^ 2 = ba ^ 2 := by
      rw [q1, q2, ha, hb]
      exact sum_congr rfl fun i _ => by ring
    exact (pow_left_inj₀ p1 p2 two_ne_zero).1 this
  · rw [ha] at q1 q4
    rw [hb] at q3
    refine le_of_sq_le_sq ?_ (by linarith)
    set x := fun i => coord a i - coord b i
    set y := fun i => coord b i - coord c i
    have hcs : (∑ i ∈ range n, x i * y i) ^ 2 ≤ (∑ i ∈ range n, x i ^ 2) * ∑ i ∈ range n, y i ^ 2 := sum_mul_sq_le_sq_mul_sq _ _ _
    have hxy : ∑ i ∈ range n, x i * y i ≤ ab * bc := by
      refine abs_le_of_sq_le_sq' ?_ (mul_nonneg p1 p3) |>.2
      calc (∑ i ∈ range n, x i * y i) ^ 2 ≤ _ := hcs
        _ = (ab * bc) ^ 2 := by rw [mul_pow, q1, q3]
    have e : ac ^ 2 = ab ^ 2 + 2 * (∑ i ∈ range n, x i * y i) + bc ^ 2 := by
      rw [q4, q1, q3, mul_sum, ← sum_add_distrib, ← sum_add_distrib]
      exact sum_congr rfl fun i _ => by simp only [x, y]; ring
    rw [e]; nlinarith

/-! ## Bounds -/

/-- The maximum is attained. -/
theorem maxDistLoop_attained {ph : Phys K} : ∀ n : ℕ, ph.dim * n ≤ ph.cps.length → ∀ x, ph.maxDistLoop n = .ok x → x = 0 ∨
    ∃ k < n, ∑ c ∈ range ph.dim, ph.cps.getD (ph.dim * k + c) 0 * ph.cps.getD (ph.dim * k + c) 0 = x * x := by
  intro n
  induction n with
  | zero => intro _ x hx; exact Or.inl (Except.ok.inj hx).symm
  | succ n ih =>
    intro hn x hx
    have hn' : ph.dim * n ≤ ph.cps.length := le_trans (Nat.mul_le_mul_left _ (by omega)) hn
    obtain ⟨y, h1, _, _⟩ := maxDistLoop_spec n hn'
    rw [Phys.maxDistLoop, h1, ok_bind, buildList_eq (g := fun c => ph.cps.getD (ph.dim * n + c) 0)] at hx
    · simp only [ok_bind, pure_ok] at hx
      have hx := Except.ok.inj hx
      split_ifs at hx with hc
      · right
        refine ⟨n, by omega, ?_⟩
        rw [← hx, ← sq]
        unfold Phys.distance
        rw [zipWith_getD _ _ _ (by simp), (C65_two_norm _).2]
        simp only [List.length_map, List.length_range, List.length_replicate]
        refine sum_congr rfl fun c hc => ?_
        rw [mem_range] at hc
        simp [coord, List.getD_eq_getElem?_getD, hc, List.getElem?_replicate, sq]
      · rw [← hx]
        rcases ih hn' y h1 with h | ⟨k, hk, h⟩
        · exact Or.inl h
        · exact Or.inr ⟨k, by omega, h⟩
    · intro c hc
      rw [show ((n : ℤ) * (ph.dim : ℤ) + (c : ℤ)) = ((ph.dim * n + c : ℕ) : ℤ) by push_cast; ring]
      apply getI_getD
      rw [Nat.mul_add] at hn
      omega

/-- **C66** The maximum distance from the origin is the largest norm of a control point. -/
theorem C66_maximum_distance {s : Spl K} (h : WFSpl s) :
    ∃ R, s.ph.maxDistance = .ok R ∧ 0 ≤ R ∧ (∀ I, InBox (npts s) I → ∑ c ∈ range s.ph.dim, cpt s I c ^ 2 ≤ R ^ 2) ∧
      ∃ I, InBox (npts s) I ∧ ∑ c ∈ range s.ph.dim, cpt s I c ^ 2 = R ^ 2 := by
  obtain ⟨R, h1, h2, h3⟩ := maxDistance_spec h.phys.shape
  have e : ∀ I, ∑ c ∈ range s.ph.dim, cpt s I c ^ 2 =
      ∑ c ∈ range s.ph.dim, s.ph.cps.getD (s.ph.dim * lin (npts s) I + c) 0 * s.ph.cps.getD (s.ph.dim * lin (npts s) I + c) 0 :=
    fun I => sum_congr rfl fun c _ => by rw [sq]; rfl
  have hub : ∀ I, InBox (npts s) I → ∑ c ∈ range s.ph.dim, cpt s I c ^ 2 ≤ R ^ 2 := fun I hI => by
    rw [e, sq R]; exact h3 _ (lin_lt hI)
  refine ⟨R, h1, h2, hub, ?_⟩
  have hpp := npts_prod_pos h
  have h1' := h1
  have h0 := h.dim
  simp only [Phys.maxDistance, Phys.numCPs, if_neg h0.ne', ok_bind] at h1'
  rw [h.cps, show (((s.ph.dim * (npts s).prod : ℕ) : ℤ)) = (s.ph.dim : ℤ) * ((npts s).prod : ℤ) by push_cast; rfl,
    Int.mul_tdiv_cancel_left _ (by omega), Int.toNat_natCast] at h1'
  have hbox : ∀ k < (npts s).prod, InBox (npts s) (unlin (npts s) k) := fun k _ => unlin_inBox (nptsOf_pos h.knots) k
  rcases maxDistLoop_attained _ (by rw [h.cps]) R h1' with hz | ⟨k, hk, hk2⟩
  · refine ⟨unlin (npts s) 0, hbox 0 hpp, le_antisymm (hub _ (hbox 0 hpp)) ?_⟩
    rw [hz, zero_pow (by norm_num)]
    exact sum_nonneg fun c _ => sq_nonneg _
  · refine ⟨unlin (npts s) k, hbox k hk, ?_⟩
    rw [e, lin_unlin hk, hk2, sq]

/-- **C66** The spline stays in the ball with this radius. -/
theorem C66_bounding_ball {s : Spl K} (h : WFSpl s) {x : List K} (hx : InDomain s x) {R : K} (hR : s.ph.maxDistance = .ok R) :
    ∃ v, s.evaluate x (zl (List.range s.ph.dim)) = .ok v ∧ v.length = s.ph.dim ∧ ∑ c ∈ range s.ph.dim, coord v c ^ 2 ≤ R ^ 2 := by
  obtain ⟨y, h1, h2, h3, _⟩ := C66_maximum_distance h
  obtain rfl : y = R := by rw [h1] at hR; exact Except.ok.inj hR
  obtain ⟨l, l1, l2, l3⟩ := evaluate_convex h hx
  refine ⟨_, l3 (List.range s.ph.dim) (by simp), by simp, ?_⟩
  have hval : ∀ c < s.ph.dim, coord ((List.range s.ph.dim).map fun c => msum (npts s) fun I => l I * cpt s I c) c =
      msum (npts s) fun I => l I * cpt s I c := fun c hc => by simp [coord, List.getD_eq_getElem?_getD, hc]
  calc ∑ c ∈ range s.ph.dim, coord ((List.range s.ph.dim).map fun c => msum (npts s) fun I => l I * cpt s I c) c ^ 2
      ≤ ∑ c ∈ range s.ph.dim, msum (npts s) (fun I => l I * (cpt s I c * cpt s I c)) := by
        apply sum_le_sum
        intro c hc
        rw [hval c (mem_range.1 hc), sq]
        exact msum_sq_le l1 l2
    _ = msum (npts s) (fun I => l I * ∑ c ∈ range s.ph.dim, cpt s I c * cpt s I c) := by
        rw [← msum_sum_comm]
        apply msum_congr
        intro I _
        rw [mul_sum]
    _ ≤ msum (npts s) (fun I => y ^ 2 * l I) := by
        apply msum_le
        intro I hI
        rw [mul_comm]
        refine mul_le_mul_of_nonneg_right (le_trans (le_of_eq ?_) (h3 _ hI)) (l1 I hI)
        exact sum_congr rfl fun c _ => (sq _).symm
    _ = y ^ 2 := by rw [msum_mul_left, l2, mul_one]
end

/-- **C66** The minimum weight is the smallest weight. -/
theorem C66_minimum_weight {s : Spl K} (h : WFSpl s) {w : List K} (hw : s.ph.weights = some w) :
    ∃ m, s.ph.minWeight = .ok m ∧ m ∈ w ∧ 0 < m ∧ ∀ a ∈ w, m ≤ a := by
  obtain ⟨m, h1, h2, h3⟩ := minWeight_spec h.phys.shape (nptsOf_pos h.knots) hw
  exact ⟨m, h1, h2, (h.weights w hw).2 m h2, h3⟩

theorem foldl_max_ge : ∀ (l : List K) (e : K), e ≤ l.foldl (fun e c => if c > e then c else e) e ∧
    ∀ c ∈ l, c ≤ l.foldl (fun e c => if c > e then c else e) e
  | [], e => ⟨le_rfl, by simp⟩
  | a :: l, e => by
    obtain ⟨h1, h2⟩ := foldl_max_ge l (if a > e then a else e)
    rw [List.foldl_cons]
    refine ⟨le_trans ?_ h1, ?_⟩
    · split_ifs with h
      · exact h.le
      · exact le_rfl
    · intro c hc
      rcases List.mem_cons.1 hc with rfl | hc
      · refine le_trans ?_ h1
        split_ifs with h
        · exact le_rfl
        · exact not_lt.1 h
      · exact h2 c hc

/-- **C66** The expansion is the largest coordinate, or zero if all coordinates are negative. -/
theorem C66_expansion (ph : Phys K) :
    0 ≤ ph.expansion ∧ (∀ c ∈ ph.cps, c ≤ ph.expansion) ∧ (ph.expansion = 0 ∨ ph.expansion ∈ ph.cps) :=
  ⟨(foldl_max_ge ph.cps 0).1, (foldl_max_ge ph.cps 0).2, expansion_mem ph⟩

/-- **C66** No coordinate of the spline exceeds the expansion. -/
theorem C66_expansion_bounds {s : Spl K} (h : WFSpl s) {x : List K} (hx : InDomain s x) {c : ℕ} (hc : c < s.ph.dim) :
    ∃ v, s.evaluate x [(c : ℤ)] = .ok [v] ∧ v ≤ s.ph.expansion := by
  obtain ⟨l, h1, h2, h3⟩ := evaluate_convex h hx
  refine ⟨_, h3 [c] (by simpa using hc), ?_⟩
  calc _ ≤ msum (npts s) (fun I => l I * s.ph.expansion) := msum_le fun I hI => mul_le_mul_of_nonneg_left ?_ (h1 I hI)
    _ = s.ph.expansion := by rw [msum_mul_right, h2, one_mul]
  have hlt : s.ph.dim * lin (npts s) I + c < s.ph.cps.length := by
    rw [h.cps]
    calc s.ph.dim * lin (npts s) I + c < s.ph.dim * lin (npts s) I + s.ph.dim := by omega
      _ = s.ph.dim * (lin (npts s) I + 1) := by ring
      _ ≤ _ := Nat.mul_le_mul_left _ (lin_lt hI)
  have : cpt s I c ∈ s.ph.cps := by
    show s.ph.cps.getD _ 0 ∈ _
    rw [List.getD_eq_getElem?_getD, List.getElem?_eq_getElem hlt]
    exact List.getElem_mem hlt
  exact (C66_expansion s.ph).2.1 _ this

/-- A line far on the negative side. -/
def exNegative : Spl ℚ :=
  ⟨⟨[[0, 0, 1, 1]], [1], mkTable [[0, 0, 1, 1]] [1]⟩, ⟨1, [2], [-100, 5], none⟩⟩

theorem exNegative_wf : WFSpl exNegative where
  knots := by simp only [exNegative]; exact .cons (by decide +kernel) .nil
  basis := by decide +kernel
  num := by decide +kernel
  dim := by decide +kernel
  cps := by decide +kernel
  weights := by intro w h; simp [exNegative] at h

/-- **C66** (negation) The expansion does not bound the magnitude of the coordinates: a line from -100 to 5 has the expansion 5. This value
is written to the header of an IGES file as the largest coordinate. -/
theorem C66_expansion_counterexample : ¬ ∀ s : Spl ℚ, WFSpl s → ∀ c ∈ s.ph.cps, |c| ≤ s.ph.expansion := by
  intro h
  have := h exNegative exNegative_wf (-100) (by simp [exNegative])
  revert this
  decide +kernel

/-! ### Examples -/

section
attribute [local instance] ratSqrt
example : (Vec.scalarProduct [1, 2] [3, 4, 5] : M ℚ).toOption = some 16 := by decide +kernel
example : (Vec.crossProduct [1, 0, 0] [0, 1, 0] : M (List ℚ)).toOption = some [0, 0, 1] := by decide +kernel
example : (Vec.distance [1, 1] [4, 5] : M ℚ).toOption = some 5 := by decide +kernel
example : exNegative.ph.maxDistance.toOption = some (100 : ℚ) := by decide +kernel
end
end SplineLib
