import Verif.Core.BezierRestore
import Verif.Spec.Homogeneous
import Verif.Core.Reduce
import Verif.Core.RemoveTemp

/-!
# Bézier segments of a spline in Bézier form (helper lemmas)
-/

namespace SplineLib
set_option linter.unusedSectionVars false
open Finset
variable {K : Type} [Field K] [LinearOrder K] [IsStrictOrderedRing K]

/-! ### The basis functions between knots of full multiplicity -/

/-- Between `p` copies of `a` and `p` copies of `b` the basis functions are the Bernstein polynomials. -/
theorem Nb_bernstein {u : ℕ → K} {k p : ℕ} {a b x : K} (hab : a ≠ b) (h1 : ∀ j, k < j + p → j ≤ k → u j = a)
    (h2 : ∀ j, k < j → j ≤ k + p → u j = b) : ∀ (q j i : ℕ), q ≤ p → j ≤ q → i + q = k + j →
    Nb u x (delta k) q i = (q.choose j : K) * ((x - a) / (b - a)) ^ j * (1 - (x - a) / (b - a)) ^ (q - j)
  | 0, j, i, _, hj, hi => by
    obtain rfl : j = 0 := by omega
    obtain rfl : i = k := by omega
    simp [Nb]
  | q + 1, j, i, hq, hj, hi => by
    have hne : b - a ≠ 0 := sub_ne_zero.2 (Ne.symm hab)
    have hs : (b - x) / (b - a) = 1 - (x - a) / (b - a) := by field_simp; ring
    have f1 : (x - u i) / (u (i + q + 1) - u i) * Nb u x (delta k) q i =
        if j = 0 then 0 else (x - a) / (b - a) * ((q.choose (j - 1) : K) * ((x - a) / (b - a)) ^ (j - 1) * (1 - (x - a) / (b - a)) ^ (q - (j - 1))) := by
      by_cases h : j = 0
      · rw [if_pos h, Nb_delta_zero (Or.inr (by omega)), mul_zero]
      · rw [if_neg h, Nb_bernstein hab h1 h2 q (j - 1) i (by omega) (by omega) (by omega), h1 i (by omega) (by omega),
          h2 (i + q + 1) (by omega) (by omega)]
    have f2 : (u (i + q + 2) - x) / (u (i + q + 2) - u (i + 1)) * Nb u x (delta k) q (i + 1) =
        if j = q + 1 then 0 else (1 - (x - a) / (b - a)) * ((q.choose j : K) * ((x - a) / (b - a)) ^ j * (1 - (x - a) / (b - a)) ^ (q - j)) := by
      by_cases h : j = q + 1
      · rw [if_pos h, Nb_delta_zero (Or.inl (by omega)), mul_zero]
      · rw [if_neg h, Nb_bernstein hab h1 h2 q j (i + 1) (by omega) (by omega) (by omega), h1 (i + 1) (by omega) (by omega),
          h2 (i + q + 2) (by omega) (by omega), hs]
    simp only [Nb]
    rw [f1, f2]
    generalize (x - a) / (b - a) = t
    rcases Nat.eq_zero_or_pos j with rfl | hj0
    · rw [if_pos rfl, if_neg (by omega)]
      simp [pow_succ]; ring
    · obtain ⟨j, rfl⟩ : ∃ j', j = j' + 1 := ⟨j - 1, by omega⟩
      rw [if_neg (by omega), Nat.add_sub_cancel]
      by_cases h : j + 1 = q + 1
      · obtain rfl : j = q := by omega
        rw [if_pos rfl]
        simp [pow_succ]; ring
      · rw [if_neg h, Nat.choose_succ_succ, show q - j = q - (j + 1) + 1 by omega, show q + 1 - (j + 1) = q - (j + 1) + 1 by omega]
        push_cast
        ring

/-! ### The knots of the Bézier form -/

theorem expand_fill_getD {p : ℕ} (hp : 1 ≤ p) : ∀ (r : List (K × ℕ)) (j : ℕ), (expand (fill p r)).getD j 0 = (r.map Prod.fst).getD (j / p) 0
  | [], j => by simp
  | a :: r, j => by
    rw [fill_cons, expand_cons]
    by_cases h : j < p
    · rw [List.getD_eq_getElem?_getD, List.getElem?_append_left (by simpa using h), List.getElem?_replicate, if_pos (by simpa using h),
        Nat.div_eq_of_lt h]
      rfl
    · have ih := expand_fill_getD hp r (j - p)
      have e : j / p = (j - p) / p + 1 := by
        rw [← Nat.add_div_right _ (by omega), Nat.sub_add_cancel (by omega)]
      rw [List.getD_eq_getElem?_getD, List.getElem?_append_right (by simp; omega), ← List.getD_eq_getElem?_getD, e]
      simp only [List.length_replicate, List.map_cons, List.getD_cons_succ]
      exact ih

/-- The break points. -/
def breaks (f l : K) (mid : List (K × ℕ)) : List K := f :: (mid.map Prod.fst ++ [l])

theorem bezierKnots_knot {p : ℕ} (hp : 1 ≤ p) (f l : K) (mid : List (K × ℕ)) {j : ℕ} (hj : j ≤ p * (mid.length + 1) + p) :
    knot (bezierKnots p f l mid) j = (breaks f l mid).getD ((j - 1) / p) 0 := by
  have e : bezierKnots p f l mid = f :: (expand (fill p ((f, p) :: (mid ++ [(l, p)]))) ++ [l]) := by
    unfold bezierKnots
    have : ∀ (n : ℕ) (a : K), List.replicate (n + 1) a = List.replicate n a ++ [a] := fun n a => List.replicate_succ'
    simp only [expand_append, expand_cons, expand_nil, fill_cons, List.append_nil]
    conv_lhs => rw [this p l]
    rw [List.replicate_succ]
    simp [fill]
  have hl : (expand (fill p ((f, p) :: (mid ++ [(l, p)])))).length = p * (mid.length + 1) + p := by
    rw [length_fill]; simp; ring
  rw [e]
  unfold knot
  rcases j with _ | j
  · simp [breaks]
  · rw [List.getD_cons_succ, List.getD_eq_getElem?_getD, List.getElem?_append_left (by omega), ← List.getD_eq_getElem?_getD,
      expand_fill_getD hp]
    simp [breaks]

/-- A span of the Bézier form: number `i`, between the break points `a < b`. -/
structure BezierSpan (V : List K) (p n k i : ℕ) (a b : K) : Prop where
  index : k = i * p + p
  lt : i < n
  less : a < b
  left : ∀ j, k < j + p → j ≤ k → knot V j = a
  right : ∀ j, k < j → j ≤ k + p → knot V j = b

theorem bezierSpan_mk {p : ℕ} (hp : 1 ≤ p) {f l : K} {mid : List (K × ℕ)} {i : ℕ} (hin : i < mid.length + 1)
    (hlt : (breaks f l mid).getD i 0 < (breaks f l mid).getD (i + 1) 0) :
    BezierSpan (bezierKnots p f l mid) p (mid.length + 1) (i * p + p) i ((breaks f l mid).getD i 0) ((breaks f l mid).getD (i + 1) 0) := by
  have hle : i * p ≤ p * mid.length := by rw [mul_comm i p]; exact Nat.mul_le_mul_left p (by omega)
  have hmn : p * (mid.length + 1) = p * mid.length + p := by ring
  refine ⟨rfl, hin, hlt, ?_, ?_⟩
  · intro j hj1 hj2
    rw [bezierKnots_knot hp f l mid (by omega)]
    have : (j - 1) / p = i := by
      rw [show j - 1 = p * i + (j - 1 - i * p) by rw [mul_comm p i]; omega, Nat.mul_add_div (by omega), Nat.div_eq_of_lt (by omega), Nat.add_zero]
    rw [this]
  · intro j hj1 hj2
    rw [bezierKnots_knot hp f l mid (by omega)]
    have : (j - 1) / p = i + 1 := by
      rw [show j - 1 = p * (i + 1) + (j - 1 - (i + 1) * p) by rw [mul_comm p (i + 1), add_mul, one_mul]; omega, Nat.mul_add_div (by omega),
        Nat.div_eq_of_lt (by rw [add_mul, one_mul]; omega), Nat.add_zero]
    rw [this]

theorem bezier_span {p : ℕ} (hp : 1 ≤ p) {f l : K} {mid : List (K × ℕ)} {k : ℕ} (hk : k + 1 < (bezierKnots p f l mid).length)
    (hlt : knot (bezierKnots p f l mid) k < knot (bezierKnots p f l mid) (k + 1)) :
    ∃ i, BezierSpan (bezierKnots p f l mid) p (mid.length + 1) k i ((breaks f l mid).getD i 0) ((breaks f l mid).getD (i + 1) 0) := by
  rw [bezierKnots_length] at hk
  have hk1 : k ≤ p * (mid.length + 1) + p := by omega
  have hkn : k < p * (mid.length + 1) + p := by
    by_contra hc
    obtain rfl : k = p * (mid.length + 1) + p := by omega
    have e1 : knot (bezierKnots p f l mid) (p * (mid.length + 1) + p) = l := by
      rw [bezierKnots_knot hp f l mid (le_refl _)]
      have : (p * (mid.length + 1) + p - 1) / p = mid.length + 1 := by
        rw [show p * (mid.length + 1) + p - 1 = p * (mid.length + 1) + (p - 1) by omega, Nat.mul_add_div (by omega),
          Nat.div_eq_of_lt (by omega), Nat.add_zero]
      rw [this]
      simp [breaks]
    have e2 : knot (bezierKnots p f l mid) (p * (mid.length + 1) + p + 1) = l := by
      unfold bezierKnots
      rw [show [(f, p + 1)] ++ (fill p mid ++ [(l, p + 1)]) = ([(f, p + 1)] ++ fill p mid) ++ (l, p + 1) :: [] by simp]
      have hlen : (expand ([(f, p + 1)] ++ fill p mid)).length = p * mid.length + p + 1 := by
        simp only [expand_append, List.length_append, length_fill, expand_cons, expand_nil, List.length_replicate, List.length_nil]; ring
      apply knot_expand_mid
      · rw [hlen, mul_add]; omega
      · rw [hlen, mul_add]; omega
    rw [e1, e2] at hlt
    exact lt_irrefl _ hlt
  rw [bezierKnots_knot hp f l mid hk1, bezierKnots_knot hp f l mid hkn] at hlt
  rw [Nat.succ_sub_one] at hlt
  have hk0 : 0 < k := by
    rcases Nat.eq_zero_or_pos k with rfl | h
    · simp at hlt
    · exact h
  -- `k` is a multiple of `p`
  have hmod : k % p = 0 := by
    by_contra hc
    have : (k - 1) / p = k / p := by
      have h1 := Nat.div_add_mod k p
      have h2 := Nat.mod_lt k (show 0 < p by omega)
      rw [show k - 1 = p * (k / p) + (k % p - 1) by omega, Nat.mul_add_div (by omega), Nat.div_eq_of_lt (a := k % p - 1) (by omega), Nat.add_zero]
    rw [this] at hlt
    exact lt_irrefl _ hlt
  obtain ⟨m, hm⟩ := Nat.dvd_of_mod_eq_zero hmod
  have hm0 : 0 < m := Nat.pos_of_ne_zero fun h => by subst h; omega
  obtain ⟨i, rfl⟩ : ∃ i, m = i + 1 := ⟨m - 1, by omega⟩
  have hki : k = i * p + p := by rw [hm]; ring
  have hin : i < mid.length + 1 := by
    by_contra hc
    have : p * (mid.length + 1) ≤ i * p := by rw [mul_comm i p]; exact Nat.mul_le_mul_left p (by omega)
    omega
  have hle : i * p ≤ p * mid.length := by rw [mul_comm i p]; exact Nat.mul_le_mul_left p (by omega)
  have hmn : p * (mid.length + 1) = p * mid.length + p := by ring
  have d1 : (k - 1) / p = i := by
    rw [show k - 1 = p * i + (p - 1) by rw [hki, mul_comm]; omega, Nat.mul_add_div (by omega), Nat.div_eq_of_lt (by omega), Nat.add_zero]
  have d2 : k / p = i + 1 := by rw [hm]; exact Nat.mul_div_cancel_left _ (by omega)
  rw [d1, d2] at hlt
  exact ⟨i, hki ▸ bezierSpan_mk hp hin hlt⟩

/-- On a span of the Bézier form a sum over the basis functions is a Bézier curve. -/
theorem bezier_sum {p : ℕ} {V : List K} (hs : SortedKnots V) {n k i : ℕ} {a b : K} (h : BezierSpan V p n k i a b)
    (hlen : V.length = p * n + p + 2) {x : K} (hx : InSpan V k x) (P : ℕ → K) :
    ∑ j ∈ range (V.length - p - 1), coxDeBoor V p j x * P j = bezier p (fun j => P (i * p + j)) ((x - a) / (b - a)) := by
  have hki := h.index
  have hin := h.lt
  have hle : i * p + p ≤ p * n := by
    calc i * p + p = p * (i + 1) := by ring
      _ ≤ p * n := Nat.mul_le_mul_left p hin
  have hk1 : k + 1 < V.length := by rw [hlen]; omega
  have hnum : V.length - p - 1 = p * n + 1 := by omega
  rw [hnum]
  have e : ∀ j ∈ range (p * n + 1), coxDeBoor V p j x * P j = Nb (ku V) x (delta k) p j * P j := by
    intro j hj
    rw [cox_eq_Nb hs hk1 hx (by have := mem_range.1 hj; omega)]
  rw [sum_congr rfl e]
  unfold bezier
  have hsplit : ∑ j ∈ range (p * n + 1), Nb (ku V) x (delta k) p j * P j =
      ∑ j ∈ range (p + 1), Nb (ku V) x (delta k) p (i * p + j) * P (i * p + j) := by
    have hz : ∀ j, (j < i * p ∨ i * p + p < j) → Nb (ku V) x (delta k) p j * P j = 0 := by
      intro j hj
      rw [Nb_delta_zero (by omega), zero_mul]
    rw [show p * n + 1 = i * p + ((p + 1) + (p * n - (i * p + p))) by omega, sum_range_add, sum_range_add]
    rw [sum_eq_zero (fun j hj => hz j (Or.inl (mem_range.1 hj))), zero_add,
      sum_eq_zero (s := range (p * n - (i * p + p))) (fun j hj => hz _ (Or.inr (by omega))), add_zero]
  rw [hsplit]
  apply sum_congr rfl
  intro j hj
  have hj := mem_range.1 hj
  rw [Nb_bernstein (k := k) (p := p) (ne_of_lt h.less)
    (fun j h1 h2 => by rw [ku_eq (by omega)]; exact h.left j h1 h2)
    (fun j h1 h2 => by rw [ku_eq (by omega)]; exact h.right j h1 h2) p j (i * p + j) (le_refl _) (by omega) (by omega)]

/-! ### Reading out a segment -/

theorem bezierSegment_ok {s : Spl K} (h : WFSpl s) {d p n : ℕ} (hp : s.ps.degree[d]? = some p) (hn : ixd (npts s) d = p * n + 1) {i : ℕ} (hi : i < n) :
    ∃ b, s.bezierSegment d i = .ok b ∧ IsNet b ((p + 1) * ((npts s).set d 1).prod) (s.ph.dim + 1) ∧
      ∀ e < ((npts s).set d 1).prod, ∀ c < s.ph.dim + 1, ∀ j ≤ p,
        lineCoord (p + 1) b e c j = hom s c (lineIx (npts s) d e (i * p + j)) := by
  have hdl : d < s.ps.degree.length := lt_of_some hp
  have hdk : d < s.ps.knots.length := by rw [h.knots.length_eq]; exact hdl
  have hd : d < (npts s).length := lt_of_some (nptsOf_get (List.getElem?_eq_getElem hdk) hp)
  have hpos : ∀ n ∈ npts s, 0 < n := nptsOf_pos h.knots
  set ns := npts s with hns
  set len := (ns.set d 1).prod with hlen
  have hph : ShapePhys s.ph ns := h.phys.shape
  have hle : i * p + p ≤ p * n := by
    calc i * p + p = p * (i + 1) := by ring
      _ ≤ p * n := Nat.mul_le_mul_left p hi
  unfold Spl.bezierSegment
  rw [getN_some hp, ok_bind, h.num, getN_zl hd, ok_bind, hph.cpsPer hpos hd, ok_bind]
  dsimp only
  have hw : ((p : ℤ) + 1) * (len : ℤ) = (((p + 1) * len : ℕ) : ℤ) := by push_cast; ring
  rw [if_neg (by rw [hw]; omega), hw, Int.toNat_natCast]
  obtain ⟨b, e1, e2, e3⟩ := upLoop_inv (ns := ns) (body := fun h acc => do
      let k ← h.at' d
      if k ≥ (i : ℤ) * ((p : ℤ) + 1) - i ∧ k < ((i : ℤ) + 1) * ((p : ℤ) + 1) - i then do
        let index := (k + i).tmod ((p : ℤ) + 1) + h.extractDimension d * ((p : ℤ) + 1)
        let w ← s.ph.getWeight h.cur
        let cp ← s.ph.getCP h.cur
        setI acc index (cp.map (fun a => a * w) ++ [w])
      else return acc)
    (fun k b => IsNet b ((p + 1) * len) (s.ph.dim + 1) ∧ ∀ e < len, ∀ c < s.ph.dim + 1, ∀ j ≤ p,
      lin ns (lineIx ns d e (i * p + j)) < k → lineCoord (p + 1) b e c j = hom s c (lineIx ns d e (i * p + j)))
    (s := List.replicate ((p + 1) * len) (List.replicate (s.ph.dim + 1) 0))
    ⟨isNet_replicate _ _, fun _ _ _ _ _ _ hlt => absurd hlt (by omega)⟩ (by
      intro k hk b ⟨hb1, hb2⟩
      have hI := unlin_inBox hpos k
      have hlin := lin_unlin hk
      generalize unlin ns k = I at hI hlin
      have hkI : ixd I d < p * n + 1 := by rw [← hn]; exact hI.getD_lt hd
      rw [at_zl hd hI, ok_bind, extractDimension_zl hd hI]
      have hrow := row_lt (d := d) hI
      by_cases hc : i * p ≤ ixd I d ∧ ixd I d ≤ i * p + p
      · rw [if_pos (by constructor <;> nlinarith [hc.1, hc.2])]
        obtain ⟨j, hj⟩ : ∃ j, ixd I d = i * p + j := ⟨ixd I d - i * p, by omega⟩
        have hjp : j ≤ p := by omega
        have hidx : ((ixd I d : ℤ) + (i : ℤ)).tmod ((p : ℤ) + 1) + ((row ns d I : ℕ) : ℤ) * ((p : ℤ) + 1) = ((j + (p + 1) * row ns d I : ℕ) : ℤ) := by
          have : (ixd I d : ℤ) + (i : ℤ) = ((j + (p + 1) * i : ℕ) : ℤ) := by rw [hj]; push_cast; ring
          rw [this, show (p : ℤ) + 1 = ((p + 1 : ℕ) : ℤ) by push_cast; ring, ← Int.ofNat_tmod, Nat.add_mul_mod_self_left,
            Nat.mod_eq_of_lt (by omega)]
          push_cast; ring
        have hlt : j + (p + 1) * row ns d I < (p + 1) * len := by
          calc j + (p + 1) * row ns d I < (p + 1) + (p + 1) * row ns d I := by omega
            _ = (p + 1) * (row ns d I + 1) := by ring
            _ ≤ (p + 1) * len := Nat.mul_le_mul_left _ hrow
        rw [pgetWeight hph.num (fun w hw => by rw [(h.weights w hw).1]; exact lin_lt hI), ok_bind,
          pgetCP hph.num (shape_cp_le hph hI), ok_bind, hidx, hb1.setI rfl hlt]
        refine ⟨_, rfl, hb1.set _ (by simp), ?_⟩
        intro e he c hc' j' hj' hlt'
        rw [lineCoord_set (by rw [hb1.1]; exact hlt)]
        by_cases heq : j' + (p + 1) * e = j + (p + 1) * row ns d I
        · rw [if_pos heq]
          obtain ⟨rfl, rfl⟩ : e = row ns d I ∧ j' = j := by
            have a1 := congrArg (· / (p + 1)) heq
            simp only [Nat.add_mul_div_left _ _ (show 0 < p + 1 by omega), Nat.div_eq_of_lt (show j' < p + 1 by omega),
              Nat.div_eq_of_lt (show j < p + 1 by omega), Nat.zero_add] at a1
            subst a1
            exact ⟨rfl, by omega⟩
          have hII : lineIx ns d (row ns d I) (i * p + j') = I := by rw [← hj, lineIx_row_self hd hI]
          rw [hII]
          unfold hom
          by_cases hcd : c = s.ph.dim
          · rw [if_pos hcd, List.getD_eq_getElem?_getD, List.getElem?_append_right (by simp [hcd])]
            simp [hcd]; rfl
          · rw [if_neg hcd, List.getD_eq_getElem?_getD, List.getElem?_append_left (by simp; omega), List.map_map, List.getElem?_map,
              List.getElem?_range (by omega)]
            simp only [Function.comp, Option.map_some, Option.getD_some]
            rw [mul_comm]; rfl
        · rw [if_neg heq]
          refine hb2 e he c hc' j' hj' ?_
          have hne : lin ns (lineIx ns d e (i * p + j')) ≠ lin ns I := by
            intro hh
            rw [lineIx_lin_eq hpos hd hI he (by omega)] at hh
            obtain ⟨rfl, hh⟩ := hh
            apply heq
            omega
          omega
      · rw [if_neg (by
          rintro ⟨h1, h2⟩
          apply hc
          constructor
          · have : (i : ℤ) * p ≤ (ixd I d : ℤ) := by nlinarith
            exact_mod_cast this
          · have : (ixd I d : ℤ) < i * p + p + 1 := by nlinarith
            have h3 : ixd I d < i * p + p + 1 := by exact_mod_cast this
            omega)]
        refine ⟨b, rfl, hb1, ?_⟩
        intro e he c hc' j' hj' hlt'
        refine hb2 e he c hc' j' hj' ?_
        have hne : lin ns (lineIx ns d e (i * p + j')) ≠ lin ns I := by
          intro hh
          rw [lineIx_lin_eq hpos hd hI he (by omega)] at hh
          exact hc ⟨by omega, by omega⟩
        omega)
  refine ⟨b, e1, e2, fun e he c hc j hj => e3 e he c hc j hj ?_⟩
  exact lin_lt (lineIx_inBox hpos (by rw [hn]; omega))

/-! ### The spline on a knot span -/

/-- A tensor product sum, summed along direction `d` first. -/
theorem tensor_line {Us : List (List K)} {ps : List ℕ} {xs : List K} {d : ℕ} {U : List K} {p : ℕ} {x : K} (hU : Us[d]? = some U)
    (hp : ps[d]? = some p) (hx : xs[d]? = some x) (F : List ℕ → K) :
    msum (nptsOf Us ps) (fun I => dprod (basisFns Us ps xs) I * F I) =
      msum ((nptsOf Us ps).set d 1) (fun J => dprod ((basisFns Us ps xs).set d fun _ => 1) J *
        ∑ i ∈ range (U.length - p - 1), coxDeBoor U p i x * F (J.set d i)) := by
  have hget := nptsOf_get hU hp
  have hd := lt_of_some hget
  apply msum_change_dir _ d hd
  intro I hI
  have hdI : d < I.length := by rw [hI.length]; simpa using hd
  have hb := basisFns_get hU hp hx
  rw [List.getD_eq_getElem?_getD, hget, Option.getD_some, sum_range_one]
  have hdB : d < (basisFns Us ps xs).length := lt_of_some hb
  have h1 : dprod ((basisFns Us ps xs).set d fun _ => 1) (I.set d 0) = dprod ((basisFns Us ps xs).set d fun _ => 1) I := by
    rw [dprod_set (b := fun _ => 1) 0 (by rw [List.getElem?_set_self hdB]) hdI, List.set_set, one_mul]
  rw [h1, mul_sum]
  apply sum_congr rfl
  intro i _
  rw [dprod_set i hb hdI, List.set_set]
  ring

theorem SameSums.hom {s s' : Spl K} (h : SameSums s s') {x : List K} (hx : InDomain s x) {c : ℕ} (hc : c < s.ph.dim + 1) :
    homSum s' x c = homSum s x c := by
  unfold homSum SplineLib.hom
  rw [h.dim]
  by_cases hcd : c = s.ph.dim
  · simp only [if_pos hcd]; exact h.wsum x hx
  · simp only [if_neg hcd]; exact h.csum x hx c (by omega)

theorem exists_pos_cox {U : List K} {p : ℕ} (h : WFKnots U p) {x : K} (h0 : knot U 0 ≤ x) (h1 : x ≤ lastKnot U) :
    ∃ i < U.length - p - 1, 0 < coxDeBoor U p i x := by
  by_contra hc
  push_neg at hc
  have := cox_sum h h0 h1
  rw [sum_eq_zero fun i hi => le_antisymm (hc i (mem_range.1 hi)) (cox_nonneg h h0 h1 (by have := mem_range.1 hi; omega))] at this
  exact zero_ne_one this

theorem others_nonneg {Us : List (List K)} {ps : List ℕ} (h : List.Forall₂ WFKnots Us ps) {x : List K} (hx : Dom Us x) {d : ℕ}
    (hd : d < Us.length) {J : List ℕ} (hJ : InBox ((nptsOf Us ps).set d 1) J) : 0 ≤ others Us ps x d J := by
  have hU := List.getElem?_eq_getElem hd
  have hp := List.getElem?_eq_getElem (show d < ps.length by rw [← h.length_eq]; exact hd)
  have ha := List.getElem?_eq_getElem (show d < x.length by rw [← hx.length_eq]; exact hd)
  obtain ⟨h0, h1⟩ := forall₂_getElem? hx hU ha
  obtain ⟨i, hi, hpos⟩ := exists_pos_cox (forall₂_getElem? h hU hp) h0 h1
  have hget := nptsOf_get hU hp
  have hdJ : d < J.length := by rw [hJ.length, List.length_set]; exact lt_of_some hget
  have hbox : InBox (nptsOf Us ps) (J.set d i) := inBox_set_of hJ (by rw [nptsOf_ixd hU hp]; exact hi)
  have := tensor_nonneg h hx hbox
  rw [dprod_set i (basisFns_get hU hp ha) hdJ] at this
  exact nonneg_of_mul_nonneg_right this hpos

theorem others_sum {Us : List (List K)} {ps : List ℕ} (h : List.Forall₂ WFKnots Us ps) {x : List K} (hx : Dom Us x) {d : ℕ}
    (hd : d < Us.length) : msum ((nptsOf Us ps).set d 1) (others Us ps x d) = 1 := by
  have hU := List.getElem?_eq_getElem hd
  have hp := List.getElem?_eq_getElem (show d < ps.length by rw [← h.length_eq]; exact hd)
  have ha := List.getElem?_eq_getElem (show d < x.length by rw [← hx.length_eq]; exact hd)
  obtain ⟨h0, h1⟩ := forall₂_getElem? hx hU ha
  have e := tensor_line hU hp ha (fun _ => 1)
  simp only [mul_one] at e
  rw [cox_sum (forall₂_getElem? h hU hp) h0 h1] at e
  simp only [mul_one] at e
  rw [← tensor_unity h hx]
  exact e.symm

/-- Where the parameter lies among the break points: the same for every degree. -/
theorem bezier_locate {p : ℕ} (hp : 1 ≤ p) {f l : K} {mid : List (K × ℕ)} (hw : WFKnots (bezierKnots p f l mid) p) {x : K}
    (h0 : knot (bezierKnots p f l mid) 0 ≤ x) (h1 : x ≤ lastKnot (bezierKnots p f l mid)) :
    ∃ i < mid.length + 1, (breaks f l mid).getD i 0 < (breaks f l mid).getD (i + 1) 0 ∧ (breaks f l mid).getD i 0 ≤ x ∧
      x ≤ (breaks f l mid).getD (i + 1) 0 ∧ ∀ q, 1 ≤ q → InSpan (bezierKnots q f l mid) (i * q + q) x := by
  obtain ⟨_, hs, _, hb⟩ := hw.span h0 h1
  have hlast : ∀ q, lastKnot (bezierKnots q f l mid) = l := by
    intro q
    unfold bezierKnots
    rw [← List.append_assoc]
    exact lastKnot_expand (c := (l, q + 1)) (by simp)
  have hlt : knot (bezierKnots p f l mid) (spanIx (bezierKnots p f l mid) x) < knot (bezierKnots p f l mid) (spanIx (bezierKnots p f l mid) x + 1) := by
    rcases hs with ⟨a, b⟩ | ⟨a, b, _⟩
    · exact lt_of_le_of_lt a b
    · rw [← b]; exact a
  obtain ⟨i, hi⟩ := bezier_span hp (by omega) hlt
  generalize spanIx (bezierKnots p f l mid) x = k at *
  have hl := hi.left k (by omega) (le_refl _)
  have hr := hi.right (k + 1) (by omega) (by omega)
  unfold InSpan at hs
  rw [hl, hr, hlast] at hs
  refine ⟨i, hi.lt, hi.less, ?_, ?_, ?_⟩
  · rcases hs with ⟨a, _⟩ | ⟨a, _⟩
    · exact a
    · exact a.le
  · rcases hs with ⟨_, b⟩ | ⟨_, b, _⟩
    · exact b.le
    · exact b.le
  · intro q hq
    have hm := bezierSpan_mk (p := q) hq hi.lt hi.less
    unfold InSpan
    rw [hm.left _ (by omega) (le_refl _), hm.right (i * q + q + 1) (by omega) (by omega), hlast]
    exact hs

/-- A tensor product sum over a Bézier form is, on span number `i`, a combination of the Bézier curves of the lines. -/
theorem bezier_tensor {Us : List (List K)} {ps : List ℕ} {x : List K} {d p : ℕ} (hpp : 1 ≤ p) {f l : K} {mid : List (K × ℕ)}
    (hU : Us[d]? = some (bezierKnots p f l mid)) (hp : ps[d]? = some p) {t : K} (ht : x[d]? = some t) (hs : SortedKnots (bezierKnots p f l mid))
    {i : ℕ} (hi : i < mid.length + 1) (hlt : (breaks f l mid).getD i 0 < (breaks f l mid).getD (i + 1) 0)
    (hspan : InSpan (bezierKnots p f l mid) (i * p + p) t) (F : List ℕ → K) :
    msum (nptsOf Us ps) (fun I => dprod (basisFns Us ps x) I * F I) =
      msum ((nptsOf Us ps).set d 1) (fun J => others Us ps x d J * bezier p (fun j => F (J.set d (i * p + j)))
        ((t - (breaks f l mid).getD i 0) / ((breaks f l mid).getD (i + 1) 0 - (breaks f l mid).getD i 0))) := by
  rw [tensor_line hU hp ht]
  apply msum_congr
  intro J _
  rw [bezier_sum hs (bezierSpan_mk hpp hi hlt) (bezierKnots_length ..) hspan fun j => F (J.set d j)]
  rfl

end SplineLib
