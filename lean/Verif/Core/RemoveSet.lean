import Verif.Core.RemoveRounds

/-!
# The temporary points and weights of knot removal as recursive sequences (helper lemmas)
-/

namespace SplineLib
set_option linter.unusedSectionVars false
open Finset

section
variable {K : Type} [Field K] [LinearOrder K] [IsStrictOrderedRing K]

/-- The temporary values computed from the left. -/
def TL (first : ℕ) (α P : ℕ → K) : ℕ → K
  | 0 => P (first - 1)
  | t + 1 => (P (first + t) - (1 - α (first + t)) * TL first α P t) / α (first + t)

/-- The temporary values computed from the right. -/
def TR (last : ℕ) (α P : ℕ → K) : ℕ → K
  | 0 => P (last + 1)
  | t + 1 => (P (last - t) - α (last - t) * TR last α P t) / (1 - α (last - t))

/-- The temporary points of a NURBS computed from the left: `W` are the temporary weights. -/
def TLn (first : ℕ) (α P W : ℕ → K) : ℕ → K
  | 0 => P (first - 1) / W 0
  | t + 1 => (P (first + t) - (1 - α (first + t)) * TLn first α P W t * W t) / α (first + t) / W (t + 1)

/-- The temporary points of a NURBS computed from the right. -/
def TRn (last : ℕ) (α P W : ℕ → K) : ℕ → K
  | 0 => P (last + 1) / W 0
  | t + 1 => (P (last - t) - α (last - t) * TRn last α P W t * W t) / (1 - α (last - t)) / W (t + 1)

theorem TLn_mul {first : ℕ} {α P W : ℕ → K} : ∀ {t : ℕ}, (∀ s ≤ t, W s ≠ 0) → TLn first α P W t * W t = TL first α P t
  | 0, h => by simp only [TLn, TL]; exact div_mul_cancel₀ _ (h 0 (le_refl _))
  | t + 1, h => by
    simp only [TLn, TL]
    rw [div_mul_cancel₀ _ (h (t + 1) (le_refl _)), mul_assoc, TLn_mul (fun s hs => h s (by omega))]

theorem TRn_mul {last : ℕ} {α P W : ℕ → K} : ∀ {t : ℕ}, (∀ s ≤ t, W s ≠ 0) → TRn last α P W t * W t = TR last α P t
  | 0, h => by simp only [TRn, TR]; exact div_mul_cancel₀ _ (h 0 (le_refl _))
  | t + 1, h => by
    simp only [TRn, TR]
    rw [div_mul_cancel₀ _ (h (t + 1) (le_refl _)), mul_assoc, TRn_mul (fun s hs => h s (by omega))]

/-- Scaling factors strictly between 0 and 1. -/
def Strict (first last : ℕ) (α : ℕ → K) : Prop := ∀ i, first ≤ i → i ≤ last → α i ≠ 0 ∧ 1 - α i ≠ 0

variable {ph : Phys K} {ns : List ℕ} {d b first last m : ℕ} {α : ℕ → K}

theorem getI_cell {T : List K} {R len e x c : ℕ} (hT : T.length = R * len * b) (he : e < R) (hx : x < len) (hc : c < b) {i : ℤ}
    (hi : i = (((e * len + x) * b + c : ℕ) : ℤ)) : getI T i = .ok (cell T len b e x c) := by
  rw [hi, getI_getD (by rw [hT]; exact flat_lt he hx hc) 0]; rfl

theorem setI_cell {T : List K} {R len e x c : ℕ} (hT : T.length = R * len * b) (he : e < R) (hx : x < len) (hc : c < b) {i : ℤ}
    (hi : i = (((e * len + x) * b + c : ℕ) : ℤ)) (v : K) : setI T i v = .ok (T.set ((e * len + x) * b + c) v) := by
  rw [hi, setI_nat (by rw [hT]; exact flat_lt he hx hc)]

theorem fdiv_ok {a c : K} (h : c ≠ 0) : fdiv a c = .ok (a / c) := by rw [fdiv, if_neg h]

/-! ### Weights -/

/-- The weights of line `e`. -/
def lineW (ph : Phys K) (ns : List ℕ) (d e k : ℕ) : K := pwgt ph ns (lineIx ns d e k)

/-- Homogeneous coordinate `c` of the points of line `e`. -/
def lineH (ph : Phys K) (ns : List ℕ) (d e c k : ℕ) : K := pwgt ph ns (lineIx ns d e k) * pcpt ph ns (lineIx ns d e k) c

/-- Coordinate `c` of the points of line `e`. -/
def lineP (ph : Phys K) (ns : List ℕ) (d e c k : ℕ) : K := pcpt ph ns (lineIx ns d e k) c

theorem setTempWeight_eq (hph : ShapePhys ph ns) (hd : d < ns.length) (_hf : 1 ≤ first) (hfl : first ≤ last) {I : List ℕ} (hI : InBox ns I) {T : List K}
    (hT : T.length = (ns.set d 1).prod * (last + 3 - first) * 1) {a : K} (ha : a ≠ 0) {x shift : ℤ} {q q' : ℕ}
    (hx : x = (first : ℤ) - 1 + q) (hs : x + shift = (first : ℤ) - 1 + q') (hq : q < last + 3 - first) (hq' : q' < last + 3 - first) :
    ∃ T', Spl.setTempWeight ph d ((first : ℤ) - 1) last ⟨zl ns, zl I⟩ a x shift T = .ok T' ∧
      Upd (ns.set d 1).prod (last + 3 - first) 1 T T' (row ns d I) q
        (fun _ => (lineW ph ns d (row ns d I) (ixd I d) - (1 - a) * cell T (last + 3 - first) 1 (row ns d I) q' 0) / a) := by
  have he := row_lt (d := d) hI
  have hlen : ((last : ℤ) - ((first : ℤ) - 1) + 2) = ((last + 3 - first : ℕ) : ℤ) := by omega
  unfold Spl.setTempWeight
  rw [extractDimension_zl hd hI, hlen]
  simp only
  rw [pgetWeight hph.num (fun w hw => by rw [hph.weights w hw]; exact lin_lt hI), ok_bind,
    getI_cell (x := q') (c := 0) hT he hq' (by omega) (by push_cast; linear_combination hs), ok_bind, fdiv_ok ha, ok_bind,
    setI_cell (x := q) (c := 0) hT he hq (by omega) (by push_cast; linear_combination hx)]
  refine ⟨_, rfl, by simp, ?_⟩
  intro e' x' c he' hx' hc
  obtain rfl : c = 0 := by omega
  rw [cell_set hT he hq (by omega) hx' (by omega)]
  unfold lineW
  rw [lineIx_row_self hd hI]
  simp only [and_true]

/-- `SetTempNewWeight` computes the sequences `TL` and `TR` of the weights. -/
theorem setTempWeight_spec (hph : ShapePhys ph ns) (hd : d < ns.length) (hf : 1 ≤ first) (hfl : first ≤ last)
    (hα : Strict first last α) (hm : m + m ≤ last + 1 - first) :
    SetSpec (Spl.setTempWeight ph d ((first : ℤ) - 1) last) ns d 1 first last m α
      (fun e t _ => TL first α (lineW ph ns d e) t) (fun e t _ => TR last α (lineW ph ns d e) t) (fun _ => True) where
  atFirst I hI h T hT := by
    obtain ⟨T1, h1, u⟩ := setTempWeight_eq hph hd hf hfl hI hT one_ne_zero (x := (first : ℤ) - 1) (shift := 0) (q := 0) (q' := 0)
      (by simp) (by simp) (by omega) (by omega)
    refine ⟨fun T' hT' => ⟨trivial, ?_⟩, fun _ => ⟨T1, h1⟩⟩
    rw [h1] at hT'
    simp only [Except.ok.injEq] at hT'
    subst hT'
    rw [h] at u
    simpa [TL] using u
  atLast I hI h T hT := by
    obtain ⟨T1, h1, u⟩ := setTempWeight_eq hph hd hf hfl hI hT one_ne_zero (x := (last : ℤ) + 1) (shift := 0) (q := last + 2 - first)
      (q' := last + 2 - first) (by omega) (by omega) (by omega) (by omega)
    refine ⟨fun T' hT' => ⟨trivial, ?_⟩, fun _ => ⟨T1, h1⟩⟩
    rw [h1] at hT'
    simp only [Except.ok.injEq] at hT'
    subst hT'
    rw [h] at u
    simpa [TR] using u
  left I t hI h ht T hT hv := by
    obtain ⟨T1, h1, u⟩ := setTempWeight_eq hph hd hf hfl hI hT (hα (first + t) (by omega) (by omega)).1 (x := ((first + t : ℕ) : ℤ))
      (shift := -1) (q := t + 1) (q' := t) (by omega) (by omega) (by omega) (by omega)
    refine ⟨fun T' hT' => ⟨trivial, ?_⟩, fun _ => ⟨T1, h1⟩⟩
    rw [h1] at hT'
    simp only [Except.ok.injEq] at hT'
    subst hT'
    rw [hv 0 (by omega), h] at u
    exact u
  right I t hI h ht T hT hv := by
    obtain ⟨T1, h1, u⟩ := setTempWeight_eq hph hd hf hfl hI hT (hα (last - t) (by omega) (by omega)).2 (x := ((last - t : ℕ) : ℤ))
      (shift := 1) (q := last + 1 - first - t) (q' := last + 2 - first - t) (by omega) (by omega) (by omega) (by omega)
    refine ⟨fun T' hT' => ⟨trivial, ?_⟩, fun _ => ⟨T1, h1⟩⟩
    rw [h1] at hT'
    simp only [Except.ok.injEq] at hT'
    subst hT'
    rw [hv 0 (by omega), h, sub_sub_cancel] at u
    exact u

/-! ### Control points of B-splines -/

theorem shape_cp_le (hph : ShapePhys ph ns) {I : List ℕ} (hI : InBox ns I) : ph.dim * (lin ns I + 1) ≤ ph.cps.length := by
  rw [hph.cps]; exact Nat.mul_le_mul_left _ (lin_lt hI)

theorem setTempCPBSpline_eq (hph : ShapePhys ph ns) (hd : d < ns.length) (_hf : 1 ≤ first) (hfl : first ≤ last) {I : List ℕ}
    (hI : InBox ns I) {T : List K} (hT : T.length = (ns.set d 1).prod * (last + 3 - first) * ph.dim) {a : K} (ha : a ≠ 0)
    {x shift : ℤ} {q q' : ℕ} (hx : x = (first : ℤ) - 1 + q) (hs : x + shift = (first : ℤ) - 1 + q') (hq : q < last + 3 - first)
    (hq' : q' < last + 3 - first) (hqq : q' ≠ q ∨ a = 1) :
    ∃ T', Spl.setTempCPBSpline ph d ((first : ℤ) - 1) last ⟨zl ns, zl I⟩ a x shift T = .ok T' ∧
      Upd (ns.set d 1).prod (last + 3 - first) ph.dim T T' (row ns d I) q
        (fun c => (lineP ph ns d (row ns d I) c (ixd I d) - (1 - a) * cell T (last + 3 - first) ph.dim (row ns d I) q' c) / a) := by
  have he := row_lt (d := d) hI
  have hlen : ((last : ℤ) - ((first : ℤ) - 1) + 2) = ((last + 3 - first : ℕ) : ℤ) := by omega
  unfold Spl.setTempCPBSpline
  rw [extractDimension_zl hd hI, hlen]
  simp only
  apply coordLoop_eq hT he hq
  intro k hk t ht hfr
  rw [pgetCP hph.num (shape_cp_le hph hI), ok_bind, getN_getD (by simpa using hk) 0, ok_bind,
    getI_cell (x := q') (c := k) (ht.trans hT) he hq' hk (by push_cast; linear_combination (ph.dim : ℤ) * hs), ok_bind, fdiv_ok ha, ok_bind,
    setI_cell (x := q) (c := k) (ht.trans hT) he hq hk (by push_cast; linear_combination (ph.dim : ℤ) * hx), getD_map_range hk]
  unfold lineP
  rw [lineIx_row_self hd hI]
  rcases hqq with h | h
  · rw [hfr q' k hq' hk h]
  · rw [h, sub_self, zero_mul, zero_mul]

/-- `BSpline::SetTempNewControlPoint` computes the sequences `TL` and `TR`. -/
theorem setTempCPBSpline_spec (hph : ShapePhys ph ns) (hd : d < ns.length) (hf : 1 ≤ first) (hfl : first ≤ last)
    (hα : Strict first last α) (hm : m + m ≤ last + 1 - first) :
    SetSpec (Spl.setTempCPBSpline ph d ((first : ℤ) - 1) last) ns d ph.dim first last m α
      (fun e t c => TL first α (lineP ph ns d e c) t) (fun e t c => TR last α (lineP ph ns d e c) t) (fun _ => True) where
  atFirst I hI h T hT := by
    obtain ⟨T1, h1, u⟩ := setTempCPBSpline_eq hph hd hf hfl hI hT one_ne_zero (x := (first : ℤ) - 1) (shift := 0) (q := 0) (q' := 0)
      (by simp) (by simp) (by omega) (by omega) (Or.inr rfl)
    refine ⟨fun T' hT' => ⟨trivial, ?_⟩, fun _ => ⟨T1, h1⟩⟩
    rw [h1] at hT'
    simp only [Except.ok.injEq] at hT'
    subst hT'
    rw [h] at u
    simpa [TL] using u
  atLast I hI h T hT := by
    obtain ⟨T1, h1, u⟩ := setTempCPBSpline_eq hph hd hf hfl hI hT one_ne_zero (x := (last : ℤ) + 1) (shift := 0)
      (q := last + 2 - first) (q' := last + 2 - first) (by omega) (by omega) (by omega) (by omega) (Or.inr rfl)
    refine ⟨fun T' hT' => ⟨trivial, ?_⟩, fun _ => ⟨T1, h1⟩⟩
    rw [h1] at hT'
    simp only [Except.ok.injEq] at hT'
    subst hT'
    rw [h] at u
    simpa [TR] using u
  left I t hI h ht T hT hv := by
    obtain ⟨T1, h1, u⟩ := setTempCPBSpline_eq hph hd hf hfl hI hT (hα (first + t) (by omega) (by omega)).1
      (x := ((first + t : ℕ) : ℤ)) (shift := -1) (q := t + 1) (q' := t) (by omega) (by omega) (by omega) (by omega) (Or.inl (by omega))
    refine ⟨fun T' hT' => ⟨trivial, ?_⟩, fun _ => ⟨T1, h1⟩⟩
    rw [h1] at hT'
    simp only [Except.ok.injEq] at hT'
    subst hT'
    refine ⟨u.size, fun e' x' c he' hx' hc => ?_⟩
    rw [u.val e' x' c he' hx' hc, hv c hc, h]; rfl
  right I t hI h ht T hT hv := by
    obtain ⟨T1, h1, u⟩ := setTempCPBSpline_eq hph hd hf hfl hI hT (hα (last - t) (by omega) (by omega)).2 (x := ((last - t : ℕ) : ℤ))
      (shift := 1) (q := last + 1 - first - t) (q' := last + 2 - first - t) (by omega) (by omega) (by omega) (by omega) (Or.inl (by omega))
    refine ⟨fun T' hT' => ⟨trivial, ?_⟩, fun _ => ⟨T1, h1⟩⟩
    rw [h1] at hT'
    simp only [Except.ok.injEq] at hT'
    subst hT'
    refine ⟨u.size, fun e' x' c he' hx' hc => ?_⟩
    rw [u.val e' x' c he' hx' hc, hv c hc, h, sub_sub_cancel]; rfl

/-! ### Control points of NURBS -/

theorem setTempCPNurbs_eq (hph : ShapePhys ph ns) (hd : d < ns.length) (_hf : 1 ≤ first) (hfl : first ≤ last) {I : List ℕ}
    (hI : InBox ns I) {T tw w : List K} (hw : ph.weights = some w)
    (hT : T.length = (ns.set d 1).prod * (last + 3 - first) * ph.dim)
    (htw : tw.length = (ns.set d 1).prod * (last + 3 - first) * 1) {a : K} (ha : a ≠ 0)
    {x shift : ℤ} {q q' : ℕ} (hx : x = (first : ℤ) - 1 + q) (hs : x + shift = (first : ℤ) - 1 + q') (hq : q < last + 3 - first)
    (hq' : q' < last + 3 - first) (hqq : q' ≠ q ∨ a = 1) :
    (cell tw (last + 3 - first) 1 (row ns d I) q 0 ≠ 0 →
    ∃ T', Spl.setTempCPNurbs ph tw d ((first : ℤ) - 1) last ⟨zl ns, zl I⟩ a x shift T = .ok T' ∧
      Upd (ns.set d 1).prod (last + 3 - first) ph.dim T T' (row ns d I) q
        (fun c => (lineH ph ns d (row ns d I) c (ixd I d) - (1 - a) * cell T (last + 3 - first) ph.dim (row ns d I) q' c *
          cell tw (last + 3 - first) 1 (row ns d I) q' 0) / a / cell tw (last + 3 - first) 1 (row ns d I) q 0)) ∧
    (cell tw (last + 3 - first) 1 (row ns d I) q 0 = 0 →
      Spl.setTempCPNurbs ph tw d ((first : ℤ) - 1) last ⟨zl ns, zl I⟩ a x shift T = .error .nonfinite) := by
  have he := row_lt (d := d) hI
  have hlen : ((last : ℤ) - ((first : ℤ) - 1) + 2) = ((last + 3 - first : ℕ) : ℤ) := by omega
  unfold Spl.setTempCPNurbs
  rw [extractDimension_zl hd hI, hlen]
  simp only
  have step : ∀ k < ph.dim, ∀ t : List K, t.length = T.length → (do
      let p ← ph.getHomCP (zl I)
      let a_1 ← getN p k
      let o ← getI t (((row ns d I : ℤ) * ((last + 3 - first : ℕ) : ℤ) + x - ((first : ℤ) - 1) + shift) * (ph.dim : ℤ) + (k : ℤ))
      let ow ← getI tw ((row ns d I : ℤ) * ((last + 3 - first : ℕ) : ℤ) + x - ((first : ℤ) - 1) + shift)
      let q ← fdiv (a_1 - (1 - a) * o * ow) a
      let w ← getI tw ((row ns d I : ℤ) * ((last + 3 - first : ℕ) : ℤ) + x - ((first : ℤ) - 1))
      let v ← fdiv q w
      setI t (((row ns d I : ℤ) * ((last + 3 - first : ℕ) : ℤ) + x - ((first : ℤ) - 1)) * (ph.dim : ℤ) + (k : ℤ)) v : M (List K)) =
      (do
        let v ← fdiv ((lineH ph ns d (row ns d I) k (ixd I d) - (1 - a) * cell t (last + 3 - first) ph.dim (row ns d I) q' k *
          cell tw (last + 3 - first) 1 (row ns d I) q' 0) / a) (cell tw (last + 3 - first) 1 (row ns d I) q 0)
        .ok (t.set ((row ns d I * (last + 3 - first) + q) * ph.dim + k) v)) := by
    intro k hk t ht
    have hget : ((List.range ph.dim).map (fun c => pcpt ph ns I c * pwgt ph ns I) ++ [pwgt ph ns I]).getD k 0 =
        lineH ph ns d (row ns d I) k (ixd I d) := by
      unfold lineH
      rw [lineIx_row_self hd hI, mul_comm]
      simp [List.getD_eq_getElem?_getD, List.getElem?_append, hk]
    rw [pgetHomCP hph.num hph.dim (shape_cp_le hph hI) hw (by rw [hph.weights w hw]; exact lin_lt hI), ok_bind,
      getN_getD (by simp; omega) 0, hget, ok_bind,
      getI_cell (x := q') (c := k) (ht.trans hT) he hq' hk (by push_cast; linear_combination (ph.dim : ℤ) * hs), ok_bind,
      getI_cell (x := q') (c := 0) htw he hq' (by omega) (by push_cast; linear_combination hs), ok_bind, fdiv_ok ha, ok_bind,
      getI_cell (x := q) (c := 0) htw he hq (by omega) (by push_cast; linear_combination hx), ok_bind]
    congr 1
    funext v
    rw [setI_cell (x := q) (c := k) (ht.trans hT) he hq hk (by push_cast; linear_combination (ph.dim : ℤ) * hx)]
  constructor
  · intro hne
    apply coordLoop_eq hT he hq
    intro k hk t ht hfr
    rw [step k hk t ht, fdiv_ok hne, ok_bind]
    rcases hqq with h | h
    · rw [hfr q' k hq' hk h]
    · rw [h, sub_self, zero_mul, zero_mul]
      simp
  · intro h0
    have key : ∀ n, 0 < n → n ≤ ph.dim → Spl.coordLoop (fun k t => do
      let p ← ph.getHomCP (zl I)
      let a_1 ← getN p k
      let o ← getI t (((row ns d I : ℤ) * ((last + 3 - first : ℕ) : ℤ) + x - ((first : ℤ) - 1) + shift) * (ph.dim : ℤ) + (k : ℤ))
      let ow ← getI tw ((row ns d I : ℤ) * ((last + 3 - first : ℕ) : ℤ) + x - ((first : ℤ) - 1) + shift)
      let q ← fdiv (a_1 - (1 - a) * o * ow) a
      let w ← getI tw ((row ns d I : ℤ) * ((last + 3 - first : ℕ) : ℤ) + x - ((first : ℤ) - 1))
      let v ← fdiv q w
      setI t (((row ns d I : ℤ) * ((last + 3 - first : ℕ) : ℤ) + x - ((first : ℤ) - 1)) * (ph.dim : ℤ) + (k : ℤ)) v) n T =
        .error .nonfinite := by
      intro n
      induction n with
      | zero => intro h; omega
      | succ n ih =>
        intro _ hn
        by_cases h1 : 0 < n
        · rw [Spl.coordLoop, ih h1 (by omega)]; rfl
        · obtain rfl : n = 0 := by omega
          rw [Spl.coordLoop, Spl.coordLoop, ok_bind, step 0 (by omega) T rfl, h0, fdiv, if_pos rfl]; rfl
    exact key ph.dim hph.dim (le_refl _)

/-- The temporary weights of line `e` from the left and from the right do not vanish at the places of control point `I`. -/
def GoodW (ph : Phys K) (ns : List ℕ) (d first last m : ℕ) (α : ℕ → K) (I : List ℕ) : Prop :=
  (ixd I d < first + m → TL first α (lineW ph ns d (row ns d I)) (ixd I d + 1 - first) ≠ 0) ∧
  (last - m < ixd I d → TR last α (lineW ph ns d (row ns d I)) (last + 1 - ixd I d) ≠ 0)

/-- `NURBS::SetTempNewControlPoint`. -/
theorem setTempCPNurbs_spec (hph : ShapePhys ph ns) (hd : d < ns.length) (hf : 1 ≤ first) (hfl : first ≤ last)
    (hα : Strict first last α) (hm : m + m ≤ last + 1 - first) {w tw : List K} (hw : ph.weights = some w)
    (htw : tw.length = (ns.set d 1).prod * (last + 3 - first) * 1)
    (hv : ∀ e x c, e < (ns.set d 1).prod → x < last + 3 - first → c < 1 → cell tw (last + 3 - first) 1 e x c =
      tempVal (fun e t _ => TL first α (lineW ph ns d e) t) (fun e t _ => TR last α (lineW ph ns d e) t) (last + 3 - first) m e x c) :
    SetSpec (Spl.setTempCPNurbs ph tw d ((first : ℤ) - 1) last) ns d ph.dim first last m α
      (fun e t c => TLn first α (lineH ph ns d e c) (TL first α (lineW ph ns d e)) t)
      (fun e t c => TRn last α (lineH ph ns d e c) (TR last α (lineW ph ns d e)) t) (GoodW ph ns d first last m α) := by
  have wl : ∀ e t, e < (ns.set d 1).prod → t ≤ m → cell tw (last + 3 - first) 1 e t 0 = TL first α (lineW ph ns d e) t := by
    intro e t he ht
    rw [hv e t 0 he (by omega) (by omega), tempVal, if_pos ht]
  have wr : ∀ e t, e < (ns.set d 1).prod → t ≤ m →
      cell tw (last + 3 - first) 1 e (last + 2 - first - t) 0 = TR last α (lineW ph ns d e) t := by
    intro e t he ht
    rw [hv e _ 0 he (by omega) (by omega), tempVal, if_neg (by omega), if_pos (by omega)]
    congr 1; omega
  have fin : ∀ (X : M (List K)) (A : Prop) (P : List K → Prop) (g : Prop), (g ↔ A) → (A → ∃ T', X = .ok T' ∧ P T') →
      (¬ A → X = .error .nonfinite) → (∀ T', X = .ok T' → g ∧ P T') ∧ (g → ∃ T', X = .ok T') := by
    intro X A P g hgA h1 h2
    by_cases hA : A
    · obtain ⟨T1, e1, e2⟩ := h1 hA
      refine ⟨fun T' hT' => ⟨hgA.2 hA, ?_⟩, fun _ => ⟨T1, e1⟩⟩
      rw [e1] at hT'
      obtain rfl := Except.ok.inj hT'
      exact e2
    · refine ⟨fun T' hT' => ?_, fun hg => absurd (hgA.1 hg) hA⟩
      rw [h2 hA] at hT'; simp at hT'
  constructor
  · intro I hI h T hT
    have he := row_lt (d := d) hI
    obtain ⟨k1, k2⟩ := setTempCPNurbs_eq hph hd hf hfl hI hw hT htw one_ne_zero (x := (first : ℤ) - 1) (shift := 0) (q := 0) (q' := 0)
      (by simp) (by simp) (by omega) (by omega) (Or.inr rfl)
    refine fin _ (cell tw (last + 3 - first) 1 (row ns d I) 0 0 ≠ 0) _ _ ?_ (fun hA => ?_) (fun hA => k2 (not_not.1 hA))
    · rw [wl _ 0 he (by omega), GoodW, h, show first - 1 + 1 - first = 0 by omega]
      exact ⟨fun g => g.1 (by omega), fun g => ⟨fun _ => g, fun h => absurd h (by omega)⟩⟩
    · obtain ⟨T1, e1, e2⟩ := k1 hA
      refine ⟨T1, e1, e2.size, fun e' x' c he' hx' hc => ?_⟩
      rw [e2.val e' x' c he' hx' hc, wl _ 0 he (by omega), h]
      simp [TLn]
  · intro I hI h T hT
    have he := row_lt (d := d) hI
    obtain ⟨k1, k2⟩ := setTempCPNurbs_eq hph hd hf hfl hI hw hT htw one_ne_zero (x := (last : ℤ) + 1) (shift := 0)
      (q := last + 2 - first - 0) (q' := last + 2 - first - 0) (by omega) (by omega) (by omega) (by omega) (Or.inr rfl)
    refine fin _ (cell tw (last + 3 - first) 1 (row ns d I) (last + 2 - first - 0) 0 ≠ 0) _ _ ?_ (fun hA => ?_) (fun hA => k2 (not_not.1 hA))
    · rw [wr _ 0 he (by omega), GoodW, h, show last + 1 - (last + 1) = 0 by omega]
      exact ⟨fun g => g.2 (by omega), fun g => ⟨fun h => absurd h (by omega), fun _ => g⟩⟩
    · obtain ⟨T1, e1, e2⟩ := k1 hA
      refine ⟨T1, e1, e2.size, fun e' x' c he' hx' hc => ?_⟩
      rw [e2.val e' x' c he' hx' hc, wr _ 0 he (by omega), h]
      simp [TRn]
  · intro I t hI h ht T hT hc0
    have he := row_lt (d := d) hI
    obtain ⟨k1, k2⟩ := setTempCPNurbs_eq hph hd hf hfl hI hw hT htw (hα (first + t) (by omega) (by omega)).1
      (x := ((first + t : ℕ) : ℤ)) (shift := -1) (q := t + 1) (q' := t) (by omega) (by omega) (by omega) (by omega) (Or.inl (by omega))
    refine fin _ (cell tw (last + 3 - first) 1 (row ns d I) (t + 1) 0 ≠ 0) _ _ ?_ (fun hA => ?_) (fun hA => k2 (not_not.1 hA))
    · rw [wl _ _ he (by omega), GoodW, h, show first + t + 1 - first = t + 1 by omega]
      exact ⟨fun g => g.1 (by omega), fun g => ⟨fun _ => g, fun h => absurd h (by omega)⟩⟩
    · obtain ⟨T1, e1, e2⟩ := k1 hA
      refine ⟨T1, e1, e2.size, fun e' x' c he' hx' hc => ?_⟩
      rw [e2.val e' x' c he' hx' hc, wl _ _ he (by omega), wl _ _ he (by omega), h, hc0 c hc]
      simp [TLn]
  · intro I t hI h ht T hT hc0
    have he := row_lt (d := d) hI
    obtain ⟨k1, k2⟩ := setTempCPNurbs_eq hph hd hf hfl hI hw hT htw (hα (last - t) (by omega) (by omega)).2
      (x := ((last - t : ℕ) : ℤ)) (shift := 1) (q := last + 2 - first - (t + 1)) (q' := last + 2 - first - t) (by omega) (by omega)
      (by omega) (by omega) (Or.inl (by omega))
    rw [show last + 1 - first - t = last + 2 - first - (t + 1) by omega]
    refine fin _ (cell tw (last + 3 - first) 1 (row ns d I) (last + 2 - first - (t + 1)) 0 ≠ 0) _ _ ?_ (fun hA => ?_)
      (fun hA => k2 (not_not.1 hA))
    · rw [wr _ _ he (by omega), GoodW, h, show last + 1 - (last - t) = t + 1 by omega]
      exact ⟨fun g => g.2 (by omega), fun g => ⟨fun h => absurd h (by omega), fun _ => g⟩⟩
    · obtain ⟨T1, e1, e2⟩ := k1 hA
      refine ⟨T1, e1, e2.size, fun e' x' c he' hx' hc => ?_⟩
      rw [e2.val e' x' c he' hx' hc, wr _ _ he (by omega), wr _ _ he (by omega), h, hc0 c hc]
      simp [TRn]

end
end SplineLib
