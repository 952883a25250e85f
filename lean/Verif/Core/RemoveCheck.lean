import Verif.Core.RemoveStore

/-!
# `IsKnotRemovable` (helper lemmas)
-/

namespace SplineLib
set_option linter.unusedSectionVars false
open Finset

theorem incrL_set_zero : ∀ (L c : List ℤ) (d : ℕ), (c.getD d 0 = 0) →
    MIH.incrL (L.set d 0) c = MIH.incrL (L.set d 1) c
  | [], c, d, _ => by cases c <;> simp
  | l :: L, [], d, _ => by cases d <;> simp [MIH.incrL]
  | l :: L, c :: cs, 0, h => by
    simp only [List.getD_cons_zero] at h
    simp [MIH.incrL, h]
  | l :: L, c :: cs, d + 1, h => by
    simp only [List.getD_cons_succ] at h
    simp only [List.set_cons_succ, MIH.incrL, incrL_set_zero L cs d h]

section
variable {K : Type} [Field K] [LinearOrder K] [IsStrictOrderedRing K]
variable {ns : List ℕ} {d : ℕ}

theorem zl_set (l : List ℕ) (d x : ℕ) : (zl l).set d (x : ℤ) = zl (l.set d x) := by simp [zl, List.map_set]

theorem unlin_one_ixd (hd : d < ns.length) (hpos : ∀ n ∈ ns, 0 < n) (e : ℕ) : ixd (unlin (ns.set d 1) e) d = 0 := by
  have hb := unlin_inBox (set_pos hpos (d := d) Nat.one_pos) e
  have : ixd (unlin (ns.set d 1) e) d < ixd (ns.set d 1) d := hb.getD_lt (d := d) (by simpa using hd)
  rw [ixd_set_self hd] at this
  omega

theorem allLines_aux (hd : d < ns.length) (hpos : ∀ n ∈ ns, 0 < n) {f : MIH → ℤ → M Bool} {g : ℕ → Bool} :
    ∀ (n k : ℕ), (∀ e, k ≤ e → e < k + n → f ⟨(zl ns).set d 0, zl (unlin (ns.set d 1) e)⟩ (e : ℤ) = .ok (g e)) →
      Spl.allLines f n ⟨(zl ns).set d 0, zl (unlin (ns.set d 1) k)⟩ (k : ℤ) = .ok (decide (∀ e, k ≤ e → e < k + n → g e = true)) := by
  intro n
  induction n with
  | zero =>
    intro k _
    rw [Spl.allLines]
    congr 1
    symm
    rw [decide_eq_true_iff]
    intro e h1 h2; omega
  | succ n ih =>
    intro k h
    rw [Spl.allLines, h k (le_refl _) (by omega), ok_bind]
    cases hg : g k with
    | false =>
      simp only [Bool.false_eq_true, if_false, pure_ok]
      congr 1
      symm
      rw [decide_eq_false_iff_not]
      intro hc
      rw [hc k (le_refl _) (by omega)] at hg
      exact absurd hg (by simp)
    | true =>
      rw [if_pos rfl]
      have hinc : (MIH.mk ((zl ns).set d 0) (zl (unlin (ns.set d 1) k))).incr =
          ⟨(zl ns).set d 0, zl (unlin (ns.set d 1) (k + 1))⟩ := by
        have h1 := incr_zl (set_pos hpos (d := d) Nat.one_pos) k
        simp only [MIH.incr, MIH.mk.injEq] at h1 ⊢
        refine ⟨trivial, ?_⟩
        rw [incrL_set_zero, ← h1.2]
        · congr 1
          exact zl_set ns d 1
        · have := unlin_one_ixd (e := k) hd hpos
          simp only [zl, List.getD_eq_getElem?_getD, List.getElem?_map]
          simp only [ixd, List.getD_eq_getElem?_getD] at this
          cases hc : (unlin (ns.set d 1) k)[d]? with
          | none => rfl
          | some a => rw [hc] at this; simp at this; simp [this]
      rw [hinc, show ((k : ℤ) + 1) = ((k + 1 : ℕ) : ℤ) by push_cast; rfl, ih (k + 1) (fun e h1 h2 => h e (by omega) (by omega))]
      congr 1
      apply decide_eq_decide.2
      constructor
      · intro hh e h1 h2
        by_cases he : e = k
        · rw [he]; exact hg
        · exact hh e (by omega) (by omega)
      · intro hh e h1 h2
        exact hh e (by omega) (by omega)

/-- The loop over all lines returns true iff all lines pass. -/
theorem allLines_eq (hd : d < ns.length) (hpos : ∀ n ∈ ns, 0 < n) {f : MIH → ℤ → M Bool} {g : ℕ → Bool} {n : ℕ}
    (h : ∀ e < n, f ⟨(zl ns).set d 0, zl (unlin (ns.set d 1) e)⟩ (e : ℤ) = .ok (g e)) :
    Spl.allLines f n (MIH.mk' ((zl ns).set d 0)) 0 = .ok (decide (∀ e < n, g e = true)) := by
  have h0 : MIH.mk' ((zl ns).set d 0) = ⟨(zl ns).set d 0, zl (unlin (ns.set d 1) 0)⟩ := by
    have := mk'_zl (ns.set d 1)
    simp only [MIH.mk', MIH.mk.injEq] at this ⊢
    refine ⟨trivial, ?_⟩
    rw [← this.2, ← zl_set, List.map_set, List.map_set]
  have := allLines_aux hd hpos (f := f) (g := g) n 0 (fun e _ h2 => h e (by omega))
  rw [h0]
  simpa using this

variable [HasSqrt K]
variable {ph : Phys K} {first last m : ℕ} {α : ℕ → K}

/-- Homogeneous coordinates of point `k` of line `e`. -/
def homVec (ph : Phys K) (f : ℕ → K) (w : K) : List K := (List.range ph.dim).map f ++ [w]

/-- The test that `IsKnotRemovable` makes on line `e`. -/
def LineOK (ph : Phys K) (ns : List ℕ) (d first last m : ℕ) (α : ℕ → K) (tol : K) (e : ℕ) : Prop :=
  Phys.distance (homVec ph (fun c => TL first α (lineH ph ns d e c) m) (TL first α (lineW ph ns d e) m))
      (homVec ph (fun c => TR last α (lineH ph ns d e c) m) (TR last α (lineW ph ns d e) m)) ≤ tol ∨
  Phys.distance (homVec ph (fun c => lineH ph ns d e c (first + m)) (lineW ph ns d e (first + m)))
      (homVec ph (fun c => α (first + m) * TR last α (lineH ph ns d e c) (last - first - m) +
          (1 - α (first + m)) * TL first α (lineH ph ns d e c) m)
        (α (first + m) * TR last α (lineW ph ns d e) (last - first - m) + (1 - α (first + m)) * TL first α (lineW ph ns d e) m)) ≤ tol

instance {tol : K} {e : ℕ} : Decidable (LineOK ph ns d first last m α tol e) := by unfold LineOK; infer_instance

/-- The tolerance after scaling (nurbs.h:408-410). -/
def effTol (ph : Phys K) (tol : K) : M K :=
  match ph.weights with
  | none => .ok tol
  | some _ => do
    let maxdist ← ph.maxDistance
    let minw ← ph.minWeight
    fdiv (tol * minw) (1 + maxdist)

theorem maxDistLoop_ok (hb : ∀ n : ℕ, ph.dim * (n + 1) ≤ ph.cps.length → True) :
    ∀ n : ℕ, ph.dim * n ≤ ph.cps.length → ∃ x, ph.maxDistLoop n = .ok x ∧ 0 ≤ x := by
  intro n
  induction n with
  | zero => intro _; exact ⟨0, rfl, le_refl _⟩
  | succ n ih =>
    intro hn
    have hn' : ph.dim * n ≤ ph.cps.length := le_trans (Nat.mul_le_mul_left _ (by omega)) hn
    obtain ⟨x, h1, h2⟩ := ih hn'
    rw [Phys.maxDistLoop, h1, ok_bind, buildList_eq (g := fun c => ph.cps.getD (n * ph.dim + c) 0)]
    · simp only [ok_bind, pure_ok]
      split_ifs with hc
      · exact ⟨_, rfl, le_trans h2 hc.le⟩
      · exact ⟨_, rfl, h2⟩
    · intro c hc
      rw [show ((n : ℤ) * (ph.dim : ℤ) + (c : ℤ)) = ((n * ph.dim + c : ℕ) : ℤ) by push_cast; rfl]
      apply getI_getD
      rw [Nat.mul_add, mul_comm] at hn
      omega

theorem effTol_ok (hph : ShapePhys ph ns) (hpos : ∀ n ∈ ns, 0 < n) (tol : K) :
    ∃ T, effTol ph tol = .ok T ∧ (ph.weights = none → T = tol) ∧
      (0 ≤ tol → (∀ w, ph.weights = some w → ∀ a ∈ w, 0 ≤ a) → 0 ≤ T) := by
  unfold effTol
  cases hw : ph.weights with
  | none => exact ⟨tol, rfl, fun _ => rfl, fun h _ => h⟩
  | some w =>
    have h0 := hph.dim
    have hwl := hph.weights w hw
    have hp := prod_pos_of hpos
    obtain ⟨x, h1, h2⟩ := maxDistLoop_ok (ph := ph) (fun _ _ => trivial) ns.prod (by rw [hph.cps])
    have hmd : ph.maxDistance = .ok x := by
      simp only [Phys.maxDistance, Phys.numCPs, if_neg h0.ne', ok_bind]
      rw [hph.cps, show (((ph.dim * ns.prod : ℕ) : ℤ)) = (ph.dim : ℤ) * (ns.prod : ℤ) by push_cast; rfl,
        Int.mul_tdiv_cancel_left _ (by omega), Int.toNat_natCast, h1]
    have hmw : ∃ mw, ph.minWeight = .ok mw ∧ ((∀ a ∈ w, 0 ≤ a) → 0 ≤ mw) := by
      simp only [Phys.minWeight, Phys.theWeights, hw, ok_bind]
      rw [getN_getD (by omega) 0]
      refine ⟨_, rfl, ?_⟩
      intro hall
      have h0' : 0 ≤ w.getD 0 0 := by
        rw [List.getD_eq_getElem?_getD, List.getElem?_eq_getElem (by omega)]
        exact hall _ (List.getElem_mem _)
      generalize w.getD 0 0 = a at h0'
      clear hwl hw
      induction w generalizing a with
      | nil => exact h0'
      | cons b w ih =>
        simp only [List.foldl_cons]
        apply ih (fun c hc => hall c (by simp [hc]))
        split_ifs
        · exact hall b (by simp)
        · exact h0'
    obtain ⟨mw, h3, h4⟩ := hmw
    have hne : 1 + x ≠ 0 := by have : (0 : K) < 1 + x := by linarith
                               exact this.ne'
    simp only [hmd, h3, ok_bind, fdiv_ok hne]
    refine ⟨_, rfl, fun h => by simp at h, ?_⟩
    intro ht hall
    exact div_nonneg (mul_nonneg ht (h4 (hall w rfl))) (by linarith)

/-- The temporary weights never vanish. -/
def NoZero (ph : Phys K) (ns : List ℕ) (d first last m : ℕ) (α : ℕ → K) : Prop :=
  ∀ e < (ns.set d 1).prod, ∀ t ≤ m, TL first α (lineW ph ns d e) t ≠ 0 ∧ TR last α (lineW ph ns d e) t ≠ 0

theorem tdiv_rows {R len b : ℕ} (hR : 0 < R) {T : List K} (hT : T.length = R * len * b) :
    (T.length : ℤ).tdiv (R : ℤ) = ((len * b : ℕ) : ℤ) := by
  rw [hT, show ((R * len * b : ℕ) : ℤ) = (R : ℤ) * ((len * b : ℕ) : ℤ) by push_cast; ring, Int.mul_tdiv_cancel_left _ (by omega)]

theorem not_gt_decide {a b : K} : (!decide (a > b)) = decide (a ≤ b) := by
  by_cases h : a ≤ b <;> simp [h, not_le.1]

/-- One line of `BSpline::IsKnotRemovable`. -/
theorem removableBSpline_eq (hph : ShapePhys ph ns) (hpos : ∀ n ∈ ns, 0 < n) (hd : d < ns.length) (_hf : 1 ≤ first)
    (hfl : first ≤ last) (hl : last + 1 < ixd ns d) (hm : m = (last + 1 - first) / 2) (hw : ph.weights = none)
    {T : List K} (hT : T.length = (ns.set d 1).prod * (last + 3 - first) * ph.dim)
    (hv : ∀ e x c, e < (ns.set d 1).prod → x < last + 3 - first → c < ph.dim → cell T (last + 3 - first) ph.dim e x c =
      tempVal (fun e t c => TL first α (lineP ph ns d e c) t) (fun e t c => TR last α (lineP ph ns d e c) t) (last + 3 - first) m e x c)
    (tol : K) {e : ℕ} (he : e < (ns.set d 1).prod)
    (hone : TL first α (lineW ph ns d e) m = 1 ∧ TR last α (lineW ph ns d e) m = 1 ∧ TR last α (lineW ph ns d e) (last - first - m) = 1) :
    Spl.removableBSpline ph (α (first + m)) T tol (((first + m : ℕ) : ℤ)) (((last - m : ℕ) : ℤ)) ((first : ℤ) - 1) d
      ((T.length : ℤ).tdiv ((ns.set d 1).prod : ℤ)) ⟨(zl ns).set d 0, zl (unlin (ns.set d 1) e)⟩ (e : ℤ) =
      .ok (decide (LineOK ph ns d first last m α tol e)) := by
  have hHP : ∀ c, lineH ph ns d e c = lineP ph ns d e c := by
    intro c; funext k; simp [lineH, lineP, pwgt, hw]
  have hW : ∀ k, lineW ph ns d e k = 1 := by intro k; simp [lineW, pwgt, hw]
  have get : ∀ (x c : ℕ) (i : ℤ), x < last + 3 - first → c < ph.dim → i = (((e * (last + 3 - first) + x) * ph.dim + c : ℕ) : ℤ) →
      getI T i = .ok (tempVal (fun e t c => TL first α (lineP ph ns d e c) t) (fun e t c => TR last α (lineP ph ns d e c) t)
        (last + 3 - first) m e x c) := by
    intro x c i hx hc hi
    rw [getI_cell hT he hx hc hi, hv e x c he hx hc]
  have vl : ∀ c, tempVal (fun e t c => TL first α (lineP ph ns d e c) t) (fun e t c => TR last α (lineP ph ns d e c) t)
        (last + 3 - first) m e m c = TL first α (lineH ph ns d e c) m := by
    intro c; rw [tempVal, if_pos (le_refl _), hHP]
  have vr : ∀ c, tempVal (fun e t c => TL first α (lineP ph ns d e c) t) (fun e t c => TR last α (lineP ph ns d e c) t)
        (last + 3 - first) m e (last + 2 - first - m) c = TR last α (lineH ph ns d e c) m := by
    intro c
    rw [tempVal, if_neg (by omega), if_pos (by omega), hHP]
    congr 1; omega
  have vr2 : ∀ c, tempVal (fun e t c => TL first α (lineP ph ns d e c) t) (fun e t c => TR last α (lineP ph ns d e c) t)
        (last + 3 - first) m e (m + 2) c = TR last α (lineH ph ns d e c) (last - first - m) := by
    intro c
    rw [tempVal, if_neg (by omega), if_pos (by omega), hHP]
    congr 1; omega
  have hR : 0 < (ns.set d 1).prod := by omega
  have hIx : (zl (unlin (ns.set d 1) e)).set d (((first + m : ℕ) : ℤ)) = zl (lineIx ns d e (first + m)) := zl_set _ _ _
  have hbox : InBox ns (lineIx ns d e (first + m)) := lineIx_inBox hpos (by omega)
  unfold Spl.removableBSpline
  rw [tdiv_rows hR hT]
  rw [buildList_eq (g := fun c => TL first α (lineH ph ns d e c) m) (by
    intro c hc
    rw [get m c _ (by omega) hc (by push_cast; ring), vl]), ok_bind]
  rw [buildList_eq (g := fun c => TR last α (lineH ph ns d e c) m) (by
    intro c hc
    rw [get (last + 2 - first - m) c _ (by omega) hc, vr]
    have : ((last - m : ℕ) : ℤ) - ((first : ℤ) - 1) + 1 = ((last + 2 - first - m : ℕ) : ℤ) := by omega
    rw [this]; push_cast; ring), ok_bind]
  have hL : LineOK ph ns d first last m α tol e ↔
      Phys.distance ((List.range ph.dim).map (fun c => TL first α (lineH ph ns d e c) m) ++ [1])
        ((List.range ph.dim).map (fun c => TR last α (lineH ph ns d e c) m) ++ [1]) ≤ tol ∨
      Phys.distance ((List.range ph.dim).map (fun c => lineH ph ns d e c (first + m)) ++ [1])
        ((List.range ph.dim).map (fun c => α (first + m) * TR last α (lineH ph ns d e c) (last - first - m) +
          (1 - α (first + m)) * TL first α (lineH ph ns d e c) m) ++ [1]) ≤ tol := by
    unfold LineOK homVec
    rw [hone.1, hone.2.1, hone.2.2, hW, mul_one, mul_one, add_sub_cancel]
  by_cases c1 : Phys.distance ((List.range ph.dim).map (fun c => TL first α (lineH ph ns d e c) m) ++ [1])
        ((List.range ph.dim).map (fun c => TR last α (lineH ph ns d e c) m) ++ [1]) ≤ tol
  · rw [if_neg (not_lt.2 c1), pure_ok]
    congr 1
    symm
    rw [decide_eq_true_iff, hL]
    exact Or.inl c1
  · rw [if_pos (not_le.1 c1)]
    rw [buildList_eq (g := fun c => lineH ph ns d e c (first + m)) (by
      intro c hc
      dsimp only
      rw [hIx, pgetCP hph.num (shape_cp_le hph hbox), ok_bind, getN_getD (by simpa using hc) 0, getD_map_range hc, hHP]
      rfl), ok_bind]
    rw [buildList_eq (g := fun c => α (first + m) * TR last α (lineH ph ns d e c) (last - first - m) +
          (1 - α (first + m)) * TL first α (lineH ph ns d e c) m) (by
      intro c hc
      rw [get (m + 2) c _ (by omega) hc (by push_cast; ring), vr2, ok_bind,
        get m c _ (by omega) hc (by push_cast; ring), vl, ok_bind, pure_ok]), ok_bind, pure_ok, not_gt_decide]
    congr 1
    rw [decide_eq_decide, hL]
    simp only [c1, false_or]

/-- One line of `NURBS::IsKnotRemovable`. -/
theorem removableNurbs_eq (hph : ShapePhys ph ns) (hpos : ∀ n ∈ ns, 0 < n) (hd : d < ns.length) (_hf : 1 ≤ first)
    (hfl : first ≤ last) (hl : last + 1 < ixd ns d) (hm : m = (last + 1 - first) / 2) {w : List K} (hw : ph.weights = some w)
    {T tw : List K} (hT : T.length = (ns.set d 1).prod * (last + 3 - first) * ph.dim)
    (htw : tw.length = (ns.set d 1).prod * (last + 3 - first) * 1)
    (hvw : ∀ e x c, e < (ns.set d 1).prod → x < last + 3 - first → c < 1 → cell tw (last + 3 - first) 1 e x c =
      tempVal (fun e t _ => TL first α (lineW ph ns d e) t) (fun e t _ => TR last α (lineW ph ns d e) t) (last + 3 - first) m e x c)
    (hv : ∀ e x c, e < (ns.set d 1).prod → x < last + 3 - first → c < ph.dim → cell T (last + 3 - first) ph.dim e x c =
      tempVal (fun e t c => TLn first α (lineH ph ns d e c) (TL first α (lineW ph ns d e)) t)
        (fun e t c => TRn last α (lineH ph ns d e c) (TR last α (lineW ph ns d e)) t) (last + 3 - first) m e x c)
    (hnz : NoZero ph ns d first last m α) (tol : K) {e : ℕ} (he : e < (ns.set d 1).prod) :
    Spl.removableNurbs ph (α (first + m)) T tw tol (((first + m : ℕ) : ℤ)) (((last - m : ℕ) : ℤ)) ((first : ℤ) - 1) d
      ((T.length : ℤ).tdiv ((ns.set d 1).prod : ℤ)) ((tw.length : ℤ).tdiv ((ns.set d 1).prod : ℤ))
      ⟨(zl ns).set d 0, zl (unlin (ns.set d 1) e)⟩ (e : ℤ) =
      .ok (decide (LineOK ph ns d first last m α tol e)) := by
  have get : ∀ (x c : ℕ) (i : ℤ), x < last + 3 - first → c < ph.dim → i = (((e * (last + 3 - first) + x) * ph.dim + c : ℕ) : ℤ) →
      getI T i = .ok (tempVal (fun e t c => TLn first α (lineH ph ns d e c) (TL first α (lineW ph ns d e)) t)
        (fun e t c => TRn last α (lineH ph ns d e c) (TR last α (lineW ph ns d e)) t) (last + 3 - first) m e x c) := by
    intro x c i hx hc hi
    rw [getI_cell hT he hx hc hi, hv e x c he hx hc]
  have getw : ∀ (x : ℕ) (i : ℤ), x < last + 3 - first → i = ((e * (last + 3 - first) + x : ℕ) : ℤ) →
      getI tw i = .ok (tempVal (fun e t _ => TL first α (lineW ph ns d e) t) (fun e t _ => TR last α (lineW ph ns d e) t)
        (last + 3 - first) m e x 0) := by
    intro x i hx hi
    rw [getI_cell (x := x) (c := 0) htw he hx (by omega) (by rw [hi]; push_cast; ring), hvw e x 0 he hx (by omega)]
  have ml : ∀ c, TLn first α (lineH ph ns d e c) (TL first α (lineW ph ns d e)) m * TL first α (lineW ph ns d e) m =
      TL first α (lineH ph ns d e c) m := fun c => TLn_mul fun s hs => (hnz e he s hs).1
  have mr : ∀ c, TRn last α (lineH ph ns d e c) (TR last α (lineW ph ns d e)) m * TR last α (lineW ph ns d e) m =
      TR last α (lineH ph ns d e c) m := fun c => TRn_mul fun s hs => (hnz e he s hs).2
  have mr2 : ∀ c, TRn last α (lineH ph ns d e c) (TR last α (lineW ph ns d e)) (last - first - m) *
      TR last α (lineW ph ns d e) (last - first - m) =
      TR last α (lineH ph ns d e c) (last - first - m) := fun c => TRn_mul fun s hs => (hnz e he s (by omega)).2
  have hR : 0 < (ns.set d 1).prod := by omega
  have hIx : (zl (unlin (ns.set d 1) e)).set d (((first + m : ℕ) : ℤ)) = zl (lineIx ns d e (first + m)) := zl_set _ _ _
  have hbox : InBox ns (lineIx ns d e (first + m)) := lineIx_inBox hpos (by omega)
  have hwl := hph.weights w hw
  have hj : ((last - m : ℕ) : ℤ) - ((first : ℤ) - 1) + 1 = ((last + 2 - first - m : ℕ) : ℤ) := by omega
  unfold Spl.removableNurbs
  rw [tdiv_rows hR hT, tdiv_rows hR htw]
  rw [getw m _ (by omega) (by push_cast; ring), ok_bind, tempVal, if_pos (le_refl _)]
  rw [getw (last + 2 - first - m) _ (by omega) (by push_cast [← hj]; ring), ok_bind, tempVal, if_neg (by omega), if_pos (by omega),
    show last + 3 - first - 1 - (last + 2 - first - m) = m by omega]
  rw [buildList_eq (g := fun c => TL first α (lineH ph ns d e c) m) (by
    intro c hc
    rw [get m c _ (by omega) hc (by push_cast; ring), tempVal, if_pos (le_refl _), ok_bind, pure_ok, ml]), ok_bind]
  rw [buildList_eq (g := fun c => TR last α (lineH ph ns d e c) m) (by
    intro c hc
    rw [get (last + 2 - first - m) c _ (by omega) hc (by rw [hj]; push_cast; ring), tempVal, if_neg (by omega), if_pos (by omega),
      show last + 3 - first - 1 - (last + 2 - first - m) = m by omega, ok_bind, pure_ok, mr]), ok_bind]
  by_cases c1 : Phys.distance ((List.range ph.dim).map (fun c => TL first α (lineH ph ns d e c) m) ++ [TL first α (lineW ph ns d e) m])
        ((List.range ph.dim).map (fun c => TR last α (lineH ph ns d e c) m) ++ [TR last α (lineW ph ns d e) m]) ≤ tol
  · rw [if_neg (not_lt.2 c1), pure_ok]
    congr 1
    symm
    rw [decide_eq_true_iff]
    exact Or.inl c1
  · rw [if_pos (not_le.1 c1)]
    rw [buildList_eq (g := fun c => lineH ph ns d e c (first + m)) (by
      intro c hc
      dsimp only
      rw [hIx, pgetHomCP hph.num hph.dim (shape_cp_le hph hbox) hw (by rw [hwl]; exact lin_lt hbox), ok_bind,
        getN_getD (by simp; omega) 0]
      unfold lineH
      rw [mul_comm]
      simp [List.getD_eq_getElem?_getD, List.getElem?_append, hc]), ok_bind]
    rw [getw (m + 2) _ (by omega) (by push_cast; ring), ok_bind, tempVal, if_neg (by omega), if_pos (by omega),
      show last + 3 - first - 1 - (m + 2) = last - first - m by omega]
    rw [buildList_eq (g := fun c => α (first + m) * TR last α (lineH ph ns d e c) (last - first - m) +
          (1 - α (first + m)) * TL first α (lineH ph ns d e c) m) (by
      intro c hc
      rw [get (m + 2) c _ (by omega) hc (by push_cast; ring), tempVal, if_neg (by omega), if_pos (by omega),
        show last + 3 - first - 1 - (m + 2) = last - first - m by omega, ok_bind,
        get m c _ (by omega) hc (by push_cast; ring), tempVal, if_pos (le_refl _), ok_bind, pure_ok, mul_assoc, mr2, mul_assoc, ml]),
      ok_bind]
    dsimp only
    rw [hIx, pgetWeight hph.num (fun w' hw' => by rw [hph.weights w' hw']; exact lin_lt hbox), ok_bind, pure_ok, not_gt_decide]
    congr 1
    rw [decide_eq_decide]
    unfold LineOK homVec
    simp only [c1, false_or]
    rfl

end
end SplineLib
