import Verif.Core.ReduceKnots
import Verif.Core.RemoveError
import Verif.Core.RemoveMany
import Verif.Core.Surface

/-!
# Degree reduction of a whole spline (helper lemmas)
-/

namespace SplineLib
set_option linter.unusedSectionVars false
open Finset
variable {K : Type} [Field K] [LinearOrder K] [IsStrictOrderedRing K] [HasSqrt K] [LawfulSqrt K]

theorem LineRed.first {p D : ℕ} {b new : List (List K)} {i : ℕ} {e : List K} (h : LineRed p D b new i e) (hp : 2 ≤ p) {c : ℕ} (hc : c < D) :
    lineCoord p new i c 0 = lineCoord (p + 1) b i c 0 := by
  have := h.eq 0 (by omega) c hc
  rw [redLam_left (by omega)] at this
  unfold elv at this
  simp only [Nat.cast_zero, zero_div, sub_zero, one_mul, zero_mul, add_zero] at this
  exact (sub_eq_zero.1 this).symm

theorem LineRed.last {p D : ℕ} {b new : List (List K)} {i : ℕ} {e : List K} (h : LineRed p D b new i e) (hp : 2 ≤ p) {c : ℕ} (hc : c < D) :
    lineCoord p new i c (p - 1) = lineCoord (p + 1) b i c p := by
  have hp0 : (p : K) ≠ 0 := Nat.cast_ne_zero.2 (by omega)
  have := h.eq p (le_refl _) c hc
  rw [redLam_right (by omega)] at this
  unfold elv at this
  rw [div_self hp0, sub_self, zero_mul, zero_mul, zero_add, one_mul] at this
  exact (sub_eq_zero.1 this).symm

/-- What is known about the reduction `new` of segment number `m`: line by line, `b` the segment and `es` the errors. -/
structure SegRed (c : Spl K) (d p m : ℕ) (tol : K) (new : List (List K)) (b : List (List K)) (es : ℕ → List K) (err : K) : Prop where
  net : IsNet new (p * ((npts c).set d 1).prod) (c.ph.dim + 1)
  seg : ∀ e < ((npts c).set d 1).prod, ∀ cc < c.ph.dim + 1, ∀ j ≤ p, lineCoord (p + 1) b e cc j = hom c cc (lineIx (npts c) d e (m * p + j))
  line : ∀ e < ((npts c).set d 1).prod, LineRed p (c.ph.dim + 1) b new e (es e) ∧ Phys.twoNorm (es e) ≤ err
  max : err = 0 ∨ ∃ e < ((npts c).set d 1).prod, err = Phys.twoNorm (es e)

theorem seg_step {c : Spl K} (h : WFSpl c) {d p n : ℕ} (hp : c.ps.degree[d]? = some p) (h2 : 2 ≤ p) (hn : ixd (npts c) d = p * n + 1) {m : ℕ}
    (hm : m < n) (tol : K) : ∃ b new es err, c.bezierSegment d m = .ok b ∧ c.reduceBezier d b tol = .ok (new, decide (err < tol)) ∧
      SegRed c d p m tol new b es err := by
  obtain ⟨b, e1, e2, e3⟩ := bezierSegment_ok h hp hn hm
  obtain ⟨new, err, es, f1, f2, f3, f4⟩ := reduceBezier_ok h hp h2 e2 tol
  exact ⟨b, new, es, err, e1, f1, f2, e3, f3, f4⟩

/-- The reduced segments, if all of them are within the tolerance. -/
theorem reduceSegments_ok {c : Spl K} (h : WFSpl c) {d p n : ℕ} (hp : c.ps.degree[d]? = some p) (h2 : 2 ≤ p) (hn : ixd (npts c) d = p * n + 1)
    (tol : K) : ∀ k i, i + k = n → ∃ o, c.reduceSegments d tol k i = .ok o ∧ ∀ segs, o = some segs → segs.length = k ∧
      ∀ j < k, ∃ b es err, err < tol ∧ SegRed c d p (i + j) tol (segs.getD j []) b es err
  | 0, i, _ => ⟨some [], rfl, fun segs hs => by
      obtain rfl := Option.some.inj hs
      exact ⟨rfl, fun j hj => absurd hj (by omega)⟩⟩
  | k + 1, i, hik => by
    obtain ⟨b, new, es, err, e1, e2, e3⟩ := seg_step h hp h2 hn (show i < n by omega) tol
    obtain ⟨o, f1, f2⟩ := reduceSegments_ok h hp h2 hn tol k (i + 1) (by omega)
    rw [Spl.reduceSegments, e1, ok_bind, e2, ok_bind]
    dsimp only
    by_cases hlt : err < tol
    · rw [if_pos (decide_eq_true hlt), f1, ok_bind]
      match o, f2 with
      | none, _ => exact ⟨none, rfl, fun segs hs => absurd hs (by simp)⟩
      | some r, f2 =>
        obtain ⟨g1, g2⟩ := f2 r rfl
        refine ⟨some (new :: r), rfl, fun segs hs => ?_⟩
        obtain rfl := Option.some.inj hs
        refine ⟨by simp [g1], fun j hj => ?_⟩
        rcases j with _ | j
        · exact ⟨b, es, err, hlt, e3⟩
        · have := g2 j (by omega)
          rwa [show i + 1 + j = i + (j + 1) by omega] at this
    · rw [if_neg (by simpa using hlt)]
      exact ⟨none, rfl, fun segs hs => absurd hs (by simp)⟩

/-- If every line of every segment is the elevation of a line of lower degree, all segments are reduced, exactly. -/
theorem reduceSegments_exact {c : Spl K} (h : WFSpl c) {d p n : ℕ} (hp : c.ps.degree[d]? = some p) (h2 : 2 ≤ p) (hn : ixd (npts c) d = p * n + 1)
    {tol : K} (htol : 0 < tol) {Q : ℕ → ℕ → ℕ → ℕ → K}
    (hQ : ∀ m < n, ∀ e < ((npts c).set d 1).prod, ∀ cc < c.ph.dim + 1, ∀ j ≤ p,
      hom c cc (lineIx (npts c) d e (m * p + j)) = (1 - (j : K) / p) * Q m e cc j + (j : K) / p * Q m e cc (j - 1)) :
    ∀ k i, i + k = n → ∃ segs, c.reduceSegments d tol k i = .ok (some segs)
  | 0, i, _ => ⟨[], rfl⟩
  | k + 1, i, hik => by
    obtain ⟨b, new, es, err, e1, e2, e3⟩ := seg_step h hp h2 hn (show i < n by omega) tol
    obtain ⟨segs, f1⟩ := reduceSegments_exact h hp h2 hn htol hQ k (i + 1) (by omega)
    have herr : err = 0 := by
      rcases e3.max with h0 | ⟨e, he, h0⟩
      · exact h0
      · rw [h0]
        have hl := (e3.line e he).1
        have hz : (es e).map (fun x => x * x) = (es e).map fun _ => (0 : K) := by
          apply List.map_congr_left
          intro x hx
          obtain ⟨cc, hc, rfl⟩ := List.mem_iff_getElem.1 hx
          have := (hl.exact h2 (hl.len ▸ hc) (Q := Q i e cc) (fun j hj => by
            rw [e3.seg e he cc (hl.len ▸ hc) j hj]; exact hQ i (by omega) e he cc (hl.len ▸ hc) j hj)).2
          rw [List.getD_eq_getElem?_getD, List.getElem?_eq_getElem hc] at this
          simp only [Option.getD_some] at this
          rw [this, mul_zero]
        unfold Phys.twoNorm
        rw [foldl_sq, hz, zero_add, List.map_const', List.sum_replicate, smul_zero, sqrt_zero]
    rw [Spl.reduceSegments, e1, ok_bind, e2, ok_bind]
    dsimp only
    rw [if_pos (decide_eq_true (herr ▸ htol)), f1, ok_bind]
    exact ⟨new :: segs, rfl⟩

/-! ### Writing the segments back -/

section store
omit [HasSqrt K] [LawfulSqrt K]

theorem setNewCP_ok {ph : Phys K} {ns I : List ℕ} (h : ShapePhys ph ns) (hI : InBox ns I) {cp : List K} (hcp : cp.length = ph.dim) (v : K) :
    ∃ ph', Spl.setNewCP ph cp v (zl I) = .ok ph' ∧ ShapePhys ph' ns ∧ ph'.dim = ph.dim ∧ (ph'.weights = none ↔ ph.weights = none) ∧
      (∀ J, InBox ns J → ∀ c < ph.dim, pcpt ph' ns J c = if J = I then cp.getD c 0 else pcpt ph ns J c) ∧
      (ph.weights ≠ none → ∀ J, InBox ns J → pwgt ph' ns J = if J = I then v else pwgt ph ns J) := by
  obtain ⟨cps', e1, e2, e3⟩ := setCP_eq (ph := ph) (ns' := ns) (I := I) (cp := cp) (by omega) (shape_cp_le h hI)
  have hlin : ∀ J, InBox ns J → (lin ns J = lin ns I ↔ J = I) := fun J hJ => ⟨fun e => lin_inj hJ hI e, fun e => by rw [e]⟩
  unfold Spl.setNewCP
  rw [h.num, e1, ok_bind]
  cases hw : ph.weights with
  | none =>
    refine ⟨_, rfl, ⟨h.num, h.dim, by dsimp only; rw [e2, h.cps], fun w hw' => ?_⟩, rfl, by simp, ?_, fun hc => absurd rfl hc⟩
    · exact absurd hw' (by simp)
    · intro J hJ c hc
      unfold pcpt
      dsimp only
      rw [e3 _ c hc]
      by_cases hJI : J = I
      · rw [if_pos ((hlin J hJ).2 hJI), if_pos hJI]
      · rw [if_neg (fun e => hJI ((hlin J hJ).1 e)), if_neg hJI]
  | some w =>
    have hwl := h.weights w hw
    have hlt : lin ns I < w.length := by rw [hwl]; exact lin_lt hI
    have e4 : Phys.setWeight { ph with cps := cps' } (zl I) v { ph with cps := cps' }.num = .ok { ph with cps := cps', weights := some (w.set (lin ns I) v) } := by
      unfold Phys.setWeight Phys.theWeights
      dsimp only
      rw [hw, h.num]
      dsimp only
      rw [ok_bind, oneD_zl, setI_nat hlt, ok_bind]
      rfl
    dsimp only
    dsimp only at e4
    rw [h.num, hw] at e4
    rw [h.num, e4]
    refine ⟨_, rfl, ⟨rfl, h.dim, by dsimp only; rw [e2, h.cps], fun w' hw' => ?_⟩, rfl, by simp, ?_, fun _ J hJ => ?_⟩
    · dsimp only at hw'
      rw [← Option.some.inj hw', List.length_set, hwl]
    · intro J hJ c hc
      unfold pcpt
      dsimp only
      rw [e3 _ c hc]
      by_cases hJI : J = I
      · rw [if_pos ((hlin J hJ).2 hJI), if_pos hJI]
      · rw [if_neg (fun e => hJI ((hlin J hJ).1 e)), if_neg hJI]
    · unfold pwgt
      rw [hw]
      dsimp only
      rw [List.getD_eq_getElem?_getD, List.getElem?_set]
      by_cases hJI : J = I
      · subst hJI; rw [if_pos rfl, if_pos hlt, if_pos rfl]; rfl
      · rw [if_neg (fun e => hJI ((hlin J hJ).1 e.symm)), if_neg hJI, List.getD_eq_getElem?_getD]

/-- The segment and the index in it that control point `k` is taken from. -/
def segIx (q n k : ℕ) : ℕ × ℕ := if k < q * n then (k / q, k % q) else (n - 1, q)

/-- The homogeneous coordinate `c` that control point `I` gets. -/
def segVal (segs : List (List (List K))) (ns : List ℕ) (d q : ℕ) (I : List ℕ) (c : ℕ) : K :=
  lineCoord (q + 1) (segs.getD (segIx q segs.length (ixd I d)).1 []) (row ns d I) c (segIx q segs.length (ixd I d)).2

theorem segIx_lt {q n k : ℕ} (hq : 1 ≤ q) (hn : 1 ≤ n) : (segIx q n k).1 < n ∧ (segIx q n k).2 ≤ q := by
  unfold segIx
  split_ifs with h
  · exact ⟨Nat.div_lt_of_lt_mul h, (Nat.mod_lt _ (by omega)).le⟩
  · exact ⟨by dsimp only; omega, le_refl _⟩

theorem setBezierBody_ok {segs : List (List (List K))} {ns : List ℕ} {d q : ℕ} (hq : 1 ≤ q) (hn : 1 ≤ segs.length) (hsz : segs.length < 2 ^ 63)
    (hd : d < ns.length) (hnd : ixd ns d = q * segs.length + 1) {ph : Phys K} (h : ShapePhys ph ns)
    (hnet : ∀ m < segs.length, IsNet (segs.getD m []) ((q + 1) * (ns.set d 1).prod) (ph.dim + 1)) {I : List ℕ} (hI : InBox ns I) :
    Spl.setBezierBody segs q d ⟨zl ns, zl I⟩ ph =
      if segVal segs ns d q I ph.dim = 0 then .error .nonfinite
      else Spl.setNewCP ph ((List.range ph.dim).map fun c => segVal segs ns d q I c / segVal segs ns d q I ph.dim) (segVal segs ns d q I ph.dim) (zl I) := by
  have hk : ixd I d < q * segs.length + 1 := by rw [← hnd]; exact hI.getD_lt hd
  obtain ⟨s1, s2⟩ := segIx_lt (k := ixd I d) hq hn
  have hrow := row_lt (d := d) hI
  unfold Spl.setBezierBody
  dsimp only
  rw [at_zl hd hI, ok_bind, if_neg (by omega), extractDimension_zl hd hI]
  have t1 : ((ixd I d : ℤ)).tdiv ((q : ℤ) + 1 - 1) = ((ixd I d / q : ℕ) : ℤ) := by
    rw [add_sub_cancel_right]; exact (Int.ofNat_tdiv _ _).symm
  have t2 : ((ixd I d : ℤ)).tmod ((q : ℤ) + 1 - 1) = ((ixd I d % q : ℕ) : ℤ) := by
    rw [add_sub_cancel_right]; exact (Int.ofNat_tmod _ _).symm
  have hdivle : ixd I d / q ≤ segs.length := by
    rw [← Nat.mul_div_cancel_left segs.length (show 0 < q by omega)]
    exact Nat.div_le_div_right (by omega)
  have tz : toSizeT ((ixd I d / q : ℕ) : ℤ) = ixd I d / q := toSizeT_of (by omega) (by omega)
  have tl : toSizeT ((segs.length : ℤ) - 1) = segs.length - 1 := by
    rw [show (segs.length : ℤ) - 1 = ((segs.length - 1 : ℕ) : ℤ) by omega]
    exact toSizeT_of (by omega) (by omega)
  rw [t1, t2, tz, tl]
  have key : (if decide (ixd I d / q > segs.length - 1) = true then ((ixd I d / q : ℕ) : ℤ) - 1 else ((ixd I d / q : ℕ) : ℤ)) =
        ((segIx q segs.length (ixd I d)).1 : ℤ) ∧
      (if decide (ixd I d / q > segs.length - 1) = true then ((q : ℤ) + 1 - 1) + ((row ns d I : ℕ) : ℤ) * ((q : ℤ) + 1)
        else ((ixd I d % q : ℕ) : ℤ) + ((row ns d I : ℕ) : ℤ) * ((q : ℤ) + 1)) = (((segIx q segs.length (ixd I d)).2 + (q + 1) * row ns d I : ℕ) : ℤ) := by
    unfold segIx
    by_cases hlt : ixd I d < q * segs.length
    · have : ixd I d / q < segs.length := Nat.div_lt_of_lt_mul hlt
      have hb : ¬ (ixd I d / q > segs.length - 1) := by omega
      rw [if_pos hlt, decide_eq_false hb]
      refine ⟨by simp, ?_⟩
      simp only [Bool.false_eq_true, if_false]
      push_cast; ring
    · have hke : ixd I d = q * segs.length := by omega
      have hdv : ixd I d / q = segs.length := by rw [hke]; exact Nat.mul_div_cancel_left _ (by omega)
      have hb : ixd I d / q > segs.length - 1 := by omega
      rw [if_neg hlt, decide_eq_true hb, hdv]
      refine ⟨by simp; omega, ?_⟩
      simp only [if_true]
      push_cast; ring
  rw [key.1, key.2]
  have hnet' := hnet _ s1
  have hix : (segIx q segs.length (ixd I d)).2 + (q + 1) * row ns d I < (q + 1) * (ns.set d 1).prod := by
    calc (segIx q segs.length (ixd I d)).2 + (q + 1) * row ns d I < (q + 1) + (q + 1) * row ns d I := by omega
      _ = (q + 1) * (row ns d I + 1) := by ring
      _ ≤ (q + 1) * (ns.set d 1).prod := Nat.mul_le_mul_left _ hrow
  have hg : getI segs ((segIx q segs.length (ixd I d)).1 : ℤ) = .ok (segs.getD (segIx q segs.length (ixd I d)).1 []) := by
    rw [getI_nat, getN_of_lt s1, List.getD_eq_getElem?_getD, List.getElem?_eq_getElem s1]; rfl
  rw [hg, ok_bind, hnet'.getI rfl hix, ok_bind]
  have hlen := hnet'.getD hix
  have hcoord : ∀ c < ph.dim + 1, getN ((segs.getD (segIx q segs.length (ixd I d)).1 []).getD ((segIx q segs.length (ixd I d)).2 + (q + 1) * row ns d I) []) c =
      .ok (segVal segs ns d q I c) := by
    intro c hc
    rw [getN_of_lt (by rw [hlen]; exact hc)]
    unfold segVal lineCoord
    rw [List.getD_eq_getElem?_getD (i := c), List.getElem?_eq_getElem (by rw [hlen]; exact hc)]
    rfl
  rw [hcoord ph.dim (by omega), ok_bind]
  by_cases hw : segVal segs ns d q I ph.dim = 0
  · rw [if_pos hw]
    have : buildList (fun j => do
        let a ← getN ((segs.getD (segIx q segs.length (ixd I d)).1 []).getD ((segIx q segs.length (ixd I d)).2 + (q + 1) * row ns d I) []) j
        fdiv a (segVal segs ns d q I ph.dim)) ph.dim = .error .nonfinite := by
      obtain ⟨D, hD⟩ : ∃ D, ph.dim = D + 1 := ⟨ph.dim - 1, by have := h.dim; omega⟩
      have aux : ∀ n, 1 ≤ n → n ≤ ph.dim → buildList (fun j => do
        let a ← getN ((segs.getD (segIx q segs.length (ixd I d)).1 []).getD ((segIx q segs.length (ixd I d)).2 + (q + 1) * row ns d I) []) j
        fdiv a (segVal segs ns d q I ph.dim)) n = .error .nonfinite := by
        intro n
        induction n with
        | zero => intro h; omega
        | succ n ih =>
          intro _ hn'
          rw [buildList]
          rcases Nat.eq_zero_or_pos n with rfl | hn0
          · rw [show buildList (fun j => do
                let a ← getN ((segs.getD (segIx q segs.length (ixd I d)).1 []).getD ((segIx q segs.length (ixd I d)).2 + (q + 1) * row ns d I) []) j
                fdiv a (segVal segs ns d q I ph.dim)) 0 = .ok [] from rfl, ok_bind, hcoord 0 (by omega), ok_bind]
            unfold fdiv
            rw [if_pos hw]
            rfl
          · rw [ih (by omega) (by omega)]; rfl
      exact aux ph.dim h.dim (le_refl _)
    rw [this]
    rfl
  · rw [if_neg hw]
    have : buildList (fun j => do
        let a ← getN ((segs.getD (segIx q segs.length (ixd I d)).1 []).getD ((segIx q segs.length (ixd I d)).2 + (q + 1) * row ns d I) []) j
        fdiv a (segVal segs ns d q I ph.dim)) ph.dim = .ok ((List.range ph.dim).map fun c => segVal segs ns d q I c / segVal segs ns d q I ph.dim) := by
      apply buildList_eq
      intro c hc
      rw [hcoord c (by omega), ok_bind]
      unfold fdiv
      rw [if_neg hw]
    rw [this, ok_bind]

/-- The state after the control points have been written: every point has its value; this needs all new weights to differ from 0. -/
structure Written (ph ph' : Phys K) (segs : List (List (List K))) (ns : List ℕ) (d q : ℕ) : Prop where
  shape : ShapePhys ph' ns
  dim : ph'.dim = ph.dim
  kind : ph'.weights = none ↔ ph.weights = none
  ne : ∀ I, InBox ns I → segVal segs ns d q I ph.dim ≠ 0
  cp : ∀ I, InBox ns I → ∀ c < ph.dim, pcpt ph' ns I c = segVal segs ns d q I c / segVal segs ns d q I ph.dim
  weight : ph.weights ≠ none → ∀ I, InBox ns I → pwgt ph' ns I = segVal segs ns d q I ph.dim

/-- One step of the loop: the points before number `k` are written. -/
theorem written_step {segs : List (List (List K))} {ns : List ℕ} {d q : ℕ} (hq : 1 ≤ q) (hn : 1 ≤ segs.length) (hsz : segs.length < 2 ^ 63)
    (hd : d < ns.length) (hnd : ixd ns d = q * segs.length + 1) {ph0 : Phys K}
    (hnet : ∀ m < segs.length, IsNet (segs.getD m []) ((q + 1) * (ns.set d 1).prod) (ph0.dim + 1)) {k : ℕ} (hk : k < ns.prod) {ph : Phys K}
    (hi : ShapePhys ph ns ∧ ph.dim = ph0.dim ∧ (ph.weights = none ↔ ph0.weights = none) ∧ ∀ I, InBox ns I → lin ns I < k →
      segVal segs ns d q I ph0.dim ≠ 0 ∧ (∀ c < ph0.dim, pcpt ph ns I c = segVal segs ns d q I c / segVal segs ns d q I ph0.dim) ∧
      (ph0.weights ≠ none → pwgt ph ns I = segVal segs ns d q I ph0.dim)) :
    (segVal segs ns d q (unlin ns k) ph0.dim = 0 → Spl.setBezierBody segs q d ⟨zl ns, zl (unlin ns k)⟩ ph = .error .nonfinite) ∧
    (segVal segs ns d q (unlin ns k) ph0.dim ≠ 0 → ∃ ph', Spl.setBezierBody segs q d ⟨zl ns, zl (unlin ns k)⟩ ph = .ok ph' ∧
      ShapePhys ph' ns ∧ ph'.dim = ph0.dim ∧ (ph'.weights = none ↔ ph0.weights = none) ∧ ∀ I, InBox ns I → lin ns I < k + 1 →
      segVal segs ns d q I ph0.dim ≠ 0 ∧ (∀ c < ph0.dim, pcpt ph' ns I c = segVal segs ns d q I c / segVal segs ns d q I ph0.dim) ∧
      (ph0.weights ≠ none → pwgt ph' ns I = segVal segs ns d q I ph0.dim)) := by
  obtain ⟨hsh, hdim, hkind, hall⟩ := hi
  have hpos := prod_pos_iff.1 (show 0 < ns.prod by omega)
  have hJ := unlin_inBox hpos k
  have hlin := lin_unlin hk
  generalize unlin ns k = J at hJ hlin
  rw [setBezierBody_ok hq hn hsz hd hnd hsh (by rw [hdim]; exact hnet) hJ, hdim]
  refine ⟨fun h0 => if_pos h0, fun h0 => ?_⟩
  rw [if_neg h0]
  obtain ⟨ph', e1, e2, e3, e4, e5, e6⟩ := setNewCP_ok hsh hJ (cp := (List.range ph0.dim).map fun c => segVal segs ns d q J c / segVal segs ns d q J ph0.dim)
    (by simp [hdim]) (segVal segs ns d q J ph0.dim)
  refine ⟨ph', e1, e2, e3.trans hdim, e4.trans hkind, fun I hI hlt => ?_⟩
  by_cases hIJ : I = J
  · subst hIJ
    refine ⟨h0, fun c hc => ?_, fun hw => ?_⟩
    · rw [e5 I hI c (by omega), if_pos rfl, List.getD_eq_getElem?_getD, List.getElem?_map, List.getElem?_range hc]
      rfl
    · rw [e6 (fun hc => hw (hkind.1 hc)) I hI, if_pos rfl]
  · have hlt' : lin ns I < k := by
      have : lin ns I ≠ lin ns J := fun e => hIJ (lin_inj hI hJ e)
      omega
    obtain ⟨a1, a2, a3⟩ := hall I hI hlt'
    refine ⟨a1, fun c hc => ?_, fun hw => ?_⟩
    · rw [e5 I hI c (by omega), if_neg hIJ, a2 c hc]
    · rw [e6 (fun hc => hw (hkind.1 hc)) I hI, if_neg hIJ, a3 hw]

/-- The whole loop: it ends normally exactly if no new weight is zero. -/
theorem setBezierCPs_ok {segs : List (List (List K))} {s : Spl K} {ns : List ℕ} {d q : ℕ} (hp : s.ps.degree[d]? = some q) (hq : 1 ≤ q)
    (hn : 1 ≤ segs.length) (hsz : segs.length < 2 ^ 63) (hd : d < ns.length) (hnd : ixd ns d = q * segs.length + 1) (h : ShapePhys s.ph ns)
    (hnet : ∀ m < segs.length, IsNet (segs.getD m []) ((q + 1) * (ns.set d 1).prod) (s.ph.dim + 1)) :
    (∀ r, s.setBezierCPs segs d = .ok r → r.ps = s.ps ∧ Written s.ph r.ph segs ns d q) ∧
    ((∀ I, InBox ns I → segVal segs ns d q I s.ph.dim ≠ 0) → ∃ r, s.setBezierCPs segs d = .ok r) := by
  have h0 : ShapePhys s.ph ns ∧ s.ph.dim = s.ph.dim ∧ (s.ph.weights = none ↔ s.ph.weights = none) ∧ ∀ I, InBox ns I → lin ns I < 0 →
      segVal segs ns d q I s.ph.dim ≠ 0 ∧ (∀ c < s.ph.dim, pcpt s.ph ns I c = segVal segs ns d q I c / segVal segs ns d q I s.ph.dim) ∧
      (s.ph.weights ≠ none → pwgt s.ph ns I = segVal segs ns d q I s.ph.dim) := ⟨h, rfl, Iff.rfl, fun I _ hlt => absurd hlt (by omega)⟩
  constructor
  · intro r hr
    unfold Spl.setBezierCPs at hr
    rw [getN_some hp, ok_bind, h.num] at hr
    dsimp only at hr
    rw [bind_eq_ok] at hr
    obtain ⟨ph', e1, e2⟩ := hr
    have := Except.ok.inj e2
    subst this
    obtain ⟨a1, a2, a3, a4⟩ := upLoop_ok (ns := ns) (fun k (ph : Phys K) => ShapePhys ph ns ∧ ph.dim = s.ph.dim ∧ (ph.weights = none ↔ s.ph.weights = none) ∧
      ∀ I, InBox ns I → lin ns I < k →
      segVal segs ns d q I s.ph.dim ≠ 0 ∧ (∀ c < s.ph.dim, pcpt ph ns I c = segVal segs ns d q I c / segVal segs ns d q I s.ph.dim) ∧
      (s.ph.weights ≠ none → pwgt ph ns I = segVal segs ns d q I s.ph.dim)) h0 (by
        intro k hk ph hi ph'' hb
        obtain ⟨b1, b2⟩ := written_step hq hn hsz hd hnd hnet hk hi
        by_cases hz : segVal segs ns d q (unlin ns k) s.ph.dim = 0
        · rw [b1 hz] at hb; exact absurd hb (by simp)
        · obtain ⟨ph3, c1, c2⟩ := b2 hz
          rw [c1] at hb
          rw [← Except.ok.inj hb]
          exact c2) e1
    exact ⟨rfl, a1, a2, a3, fun I hI => (a4 I hI (lin_lt hI)).1, fun I hI => (a4 I hI (lin_lt hI)).2.1, fun hw I hI => (a4 I hI (lin_lt hI)).2.2 hw⟩
  · intro hz
    unfold Spl.setBezierCPs
    rw [getN_some hp, ok_bind, h.num]
    dsimp only
    obtain ⟨ph', e1, _⟩ := upLoop_inv (ns := ns) (body := Spl.setBezierBody segs q d) (fun k (ph : Phys K) => ShapePhys ph ns ∧ ph.dim = s.ph.dim ∧ (ph.weights = none ↔ s.ph.weights = none) ∧
      ∀ I, InBox ns I → lin ns I < k →
      segVal segs ns d q I s.ph.dim ≠ 0 ∧ (∀ c < s.ph.dim, pcpt ph ns I c = segVal segs ns d q I c / segVal segs ns d q I s.ph.dim) ∧
      (s.ph.weights ≠ none → pwgt ph ns I = segVal segs ns d q I s.ph.dim)) h0 (by
        intro k hk ph hi
        obtain ⟨_, b2⟩ := written_step hq hn hsz hd hnd hnet hk hi
        exact b2 (hz _ (unlin_inBox (prod_pos_iff.1 (by omega)) k)))
    rw [e1, ok_bind]
    exact ⟨_, rfl⟩

/-! ### Fewer control points -/

theorem removeCPs_ok {ph : Phys K} {ns ns' : List ℕ} (h : ShapePhys ph ns) (hle : ns'.prod ≤ ns.prod) :
    ∃ ph', Phys.removeCPs { ph with num := zl ns' } ((ns.prod : ℤ) - (ns'.prod : ℤ)) = .ok ph' ∧ ShapePhys ph' ns' ∧ ph'.dim = ph.dim ∧
      (ph'.weights = none ↔ ph.weights = none) := by
  have hm : (((ns.prod : ℤ) - (ns'.prod : ℤ)) * (ph.dim : ℤ)) = ((ph.dim * (ns.prod - ns'.prod) : ℕ) : ℤ) := by
    push_cast [Nat.cast_sub hle]; ring
  have hm2 : (ns.prod : ℤ) - (ns'.prod : ℤ) = ((ns.prod - ns'.prod : ℕ) : ℤ) := by omega
  have hmul : ph.dim * (ns.prod - ns'.prod) = ph.dim * ns.prod - ph.dim * ns'.prod := Nat.mul_sub ..
  have hmle : ph.dim * ns'.prod ≤ ph.dim * ns.prod := Nat.mul_le_mul_left _ hle
  have e1 : Phys.eraseEnd ph.cps (((ns.prod : ℤ) - (ns'.prod : ℤ)) * (ph.dim : ℤ)) = .ok (ph.cps.take (ph.dim * ns'.prod)) := by
    unfold Phys.eraseEnd
    rw [hm, if_pos ⟨by omega, by rw [h.cps]; omega⟩, Int.toNat_natCast, h.cps]
    congr 2; omega
  unfold Phys.removeCPs
  dsimp only
  rw [e1, ok_bind]
  cases hw : ph.weights with
  | none =>
    refine ⟨_, rfl, ⟨rfl, h.dim, ?_, fun w hw' => absurd hw' (by simp)⟩, rfl, by simp⟩
    dsimp only
    rw [List.length_take, h.cps]; omega
  | some w =>
    have hwl := h.weights w hw
    have e2 : Phys.eraseEnd w ((ns.prod : ℤ) - (ns'.prod : ℤ)) = .ok (w.take ns'.prod) := by
      unfold Phys.eraseEnd
      rw [hm2, if_pos ⟨by omega, by rw [hwl]; omega⟩, Int.toNat_natCast, hwl]
      congr 2; omega
    dsimp only
    rw [e2, ok_bind]
    refine ⟨_, rfl, ⟨rfl, h.dim, ?_, fun w' hw' => ?_⟩, rfl, by simp⟩
    · dsimp only
      rw [List.length_take, h.cps]; omega
    · dsimp only at hw'
      rw [← Option.some.inj hw', List.length_take, hwl]; omega

end store

end SplineLib
