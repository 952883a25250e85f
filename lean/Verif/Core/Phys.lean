import Verif.Core.Unity
import Verif.Core.EvalProps
import Verif.Model.KnotInsertion

/-!
# Physical spaces as functions of the multi-index (helper lemmas)
-/

namespace SplineLib
set_option linter.unusedSectionVars false
open Finset

/-! ### Lists of naturals -/

/-- Index in direction `d`. -/
abbrev ixd (I : List ℕ) (d : ℕ) : ℕ := I.getD d 0

theorem zl_length (l : List ℕ) : (zl l).length = l.length := by simp [zl]

theorem modify_zl {l : List ℕ} {d : ℕ} {f : ℤ → ℤ} {b : ℕ} (hd : d < l.length) (hf : f (ixd l d : ℤ) = (b : ℤ)) :
    (zl l).modify d f = zl (l.set d b) := by
  induction l generalizing d with
  | nil => simp at hd
  | cons a l ih =>
    cases d with
    | zero => simp only [List.map_cons, List.modify_zero_cons, List.set_cons_zero]; simp at hf; rw [hf]
    | succ d =>
      simp only [List.map_cons, List.modify_succ_cons, List.set_cons_succ]
      rw [ih (by simpa using hd) (by simpa using hf)]

theorem getN_zl {l : List ℕ} {d : ℕ} (hd : d < l.length) : getN (zl l) d = .ok (ixd l d : ℤ) := by
  rw [getN_of_lt (by simpa using hd)]
  simp [ixd, List.getD_eq_getElem?_getD, hd]

theorem ixd_set_self {l : List ℕ} {d b : ℕ} (hd : d < l.length) : ixd (l.set d b) d = b := by
  simp [ixd, List.getD_eq_getElem?_getD, hd]

theorem set_ixd {l : List ℕ} {d : ℕ} (hd : d < l.length) : l.set d (ixd l d) = l := by
  rw [ixd, List.getD_eq_getElem?_getD, List.getElem?_eq_getElem hd]; simp

theorem inBox_set {ns I : List ℕ} {d n i : ℕ} (h : InBox ns I) (hi : i < n) : InBox (ns.set d n) (I.set d i) := by
  induction ns generalizing I d with
  | nil => rw [inBox_nil_iff] at h; subst h; simp
  | cons m ns ih =>
    cases I with
    | nil => simp at h
    | cons j I =>
      rw [inBox_cons] at h
      cases d with
      | zero => simp only [List.set_cons_zero, inBox_cons]; exact ⟨hi, h.2⟩
      | succ d => simp only [List.set_cons_succ, inBox_cons]; exact ⟨h.1, ih h.2⟩

theorem inBox_set_of {ns I : List ℕ} {d m i : ℕ} (h : InBox (ns.set d m) I) (hi : i < ixd ns d) : InBox ns (I.set d i) := by
  have := inBox_set (d := d) (n := ixd ns d) (i := i) h hi
  by_cases hd : d < ns.length
  · rwa [List.set_set, set_ixd hd] at this
  · simp [ixd, List.getD_eq_getElem?_getD, Nat.not_lt.1 hd] at hi

theorem prod_set {ns : List ℕ} {d m : ℕ} (hd : d < ns.length) : (ns.set d m).prod = m * (ns.set d 1).prod := by
  induction ns generalizing d with
  | nil => simp at hd
  | cons a ns ih =>
    cases d with
    | zero => simp
    | succ d => simp only [List.set_cons_succ, List.prod_cons]; rw [ih (by simpa using hd)]; ring

theorem prod_eq_ixd {ns : List ℕ} {d : ℕ} (hd : d < ns.length) : ns.prod = ixd ns d * (ns.set d 1).prod := by
  conv_lhs => rw [← set_ixd hd]
  exact prod_set hd

theorem set_pos {ns : List ℕ} (h : ∀ n ∈ ns, 0 < n) {d m : ℕ} (hm : 0 < m) : ∀ n ∈ ns.set d m, 0 < n := by
  intro n hn
  rcases List.mem_or_eq_of_mem_set hn with h1 | h1
  · exact h n h1
  · omega

theorem ixd_pos {ns : List ℕ} (h : ∀ n ∈ ns, 0 < n) {d : ℕ} (hd : d < ns.length) : 0 < ixd ns d := by
  apply h; rw [ixd, List.getD_eq_getElem?_getD, List.getElem?_eq_getElem hd]; simp

theorem lin_mono {ns ms I J : List ℕ} (h : List.Forall₂ (· ≤ ·) ns ms) (hI : List.Forall₂ (· ≤ ·) I J) : lin ns I ≤ lin ms J := by
  induction h generalizing I J with
  | nil => simp [lin]
  | cons h _ ih =>
    cases hI with
    | nil => simp [lin]
    | cons h1 h2 =>
      simp only [lin]
      exact Nat.add_le_add h1 (Nat.mul_le_mul h (ih h2))

theorem forall₂_le_set {l : List ℕ} {d b : ℕ} (h : ixd l d ≤ b) : List.Forall₂ (· ≤ ·) l (l.set d b) := by
  induction l generalizing d with
  | nil => simp
  | cons a l ih =>
    cases d with
    | zero => exact .cons (by simpa using h) (List.forall₂_same.2 fun x _ => le_refl x)
    | succ d => exact .cons (le_refl _) (ih (by simpa using h))

theorem forall₂_set_le {l : List ℕ} {d b : ℕ} (h : b ≤ ixd l d) : List.Forall₂ (· ≤ ·) (l.set d b) l := by
  induction l generalizing d with
  | nil => simp
  | cons a l ih =>
    cases d with
    | zero => exact .cons (by simpa using h) (List.forall₂_same.2 fun x _ => le_refl x)
    | succ d => exact .cons (le_refl _) (ih (by simpa using h))

theorem forall₂_le_refl (l : List ℕ) : List.Forall₂ (· ≤ ·) l l := List.forall₂_same.2 fun x _ => le_refl x

section
variable {K : Type} [Field K] [LinearOrder K] [IsStrictOrderedRing K]

/-! ### Physical spaces -/

/-- Coordinate `c` of the control point with multi-index `I`, for point numbers `ns`. -/
def pcpt (ph : Phys K) (ns I : List ℕ) (c : ℕ) : K := ph.cps.getD (ph.dim * lin ns I + c) 0

/-- Weight with multi-index `I` (1 without weights). -/
def pwgt (ph : Phys K) (ns I : List ℕ) : K :=
  match ph.weights with
  | none => 1
  | some w => w.getD (lin ns I) 0

/-- A physical space with point numbers `ns` and positive weights. -/
structure WFPhys (ph : Phys K) (ns : List ℕ) : Prop where
  num : ph.num = zl ns
  dim : 0 < ph.dim
  cps : ph.cps.length = ph.dim * ns.prod
  weights : ∀ w, ph.weights = some w → w.length = ns.prod ∧ ∀ a ∈ w, 0 < a

theorem WFSpl.phys {s : Spl K} (h : WFSpl s) : WFPhys s.ph (npts s) := ⟨h.num, h.dim, h.cps, h.weights⟩

theorem wfSpl_iff {s : Spl K} : WFSpl s ↔ WFPS s.ps ∧ WFPhys s.ph (npts s) :=
  ⟨fun h => ⟨h.wfps, h.phys⟩, fun ⟨a, b⟩ => ⟨a.knots, a.basis, b.num, b.dim, b.cps, b.weights⟩⟩

theorem pwgt_pos {ph : Phys K} {ns I : List ℕ} (h : WFPhys ph ns) (hI : InBox ns I) : 0 < pwgt ph ns I := by
  unfold pwgt
  cases hw : ph.weights with
  | none => exact one_pos
  | some w =>
    obtain ⟨h1, h2⟩ := h.weights w hw
    have : lin ns I < w.length := by rw [h1]; exact lin_lt hI
    simp only [List.getD_eq_getElem?_getD, List.getElem?_eq_getElem this]
    exact h2 _ (List.getElem_mem _)

theorem pgetCP {ph : Phys K} {ns I : List ℕ} (hn : ph.num = zl ns) (hl : ph.dim * (lin ns I + 1) ≤ ph.cps.length) :
    ph.getCP (zl I) = .ok ((List.range ph.dim).map fun c => pcpt ph ns I c) := by
  unfold Phys.getCP pcpt
  apply buildList_eq
  intro c hc
  rw [hn, oneD_zl]
  rw [show ((ph.dim : ℤ) * (lin ns I : ℤ) + (c : ℤ)) = ((ph.dim * lin ns I + c : ℕ) : ℤ) by push_cast; rfl]
  exact getI_getD (by
    have : ph.dim * lin ns I + c < ph.dim * (lin ns I + 1) := by rw [Nat.mul_add]; omega
    omega) 0

theorem pgetWeight {ph : Phys K} {ns I : List ℕ} (hn : ph.num = zl ns)
    (hl : ∀ w, ph.weights = some w → lin ns I < w.length) : ph.getWeight (zl I) = .ok (pwgt ph ns I) := by
  unfold Phys.getWeight pwgt
  cases hw : ph.weights with
  | none => rfl
  | some w =>
    simp only []
    rw [hn, oneD_zl]
    exact getI_getD (hl w hw) 0

theorem pgetHomCP {ph : Phys K} {ns I : List ℕ} (hn : ph.num = zl ns) (hd : 0 < ph.dim)
    (hl : ph.dim * (lin ns I + 1) ≤ ph.cps.length) {w : List K} (hw : ph.weights = some w) (hwl : lin ns I < w.length) :
    ph.getHomCP (zl I) = .ok ((List.range ph.dim).map (fun c => pcpt ph ns I c * pwgt ph ns I) ++ [pwgt ph ns I]) := by
  have hg : getI w (MIH.oneD ph.num (zl I)) = .ok (pwgt ph ns I) := by
    have := pgetWeight (ph := ph) (I := I) hn (fun w' hw' => by rw [hw] at hw'; obtain rfl := Option.some.inj hw'; exact hwl)
    simpa only [Phys.getWeight, hw] using this
  simp only [Phys.getHomCP, Phys.theWeights, hw, ok_bind, hg]
  rw [buildList_eq (g := fun c => pcpt ph ns I c * pwgt ph ns I)]
  · rfl
  · intro c hc
    have hdv : ((ph.dim : ℤ) * MIH.oneD ph.num (zl I)).tdiv ph.dim = MIH.oneD ph.num (zl I) :=
      Int.mul_tdiv_cancel_left _ (by omega)
    rw [hdv, hg]
    have : getI ph.cps ((ph.dim : ℤ) * MIH.oneD ph.num (zl I) + (c : ℤ)) = .ok (pcpt ph ns I c) := by
      rw [hn, oneD_zl]
      rw [show ((ph.dim : ℤ) * (lin ns I : ℤ) + (c : ℤ)) = ((ph.dim * lin ns I + c : ℕ) : ℤ) by push_cast; rfl]
      exact getI_getD (by
        have : ph.dim * lin ns I + c < ph.dim * (lin ns I + 1) := by rw [Nat.mul_add]; omega
        omega) 0
    simp only [this, ok_bind, pure_ok]

theorem storeLoop_eq {cp : List K} {first : ℕ} : ∀ {n : ℕ} {l : List K}, n ≤ cp.length → first + n ≤ l.length →
    ∃ l', Phys.storeLoop cp (first : ℤ) n l = .ok l' ∧ l'.length = l.length ∧
      ∀ m, l'.getD m 0 = if first ≤ m ∧ m < first + n then cp.getD (m - first) 0 else l.getD m 0 := by
  intro n
  induction n with
  | zero => intro l _ _; exact ⟨l, rfl, rfl, fun m => by rw [if_neg (by omega)]⟩
  | succ n ih =>
    intro l h1 h2
    obtain ⟨l', e1, e2, e3⟩ := ih (l := l) (by omega) (by omega)
    refine ⟨l'.set (first + n) (cp.getD n 0), ?_, by simp [e2], ?_⟩
    · simp only [Phys.storeLoop, e1, ok_bind, getN_getD (show n < cp.length by omega) (0 : K)]
      rw [show ((first : ℤ) + (n : ℤ)) = ((first + n : ℕ) : ℤ) by push_cast; rfl]
      exact setI_nat (by omega) _
    · intro m
      by_cases hm : m = first + n
      · subst hm
        rw [if_pos (by omega), show first + n - first = n by omega]
        simp [List.getD_eq_getElem?_getD, show first + n < l'.length by omega]
      · have : (l'.set (first + n) (cp.getD n 0)).getD m 0 = l'.getD m 0 := by
          simp only [List.getD_eq_getElem?_getD, List.getElem?_set, if_neg (Ne.symm hm)]
        rw [this, e3]
        by_cases h : first ≤ m ∧ m < first + n
        · rw [if_pos h, if_pos (by omega)]
        · rw [if_neg h, if_neg (by omega)]

/-- Storing a control point at position `m`. -/
theorem setCP_eq {ph : Phys K} {ns' I : List ℕ} {cp : List K} (hcp : ph.dim ≤ cp.length)
    (hl : ph.dim * (lin ns' I + 1) ≤ ph.cps.length) :
    ∃ cps', ph.setCP (zl I) cp (zl ns') = .ok { ph with cps := cps' } ∧ cps'.length = ph.cps.length ∧
      ∀ m c, c < ph.dim → cps'.getD (ph.dim * m + c) 0 = if m = lin ns' I then cp.getD c 0 else ph.cps.getD (ph.dim * m + c) 0 := by
  obtain ⟨l', e1, e2, e3⟩ := storeLoop_eq (cp := cp) (first := ph.dim * lin ns' I) (n := ph.dim) (l := ph.cps) hcp
    (by rw [Nat.mul_add] at hl; omega)
  refine ⟨l', ?_, e2, ?_⟩
  · simp only [Phys.setCP]
    rw [oneD_zl, show ((ph.dim : ℤ) * (lin ns' I : ℤ)) = ((ph.dim * lin ns' I : ℕ) : ℤ) by push_cast; rfl, e1]
    rfl
  · intro m c hc
    rw [e3]
    by_cases hm : m = lin ns' I
    · subst hm; rw [if_pos (by omega), if_pos rfl]; congr 1; omega
    · rw [if_neg hm, if_neg]
      intro ⟨h1, h2⟩
      apply hm
      have a1 : lin ns' I < m + 1 := by
        by_contra h
        have : ph.dim * (m + 1) ≤ ph.dim * lin ns' I := Nat.mul_le_mul_left _ (by omega)
        rw [Nat.mul_add] at this; omega
      have a2 : m < lin ns' I + 1 := by
        by_contra h
        have : ph.dim * (lin ns' I + 1) ≤ ph.dim * m := Nat.mul_le_mul_left _ (by omega)
        rw [Nat.mul_add] at this; omega
      omega

end
end SplineLib
