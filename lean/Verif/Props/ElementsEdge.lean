import Verif.Props.Elements
import Verif.Core.PolyBasis

/-!
# Elements at the end of the range

C47 and C48 for the last knot of a direction, which belongs to the last element: every coordinate of the domain lies in exactly one
element, `GetElementNumberAtParamCoord` finds it, and the connectivity matches the functions that do not vanish there.
-/

namespace SplineLib
set_option linter.unusedSectionVars false
open Elem

variable {K : Type} [Field K] [LinearOrder K] [IsStrictOrderedRing K]

/-- The coordinates `x` lie in the element with the indices `e`; the last element of a direction includes its end. -/
def InElementClosed : List (List (K × K)) → List ℤ → List K → Prop
  | E :: Es, e :: es, x :: xs => (∃ n : ℕ, ∃ ab : K × K, e = n ∧ E[n]? = some ab ∧
      (ab.1 ≤ x ∧ x < ab.2 ∨ n + 1 = E.length ∧ x = ab.2)) ∧ InElementClosed Es es xs
  | [], [], [] => True
  | _, _, _ => False

theorem InElement.closed : ∀ {els : List (List (K × K))} {e : List ℤ} {x : List K}, InElement els e x → InElementClosed els e x
  | [], [], [], _ => trivial
  | _ :: _, _ :: _, _ :: _, h => ⟨by obtain ⟨n, ab, h1, h2, h3⟩ := h.1; exact ⟨n, ab, h1, h2, Or.inl h3⟩, h.2.closed⟩

/-- The span of the different knots and the span of the knots that belong to an element. -/
theorem closed_dir {U : List K} {p : ℕ} (h : WFKnots U p) {n : ℕ} {ab : K × K} {x : K} (hn : ((uniq U).zip (uniq U).tail)[n]? = some ab)
    (hx : ab.1 ≤ x ∧ x < ab.2 ∨ n + 1 = ((uniq U).zip (uniq U).tail).length ∧ x = ab.2) :
    knot U 0 ≤ x ∧ x ≤ lastKnot U ∧ n + 1 < (uniq U).length ∧ InSpan (uniq U) n x ∧
      ∃ k, k + 1 < U.length ∧ InSpan U k x ∧ indexShift U p n = .ok ((k : ℤ) - p - n) := by
  obtain ⟨hn', rfl⟩ := List.getElem?_eq_some_iff.1 hn
  rw [List.getElem_zip, List.getElem_tail, zip_tail_length] at hx
  rw [zip_tail_length] at hn'
  have hn1 : n + 1 < (uniq U).length := by omega
  obtain ⟨k, hk, hk1, hk2⟩ := element_span h.sorted hn1
  have hlt := uniq_getElem_lt h.sorted (Nat.lt_succ_self n) hn1
  have e1 : knot (uniq U) n = (uniq U)[n] := knot_eq _
  have e2 : knot (uniq U) (n + 1) = (uniq U)[n + 1] := knot_eq _
  have hlast : lastKnot (uniq U) = lastKnot U := uniq_last h.sorted h.ne_nil
  obtain ⟨_, hsh⟩ := indexShift_eq h (by omega) hk hk1 hk2
  have hl : n + 1 = (uniq U).length - 1 → (uniq U)[n + 1] = lastKnot U := by
    intro hh
    rw [← e2, ← hlast, hh]; rfl
  have hkl : knot U 0 ≤ knot U k := h.sorted.first_le (by omega)
  have hkr : knot U (k + 1) ≤ lastKnot U := h.sorted.le_last hk
  rcases hx with ⟨a, b⟩ | ⟨a, b⟩
  · refine ⟨by rw [hk1] at hkl; exact hkl.trans a, by rw [hk2] at hkr; exact b.le.trans hkr, hn1, Or.inl ⟨by rw [e1]; exact a, by rw [e2]; exact b⟩,
      k, hk, Or.inl ⟨by rw [hk1]; exact a, by rw [hk2]; exact b⟩, hsh⟩
  · have hb : x = lastKnot U := by rw [b]; exact hl a
    refine ⟨by rw [hb]; exact h.range.le, hb.le, hn1, Or.inr ⟨by rw [e1, b]; exact hlt, by rw [e2]; exact b, by rw [hlast]; exact hb⟩,
      k, hk, Or.inr ⟨by rw [hk1, b]; exact hlt, by rw [hk2]; exact b, hb⟩, hsh⟩

theorem uniq_span {U : List K} {p : ℕ} (h : WFKnots U p) {x : K} (h0 : knot U 0 ≤ x) (h1 : x ≤ lastKnot U) :
    kvSpan (uniq U) x = .ok (spanIx (uniq U) x : ℤ) ∧ spanIx (uniq U) x + 1 < (uniq U).length ∧ InSpan (uniq U) (spanIx (uniq U) x) x := by
  have hD : (uniq U).Pairwise (· < ·) := uniq_sorted h.sorted
  have hDs : SortedKnots (uniq U) := hD.imp fun h => h.le
  have hsep : Separated (uniq U) := fun a ha b hb => h.sep a (mem_uniq.1 ha) b (mem_uniq.1 hb)
  have hlast : lastKnot (uniq U) = lastKnot U := uniq_last h.sorted h.ne_nil
  have hfirst : knot (uniq U) 0 = knot U 0 := uniq_first h.sorted h.ne_nil
  exact span_correct hDs hsep (by rw [hfirst, hlast]; exact h.range) (by rw [hfirst]; exact h0) (by rw [hlast]; exact h1)

theorem globalIndices_closed {Us : List (List K)} {ps : List ℕ} (h : List.Forall₂ WFKnots Us ps) :
    ∀ {e L : List ℤ} {x : List K} {fnz : List ℤ}, L.length = ps.length → InElementClosed (elemsOf Us) e x →
    PS.firstNonZero Us ps x = .ok fnz → globalIndices Us ps e L = .ok (List.zipWith (· + ·) L fnz) := by
  induction h with
  | nil =>
    intro e L x fnz hL hx hf
    cases L with
    | nil => rfl
    | cons _ _ => simp at hL
  | @cons U p Us ps h _ ih =>
    intro e L x fnz hL hx hf
    cases L with
    | nil => simp at hL
    | cons l L =>
      cases e with
      | nil => cases x <;> simp [elemsOf, InElementClosed] at hx
      | cons e es =>
        cases x with
        | nil => simp [elemsOf, InElementClosed] at hx
        | cons x xs =>
          obtain ⟨⟨n, ab, rfl, hn, hx1⟩, hxs⟩ := hx
          obtain ⟨h0, h1, _, _, k, hk, hin, hsh⟩ := closed_dir h hn hx1
          obtain ⟨s1, s2, s3, s4⟩ := h.span h0 h1
          have hsk : spanIx U x = k := InSpan.unique h.sorted (by omega) hk s2 hin
          rw [PS.firstNonZero, s1, ok_bind] at hf
          obtain ⟨r, hr, hf⟩ := bind_eq_ok.1 hf
          rw [pure_ok] at hf
          injection hf with hf
          subst hf
          rw [globalIndices, hsh, ok_bind, ih (by simpa using hL) hxs hr, ok_bind, pure_ok, List.zipWith_cons_cons, hsk]
          congr 2
          ring

theorem elementIndicesAt_closed {Us : List (List K)} {ps : List ℕ} (h : List.Forall₂ WFKnots Us ps) : ∀ {e : List ℤ} {x : List K},
    InElementClosed (elemsOf Us) e x → elementIndicesAt Us ps x = .ok e := by
  induction h with
  | nil =>
    intro e x hx
    cases e with
    | nil => rfl
    | cons _ _ => cases x <;> simp [elemsOf, InElementClosed] at hx
  | @cons U p Us ps h _ ih =>
    intro e x hx
    cases e with
    | nil => cases x <;> simp [elemsOf, InElementClosed] at hx
    | cons e es =>
      cases x with
      | nil => simp [elemsOf, InElementClosed] at hx
      | cons x xs =>
        obtain ⟨⟨n, ab, rfl, hn, hx1⟩, hxs⟩ := hx
        obtain ⟨h0, h1, hn1, hin, _⟩ := closed_dir h hn hx1
        obtain ⟨s1, s2, s3⟩ := uniq_span h h0 h1
        have hDs : SortedKnots (uniq U) := (uniq_sorted h.sorted).imp fun h => h.le
        have hsk : spanIx (uniq U) x = n := InSpan.unique hDs s2 hn1 s3 hin
        rw [elementIndicesAt, internal_eq h, ok_bind]
        simp only [uniq_internal h]
        rw [s1, ok_bind, ih hxs, ok_bind, pure_ok, hsk]

/-- Every coordinate of the domain lies in an element. -/
theorem exists_closed {Us : List (List K)} {ps : List ℕ} (h : List.Forall₂ WFKnots Us ps) : ∀ {x : List K},
    Dom Us x → ∃ e, ValidIx (numElements (elemsOf Us)) e ∧ InElementClosed (elemsOf Us) e x := by
  induction h with
  | nil => intro x hx; cases hx; exact ⟨[], .nil, trivial⟩
  | @cons U p Us ps h _ ih =>
    intro x hx
    cases hx with
    | @cons _ x _ xs hx hxs =>
      obtain ⟨es, he, hes⟩ := ih hxs
      obtain ⟨_, s2, s3⟩ := uniq_span h hx.1 hx.2
      generalize spanIx (uniq U) x = n at s2 s3
      have hz := zip_tail_length (uniq U)
      have hn : n < ((uniq U).zip (uniq U).tail).length := by omega
      refine ⟨(n : ℤ) :: es, .cons ⟨by omega, ?_⟩ he, ⟨n, _, rfl, List.getElem?_eq_getElem hn, ?_⟩, hes⟩
      · show (n : ℤ) < (((uniq U).zip (uniq U).tail).length : ℤ)
        exact_mod_cast hn
      · rw [List.getElem_zip, List.getElem_tail]
        have e1 : knot (uniq U) n = (uniq U)[n] := knot_eq _
        have e2 : knot (uniq U) (n + 1) = (uniq U)[n + 1] := knot_eq _
        rw [← e1, ← e2]
        rcases s3 with s3 | ⟨a, b, c⟩
        · exact Or.inl s3
        · refine Or.inr ⟨?_, b⟩
          show n + 1 = ((uniq U).zip (uniq U).tail).length
          by_contra hne
          have hlt := uniq_getElem_lt h.sorted (show n + 1 < (uniq U).length - 1 by omega) (by omega)
          have e3 : knot (uniq U) ((uniq U).length - 1) = (uniq U)[(uniq U).length - 1] := knot_eq _
          rw [← e2, ← e3, ← b] at hlt
          exact absurd c (ne_of_lt hlt)

/-- **C47** at the end of the range: as `C47_global_index`, also for coordinates at the last knot of a direction. -/
theorem C47_global_index_closed {s : Spl K} (h : WFSpl s) (hl : ∀ U ∈ s.ps.knots, U.length < 2 ^ 64) {els : List (List (K × K))}
    (hels : elements s.ps.knots s.ps.degree = .ok els) {e L : List ℤ} {x : List K} {fnz : List ℤ}
    (he : ValidIx (numElements els) e) (hL : ValidIx s.numBasis L) (hx : InElementClosed els e x)
    (hf : PS.firstNonZero s.ps.knots s.ps.degree x = .ok fnz) :
    globalIndex s (position (numElements els) e) (position s.numBasis L) = .ok (position s.ph.num (List.zipWith (· + ·) L fnz) + 1) := by
  rw [elements_eq h.knots hl] at hels
  injection hels with hels
  subst hels
  have hnb : PosLen s.numBasis := by
    intro l hl
    unfold Spl.numBasis at hl
    obtain ⟨p, _, rfl⟩ := List.mem_map.1 hl
    omega
  have hLl : L.length = s.ps.degree.length := by
    have := List.Forall₂.length_eq hL
    rw [this]; unfold Spl.numBasis; simp
  unfold globalIndex
  rw [elements_eq h.knots hl, ok_bind]
  unfold elementIndices
  rw [plus_position (numElements_pos h.knots) he, plus_position hnb hL, globalIndices_closed h.knots hLl hx hf, ok_bind, pure_ok,
    C26_get1D_eq_position]
  rfl

/-- **C48** for every coordinate of the domain: it lies in exactly one element (the last knot of a direction counts to the last element),
and `GetElementNumberAtParamCoord` returns the number of this element. -/
theorem C48_every_coordinate {s : Spl K} (h : WFSpl s) (hl : ∀ U ∈ s.ps.knots, U.length < 2 ^ 64) {els : List (List (K × K))}
    (hels : elements s.ps.knots s.ps.degree = .ok els) {x : List K} (hx : InDomain s x) :
    ∃ e, ValidIx (numElements els) e ∧ InElementClosed els e x ∧ (∀ e', InElementClosed els e' x → e' = e) ∧
      elementNumberAt s x = .ok (position (numElements els) e) := by
  rw [elements_eq h.knots hl] at hels
  injection hels with hels
  subst hels
  obtain ⟨e, h1, h2⟩ := exists_closed h.knots hx
  refine ⟨e, h1, h2, fun e' h' => ?_, ?_⟩
  · have a := elementIndicesAt_closed h.knots h2
    rw [elementIndicesAt_closed h.knots h'] at a
    exact Except.ok.inj a
  · unfold elementNumberAt
    rw [elements_eq h.knots hl, ok_bind, elementIndicesAt_closed h.knots h2, ok_bind, pure_ok]
    unfold elementNumber
    rw [C26_get1D_eq_position]
    rfl

/-! The corner (3, 1) belongs to the last element. -/
example : InElementClosed ([[(0, 1), (1, 3)], [(0, 1)]] : List (List (ℚ × ℚ))) [1, 0] [3, 1] :=
  ⟨⟨1, (1, 3), rfl, rfl, Or.inr ⟨rfl, rfl⟩⟩, ⟨0, (0, 1), rfl, rfl, Or.inr ⟨rfl, rfl⟩⟩, trivial⟩
example : elementIndicesAt (K := ℚ) [[0, 0, 0, 1, 1, 3, 3, 3], [0, 0, 1, 1]] [2, 1] [3, 1] = .ok [1, 0] := by decide +kernel

end SplineLib
