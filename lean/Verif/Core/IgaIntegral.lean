import Verif.Core.PolyOn
import Verif.Core.PolyBasis
import Verif.Core.IgaSystem

/-!
# Integrands of the isogeometric example as polynomials in the elements (helper lemmas)
-/

namespace SplineLib
set_option linter.unusedSectionVars false
open Finset Elem

theorem polyOn_getD_cons (p : ℕ) (ps : List ℕ) (k : ℕ) (ks : List ℕ) : (fun j => (p :: ps).getD j 0 - (k :: ks).getD j 0) =
    fun j => match j with | 0 => p - k | j + 1 => ps.getD j 0 - ks.getD j 0 := by
  funext j
  cases j <;> simp

/-- The derivatives of the tensor product basis functions are polynomials in every element. -/
theorem dprod_poly {Us : List (List ℝ)} {ps : List ℕ} (h : List.Forall₂ WFKnots Us ps) : ∀ {ks I J : List ℕ}, ks.length = Us.length →
    InBox (nptsOf Us ps) I → InBox ((elemsOf Us).map List.length) J →
    PolyOn (fun j => ps.getD j 0 - ks.getD j 0) (cellOf (elemsOf Us) J) fun x => dprod (basisDerivFns Us ps x ks) I := by
  induction h with
  | nil =>
    intro ks I J _ _ _
    refine (PolyOn.const 1).congr fun x _ => ?_
    cases x <;> rfl
  | @cons U p Us ps hU h ih =>
    intro ks I J hk hI hJ
    obtain ⟨k, ks, rfl⟩ := List.exists_cons_of_length_eq_add_one hk
    cases I with
    | nil => simp [nptsOf, InBox] at hI
    | cons i I =>
      cases J with
      | nil => simp [elemsOf, InBox] at hJ
      | cons e J =>
        rw [show nptsOf (U :: Us) (p :: ps) = (U.length - p - 1) :: nptsOf Us ps from rfl, inBox_cons] at hI
        simp only [elemsOf, List.map_cons, inBox_cons] at hJ
        obtain ⟨q, h1, h2⟩ := coxDeriv_poly_elem hU hJ.1 (k := k) hI.1
        rw [polyOn_getD_cons]
        exact PolyOn.cons h1 h2 (ih (ks := ks) (by simpa using hk) hI.2 hJ.2) fun x xs => rfl

/-! ### The quadrature of the code -/

theorem finset_prod_getD : ∀ (l : List ℝ) (n : ℕ), l.length = n → ∏ i : Fin n, l.getD i 0 = l.prod := by
  intro l n hn
  rw [← Finset.prod_range fun i => l.getD i 0]
  subst hn
  induction l with
  | nil => rfl
  | cons a l ih => rw [List.length_cons, Finset.prod_range_succ', List.prod_cons, ← ih, mul_comm]; simp

theorem halfLens_length : ∀ {Es : List (List (ℝ × ℝ))} {e : List ℤ}, e.length = Es.length → (Iga.halfLens Es e).length = Es.length
  | [], e, _ => by cases e <;> rfl
  | E :: Es, [], h => by simp at h
  | E :: Es, i :: I, h => by rw [Iga.halfLens, List.length_cons, halfLens_length (by simpa using h), List.length_cons]

theorem msum_boxQuad (rule : List (ℝ × ℝ)) : ∀ {Es : List (List (ℝ × ℝ))} {I : List ℕ} (h : List ℝ → ℝ), I.length = Es.length →
    msum (List.replicate Es.length rule.length) (fun Q => ((Iga.rulePts rule Q).map Prod.snd).prod * (Iga.halfLens Es (zl I)).prod *
      h (Iga.refMap Es (zl I) ((Iga.rulePts rule Q).map Prod.fst))) = boxQuad rule (cellOf Es I) h
  | [], I, h, _ => by cases I <;> simp [msum, cellOf, boxQuad, Iga.rulePts, Iga.halfLens, Iga.refMap]
  | E :: Es, [], h, hl => by simp at hl
  | E :: Es, i :: I, h, hl => by
    rw [List.length_cons, List.replicate_succ, msum, cellOf, boxQuad, quad, list_sum_range _ (0, 0), sum_mul]
    refine sum_congr rfl fun a _ => ?_
    rw [← msum_boxQuad rule _ (by simpa using hl), ← msum_mul_left, ← msum_mul_right]
    apply msum_congr
    intro Q _
    have e1 : zl (i :: I) = (i : ℤ) :: zl I := rfl
    have e2 : Iga.rulePts rule (a :: Q) = rule.getD a (0, 0) :: Iga.rulePts rule Q := rfl
    rw [e1, e2, Iga.halfLens, Int.toNat_natCast, List.map_cons, List.map_cons, List.prod_cons, List.prod_cons, Iga.refMap, Int.toNat_natCast]
    ring

open Iga in
theorem quadSum_boxQuad (s : Spl ℝ) (rule : List (ℝ × ℝ)) (g : List ℝ → ℝ) : quadSum s rule g =
    msum (elemBox s) fun I => boxQuad rule (cellOf (elemsOf s.ps.knots) I) fun x => volFactor s x * g x := by
  have hlen : (elemsOf s.ps.knots).length = D s := by simp [elemsOf, D]
  rw [msum_eq_sum_unlin]
  unfold quadSum
  refine sum_congr rfl fun m _ => ?_
  have hl : (unlin (elemBox s) m).length = (elemsOf s.ps.knots).length := by rw [unlin_length]; simp [elemBox]
  rw [← msum_boxQuad rule _ hl, msum_eq_sum_unlin, hlen]
  unfold quadNum quadFactor quadWeight quadPoint elemIx
  refine sum_congr rfl fun q _ => ?_
  rw [finset_prod_getD _ _ ((halfLens_length (by simpa [zl] using hl)).trans hlen)]
  ring

theorem forall₂_left {α β : Type} {R : α → β → Prop} {l : List α} {r : List β} (h : List.Forall₂ R l r) {a : α} (ha : a ∈ l) : ∃ b, R a b := by
  induction h with
  | nil => simp at ha
  | cons hab _ ih =>
    rcases List.mem_cons.1 ha with rfl | ha
    · exact ⟨_, hab⟩
    · exact ih ha

/-- The parameter range, one interval per direction. -/
noncomputable def paramBox (s : Spl ℝ) : List (ℝ × ℝ) := s.ps.knots.map fun U => (knot U 0, lastKnot U)

theorem hullOf_uniq {s : Spl ℝ} (h : WFSpl s) : hullOf (s.ps.knots.map uniq) = paramBox s := by
  have := h.knots
  unfold hullOf paramBox
  rw [List.map_map]
  generalize s.ps.knots = Us at this ⊢
  generalize s.ps.degree = ps at this
  induction this with
  | nil => rfl
  | cons hU _ ih =>
    have hne : _ ≠ [] := List.length_pos_iff.1 (lt_of_lt_of_le (by omega) hU.size)
    rw [List.map_cons, List.map_cons, ih]
    congr 1
    simp only [Function.comp]
    rw [uniq_first hU.sorted hne, uniq_last hU.sorted hne]

theorem cellsOf_uniq (s : Spl ℝ) : cellsOf (s.ps.knots.map uniq) = elemsOf s.ps.knots := by
  unfold cellsOf elemsOf
  rw [List.map_map]
  rfl

open Iga in
/-- A quadrature rule that is exact up to the degree `m` gives the integral of all integrands that, times the volume factor, are polynomials of at
most this degree in every element. -/
theorem quadSum_integral {s : Spl ℝ} {rule : List (ℝ × ℝ)} (P : Problem s rule) {m : ℕ} (hr : ExactRule rule m) {g : List ℝ → ℝ}
    (hg : ∀ I, InBox (elemBox s) I → PolyOn (fun _ => m) (cellOf (elemsOf s.ps.knots) I) fun x => volFactor s x * g x) :
    quadSum s rule g = boxInt (paramBox s) fun x => volFactor s x * g x := by
  have hd : ∀ d ∈ s.ps.knots.map uniq, d.Pairwise (· < ·) := by
    intro d hd
    obtain ⟨U, hU, rfl⟩ := List.mem_map.1 hd
    obtain ⟨p, hp⟩ := forall₂_left P.wf.knots hU
    exact uniq_sorted hp.sorted
  have hne : ∀ d ∈ s.ps.knots.map uniq, d ≠ [] := by
    intro d hd
    obtain ⟨U, hU, rfl⟩ := List.mem_map.1 hd
    obtain ⟨p, hp⟩ := forall₂_left P.wf.knots hU
    exact uniq_ne_nil (List.length_pos_iff.1 (lt_of_lt_of_le (by omega) hp.size))
  have hb : elemBox s = (cellsOf (s.ps.knots.map uniq)).map List.length := by rw [cellsOf_uniq]; rfl
  rw [quadSum_boxQuad s, ← hullOf_uniq P.wf, hull_sum (m := m) hd hne fun I hI => ?_, ← hb, cellsOf_uniq]
  · apply msum_congr
    intro I hI
    refine boxQuad_exact hr P.rule.mem ?_ ((hg I hI).sumProd fun _ => le_refl _)
    rw [← cellsOf_uniq]
    exact cellOf_lt hd (by rw [← hb]; exact hI)
  · rw [cellsOf_uniq]
    exact (hg I (by rw [hb]; exact hI)).sumProd fun _ => le_refl _

end SplineLib
