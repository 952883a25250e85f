import Verif.Core.ChangeDir
import Mathlib.Data.List.Perm.Basic
import Mathlib.Tactic.Ring

/-!
# The directions of a spline in any order (helper lemmas)
-/

namespace SplineLib
set_option linter.unusedSectionVars false
open Finset

/-- The elements of `l` in the order `σ`: the `i`-th element of the result is element number `σ[i]` of `l`. -/
def reorder {α : Type*} (σ : List ℕ) (l : List α) : List α := σ.filterMap fun i => l[i]?

example : reorder [2, 0, 1] ['a', 'b', 'c'] = ['c', 'a', 'b'] := by decide

/-- Exchanges of neighbours, one after the other. -/
def swaps {α : Type*} : List ℕ → List α → List α
  | [], l => l
  | d :: ds, l => swaps ds (swapAt d l)

theorem swaps_append {α : Type*} : ∀ (ds es : List ℕ) (l : List α), swaps (ds ++ es) l = swaps es (swaps ds l)
  | [], _, _ => rfl
  | d :: ds, es, l => swaps_append ds es (swapAt d l)

theorem swaps_length {α : Type*} : ∀ (ds : List ℕ) (l : List α), (swaps ds l).length = l.length
  | [], _ => rfl
  | d :: ds, l => by rw [swaps, swaps_length ds, swapAt_length]

theorem swaps_map {α β : Type*} (f : α → β) : ∀ (ds : List ℕ) (l : List α), swaps ds (l.map f) = (swaps ds l).map f
  | [], _ => rfl
  | d :: ds, l => by rw [swaps, swaps, swapAt_map, swaps_map f ds]

theorem swaps_succ {α : Type*} (a : α) : ∀ (ds : List ℕ) (l : List α), swaps (ds.map (· + 1)) (a :: l) = a :: swaps ds l
  | [], _ => rfl
  | d :: ds, l => by rw [List.map_cons, swaps, swaps, ← swaps_succ a ds]; rfl

/-- Every order is reached by exchanges of neighbours. -/
theorem exists_swaps {α : Type*} {l m : List α} (h : l.Perm m) : ∃ ds, swaps ds l = m := by
  induction h with
  | nil => exact ⟨[], rfl⟩
  | cons a _ ih =>
    obtain ⟨ds, hds⟩ := ih
    exact ⟨ds.map (· + 1), by rw [swaps_succ, hds]⟩
  | swap a b l => exact ⟨[0], rfl⟩
  | trans _ _ ih1 ih2 =>
    obtain ⟨ds, hds⟩ := ih1
    obtain ⟨es, hes⟩ := ih2
    exact ⟨ds ++ es, by rw [swaps_append, hds, hes]⟩

theorem swapAt_swapAt {α : Type*} : ∀ (d : ℕ) (l : List α), swapAt d (swapAt d l) = l
  | 0, [] => rfl
  | 0, [_] => rfl
  | 0, _ :: _ :: _ => rfl
  | _ + 1, [] => rfl
  | d + 1, a :: l => by simp only [swapAt, swapAt_swapAt d l]

theorem swaps_back {α : Type*} : ∀ (ds : List ℕ) (l : List α), swaps ds.reverse (swaps ds l) = l
  | [], _ => rfl
  | d :: ds, l => by
    rw [List.reverse_cons, swaps_append]
    show swapAt d (swaps ds.reverse (swaps ds (swapAt d l))) = l
    rw [swaps_back ds, swapAt_swapAt]

theorem map_some_inj {α : Type*} {l m : List α} (h : l.map some = m.map some) : l = m :=
  List.map_injective_iff.2 (Option.some_injective α) h

theorem reorder_map_some {α : Type*} (l : List α) : ∀ σ : List ℕ, (∀ i ∈ σ, i < l.length) → (reorder σ l).map some = σ.map fun i => l[i]?
  | [], _ => rfl
  | i :: σ, h => by
    have hi : i < l.length := h i (by simp)
    have ih := reorder_map_some l σ fun j hj => h j (by simp [hj])
    unfold reorder at ih ⊢
    rw [List.filterMap_cons, List.getElem?_eq_getElem hi]
    simp only [List.map_cons, ih, List.getElem?_eq_getElem hi]

theorem range_map_get {α : Type*} (l : List α) : (List.range l.length).map (fun i => l[i]?) = l.map some := by
  apply List.ext_getElem
  · simp
  · intro i h1 h2
    simp at h1
    simp [h1]

/-- `reorder σ` is the same chain of exchanges on all lists. -/
theorem reorder_swaps {D : ℕ} {σ : List ℕ} (h : σ.Perm (List.range D)) :
    ∃ ds, ∀ {α : Type} (l : List α), l.length = D → reorder σ l = swaps ds l := by
  obtain ⟨ds, hds⟩ := exists_swaps h.symm
  refine ⟨ds, fun {α} l hl => map_some_inj ?_⟩
  rw [reorder_map_some l σ fun i hi => by rw [hl]; exact List.mem_range.1 (h.mem_iff.1 hi), ← hds, ← swaps_map, ← hl, range_map_get, swaps_map]

section
variable {K : Type} [Field K] [LinearOrder K] [IsStrictOrderedRing K]

theorem swaps_zipWith {α β γ : Type*} (f : α → β → γ) : ∀ (ds : List ℕ) {l : List α} {m : List β}, l.length = m.length →
    List.zipWith f (swaps ds l) (swaps ds m) = swaps ds (List.zipWith f l m)
  | [], _, _, _ => rfl
  | d :: ds, l, m, h => by
    rw [swaps, swaps, swaps, swaps_zipWith f ds (by rw [swapAt_length, swapAt_length, h]), swapAt_zipWith f d h]

theorem forall₂_swapAt {α β : Type*} {R : α → β → Prop} : ∀ (d : ℕ) {l : List α} {m : List β}, List.Forall₂ R l m → List.Forall₂ R (swapAt d l) (swapAt d m)
  | 0, [], [], _ => .nil
  | 0, [_], [_], h => h
  | 0, _ :: _ :: _, _ :: _ :: _, .cons h1 (.cons h2 h3) => .cons h2 (.cons h1 h3)
  | _ + 1, [], [], _ => .nil
  | d + 1, _ :: _, _ :: _, .cons h1 h2 => .cons h1 (forall₂_swapAt d h2)

theorem forall₂_swaps {α β : Type*} {R : α → β → Prop} : ∀ (ds : List ℕ) {l : List α} {m : List β}, List.Forall₂ R l m → List.Forall₂ R (swaps ds l) (swaps ds m)
  | [], _, _, h => h
  | d :: ds, _, _, h => forall₂_swaps ds (forall₂_swapAt d h)

theorem swaps_prod : ∀ (ds l : List ℕ), (swaps ds l).prod = l.prod
  | [], _ => rfl
  | d :: ds, l => by rw [swaps, swaps_prod ds, swapAt_prod]

theorem swaps_inBox : ∀ (ds : List ℕ) {ns I : List ℕ}, InBox ns I → InBox (swaps ds ns) (swaps ds I)
  | [], _, _, h => h
  | d :: ds, _, _, h => swaps_inBox ds (swapAt_inBox d h)

theorem msum_swaps {R : Type*} [AddCommMonoid R] : ∀ (ds ns : List ℕ) (G : List ℕ → R), msum (swaps ds ns) G = msum ns fun I => G (swaps ds I)
  | [], _, _ => rfl
  | d :: ds, ns, G => by rw [swaps, msum_swaps ds, msum_swapAt]; rfl

theorem dprod_swaps {R : Type*} [CommSemiring R] : ∀ (ds : List ℕ) {bs : List (ℕ → R)} {I : List ℕ}, bs.length = I.length →
    dprod (swaps ds bs) (swaps ds I) = dprod bs I
  | [], _, _, _ => rfl
  | d :: ds, bs, I, h => by rw [swaps, swaps, dprod_swaps ds (by rw [swapAt_length, swapAt_length, h]), dprod_swapAt d h]

theorem derivFns_swaps : ∀ (ds : List ℕ) {Us : List (List K)} {ps : List ℕ} {xs : List K} {ks : List ℕ}, ps.length = Us.length → xs.length = Us.length →
    ks.length = Us.length → basisDerivFns (swaps ds Us) (swaps ds ps) (swaps ds xs) (swaps ds ks) = swaps ds (basisDerivFns Us ps xs ks)
  | [], _, _, _, _, _, _, _ => rfl
  | d :: ds, Us, ps, xs, ks, h1, h2, h3 => by
    simp only [swaps]
    rw [derivFns_swaps ds (by rw [swapAt_length, swapAt_length, h1]) (by rw [swapAt_length, swapAt_length, h2]) (by rw [swapAt_length, swapAt_length, h3]),
      derivFns_swapAt d h1 h2 h3]

theorem dom_swaps : ∀ (ds : List ℕ) {Us : List (List K)} {xs : List K}, Dom Us xs → Dom (swaps ds Us) (swaps ds xs)
  | [], _, _, h => h
  | d :: ds, _, _, h => dom_swaps ds (dom_swapAt d h)

theorem Renames.swaps (ds : List ℕ) (D : ℕ) : Renames (K := K) (swaps ds) D := by
  refine ⟨fun k hk G => ?_, fun k j hk hj => ?_, fun k j hk hj => ?_, fun k hk => ?_⟩
  · rw [← swaps_map, msum_swaps]
  · unfold mbinom
    rw [swaps_zipWith _ _ (by omega), swaps_prod]
  · unfold msub
    rw [swaps_zipWith _ _ (by omega)]
  · rw [swaps_map]

theorem Redesc.swaps {s s' : Spl K} (h : WFSpl s) (h' : WFSpl s') (ds : List ℕ) (hk : s'.ps.knots = swaps ds s.ps.knots)
    (hdeg : s'.ps.degree = swaps ds s.ps.degree) (hdim : s'.ph.dim = s.ph.dim) (hkind : s'.ph.weights = none ↔ s.ph.weights = none) {x : List K}
    (hx : InDomain s x) (hc : ∀ I, InBox (npts s) I → ∀ c < s.ph.dim, cpt s' (swaps ds I) c = cpt s I c)
    (hw : ∀ I, InBox (npts s) I → wgt s' (swaps ds I) = wgt s I) :
    Redesc s s' x (SplineLib.swaps ds x) (SplineLib.swaps ds) (SplineLib.swaps ds) (fun _ => 1) 1 fun _ => True := by
  have hl := h.knots.length_eq
  have hxl : x.length = s.ps.knots.length := (List.Forall₂.length_eq hx).symm
  have hn : npts s' = SplineLib.swaps ds (npts s) := by
    rw [npts_eq, hk, hdeg, nptsOf, swaps_zipWith _ _ hl, npts_eq, nptsOf]
  have hnl : (npts s).length = s.ps.knots.length := by
    rw [npts_eq, nptsOf, List.length_zipWith, hl]; simp
  refine ⟨h, h', hdim, hkind, hx, ?_, by rw [hk, swaps_length], fun I hI => by rw [hn]; exact swaps_inBox ds hI, ?_, hc, fun I hI => by rw [hw I hI, one_mul],
    one_pos, trivial, rfl, ?_, fun k hk => by rw [swaps_length, hk], Renames.swaps ds _, fun _ _ _ _ _ => ⟨trivial, trivial⟩, fun _ _ _ _ => one_mul 1⟩
  · show Dom s'.ps.knots _
    rw [hk]
    exact dom_swaps ds hx
  · intro G
    rw [hn, msum_swaps]
  · intro k hkl _ I hI
    rw [hk, hdeg, derivFns_swaps ds hl.symm hxl hkl, dprod_swaps ds (by rw [derivFns_length hl.symm hxl hkl, hI.length, hnl]), one_mul]

end
end SplineLib
