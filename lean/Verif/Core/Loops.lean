import Verif.Model.PhysicalSpace
import Verif.Core.BoxHandler
import Verif.Core.BasisEval

/-!
# Rules for the loops of the model (helper lemmas)
-/

namespace SplineLib
open Finset

@[simp] theorem ok_bind {α β : Type} (a : α) (f : α → M β) : (Except.ok a >>= f) = f a := rfl
@[simp] theorem error_bind {α β : Type} (e : Err) (f : α → M β) : ((Except.error e : M α) >>= f) = .error e := rfl
@[simp] theorem pure_ok {α : Type} (a : α) : (pure a : M α) = .ok a := rfl

theorem buildList_eq {α : Type} {f : ℕ → M α} {g : ℕ → α} : ∀ {n : ℕ}, (∀ i < n, f i = .ok (g i)) →
    buildList f n = .ok ((List.range n).map g) := by
  intro n
  induction n with
  | zero => intro _; rfl
  | succ n ih =>
    intro h
    simp only [buildList]
    rw [ih (fun i hi => h i (by omega)), h n (by omega)]
    simp [List.range_succ]

theorem prod_pos_iff {ns : List ℕ} : 0 < ns.prod ↔ ∀ n ∈ ns, 0 < n := by
  refine ⟨fun h n hn => ?_, prod_pos_of⟩
  rcases Nat.eq_zero_or_pos n with h0 | h0
  · subst h0; rw [List.prod_eq_zero hn] at h; exact absurd h (lt_irrefl _)
  · exact h0

theorem upLoop_inv_aux {σ : Type} {ns : List ℕ} (hpos : ∀ n ∈ ns, 0 < n) {body : MIH → σ → M σ} {Inv : ℕ → σ → Prop} :
    ∀ (m k : ℕ) (s : σ), Inv k s → k + m ≤ ns.prod →
    (∀ k < ns.prod, ∀ s, Inv k s → ∃ s', body ⟨zl ns, zl (unlin ns k)⟩ s = .ok s' ∧ Inv (k + 1) s') →
    ∃ s', upLoop body m ⟨zl ns, zl (unlin ns k)⟩ s = .ok s' ∧ Inv (k + m) s' := by
  intro m
  induction m with
  | zero => intro k s h _ _; exact ⟨s, rfl, h⟩
  | succ m ih =>
    intro k s h hk hstep
    obtain ⟨s', h1, h2⟩ := hstep k (by omega) s h
    obtain ⟨s'', h3, h4⟩ := ih (k + 1) s' h2 (by omega) hstep
    refine ⟨s'', ?_, by rw [show k + (m + 1) = k + 1 + m by omega]; exact h4⟩
    simp only [upLoop, h1, ok_bind, incr_zl hpos, h3]

/-- Invariant rule for a loop over all multi-indices of a box. -/
theorem upLoop_inv {σ : Type} {ns : List ℕ} {body : MIH → σ → M σ} (Inv : ℕ → σ → Prop) {s : σ} (h0 : Inv 0 s)
    (hstep : ∀ k < ns.prod, ∀ s, Inv k s → ∃ s', body ⟨zl ns, zl (unlin ns k)⟩ s = .ok s' ∧ Inv (k + 1) s') :
    ∃ s', upLoop body (MIH.mk' (zl ns)).length1D.toNat (MIH.mk' (zl ns)) s = .ok s' ∧ Inv ns.prod s' := by
  rw [mk'_zl, length1D_zl]
  simp only [Int.toNat_natCast]
  rcases Nat.eq_zero_or_pos ns.prod with h | h
  · rw [h]; exact ⟨s, rfl, by simpa using h0⟩
  · have := upLoop_inv_aux (prod_pos_iff.1 h) (body := body) (Inv := Inv) ns.prod 0 s h0 (by omega) hstep
    simpa using this

/-- Loop over a box whose body is a total update `g k` of the state. -/
theorem upLoop_fun {σ : Type} {ns : List ℕ} {body : MIH → σ → M σ} (st : ℕ → σ)
    (hstep : ∀ k < ns.prod, body ⟨zl ns, zl (unlin ns k)⟩ (st k) = .ok (st (k + 1))) :
    upLoop body (MIH.mk' (zl ns)).length1D.toNat (MIH.mk' (zl ns)) (st 0) = .ok (st ns.prod) := by
  obtain ⟨s', h1, h2⟩ := upLoop_inv (ns := ns) (body := body) (fun k s => s = st k) rfl
    (fun k hk s hs => ⟨st (k + 1), by rw [hs]; exact hstep k hk, rfl⟩)
  rw [h1, h2]

theorem downLoop_inv_aux {σ : Type} {ns : List ℕ} (hpos : ∀ n ∈ ns, 0 < n) {body : MIH → σ → M σ} {Inv : ℕ → σ → Prop} :
    ∀ (m : ℕ) (s : σ), Inv (m + 1) s → m + 1 ≤ ns.prod →
    (∀ k < ns.prod, ∀ s, Inv (k + 1) s → ∃ s', body ⟨zl ns, zl (unlin ns k)⟩ s = .ok s' ∧ Inv k s') →
    ∃ s', downLoop body (m + 1) ⟨zl ns, zl (unlin ns m)⟩ s = .ok s' ∧ Inv 0 s' := by
  intro m
  induction m with
  | zero =>
    intro s h hk hstep
    obtain ⟨s', h1, h2⟩ := hstep 0 (by omega) s h
    exact ⟨s', by simp only [downLoop, h1, ok_bind], h2⟩
  | succ m ih =>
    intro s h hk hstep
    obtain ⟨s', h1, h2⟩ := hstep (m + 1) (by omega) s h
    obtain ⟨s'', h3, h4⟩ := ih s' h2 (by omega) hstep
    refine ⟨s'', ?_, h4⟩
    rw [downLoop, h1, ok_bind, decr_zl hpos, h3]

theorem unlin_pred_prod {ns : List ℕ} (hpos : ∀ n ∈ ns, 0 < n) : unlin ns (ns.prod - 1) = ns.map (· - 1) := by
  have hb : InBox ns (ns.map (· - 1)) := by
    induction ns with
    | nil => simp
    | cons n ns ih =>
      have := hpos n (by simp)
      simp only [List.map_cons, inBox_cons]
      exact ⟨by omega, ih fun m hm => hpos m (by simp [hm])⟩
  have hl : lin ns (ns.map (· - 1)) = ns.prod - 1 := by
    clear hb
    induction ns with
    | nil => simp [lin]
    | cons n ns ih =>
      have hn := hpos n (by simp)
      have hp := prod_pos_of fun m hm => hpos m (List.mem_cons_of_mem _ hm)
      simp only [List.map_cons, lin, List.prod_cons]
      rw [ih fun m hm => hpos m (by simp [hm]), Nat.mul_sub, Nat.mul_one]
      have : n ≤ n * ns.prod := Nat.le_mul_of_pos_right _ hp
      omega
  rw [← hl, unlin_lin hb]

/-- Invariant rule for a descending loop over all multi-indices of a box. -/
theorem downLoop_inv {σ : Type} {ns : List ℕ} (hpos : ∀ n ∈ ns, 0 < n) {body : MIH → σ → M σ} (Inv : ℕ → σ → Prop) {s : σ}
    (h0 : Inv ns.prod s)
    (hstep : ∀ k < ns.prod, ∀ s, Inv (k + 1) s → ∃ s', body ⟨zl ns, zl (unlin ns k)⟩ s = .ok s' ∧ Inv k s') :
    ∃ s', downLoop body ns.prod ⟨zl ns, zl (ns.map (· - 1))⟩ s = .ok s' ∧ Inv 0 s' := by
  have hp := prod_pos_of hpos
  rw [← unlin_pred_prod hpos]
  obtain ⟨m, hm⟩ : ∃ m, ns.prod = m + 1 := ⟨ns.prod - 1, by omega⟩
  rw [hm] at h0 ⊢
  simp only [Nat.add_sub_cancel]
  exact downLoop_inv_aux hpos m s h0 (by omega) hstep

theorem getI_nat {α : Type} (v : List α) (i : ℕ) : getI v (i : ℤ) = getN v i := by
  simp [getI, getN]

theorem getN_of_lt {α : Type} {v : List α} {i : ℕ} (h : i < v.length) : getN v i = .ok v[i] := by
  simp [getN, h]

theorem getN_getD {α : Type} {v : List α} {i : ℕ} (h : i < v.length) (a : α) : getN v i = .ok (v.getD i a) := by
  simp [getN, h, List.getD_eq_getElem?_getD]

theorem getI_getD {α : Type} {v : List α} {i : ℕ} (h : i < v.length) (a : α) : getI v (i : ℤ) = .ok (v.getD i a) := by
  rw [getI_nat, getN_getD h a]

theorem setI_nat {α : Type} {v : List α} {i : ℕ} (h : i < v.length) (a : α) : setI v (i : ℤ) a = .ok (v.set i a) := by
  simp [setI, h]

end SplineLib
