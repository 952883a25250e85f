import Verif.Core.RatDeriv
import Verif.Core.EvalProps
import Verif.Core.Insert

/-!
# Equivalent descriptions of a spline (helper lemmas)
-/

namespace SplineLib
set_option linter.unusedSectionVars false
open Finset

section
variable {K : Type} [Field K] [LinearOrder K] [IsStrictOrderedRing K]

/-! ### Derivatives of quotients -/

/-- How orders of derivatives are renamed. -/
structure Renames (τ : List ℕ → List ℕ) (D : ℕ) : Prop where
  sum : ∀ k : List ℕ, k.length = D → ∀ G : List ℕ → K, msum ((τ k).map (· + 1)) G = msum (k.map (· + 1)) fun j => G (τ j)
  binom : ∀ k j : List ℕ, k.length = D → j.length = D → mbinom (τ k) (τ j) = mbinom k j
  sub : ∀ k j : List ℕ, k.length = D → j.length = D → msub (τ k) (τ j) = τ (msub k j)
  zero : ∀ k : List ℕ, k.length = D → (τ k).map (fun _ => 0) = τ (k.map fun _ => 0)

theorem Renames.id {D : ℕ} : Renames (K := K) (fun k => k) D :=
  ⟨fun _ _ _ => rfl, fun _ _ _ _ => rfl, fun _ _ _ _ => rfl, fun _ _ => rfl⟩

theorem inBox_zero (k : List ℕ) : InBox (k.map (· + 1)) (k.map fun _ => 0) := by
  induction k with
  | nil => exact .nil
  | cons a k ih => exact .cons (Nat.succ_pos a) ih

theorem ratR_transform {τ : List ℕ → List ℕ} {D : ℕ} (hτ : Renames (K := K) τ D) {A W A' W' : List ℕ → K} {ρ : List ℕ → K} {ν : K} {P : List ℕ → Prop}
    (hP : ∀ k j : List ℕ, k.length = D → P k → InBox (k.map (· + 1)) j → P j ∧ P (msub k j))
    (hρ : ∀ k j : List ℕ, k.length = D → InBox (k.map (· + 1)) j → ρ (msub k j) * ρ j = ρ k) (hρ0 : ∀ k : List ℕ, k.length = D → ρ (k.map fun _ => 0) = 1)
    (hA : ∀ k : List ℕ, k.length = D → P k → A' (τ k) = ν * ρ k * A k) (hW : ∀ k : List ℕ, k.length = D → P k → W' (τ k) = ν * ρ k * W k) (hν : ν ≠ 0)
    (hW0 : ∀ k : List ℕ, k.length = D → W (k.map fun _ => 0) ≠ 0) :
    ∀ (n : ℕ) (k : List ℕ), k.length = D → P k → k.sum ≤ n → ratR A' W' (τ k) = ρ k * ratR A W k := by
  intro n
  induction n using Nat.strong_induction_on with
  | _ n ih =>
    intro k hk hPk hn
    have hz : P (k.map fun _ => 0) := (hP k _ hk hPk (inBox_zero k)).1
    have hWz : W' (τ (k.map fun _ => 0)) = ν * W (k.map fun _ => 0) := by rw [hW _ (by simpa using hk) hz, hρ0 k hk, mul_one]
    have h1 := ratR_leibniz A' W' (τ k) (by rw [hτ.zero k hk, hWz]; exact mul_ne_zero hν (hW0 k hk))
    have h2 := ratR_leibniz A W k (hW0 k hk)
    rw [hτ.sum k hk, hA k hk hPk] at h1
    have h3 : msum (k.map (· + 1)) (fun j => (mbinom k j : K) * (ratR A' W' (τ (msub k j)) - ρ (msub k j) * ratR A W (msub k j)) * (ν * ρ j * W j)) = 0 := by
      have e : ∀ j, InBox (k.map (· + 1)) j →
          (mbinom k j : K) * (ratR A' W' (τ (msub k j)) - ρ (msub k j) * ratR A W (msub k j)) * (ν * ρ j * W j) =
          (mbinom (τ k) (τ j) : K) * ratR A' W' (msub (τ k) (τ j)) * W' (τ j) - (ν * ρ k) * ((mbinom k j : K) * ratR A W (msub k j) * W j) := by
        intro j hj
        have hjl : j.length = D := by rw [hj.length, List.length_map, hk]
        rw [hτ.binom k j hk hjl, hτ.sub k j hk hjl, hW j hjl (hP k j hk hPk hj).1, ← hρ k j hk hj]
        ring
      rw [msum_congr e, msum_sub, h1, msum_mul_left, h2]
      ring
    rw [msum_single (inBox_zero k)] at h3
    · rw [mbinom_zero, msub_zero, hρ0 k hk, Nat.cast_one, one_mul, mul_one] at h3
      rcases mul_eq_zero.1 h3 with h4 | h4
      · linarith
      · exact absurd h4 (mul_ne_zero hν (hW0 k hk))
    · intro j hj hj0
      have hjl : j.length = D := by rw [hj.length, List.length_map, hk]
      have hlt := msub_sum_lt hj (by
        intro h; apply hj0; rw [h, List.map_const', List.map_const', hjl, hk])
      rw [ih (msub k j).sum (by omega) (msub k j) (by rw [msub_length (by omega), hk]) (hP k j hk hPk hj).2 (le_refl _)]
      simp

/-! ### Two descriptions -/

/-- `s'` at `x'` is `s` at `x`: control points are renamed by `σ`, orders of derivatives by `τ`; basis functions take the same values up to the factors
`ρ` in derivatives, and weights are multiplied by `ν`. -/
structure Redesc (s s' : Spl K) (x x' : List K) (σ τ : List ℕ → List ℕ) (ρ : List ℕ → K) (ν : K) (P : List ℕ → Prop) : Prop where
  wf : WFSpl s
  wf' : WFSpl s'
  dim : s'.ph.dim = s.ph.dim
  kind : s'.ph.weights = none ↔ s.ph.weights = none
  dom : InDomain s x
  dom' : InDomain s' x'
  len : s'.ps.knots.length = s.ps.knots.length
  box : ∀ I, InBox (npts s) I → InBox (npts s') (σ I)
  sum : ∀ G : List ℕ → K, msum (npts s') G = msum (npts s) fun I => G (σ I)
  cpts : ∀ I, InBox (npts s) I → ∀ c < s.ph.dim, cpt s' (σ I) c = cpt s I c
  wgts : ∀ I, InBox (npts s) I → wgt s' (σ I) = ν * wgt s I
  pos : 0 < ν
  zero : P (s.ps.knots.map fun _ => 0)
  rhoZero : ρ (s.ps.knots.map fun _ => 0) = 1
  basis : ∀ k : List ℕ, k.length = s.ps.knots.length → P k → ∀ I, InBox (npts s) I →
    dprod (basisDerivFns s'.ps.knots s'.ps.degree x' (τ k)) (σ I) = ρ k * dprod (basisDerivFns s.ps.knots s.ps.degree x k) I
  len' : ∀ k : List ℕ, k.length = s.ps.knots.length → (τ k).length = s.ps.knots.length
  names : Renames (K := K) τ s.ps.knots.length
  down : ∀ k j : List ℕ, k.length = s.ps.knots.length → P k → InBox (k.map (· + 1)) j → P j ∧ P (msub k j)
  mult : ∀ k j : List ℕ, k.length = s.ps.knots.length → InBox (k.map (· + 1)) j → ρ (msub k j) * ρ j = ρ k

theorem derivFns_zero : ∀ (Us : List (List K)) (ps : List ℕ) (xs : List K), basisDerivFns Us ps xs (Us.map fun _ => 0) = basisFns Us ps xs
  | [], _, _ => by simp [basisDerivFns, basisFns]
  | U :: Us, [], _ => by simp [basisDerivFns, basisFns]
  | U :: Us, p :: ps, [] => by simp [basisDerivFns, basisFns]
  | U :: Us, p :: ps, x :: xs => by
    simp only [List.map_cons, basisDerivFns, basisFns, derivFns_zero Us ps xs]
    simp [coxDeBoorDeriv]

variable {s s' : Spl K} {x x' : List K} {σ τ : List ℕ → List ℕ} {ρ : List ℕ → K} {ν : K} {P : List ℕ → Prop}

theorem Redesc.tau_zero (h : Redesc s s' x x' σ τ ρ ν P) : τ (s.ps.knots.map fun _ => 0) = s'.ps.knots.map fun _ => 0 := by
  have := h.names.zero (s.ps.knots.map fun _ => 0) (by simp)
  rw [List.map_map] at this
  have e : (s.ps.knots.map ((fun _ => 0) ∘ fun _ => 0) : List ℕ) = s.ps.knots.map fun _ => 0 := rfl
  rw [e] at this
  rw [← this, List.map_const', h.len' _ (by simp), List.map_const', h.len]

theorem Redesc.fns (h : Redesc s s' x x' σ τ ρ ν P) {I : List ℕ} (hI : InBox (npts s) I) :
    dprod (basisFns s'.ps.knots s'.ps.degree x') (σ I) = dprod (basisFns s.ps.knots s.ps.degree x) I := by
  have := h.basis _ (by simp) h.zero I hI
  rwa [h.tau_zero, derivFns_zero, derivFns_zero, h.rhoZero, one_mul] at this

theorem Redesc.weightValue_eq (h : Redesc s s' x x' σ τ ρ ν P) : weightValue s' x' = ν * weightValue s x := by
  unfold weightValue tensorSum
  rw [h.sum, ← msum_mul_left]
  refine msum_congr fun I hI => ?_
  dsimp only
  rw [h.fns hI, h.wgts I hI]; ring

/-- Both descriptions evaluate to the same point. -/
theorem Redesc.evaluate (h : Redesc s s' x x' σ τ ρ ν P) (dims : List ℕ) (hd : ∀ c ∈ dims, c < s.ph.dim) :
    s'.evaluate x' (zl dims) = s.evaluate x (zl dims) := by
  by_cases hw : s.ph.weights = none
  · have hw' := h.kind.2 hw
    rw [evaluate_bspline h.wf hw h.dom dims hd, evaluate_bspline h.wf' hw' h.dom' dims (by rw [h.dim]; exact hd)]
    congr 1
    refine List.map_congr_left fun c hc => ?_
    unfold bsplineValue tensorSum
    rw [h.sum]
    exact msum_congr fun I hI => by dsimp only; rw [h.fns hI, h.cpts I hI c (hd c hc)]
  · have hn : IsNurbs s := isNurbs_iff.2 hw
    have hn' : IsNurbs s' := isNurbs_iff.2 fun hc => hw (h.kind.1 hc)
    rw [evaluate_nurbs h.wf hn h.dom dims fun c hc => (hd c hc).le, evaluate_nurbs h.wf' hn' h.dom' dims fun c hc => by rw [h.dim]; exact (hd c hc).le]
    congr 1
    refine List.map_congr_left fun c hc => ?_
    rw [if_neg (by rw [h.dim]; exact (hd c hc).ne), if_neg (hd c hc).ne]
    unfold nurbsValue
    have e : tensorSum s' x' (fun I => wgt s' I * cpt s' I c) = ν * tensorSum s x fun I => wgt s I * cpt s I c := by
      unfold tensorSum
      rw [h.sum, ← msum_mul_left]
      refine msum_congr fun I hI => ?_
      dsimp only
      rw [h.fns hI, h.wgts I hI, h.cpts I hI c (hd c hc)]; ring
    rw [e, h.weightValue_eq, mul_div_mul_left _ _ h.pos.ne']

theorem Redesc.ratBasis_eq (h : Redesc s s' x x' σ τ ρ ν P) {k : List ℕ} (hk : k.length = s.ps.knots.length) (hP : P k) {I : List ℕ}
    (hI : InBox (npts s) I) : ratBasis s' x' (τ k) (σ I) = ρ k * ratBasis s x k I := by
  have hz : ∀ k : List ℕ, k.length = s.ps.knots.length → k.map (fun _ => 0) = s.ps.knots.map fun _ => 0 := fun k hk => by
    rw [List.map_const', List.map_const', hk]
  refine ratR_transform h.names (P := P) (ν := ν) h.down h.mult (fun k hk => by rw [hz k hk]; exact h.rhoZero) ?_ ?_ h.pos.ne' ?_ k.sum k hk hP (le_refl _)
  · intro k hk hP
    rw [h.basis k hk hP I hI, h.wgts I hI]; ring
  · intro k hk hP
    unfold tensorDerivSum
    rw [h.sum, ← msum_mul_left]
    refine msum_congr fun J hJ => ?_
    dsimp only
    rw [h.basis k hk hP J hJ, h.wgts J hJ]; ring
  · intro k hk
    rw [hz k hk]
    unfold tensorDerivSum
    rw [derivFns_zero]
    exact (weightValue_pos h.wf h.dom).ne'

/-- Derivatives are the same up to the factor. -/
theorem Redesc.derivative (h : Redesc s s' x x' σ τ ρ ν P) (dims : List ℕ) (hd : ∀ c ∈ dims, c < s.ph.dim) {k : List ℕ}
    (hk : k.length = s.ps.knots.length) (hP : P k) :
    ∃ v, s.evaluateDerivative x (zl dims) (zl k) = .ok v ∧ s'.evaluateDerivative x' (zl dims) (zl (τ k)) = .ok (v.map (ρ k * ·)) := by
  have hk' : (τ k).length = s'.ps.knots.length := by rw [h.len' k hk, h.len]
  by_cases hw : s.ph.weights = none
  · have hw' := h.kind.2 hw
    refine ⟨_, evaluateDerivative_bspline h.wf hw h.dom dims hd hk, ?_⟩
    rw [evaluateDerivative_bspline h.wf' hw' h.dom' dims (by rw [h.dim]; exact hd) hk', List.map_map]
    congr 1
    refine List.map_congr_left fun c hc => ?_
    show tensorDerivSum s' x' (τ k) (fun I => cpt s' I c) = ρ k * tensorDerivSum s x k fun I => cpt s I c
    unfold tensorDerivSum
    rw [h.sum, ← msum_mul_left]
    exact msum_congr fun I hI => by dsimp only; rw [h.basis k hk hP I hI, h.cpts I hI c (hd c hc)]; ring
  · have hn : IsNurbs s := isNurbs_iff.2 hw
    have hn' : IsNurbs s' := isNurbs_iff.2 fun hc => hw (h.kind.1 hc)
    refine ⟨_, evaluateDerivative_nurbs h.wf hn h.dom dims hd hk, ?_⟩
    rw [evaluateDerivative_nurbs h.wf' hn' h.dom' dims (by rw [h.dim]; exact hd) hk', List.map_map]
    congr 1
    refine List.map_congr_left fun c hc => ?_
    show msum (npts s') (fun I => ratBasis s' x' (τ k) I * cpt s' I c) = ρ k * msum (npts s) fun I => ratBasis s x k I * cpt s I c
    rw [h.sum, ← msum_mul_left]
    exact msum_congr fun I hI => by rw [h.ratBasis_eq hk hP hI, h.cpts I hI c (hd c hc)]; ring

end
end SplineLib
