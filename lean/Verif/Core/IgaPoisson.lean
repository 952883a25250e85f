import Verif.Core.IgaSolution

/-!
# Neumann conditions, time steps and the Poisson problem (helper lemmas)
-/

namespace SplineLib
set_option linter.unusedSectionVars false
open Finset

namespace Iga
variable {K : Type} [Field K] [LinearOrder K] [IsStrictOrderedRing K]
open Elem

theorem replicate_map {α : Type} (n : ℕ) (f : ℕ → α) : (List.range n).map ((fun _ => (0 : K)) ∘ f) = List.replicate n 0 := by
  rw [show ((fun _ => (0 : K)) ∘ f) = fun _ => (0 : K) from rfl]
  simp

theorem forLoop_post {σ : Type} {body : ℕ → σ → M σ} (Inv : ℕ → σ → Prop) : ∀ (n i : ℕ) {s r : σ},
    (∀ j s s', Inv j s → body j s = .ok s' → Inv (j + 1) s') → Inv i s → Spl.forLoop body n i s = .ok r → Inv (i + n) r
  | 0, i, s, r, _, h0, h => by
    obtain rfl := Except.ok.inj h
    exact h0
  | n + 1, i, s, r, hb, h0, h => by
    rw [Spl.forLoop] at h
    obtain ⟨s', h1, h2⟩ := bind_eq_ok.1 h
    have := forLoop_post Inv n (i + 1) hb (hb i s s' h0 h1) h2
    rwa [show i + 1 + n = i + (n + 1) by omega] at this

/-! ### Time discretisation -/

theorem zip_map_range {α β γ : Type} (n : ℕ) (f : α → γ) (g : α → β) (l : List α) :
    List.zip (l.map f) (l.map g) = l.map fun a => (f a, g a) := by
  induction l with
  | nil => rfl
  | cons a l ih => simp [ih]

theorem bdfLeft_eq {n : ℕ} (m f : ℕ → ℕ → K) {dt : K} (hdt : dt ≠ 0) :
    bdfLeft (matOf n m) (matOf n f) dt = .ok (matOf n fun a b => f a b + m a b / dt) := by
  unfold bdfLeft
  rw [if_neg (by simp [matOf])]
  unfold matOf
  rw [zip_map_range n]
  have e : ∀ a ∈ List.range n, (fun rs : List K × List K => (List.zip rs.1 rs.2).mapM fun ab => do
      let q ← fdiv ab.2 dt
      return ab.1 + q) ((List.range n).map (fun b => f a b), (List.range n).map fun b => m a b) =
      .ok ((List.range n).map fun b => f a b + m a b / dt) := by
    intro a _
    dsimp only
    rw [zip_map_range n, mapM_eq (g := fun ab => ab.1 + ab.2 / dt) (by
      intro ab _
      rw [fdiv_ok hdt, ok_bind, pure_ok]), List.map_map]
    rfl
  have e2 : ∀ l : List ℕ, (∀ a ∈ l, a ∈ List.range n) → (l.map fun a => ((List.range n).map (fun b => f a b), (List.range n).map fun b => m a b)).mapM
      (fun rs : List K × List K => (List.zip rs.1 rs.2).mapM fun ab => do
      let q ← fdiv ab.2 dt
      return ab.1 + q) = .ok (l.map fun a => (List.range n).map fun b => f a b + m a b / dt) := by
    intro l hl
    induction l with
    | nil => rfl
    | cons a l ih =>
      have e' := e a (hl a (by simp))
      dsimp only at e'
      rw [List.map_cons, List.mapM_cons]
      dsimp only
      rw [e', ok_bind, ih fun b hb => hl b (by simp [hb]), ok_bind]
      rfl
  exact e2 _ fun a ha => ha

theorem zipWith_map_range (n : ℕ) (f g : ℕ → K) :
    List.zipWith (· * ·) ((List.range n).map f) ((List.range n).map g) = (List.range n).map fun a => f a * g a := by
  induction (List.range n) with
  | nil => rfl
  | cons a l ih => simp [ih]

theorem bdfRight_eq {n : ℕ} (m : ℕ → ℕ → K) (g v : ℕ → K) {dt : K} (hdt : dt ≠ 0) :
    bdfRight (matOf n m) (vecOf n g) (vecOf n v) dt = .ok (vecOf n fun a => g a + ∑ b ∈ range n, m a b / dt * v b) := by
  unfold bdfRight
  rw [if_neg (by
    simp only [matOf, vecOf, List.length_map, List.length_range, ne_eq, not_true_eq_false, false_or, not_exists, not_and, not_not]
    intro r hr
    obtain ⟨a, -, rfl⟩ := List.mem_map.1 hr
    simp)]
  unfold matOf vecOf
  rw [zip_map_range n]
  have e : ∀ l : List ℕ, (l.map fun a => (g a, (List.range n).map fun b => m a b)).mapM (fun br : K × List K => do
      let row ← br.2.mapM fun a => fdiv a dt
      return br.1 + (List.zipWith (· * ·) row ((List.range n).map v)).foldl (· + ·) 0) =
      .ok (l.map fun a => g a + ∑ b ∈ range n, m a b / dt * v b) := by
    intro l
    induction l with
    | nil => rfl
    | cons a l ih =>
      rw [List.map_cons, List.mapM_cons, ih]
      dsimp only
      rw [mapM_eq (g := fun a => a / dt) (by intro b _; rw [fdiv_ok hdt]), ok_bind, pure_ok, ok_bind, ok_bind, pure_ok, List.map_map]
      rw [List.map_cons]
      congr 3
      have := zipWith_map_range n (fun b => m a b / dt) v
      rw [show ((fun a => a / dt) ∘ fun b => m a b) = fun b => m a b / dt from rfl, this, foldl_sum_range]
  exact e _

/-! ### Neumann conditions -/

variable [HasSqrt K] [LawfulSqrt K]

theorem sum_pick_side {n : ℕ} {side : ℕ → ℕ} {F : ℕ → K} (m r : ℕ) (ix : ℕ → ℕ) (v : ℕ → K) (hix : ∀ k < m, ix k < n)
    (hF : ∀ a < n, (∑ k ∈ range m, if a = ix k then v k else 0) = F a) :
    (∑ k ∈ range m, if r = side (ix k) then v k else 0) = ∑ a ∈ range n, if r = side a then F a else 0 := by
  have e : ∀ a ∈ range n, (if r = side a then F a else 0) = ∑ k ∈ range m, if r = side a then (if a = ix k then v k else 0) else 0 := by
    intro a ha
    rw [← hF a (Finset.mem_range.1 ha)]
    split
    · rfl
    · simp
  rw [Finset.sum_congr rfl e, Finset.sum_comm]
  apply sum_congr rfl
  intro k hk
  rw [Finset.sum_eq_single (ix k)]
  · split
    · simp
    · simp
  · intro b _ hb
    simp [hb]
  · intro h
    exact absurd (Finset.mem_range.2 (hix k (Finset.mem_range.1 hk))) h

theorem neumannElement_eq {t : Spl K} {rule : List (K × K)} (P : Problem t rule) {N : ℕ} (hN : N < 2 ^ 64) {side : ℕ → ℕ}
    (hside : ∀ a < (npts t).prod, side a < N) (m : ℕ) (src f : ℕ → K) :
    neumannElement t rule (zl ((List.range (npts t).prod).map side)) (vecOf (npts t).prod src)
      (position (numElements (elemsOf t.ps.knots)) (elemIx t m)) (vecOf N f) =
      .ok (vecOf N fun r => f r + ∑ a ∈ range (npts t).prod, if r = side a then ∑ q ∈ range (quadNum t rule), quadFactor t rule (elemIx t m) q *
        (fnAt t (quadPoint t rule (elemIx t m) q) a *
          ∑ b ∈ range (npts t).prod, fnAt t (quadPoint t rule (elemIx t m) q) b * src b) else 0) := by
  unfold neumannElement
  rw [elementPoints_eq P.wf P.nurbs P.len P.rule (elemIx_valid P.wf m)
    (fun q _ => rationalBasis_eq P.wf P.nurbs P.len P.dirs (quadPoint_in P m q)), ok_bind]
  have := foldlM_fun (body := fun b (p : IntPoint K (List K)) => do
      let q ← sourceValue t (position (numElements (elemsOf t.ps.knots)) (elemIx t m)) (vecOf (npts t).prod src) p.value
      Spl.forLoop (fun k b => do
        let v ← getN p.value k
        let g ← globalRow t (position (numElements (elemsOf t.ps.knots)) (elemIx t m)) k
        let r ← getN (zl ((List.range (npts t).prod).map side)) g
        addVec b (toSizeT r) (v * q * p.weight * p.jac)) p.value.length 0 b)
    (fun q => ⟨(List.range (actNum t)).map fun k => ratFn t (quadPoint t rule (elemIx t m) q) (actIx t (quadPoint t rule (elemIx t m) q) k),
      quadWeight t rule q, volFactor t (quadPoint t rule (elemIx t m) q) * ∏ i : Fin (D t), (halfLens (elemsOf t.ps.knots) (elemIx t m)).getD i 0⟩)
    (fun k => vecOf N fun r => f r + ∑ a ∈ range (npts t).prod, if r = side a then ∑ q ∈ range k, quadFactor t rule (elemIx t m) q *
        (fnAt t (quadPoint t rule (elemIx t m) q) a *
          ∑ b ∈ range (npts t).prod, fnAt t (quadPoint t rule (elemIx t m) q) b * src b) else 0) (n := quadNum t rule) (by
    intro q _
    dsimp only
    rw [sourceValue_eq P, ok_bind, List.length_map, List.length_range]
    set x := quadPoint t rule (elemIx t m) q with hx
    set S := ∑ b ∈ range (npts t).prod, fnAt t x b * src b with hS
    set f' : ℕ → K := fun r => f r + ∑ a ∈ range (npts t).prod, if r = side a then ∑ q ∈ range q, quadFactor t rule (elemIx t m) q *
        (fnAt t (quadPoint t rule (elemIx t m) q) a *
          ∑ b ∈ range (npts t).prod, fnAt t (quadPoint t rule (elemIx t m) q) b * src b) else 0 with hf'
    have hlt : ∀ k, lin (npts t) (actIx t x k) < (npts t).prod := fun k => lin_lt (actIx_inBox P.wf (quadPoint_dom P m q) k)
    have h2 := forLoop_fun (n := actNum t) (body := fun k b => do
        let v ← getN ((List.range (actNum t)).map fun k => ratFn t x (actIx t x k)) k
        let g ← globalRow t (position (numElements (elemsOf t.ps.knots)) (elemIx t m)) k
        let r ← getN (zl ((List.range (npts t).prod).map side)) g
        addVec b (toSizeT r) (v * S * quadWeight t rule q *
          (volFactor t x * ∏ i : Fin (D t), (halfLens (elemsOf t.ps.knots) (elemIx t m)).getD i 0)))
      (fun j => vecOf N fun r => f' r + (∑ k ∈ range j, if r = side (lin (npts t) (actIx t x k)) then ratFn t x (actIx t x k) else 0) *
        (S * quadFactor t rule (elemIx t m) q)) (by
      intro j hj
      rw [getN_some (a := ratFn t x (actIx t x j)) (by simp [hj]), ok_bind, globalRow_eq P.wf P.len P.size (quadPoint_in P m q) hj, ok_bind,
        getN_some (a := (side (lin (npts t) (actIx t x j)) : ℤ)) (by simp [zl, ← hx, hlt j]), ok_bind,
        toSizeT_nat (lt_trans (hside _ (hlt j)) hN), addVec_eq (hside _ (hlt j))]
      congr 1
      apply vecOf_congr
      intro a _
      rw [sum_range_succ, add_mul]
      unfold quadFactor
      rw [← hx]
      split <;> ring)
    simp only [sum_range_zero, zero_mul, add_zero] at h2
    rw [h2]
    congr 1
    apply vecOf_congr
    intro r _
    rw [sum_pick_side (n := (npts t).prod) (F := fun a => fnAt t x a) (actNum t) r (fun k => lin (npts t) (actIx t x k)) _ (fun k _ => hlt k)
      (fun a ha => scatter_fn P.wf (quadPoint_dom P m q) ha), hf']
    dsimp only
    rw [add_assoc, Finset.sum_mul, ← Finset.sum_add_distrib]
    congr 1
    apply sum_congr rfl
    intro a _
    split
    · rw [sum_range_succ, ← hx, ← hS]
      ring
    · ring)
  simp only [sum_range_zero, ite_self, Finset.sum_const_zero, add_zero] at this
  exact this

/-- One side of the Neumann integral. -/
theorem neumannSide_eq {t : Spl K} {rule : List (K × K)} (P : Problem t rule) {N : ℕ} (hN : N < 2 ^ 64) {side : ℕ → ℕ}
    (hside : ∀ a < (npts t).prod, side a < N) (src f : ℕ → K) :
    neumannSide rule t (zl ((List.range (npts t).prod).map side)) (vecOf (npts t).prod src) (vecOf N f) =
      .ok (vecOf N fun r => f r + ∑ a ∈ range (npts t).prod, if r = side a then
        quadSum t rule (fun y => fnAt t y a * ∑ b ∈ range (npts t).prod, fnAt t y b * src b) else 0) := by
  unfold neumannSide
  have := overElements_eq P.wf P.len (body := neumannElement t rule (zl ((List.range (npts t).prod).map side)) (vecOf (npts t).prod src))
    (fun k => vecOf N fun r => f r + ∑ a ∈ range (npts t).prod, if r = side a then ∑ m ∈ range k, ∑ q ∈ range (quadNum t rule),
        quadFactor t rule (elemIx t m) q * (fnAt t (quadPoint t rule (elemIx t m) q) a *
          ∑ b ∈ range (npts t).prod, fnAt t (quadPoint t rule (elemIx t m) q) b * src b) else 0) (by
    intro m _
    rw [neumannElement_eq P hN hside]
    congr 1
    apply vecOf_congr
    intro r _
    rw [add_assoc, ← Finset.sum_add_distrib]
    congr 1
    apply sum_congr rfl
    intro a _
    split
    · rw [sum_range_succ]
    · ring)
  simp only [sum_range_zero, ite_self, Finset.sum_const_zero, add_zero] at this
  exact this

/-! ### The Poisson problem -/

/-- A linear solver that returns only solutions. -/
def LawfulSolve (solve : List (List K) → List K → M (List K)) : Prop :=
  ∀ n f g u, solve (matOf n f) (vecOf n g) = .ok u → ∃ v, u = vecOf n v ∧ ∀ a < n, ∑ b ∈ range n, f a b * v b = g a

/-- The entries of the matrix of the Laplace operator as the code computes them. -/
noncomputable def stiff (s : Spl K) (rule : List (K × K)) (a b : ℕ) : K :=
  quadSum s rule fun x => ∑ i ∈ range (D s), codePhys s x i a * codePhys s x i b

/-- The entries of the mass matrix. -/
def mass (s : Spl K) (rule : List (K × K)) (a b : ℕ) : K := quadSum s rule fun x => fnAt s x a * fnAt s x b

/-- The entries of the right side for the source 1. -/
def load (s : Spl K) (rule : List (K × K)) (a : ℕ) : K := quadSum s rule fun x => fnAt s x a

theorem sum_fnAt {s : Spl K} (h : WFSpl s) {x : List K} (hx : Dom s.ps.knots x) : ∑ b ∈ range (npts s).prod, fnAt s x b = 1 := by
  have := sum_ratFn_one h hx
  rw [msum_eq_sum_unlin] at this
  exact this

section
variable {s : Spl K} {rule : List (K × K)} (P : Problem s rule) (hd : D s ≤ s.ph.dim) (hA : D s ≤ actNum s)
  (hJ : ∀ m q, (geoMat (D s) s (quadPoint s rule (elemIx s m) q)).det ≠ 0)
include P hd hA hJ

theorem assemble_eq (f : ℕ → ℕ → K) (g : ℕ → K) :
    assemble s rule ⟨matOf (npts s).prod f, vecOf (npts s).prod g⟩ = .ok ⟨matOf (npts s).prod fun a b => f a b + stiff s rule a b,
      vecOf (npts s).prod fun a => g a + load s rule a⟩ := by
  unfold assemble poissonSource
  have e : List.replicate (((npts s).prod : ℕ) : ℤ).toNat (1 : K) = vecOf (npts s).prod fun _ => 1 := by
    unfold vecOf
    rw [Int.toNat_natCast]
    simp
  rw [numCPs_eq P.wf, ok_bind, pure_ok, ok_bind, e]
  dsimp only
  rw [leftSide_eq P hd hA hJ, ok_bind, rightSide_eq P, ok_bind, pure_ok]
  congr 2
  · apply matOf_congr
    intro a _ b _
    unfold stiff
    simp only [one_mul]
  · apply vecOf_congr
    intro a _
    unfold load quadSum
    congr 1
    apply sum_congr rfl
    intro m _
    apply sum_congr rfl
    intro q _
    simp only [mul_one]
    rw [sum_fnAt P.wf (quadPoint_dom P m q), mul_one]

theorem poissonNew_eq : poissonNew s = .ok ⟨matOf (npts s).prod fun _ _ => 0, vecOf (npts s).prod fun _ => 0⟩ := by
  unfold poissonNew
  rw [numCPs_eq P.wf, ok_bind, pure_ok, Int.toNat_natCast]
  unfold matOf vecOf
  simp

/-- The steady state from any state of the members. -/
theorem steady_eq {solve : List (List K) → List K → M (List K)} (hs : LawfulSolve solve) {f : ℕ → ℕ → K} {g : ℕ → K} {r : Poisson K × List K}
    (hr : steady solve s rule ⟨matOf (npts s).prod f, vecOf (npts s).prod g⟩ = .ok r) :
    (∃ v, r.2 = vecOf (npts s).prod v ∧ ∀ a < (npts s).prod,
      (BoundaryIx (npts s) (unlin (npts s) a) → v a = 0) ∧ (¬ BoundaryIx (npts s) (unlin (npts s) a) →
        ∑ b ∈ range (npts s).prod, (f a b + stiff s rule a b) * v b = g a + load s rule a)) ∧
    r.1 = ⟨matOf (npts s).prod fun a b => if BoundaryIx (npts s) (unlin (npts s) a) then (if a = b then 1 else 0) else f a b + stiff s rule a b,
      vecOf (npts s).prod fun a => if BoundaryIx (npts s) (unlin (npts s) a) then 0 else g a + load s rule a⟩ := by
  unfold steady at hr
  rw [assemble_eq P hd hA hJ, ok_bind] at hr
  dsimp only at hr
  rw [setZeroBC_eq P.wf P.size, ok_bind] at hr
  dsimp only at hr
  obtain ⟨u, h1, h2⟩ := bind_eq_ok.1 hr
  obtain ⟨v, hv, hsol⟩ := hs _ _ _ _ h1
  rw [pure_ok] at h2
  obtain rfl := Except.ok.inj h2
  refine ⟨⟨v, hv, ?_⟩, rfl⟩
  intro a ha
  have := hsol a ha
  constructor
  · intro hB
    simp only [hB, if_true] at this
    simpa [ha] using this
  · intro hB
    simpa only [hB, if_false] using this

variable [FloorRing K]

omit [FloorRing K] hd hA hJ in
theorem timeStep_eq {solve : List (List K) → List K → M (List K)} (hs : LawfulSolve solve) {m f : ℕ → ℕ → K} {g v : ℕ → K} {dt : K} (hdt : dt ≠ 0)
    {d : Option (List K)} {dv : List K} (hdv : dv = d.getD (List.replicate (npts s).prod 0))
    (hl : boundaryRank (npts s) (npts s).prod ≤ dv.length) {sols : List (List K)} {r : List (List K) × List (List K)}
    (hr : timeStep solve s (matOf (npts s).prod m) (vecOf (npts s).prod g) dt d (matOf (npts s).prod f, sols ++ [vecOf (npts s).prod v]) = .ok r) :
    r.1 = matOf (npts s).prod (fun a b => if BoundaryIx (npts s) (unlin (npts s) a) then (if a = b then 1 else 0) else f a b) ∧
    ∃ w, r.2 = sols ++ [vecOf (npts s).prod v] ++ [vecOf (npts s).prod w] ∧ ∀ a < (npts s).prod,
      (BoundaryIx (npts s) (unlin (npts s) a) → w a = dv.getD (boundaryRank (npts s) a) 0) ∧
      (¬ BoundaryIx (npts s) (unlin (npts s) a) →
        ∑ b ∈ range (npts s).prod, f a b * w b = g a + ∑ b ∈ range (npts s).prod, m a b / dt * v b) := by
  unfold timeStep at hr
  dsimp only at hr
  rw [getN_some (a := vecOf (npts s).prod v) (by simp), ok_bind, bdfRight_eq _ _ _ hdt, ok_bind,
    setDirichletBC_eq P.wf P.size _ _ d dv (by
      rw [hdv]
      congr 1
      unfold vecOf
      rw [List.map_map]
      exact (replicate_map (npts s).prod _).symm) hl, ok_bind] at hr
  dsimp only at hr
  obtain ⟨u, h1, h2⟩ := bind_eq_ok.1 hr
  obtain ⟨w, hw, hsol⟩ := hs _ _ _ _ h1
  rw [pure_ok] at h2
  obtain rfl := Except.ok.inj h2
  refine ⟨rfl, w, by rw [hw], ?_⟩
  intro a ha
  have := hsol a ha
  constructor
  · intro hB
    simp only [hB, if_true] at this
    simpa [ha] using this
  · intro hB
    simpa only [hB, if_false] using this

/-- `S` are the coefficients of time steps: zero initially, the Dirichlet values on the boundary, and the equations of the implicit Euler
scheme for the inner control points. -/
structure Steps (s : Spl K) (L m : ℕ → ℕ → K) (g : ℕ → K) (dt : K) (dv : List K) (k : ℕ) (S : ℕ → ℕ → K) : Prop where
  start : ∀ a < (npts s).prod, S 0 a = 0
  boundary : ∀ j < k, ∀ a < (npts s).prod, BoundaryIx (npts s) (unlin (npts s) a) → S (j + 1) a = dv.getD (boundaryRank (npts s) a) 0
  inner : ∀ j < k, ∀ a < (npts s).prod, ¬ BoundaryIx (npts s) (unlin (npts s) a) →
    ∑ b ∈ range (npts s).prod, L a b * S (j + 1) b = g a + ∑ b ∈ range (npts s).prod, m a b / dt * S j b

theorem unsteady_eq {solve : List (List K) → List K → M (List K)} (hs : LawfulSolve solve) {f : ℕ → ℕ → K} {g : ℕ → K} {dt tEnd : K}
    {d : Option (List K)} {dv : List K} (hdv : dv = d.getD (List.replicate (npts s).prod 0))
    (hl : boundaryRank (npts s) (npts s).prod ≤ dv.length) {r : Poisson K × List (List K)}
    (hr : unsteady solve s rule dt tEnd d ⟨matOf (npts s).prod f, vecOf (npts s).prod g⟩ = .ok r) :
    dt ≠ 0 ∧ ∃ n S, truncInt (tEnd / dt) = .ok n ∧ r.2 = (List.range (n.toNat + 1)).map (fun j => vecOf (npts s).prod (S j)) ∧
      Steps s (fun a b => f a b + stiff s rule a b + mass s rule a b / dt) (mass s rule) (fun a => g a + load s rule a) dt dv n.toNat S := by
  unfold unsteady at hr
  rw [massMatrix_eq P, ok_bind] at hr
  obtain ⟨q, h1, hr⟩ := bind_eq_ok.1 hr
  have hdt : dt ≠ 0 := by
    intro e
    rw [e, fdiv, if_pos rfl] at h1
    cases h1
  rw [fdiv_ok hdt] at h1
  obtain rfl := Except.ok.inj h1
  obtain ⟨n, h2, hr⟩ := bind_eq_ok.1 hr
  rw [numCPs_eq P.wf, ok_bind, assemble_eq P hd hA hJ, ok_bind] at hr
  dsimp only at hr
  rw [bdfLeft_eq _ _ hdt, ok_bind] at hr
  obtain ⟨st, h3, h4⟩ := bind_eq_ok.1 hr
  rw [pure_ok] at h4
  obtain rfl := Except.ok.inj h4
  refine ⟨hdt, ?_⟩
  have := forLoop_post (fun k st => (∃ f', st.1 = matOf (npts s).prod f' ∧ ∀ a < (npts s).prod, ¬ BoundaryIx (npts s) (unlin (npts s) a) → ∀ b,
      f' a b = f a b + stiff s rule a b + mass s rule a b / dt) ∧ ∃ S, st.2 = (List.range (k + 1)).map (fun j => vecOf (npts s).prod (S j)) ∧
      Steps s (fun a b => f a b + stiff s rule a b + mass s rule a b / dt) (mass s rule) (fun a => g a + load s rule a) dt dv k S) n.toNat 0 (by
    rintro k ⟨A, sols⟩ st' ⟨⟨f', e1, e2⟩, S, e3, hS⟩ hb
    dsimp only at e1 e3
    rw [e1, e3, List.range_succ, List.map_append] at hb
    obtain ⟨h5, w, h6, h7⟩ := timeStep_eq P hs hdt hdv hl hb
    refine ⟨⟨_, h5, ?_⟩, Function.update S (k + 1) w, ?_, ?_, ?_, ?_⟩
    · intro a ha hB b
      rw [if_neg hB, e2 a ha hB b]
    · rw [h6, List.range_succ, List.map_append, List.range_succ, List.map_append]
      simp only [List.map_cons, List.map_nil, Function.update_self]
      congr 2
      · apply List.map_congr_left
        intro j hj
        rw [Function.update_of_ne (by have := List.mem_range.1 hj; omega)]
      · rw [Function.update_of_ne (by omega)]
    · intro a ha
      rw [Function.update_of_ne (by omega)]
      exact hS.start a ha
    · intro j hj a ha hB
      by_cases e : j = k
      · subst e
        rw [Function.update_self]
        exact (h7 a ha).1 hB
      · rw [Function.update_of_ne (by omega)]
        exact hS.boundary j (by omega) a ha hB
    · intro j hj a ha hB
      by_cases e : j = k
      · subst e
        rw [Function.update_self, Function.update_of_ne (by omega)]
        refine Eq.trans ?_ ((h7 a ha).2 hB)
        apply sum_congr rfl
        intro b _
        rw [e2 a ha hB b]
      · rw [Function.update_of_ne (by omega), Function.update_of_ne (by omega)]
        exact hS.inner j (by omega) a ha hB) (by
    refine ⟨⟨_, rfl, fun a _ _ b => rfl⟩, fun _ _ => 0, ?_, fun _ _ => rfl, fun j hj => absurd hj (Nat.not_lt_zero _),
      fun j hj => absurd hj (Nat.not_lt_zero _)⟩
    rw [Int.toNat_natCast]
    simp [vecOf]) h3
  rw [Nat.zero_add] at this
  obtain ⟨-, S, h8, h9⟩ := this
  exact ⟨n, S, h2, h8, h9⟩

end

end Iga
end SplineLib
