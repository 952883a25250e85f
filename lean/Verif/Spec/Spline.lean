import Verif.Spec.Tensor
import Verif.Spec.CoxDeBoor
import Verif.Model.Spline

/-!
# Specification of tensor product splines
-/

namespace SplineLib
variable {K : Type} [Field K] [LinearOrder K]

/-- Numbers of control points per direction: number of knots minus degree minus one. -/
def npts (s : Spl K) : List ℕ := List.zipWith (fun U p => U.length - p - 1) s.ps.knots s.ps.degree

/-- The univariate basis functions at the coordinates `x`, one function of the index per direction. -/
def basisFns : List (List K) → List ℕ → List K → List (ℕ → K)
  | U :: Us, p :: ps, x :: xs => (fun i => coxDeBoor U p i x) :: basisFns Us ps xs
  | _, _, _ => []

/-- Their derivatives of the orders `k`. -/
def basisDerivFns : List (List K) → List ℕ → List K → List ℕ → List (ℕ → K)
  | U :: Us, p :: ps, x :: xs, k :: ks => (fun i => coxDeBoorDeriv U p k i x) :: basisDerivFns Us ps xs ks
  | _, _, _, _ => []

/-- Coordinate `c` of the control point with multi-index `I`. -/
def cpt (s : Spl K) (I : List ℕ) (c : ℕ) : K := s.ph.cps.getD (s.ph.dim * lin (npts s) I + c) 0

/-- Weight of the control point with multi-index `I`; 1 for a B-spline. -/
def wgt (s : Spl K) (I : List ℕ) : K :=
  match s.ph.weights with
  | none => 1
  | some w => w.getD (lin (npts s) I) 0

/-- `Σ_I (Π_d N_{I_d,p_d}(x_d)) a_I`. -/
def tensorSum (s : Spl K) (x : List K) (a : List ℕ → K) : K :=
  msum (npts s) fun I => dprod (basisFns s.ps.knots s.ps.degree x) I * a I

/-- The same with derivatives of the basis functions. -/
def tensorDerivSum (s : Spl K) (x : List K) (k : List ℕ) (a : List ℕ → K) : K :=
  msum (npts s) fun I => dprod (basisDerivFns s.ps.knots s.ps.degree x k) I * a I

/-- The B-spline `Σ_I N_I(x) P_I`, coordinate `c`. -/
def bsplineValue (s : Spl K) (x : List K) (c : ℕ) : K := tensorSum s x fun I => cpt s I c

/-- The weight function `Σ_I N_I(x) w_I`. -/
def weightValue (s : Spl K) (x : List K) : K := tensorSum s x fun I => wgt s I

/-- The NURBS `Σ_I N_I(x) w_I P_I / Σ_I N_I(x) w_I`, coordinate `c`. -/
def nurbsValue (s : Spl K) (x : List K) (c : ℕ) : K := tensorSum s x (fun I => wgt s I * cpt s I c) / weightValue s x

/-- `x` lies in the parameter range of every direction. -/
def InDomain (s : Spl K) (x : List K) : Prop :=
  List.Forall₂ (fun U a => knot U 0 ≤ a ∧ a ≤ lastKnot U) s.ps.knots x

/-- A well-formed spline object: one degree per direction, well-formed knot vectors, the cached basis functions belong to the
current knot vectors and degrees, the stored numbers of points match the knot vectors, there are exactly that many control
points of positive dimension, and (NURBS) as many weights, all of them positive. -/
structure WFSpl (s : Spl K) : Prop where
  knots : List.Forall₂ WFKnots s.ps.knots s.ps.degree
  basis : PS.basisTable s.ps.knots s.ps.degree = .ok s.ps.basis
  num : s.ph.num = zl (npts s)
  dim : 0 < s.ph.dim
  cps : s.ph.cps.length = s.ph.dim * (npts s).prod
  weights : ∀ w, s.ph.weights = some w → w.length = (npts s).prod ∧ ∀ a ∈ w, 0 < a

/-- A well-formed parameter space: well-formed knot vectors and the basis functions that belong to them. -/
structure WFPS (ps : PS K) : Prop where
  knots : List.Forall₂ WFKnots ps.knots ps.degree
  basis : PS.basisTable ps.knots ps.degree = .ok ps.basis

theorem WFSpl.wfps {s : Spl K} (h : WFSpl s) : WFPS s.ps := ⟨h.knots, h.basis⟩

/-- First and last knot have multiplicity exactly `p+1` (for a `WFKnots` vector: at most `p+1`). -/
def ExactEnds (U : List K) (p : ℕ) : Prop := knot U p < knot U (p + 1) ∧ knot U (U.length - p - 2) < lastKnot U

instance (U : List K) (p : ℕ) : Decidable (ExactEnds U p) := by unfold ExactEnds; infer_instance

/-- A corner of the parameter domain: per direction the last knot (`true`) or the first knot (`false`). -/
def cornerParam (s : Spl K) (b : List Bool) : List K :=
  List.zipWith (fun U e => if e then lastKnot U else knot U 0) s.ps.knots b

/-- The multi-index of the corner control point. -/
def cornerIndex (s : Spl K) (b : List Bool) : List ℕ := List.zipWith (fun n e => if e then n - 1 else 0) (npts s) b

/-- The object is a `BSpline`. -/
def IsBSpline (s : Spl K) : Prop := s.ph.weights = none

/-- The object is a `NURBS`. -/
def IsNurbs (s : Spl K) : Prop := ∃ w, s.ph.weights = some w

end SplineLib
