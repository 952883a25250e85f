import Verif.Model.Elements
import Verif.Model.Degree
import Mathlib.LinearAlgebra.Matrix.Adjugate
import Mathlib.Algebra.Order.Floor.Ring

/-!
# Model of the isogeometric example: basis functions, mapping, element integrals, assembly and boundary conditions
(example/iga/src/basis_function_handler.h, mapping_handler.h, element_integral_calculator.h, linear_equation_assembler.h, bdf_handler.h,
solution_spline.h, solution_vtk_writer.h, poisson_problem.h)

The spline is a `NURBS` with `D = knots.length ≥ 1` directions. Armadillo matrices and vectors are lists of rows and lists; an access out
of bounds throws (`outOfRange`). Products, determinants and inverses of Armadillo are exact; the inverse of a singular matrix throws.
A loop `while (true) { ...; if (Get1DIndex() == Get1DLength() - 1) break; ++mih; }` runs `Get1DLength()` times (all lengths are
positive). An integration rule is its list of (coordinate, weight).
-/

namespace SplineLib
namespace Iga
open Spl

variable {K : Type} [LinearOrder K] [Field K]

/-- The number of directions (`DIM`). -/
abbrev D (s : Spl K) : ℕ := s.ps.knots.length

/-! ## Basis functions -/

/-- `BasisFunctionHandler::GetWeight(param_coord, local_index)` (basis_function_handler.h:216-220). The braces `{i}` initialise the first
entry of the index array; the other entries are zero. -/
def weight (s : Spl K) (x : List K) (loc : ℤ) : M K := do
  let e ← Elem.elementNumberAt s x
  let g ← Elem.globalIndex s e loc
  s.ph.getWeight ((g - 1) :: List.replicate (D s - 1) 0)

/-- The univariate basis functions of all directions (basis_function_handler.h:127-132, 158-159). -/
def basisRows (s : Spl K) (x : List K) : M (List (List K)) :=
  buildList (fun d => do
    let a ← getN x d
    s.ps.evalAllNonZero d a) (D s)

/-- Their first derivatives (basis_function_handler.h:160). -/
def derivRows (s : Spl K) (x : List K) : M (List (List K)) :=
  buildList (fun d => do
    let a ← getN x d
    s.ps.evalAllNonZeroDerivs d a 1) (D s)

/-- `for (i) temp *= rows[i][mih[i]]` (basis_function_handler.h:137-140, 173-179). -/
def rowProd : List (List K) → List ℤ → K → M K
  | r :: rs, i :: is, t => do
    let b ← getI r i
    rowProd rs is (t * b)
  | _, _, t => .ok t

/-- The body of the loop of `EvaluateAllNonZeroNURBSBasisFunctions` (basis_function_handler.h:137-142). -/
def basisBody (s : Spl K) (x : List K) (rows : List (List K)) (h : MIH) (st : List K × K) : M (List K × K) := do
  let t ← rowProd rows h.cur 1
  let w ← weight s x h.get1D
  return (st.1 ++ [t * w], st.2 + t * w)

/-- `EvaluateAllNonZeroNURBSBasisFunctions(param_coord)` (basis_function_handler.h:126-150). -/
def rationalBasis (s : Spl K) (x : List K) : M (List K) := do
  let rows ← basisRows s x
  let h := MIH.mk' (rows.map fun r => (r.length : ℤ))
  let (l, sum) ← upLoop (basisBody s x rows) h.length1D.toNat h ([], 0)
  l.mapM fun a => fdiv a sum

/-- The variables of `EvaluateAllNonZeroNURBSBasisFunctionDerivatives`: `nurbs_basis_functions`, `sum_baf`,
`nurbs_basis_function_derivatives` and `sum_baf_ders`. -/
structure DerivState (K : Type) where
  val : List K
  sum : K
  der : List (List K)
  dsum : List K

/-- The body of the first loop (basis_function_handler.h:170-185). `temp_ders[i]` is the product of the rows, where row `i` is replaced by
the derivatives. -/
def derivBody (s : Spl K) (x : List K) (rows ders : List (List K)) (h : MIH) (st : DerivState K) : M (DerivState K) := do
  let t ← rowProd rows h.cur 1
  let ts ← buildList (fun i => do
    let r ← getN ders i
    rowProd (rows.set i r) h.cur 1) (D s)
  let w ← weight s x h.get1D
  return ⟨st.val ++ [t * w], st.sum + t * w, List.zipWith (fun l a => l ++ [a * w]) st.der ts,
    List.zipWith (fun b a => b + a * w) st.dsum ts⟩

/-- The body of the second loop (basis_function_handler.h:190-194). -/
def normaliseBody (i : ℕ) (st : DerivState K) : M (DerivState K) := do
  let a ← getN st.val i
  let a ← fdiv a st.sum
  let der ← buildList (fun j => do
    let l ← getN st.der j
    let v ← getN l i
    let b ← getN st.dsum j
    let q ← fdiv (v * st.sum - a * b) (st.sum ^ 2)
    return l.set i q) st.der.length
  return { st with val := st.val.set i a, der := der }

/-- `EvaluateAllNonZeroNURBSBasisFunctionDerivatives(param_coord)` (basis_function_handler.h:152-197): the derivatives, one list for each
direction. The second loop runs to `basis_functions.size()`, which is the size `DIM` of the array. -/
def rationalDerivs (s : Spl K) (x : List K) : M (List (List K)) := do
  let rows ← basisRows s x
  let ders ← derivRows s x
  let h := MIH.mk' (rows.map fun r => (r.length : ℤ))
  let st ← upLoop (derivBody s x rows ders) h.length1D.toNat h ⟨[], 0, List.replicate (D s) [], List.replicate (D s) 0⟩
  let st ← forLoop normaliseBody (D s) 0 st
  return st.der

/-! ## Mapping -/

/-- A matrix from its list of rows. -/
def toMat (n m : ℕ) (l : List (List K)) : Matrix (Fin n) (Fin m) K := fun i j => (l.getD i []).getD j 0

/-- `GetDxDxi(param_coord)` (mapping_handler.h:56-68). -/
def dxDxi (s : Spl K) (x : List K) : M (List (List K)) :=
  buildList (fun i => buildList (fun j => do
    let v ← s.evaluateDerivative x [(i : ℤ)] ((List.replicate (D s) 0).set j 1)
    getN v 0) (D s)) s.ph.dim

/-- `GetDxiDxitilde(param_coord)` (mapping_handler.h:70-80). -/
def dxiDxitilde (s : Spl K) (x : List K) : M (List (List K)) :=
  buildList (fun i => do
    let U ← getN s.ps.knots i
    let a ← getN x i
    let k ← kvSpan U a
    let hi ← kvGet U (toSizeT k + 1)
    let lo ← kvGet U (toSizeT k)
    return (List.replicate (D s) 0).set i ((hi - lo) / 2)) (D s)

/-- `GetDxiDx(param_coord)` (mapping_handler.h:30-34): the inverse of the leading square block. -/
def dxiDx (s : Spl K) (x : List K) : M (Matrix (Fin (D s)) (Fin (D s)) K) := do
  let l ← dxDxi s x
  if s.ph.dim < D s then .error (.thrown .outOfRange)
  else
    let J := toMat (D s) (D s) l
    if J.det = 0 then .error (.thrown .runtimeError) else return J.det⁻¹ • J.adjugate

/-- `GetJacobianDeterminant(param_coord)` (mapping_handler.h:36-38, 52-54). -/
def jacobian [HasSqrt K] (s : Spl K) (x : List K) : M K := do
  let a ← dxDxi s x
  let b ← dxiDxitilde s x
  let G := toMat s.ph.dim (D s) a * toMat (D s) (D s) b
  return HasSqrt.sqrt |(G.transpose * G).det|

/-- `EvaluateAllNonZeroNURBSBafDerivativesPhysical(param_coord)` (basis_function_handler.h:199-214). -/
def physicalDerivs (s : Spl K) (x : List K) : M (List (List K)) := do
  let dr ← rationalDerivs s x
  let B ← dxiDx s x
  buildList (fun i => do
    let l ← getN dr i
    buildList (fun j => do
      let t ← buildList (fun k => do
        let r ← getN dr k
        let v ← getN r j
        return v * (if h : k < D s ∧ i < D s then B ⟨k, h.1⟩ ⟨i, h.2⟩ else 0)) (D s)
      return t.foldl (· + ·) 0) l.length) (D s)

/-! ## Integration points of an element -/

/-- `ElementIntegrationPoint` (element_integration_point.h:24-70); `value` are the basis functions or their derivatives. -/
structure IntPoint (K α : Type) where
  value : α
  weight : K
  jac : K

/-- The body of the loop over the integration points (basis_function_handler.h:50-64). -/
def pointBody [HasSqrt K] {α : Type} (f : List K → M α) (s : Spl K) (element : ℤ) (rule : List (K × K)) (h : MIH)
    (acc : List (IntPoint K α)) : M (List (IntPoint K α)) := do
  let pts ← h.cur.mapM (getI rule)
  let x ← Elem.toParam s element (pts.map Prod.fst)
  let v ← f x
  let j ← jacobian s x
  return acc ++ [⟨v, pts.foldl (fun w p => w * p.2) 1, j⟩]

/-- The common body of `EvaluateAllElementNonZeroNURBSBasisFunctions`, `...BasisFunctionDerivatives` and `...BafDerivativesPhysical`
(basis_function_handler.h:41-123), which differ in the function `f`. With an empty rule the first access is out of range. -/
def elementPoints [HasSqrt K] {α : Type} (f : List K → M α) (s : Spl K) (element : ℤ) (rule : List (K × K)) : M (List (IntPoint K α)) :=
  if rule.isEmpty then .error .ub
  else
    let h := MIH.mk' (List.replicate (D s) (rule.length : ℤ))
    upLoop (pointBody f s element rule) h.length1D.toNat h []

/-! ## Element integrals and assembly -/

/-- `A(i, j) += v` of an Armadillo matrix. -/
def addAt (A : List (List K)) (i j : ℕ) (v : K) : M (List (List K)) :=
  match A[i]? with
  | some r => if j < r.length then .ok (A.set i (r.modify j (· + v))) else .error (.thrown .outOfRange)
  | none => .error (.thrown .outOfRange)

/-- `b(i) += v` of an Armadillo vector. -/
def addVec (b : List K) (i : ℕ) (v : K) : M (List K) :=
  if i < b.length then .ok (b.modify i (· + v)) else .error (.thrown .outOfRange)

/-- `b(i)` of an Armadillo vector. -/
def getVec (b : List K) (i : ℕ) : M K :=
  match b[i]? with
  | some v => .ok v
  | none => .error (.thrown .outOfRange)

/-- `GetGlobalIndex(element_number, j) - 1`, converted to `uint64_t`. -/
def globalRow (s : Spl K) (element : ℤ) (j : ℕ) : M ℕ := do
  let g ← Elem.globalIndex s element j
  return toSizeT (g - 1)

variable [HasSqrt K]

/-- The entry added for the functions `j` and `k` (element_integral_calculator.h:44-48). -/
def laplaceEntry (s : Spl K) (p : IntPoint K (List (List K))) (conductivity : K) (j k : ℕ) : M K := do
  let t ← buildList (fun i => do
    let r ← getN p.value i
    let a ← getN r j
    let b ← getN r k
    return a * b) (D s)
  return t.foldl (· + ·) 0 * (p.weight * p.jac * conductivity)

/-- The loops over the pairs of functions at one integration point (element_integral_calculator.h:42-52, bdf_handler.h:52-59): `n`
functions, `entry j k` is added in row `GetGlobalIndex(e, j) - 1` and column `GetGlobalIndex(e, k) - 1`. -/
def scatter (s : Spl K) (element : ℤ) (n : ℕ) (entry : ℕ → ℕ → M K) (A : List (List K)) : M (List (List K)) :=
  forLoop (fun j A => forLoop (fun k A => do
    let v ← entry j k
    let r ← globalRow s element j
    let c ← globalRow s element k
    addAt A r c v) n 0 A) n 0 A

/-- `GetLaplaceElementIntegral(element_number, rule, matA, thermal_conductivity)` (element_integral_calculator.h:37-54). -/
def laplaceMatrix (s : Spl K) (rule : List (K × K)) (conductivity : K) (element : ℤ) (A : List (List K)) : M (List (List K)) := do
  let pts ← elementPoints (physicalDerivs s) s element rule
  pts.foldlM (fun A p => do
    let r ← getN p.value 0
    scatter s element r.length (laplaceEntry s p conductivity) A) A

/-- The value of the source at an integration point (element_integral_calculator.h:61-65). -/
def sourceValue (s : Spl K) (element : ℤ) (src : List K) (values : List K) : M K := do
  let t ← buildList (fun j => do
    let v ← getN values j
    let g ← globalRow s element j
    let c ← getVec src g
    return v * c) values.length
  return t.foldl (· + ·) 0

/-- `GetLaplaceElementIntegral(element_number, rule, vecB, srcCp)` (element_integral_calculator.h:56-71). -/
def laplaceVector (s : Spl K) (rule : List (K × K)) (src : List K) (element : ℤ) (b : List K) : M (List K) := do
  let pts ← elementPoints (rationalBasis s) s element rule
  pts.foldlM (fun b p => do
    let q ← sourceValue s element src p.value
    forLoop (fun j b => do
      let v ← getN p.value j
      let g ← globalRow s element j
      addVec b g (v * q * p.weight * p.jac)) p.value.length 0 b) b

/-- `for (int e = 0; e < GetNumberOfElements(); ++e)`. -/
def overElements {σ : Type} (s : Spl K) (body : ℤ → σ → M σ) (st : σ) : M σ := do
  let els ← Elem.elements s.ps.knots s.ps.degree
  forLoop (fun e st => body (e : ℤ) st) (Elem.totalElements els).toNat 0 st

/-- `GetLeftSide(rule, matA, elm_itg_calc, thermal_conductivity)` (linear_equation_assembler.h:35-40). -/
def leftSide (s : Spl K) (rule : List (K × K)) (conductivity : K) (A : List (List K)) : M (List (List K)) :=
  overElements s (laplaceMatrix s rule conductivity) A

/-- `GetRightSide(rule, vecB, elm_itg_calc, srcCp)` (linear_equation_assembler.h:42-47). -/
def rightSide (s : Spl K) (rule : List (K × K)) (src : List K) (b : List K) : M (List K) :=
  overElements s (laplaceVector s rule src) b

/-- The entry added in `GetTimeDiscretizationMatrix` (bdf_handler.h:54-55). -/
def massEntry (p : IntPoint K (List K)) (j k : ℕ) : M K := do
  let a ← getN p.value j
  let b ← getN p.value k
  return a * b * p.weight * p.jac

/-- The contribution of one element to `GetTimeDiscretizationMatrix` (bdf_handler.h:49-60). -/
def massElement (s : Spl K) (rule : List (K × K)) (element : ℤ) (A : List (List K)) : M (List (List K)) := do
  let pts ← elementPoints (rationalBasis s) s element rule
  pts.foldlM (fun A p => scatter s element p.value.length (massEntry p) A) A

/-- `GetTimeDiscretizationMatrix(rule)` (bdf_handler.h:45-63). -/
def massMatrix (s : Spl K) (rule : List (K × K)) : M (List (List K)) := do
  let n ← s.ph.numCPs
  overElements s (massElement s rule) (List.replicate n.toNat (List.replicate n.toNat 0))

omit [HasSqrt K] in
/-- `GetBDF1LeftSide(matA, dt)` (bdf_handler.h:33-36); Armadillo refuses matrices of different sizes. -/
def bdfLeft (mass A : List (List K)) (dt : K) : M (List (List K)) :=
  if A.map List.length ≠ mass.map List.length then .error (.thrown .runtimeError)
  else (List.zip A mass).mapM fun rs => (List.zip rs.1 rs.2).mapM fun ab => do
    let q ← fdiv ab.2 dt
    return ab.1 + q

/-- `GetBDF1RightSide(vecB, prevSol, dt)` (bdf_handler.h:38-42). -/
def bdfRight (mass : List (List K)) (b prev : List K) (dt : K) : M (List K) :=
  if b.length ≠ mass.length ∨ ∃ r ∈ mass, r.length ≠ prev.length then .error (.thrown .runtimeError)
  else (List.zip b mass).mapM fun br => do
    let row ← br.2.mapM fun a => fdiv a dt
    return br.1 + (List.zipWith (· * ·) row prev).foldl (· + ·) 0

/-! ## Boundary conditions -/

/-- The test whether a control point lies on the boundary (linear_equation_assembler.h:130-135, 152-157). -/
def onBoundary (h : MIH) : Bool := (List.zip h.cur h.differenceIndices).any fun p => !(decide (p.1 > 0) && decide (p.2 > 0))

/-- `row(i).fill(0); A(i, i) = 1` (linear_equation_assembler.h:138-139, 160-161). -/
def unitRow (A : List (List K)) (i : ℕ) : M (List (List K)) :=
  match A[i]? with
  | some r => if i < r.length then .ok (A.set i ((r.map fun _ => 0).set i 1)) else .error (.thrown .outOfRange)
  | none => .error (.thrown .outOfRange)

/-- `b(i) = v`. -/
def setVec (b : List K) (i : ℕ) (v : K) : M (List K) := if i < b.length then .ok (b.set i v) else .error (.thrown .outOfRange)

/-- The body of the loop of `SetZeroBC` (linear_equation_assembler.h:130-140). -/
def zeroBody (h : MIH) (st : List (List K) × List K) : M (List (List K) × List K) :=
  if onBoundary h then do
    let b ← setVec st.2 (toSizeT h.get1D) 0
    let A ← unitRow st.1 (toSizeT h.get1D)
    return (A, b)
  else .ok st

/-- `SetZeroBC(matA, vecB)` (linear_equation_assembler.h:127-144). -/
def setZeroBC (s : Spl K) (A : List (List K)) (b : List K) : M (List (List K) × List K) :=
  let h := MIH.mk' s.ph.num
  upLoop zeroBody h.length1D.toNat h (A, b)

/-- The body of the loop of `SetDirichletBC` (linear_equation_assembler.h:152-163); the number is `num_boundary_cp`. -/
def dirichletBody (dirichlet : List K) (h : MIH) (st : (List (List K) × List K) × ℕ) : M ((List (List K) × List K) × ℕ) :=
  if onBoundary h then do
    let v ← getVec dirichlet st.2
    let b ← setVec st.1.2 (toSizeT h.get1D) v
    let A ← unitRow st.1.1 (toSizeT h.get1D)
    return ((A, b), st.2 + 1)
  else .ok st

/-- `SetDirichletBC(matA, vecB, Dirichlet)` (linear_equation_assembler.h:146-167); `none` is the null pointer. -/
def setDirichletBC (s : Spl K) (A : List (List K)) (b : List K) (dirichlet : Option (List K)) : M (List (List K) × List K) := do
  let h := MIH.mk' s.ph.num
  let st ← upLoop (dirichletBody (dirichlet.getD (b.map fun _ => 0))) h.length1D.toNat h ((A, b), 0)
  return st.1

/-! ## Boundary splines -/

/-- The body of the loop of `GetBoundarySplineConnectivity` (linear_equation_assembler.h:115-120) for direction `i`. -/
def connectivityBody (num : List ℤ) (i : ℕ) (h : MIH) (st : List ℤ × List ℤ) : M (List ℤ × List ℤ) := do
  let k ← getN h.cur i
  let n ← getN num i
  return (if k = 0 then st.1 ++ [h.get1D] else st.1, if k = n - 1 then st.2 ++ [h.get1D] else st.2)

/-- `GetBoundarySplineConnectivity()` (linear_equation_assembler.h:109-125) for direction `i`: the numbers of the control points on both
sides. -/
def boundaryConnectivity (s : Spl K) (i : ℕ) : M (List ℤ × List ℤ) :=
  let h := MIH.mk' s.ph.num
  upLoop (connectivityBody s.ph.num i) h.length1D.toNat h ([], [])

/-- One side of `GetBoundarySplines()` (linear_equation_assembler.h:84-104). The knot vectors and degrees are those number `m` (not `j`),
that is, the first `DIM - 1` ones. `Set1DIndex(n)` moves the handler to the index with number `n` (C27). -/
def boundarySide (s : Spl K) (side : List ℤ) : M (Spl K) := do
  let kv ← buildList (fun m => getN s.ps.knots m) (D s - 1)
  let deg ← buildList (fun m => getN s.ps.degree m) (D s - 1)
  let cps ← side.mapM fun n => s.ph.getCP ((MIH.mk' s.ph.num).plus n).cur
  let ws ← side.mapM fun n => s.ph.getWeight ((MIH.mk' s.ph.num).plus n).cur
  Spl.newNurbs kv deg cps ws

/-- `GetBoundarySplines()` (linear_equation_assembler.h:79-107). -/
def boundarySplines (s : Spl K) : M (List (Spl K × Spl K)) :=
  buildList (fun i => do
    let c ← boundaryConnectivity s i
    let a ← boundarySide s c.1
    let b ← boundarySide s c.2
    return (a, b)) (D s)

/-- The contribution of one element of a boundary spline `t` to `GetRightSideNeumann` (linear_equation_assembler.h:60-74); `side` is the
connectivity of the boundary spline, `cp` are the Neumann values of its control points. -/
def neumannElement (t : Spl K) (rule : List (K × K)) (side : List ℤ) (cp : List K) (element : ℤ) (b : List K) : M (List K) := do
  let pts ← elementPoints (rationalBasis t) t element rule
  pts.foldlM (fun b p => do
    let q ← sourceValue t element cp p.value
    forLoop (fun k b => do
      let v ← getN p.value k
      let g ← globalRow t element k
      let r ← getN side g
      addVec b (toSizeT r) (v * q * p.weight * p.jac)) p.value.length 0 b) b

/-- The elements of one boundary spline (linear_equation_assembler.h:56-75). -/
def neumannSide (rule : List (K × K)) (t : Spl K) (side : List ℤ) (cp : List K) (b : List K) : M (List K) :=
  overElements t (neumannElement t rule side cp) b

/-- `GetRightSideNeumann(rule, vecB, NeumannCp)` (linear_equation_assembler.h:49-78); `cps` are the values of the two sides of every
direction. -/
def rightSideNeumann (s : Spl K) (rule : List (K × K)) (cps : List (List K × List K)) (b : List K) : M (List K) :=
  if D s = 1 then .error (.thrown .runtimeError)
  else do
    let ts ← boundarySplines s
    forLoop (fun i b => do
      let t ← getN ts i
      let c ← boundaryConnectivity s i
      let v ← getN cps i
      let b ← neumannSide rule t.1 c.1 v.1 b
      neumannSide rule t.2 c.2 v.2 b) (D s) 0 b

/-! ## The solution as a spline -/

/-- The body of the loop of `SolutionSpline` (solution_spline.h:31-38); the number of the point is the length of the list. -/
def solutionBody (s : Spl K) (solution : List K) (h : MIH) (pts : List (List K)) : M (List (List K)) := do
  let p ← buildList (fun j => s.controlPoint h.cur j) s.ph.dim
  let v ← getVec solution pts.length
  return pts ++ [p ++ [v]]

/-- `SolutionSpline(spl, solution)` (solution_spline.h:27-40) with the constructor `NURBS(nurbs, control_points)` (nurbs.h:53-57). -/
def solutionSpline (s : Spl K) (solution : List K) : M (Spl K) := do
  let h := MIH.mk' s.ph.num
  let n ← s.ph.numCPs
  let pts ← upLoop (solutionBody s solution) n.toNat h []
  let ps ← s.ps.copy
  let w ← s.ph.theWeights
  let ph ← Phys.newWeighted pts w s.ph.num
  return ⟨ps, ph⟩

/-- The parametric coordinates of a point of the output grid (solution_vtk_writer.h:41-52). -/
def solutionCoord : List (List K) → List ℤ → List ℤ → M (List K)
  | U :: Us, i :: is, n :: ns => do
    let a ← kvGet U 0
    let b ← kvGet U (toSizeT ((U.length : ℤ) - 1))
    let dxi ← fdiv (b - a) (n : K)
    let r ← solutionCoord Us is ns
    return (a + (i : K) * dxi) :: r
  | _, _, _ => .ok []

/-- The point data of `WriteSolutionToVTK` (solution_vtk_writer.h:36-56) for `scattering[0]`. -/
def solutionData (s : Spl K) (solution : List K) (scat : List ℤ) : M (List K) := do
  let t ← solutionSpline s solution
  let h := MIH.mk' (scat.map (· + 1))
  upLoop (fun h acc => do
    let x ← solutionCoord s.ps.knots h.cur scat
    let v ← t.evaluate x [(s.ph.dim : ℤ)]
    let a ← getN v 0
    return acc ++ [a]) h.length1D.toNat h []

/-! ## The Poisson problem

`arma::solve` is a parameter: a function that returns a solution of the system or throws. -/

/-- The matrix and the vector of a `PoissonProblem`; the methods change them (poisson_problem.h:70-71). -/
structure Poisson (K : Type) where
  matA : List (List K)
  vecB : List K

/-- The constructor (poisson_problem.h:29-37). -/
def poissonNew (s : Spl K) : M (Poisson K) := do
  let n ← s.ph.numCPs
  return ⟨List.replicate n.toNat (List.replicate n.toNat 0), List.replicate n.toNat 0⟩

/-- `srcCp_`: all ones (poisson_problem.h:36). -/
def poissonSource (s : Spl K) : M (List K) := do
  let n ← s.ph.numCPs
  return List.replicate n.toNat 1

/-- The two assembly statements of both methods (poisson_problem.h:40-41, 53-54): they add to the members. -/
def assemble (s : Spl K) (rule : List (K × K)) (P : Poisson K) : M (Poisson K) := do
  let src ← poissonSource s
  let A ← leftSide s rule 1 P.matA
  let b ← rightSide s rule src P.vecB
  return ⟨A, b⟩

/-- `GetSteadyStateSolution()` (poisson_problem.h:39-44): the members afterwards and the solution. -/
def steady (solve : List (List K) → List K → M (List K)) (s : Spl K) (rule : List (K × K)) (P : Poisson K) : M (Poisson K × List K) := do
  let P ← assemble s rule P
  let Q ← setZeroBC s P.matA P.vecB
  let u ← solve Q.1 Q.2
  return (⟨Q.1, Q.2⟩, u)

/-- `static_cast<int>(q)`; undefined if the value does not fit. -/
def truncInt [FloorRing K] (q : K) : M ℤ :=
  let z := if 0 ≤ q then ⌊q⌋ else ⌈q⌉
  if -2 ^ 31 ≤ z ∧ z < 2 ^ 31 then .ok z else .error .ub

/-- One time step (poisson_problem.h:57-60); the state is the matrix and the solutions computed so far. -/
def timeStep (solve : List (List K) → List K → M (List K)) (s : Spl K) (mass : List (List K)) (vecB : List K) (dt : K)
    (dirichlet : Option (List K)) (st : List (List K) × List (List K)) : M (List (List K) × List (List K)) := do
  let prev ← getN st.2 (st.2.length - 1)
  let right ← bdfRight mass vecB prev dt
  let Q ← setDirichletBC s st.1 right dirichlet
  let u ← solve Q.1 Q.2
  return (Q.1, st.2 ++ [u])

/-- `GetUnsteadyStateSolution(dt, tEnd, Dirichlet)` (poisson_problem.h:46-63): the members afterwards and the solutions. -/
def unsteady [FloorRing K] (solve : List (List K) → List K → M (List K)) (s : Spl K) (rule : List (K × K)) (dt tEnd : K)
    (dirichlet : Option (List K)) (P : Poisson K) : M (Poisson K × List (List K)) := do
  let mass ← massMatrix s rule
  let q ← fdiv tEnd dt
  let steps ← truncInt q
  let n ← s.ph.numCPs
  let P ← assemble s rule P
  let left ← bdfLeft mass P.matA dt
  let r ← forLoop (fun _ st => timeStep solve s mass P.vecB dt dirichlet st) steps.toNat 0 (left, [List.replicate n.toNat 0])
  return (P, r.2)

end Iga
end SplineLib
