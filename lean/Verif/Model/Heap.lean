import Verif.Model.KnotInsertion

/-!
# Sharing of knot vectors, parameter spaces and physical spaces

The library holds knot vectors, parameter spaces and physical spaces by `std::shared_ptr`
(src/spl/alias.h, parameter_space.h:246, spline.h:428, b_spline.h:245, nurbs.h:444, spline_generator.h:38, b_spline_generator.h:51,
nurbs_generator.h:52). Here these objects live in a memory and are named by their address (a position). Memory is never reclaimed:
reference counting only decides when an object that nobody can name any more is destroyed.

A caller's program is a list of commands on named variables: spline (or generator) objects, and knot vectors.
-/

namespace SplineLib

/-- A `ParameterSpace` object: pointers to the knot vectors, degrees, and its own basis function objects. (Basis functions hold copies
of the knots they need: b_spline_basis_function.h, zero_degree_b_spline_basis_function.h.) -/
structure PSCell (K : Type) where
  knots : List ℕ
  degree : List ℕ
  basis : List (List (Basis K))
  deriving DecidableEq, Repr

/-- The memory: `KnotVector`, `ParameterSpace` and `PhysicalSpace` objects. -/
structure Heap (K : Type) where
  kvs : List (List K)
  pss : List (PSCell K)
  phs : List (Phys K)
  deriving DecidableEq, Repr

/-- A spline object or a generator object: the pointers `parameter_space_` and `physical_space_`. -/
structure Obj where
  ps : ℕ
  ph : ℕ
  deriving DecidableEq, Repr

namespace Heap
variable {K : Type}

/-- Follow the pointers to knot vectors. -/
def readAll (kvs : List (List K)) : List ℕ → M (List (List K))
  | [] => .ok []
  | a :: as => do
    let U ← getN kvs a
    let Us ← readAll kvs as
    return U :: Us

/-- Overwrite the knot vectors behind pointers. -/
def writeAll : List ℕ → List (List K) → List (List K) → List (List K)
  | a :: as, U :: Us, kvs => writeAll as Us (kvs.set a U)
  | _, _, kvs => kvs

/-- What a spline object holds, with all pointers followed. -/
def view (h : Heap K) (o : Obj) : M (Spl K) := do
  let c ← getN h.pss o.ps
  let ks ← readAll h.kvs c.knots
  let ph ← getN h.phs o.ph
  return ⟨⟨ks, c.degree, c.basis⟩, ph⟩

/-- A new object with new knot vectors, a new parameter space and a new physical space: `make_shared` for each of them. -/
def alloc (h : Heap K) (s : Spl K) : Heap K × Obj :=
  (⟨h.kvs ++ s.ps.knots, h.pss ++ [⟨List.range' h.kvs.length s.ps.knots.length, s.ps.degree, s.ps.basis⟩], h.phs ++ [s.ph]⟩,
    ⟨h.pss.length, h.phs.length⟩)

/-- A new object that points to the given knot vectors. -/
def allocShared (h : Heap K) (as : List ℕ) (s : Spl K) : Heap K × Obj :=
  (⟨h.kvs, h.pss ++ [⟨as, s.ps.degree, s.ps.basis⟩], h.phs ++ [s.ph]⟩, ⟨h.pss.length, h.phs.length⟩)

variable [LinearOrder K] [Field K]

/-- The values of a newly constructed spline. -/
def construct (knots : List (List K)) (degree : List ℕ) (points : List (List K)) : Option (List K) → M (Spl K)
  | none => Spl.newBSpline knots degree points
  | some w => Spl.newNurbs knots degree points w

/-- `BSpline(knot_vector, degree, control_points)` and `NURBS(...)` called with pointers to knot vectors (b_spline.h:35-42,
nurbs.h:33-42). `Spline(knot_vector, degree)` (spline.h:37-39) builds a temporary `ParameterSpace` on the caller's knot vectors and
copies it with `make_shared<ParameterSpace>(ParameterSpace(...))`; the copy constructor (parameter_space.h:48-61) makes new knot
vectors. `ParameterSpace` has no move constructor because it declares its copy constructor and destructor. -/
def newSpline (h : Heap K) (as : List ℕ) (degree : List ℕ) (points : List (List K)) (weights : Option (List K)) : M (Heap K × Obj) := do
  let ks ← readAll h.kvs as
  let s ← construct ks degree points weights
  return h.alloc s

/-- The copy constructors (spline.h:44-47, b_spline.h:48-51, nurbs.h:48-51, parameter_space.h:48-61, physical_space.h:52-54,
weighted_physical_space.h:37-39). -/
def copy (h : Heap K) (o : Obj) : M (Heap K × Obj) := do
  let s ← h.view o
  let s' ← s.copy
  return h.alloc s'

/-- `BSplineGenerator(knot_vector, degree, control_points)` (b_spline_generator.h:30-37, spline_generator.h:29-31): copies the
parameter space like `Spline(knot_vector, degree)` does. `NURBSGenerator(knot_vector, degree, control_points, weights)`
(nurbs_generator.h:29-38): `make_shared<ParameterSpace>(knot_vector, degree)` keeps the caller's pointers. -/
def newGenerator (h : Heap K) (as : List ℕ) (degree : List ℕ) (points : List (List K)) : Option (List K) → M (Heap K × Obj)
  | none => h.newSpline as degree points none
  | some w => do
    let ks ← readAll h.kvs as
    let ph ← Phys.newWeighted points w (Spl.pointNumbers ks degree)
    let ps ← PS.new ks degree
    return h.allocShared as ⟨ps, ph⟩

/-- A call of a member function `f` of the object. Member functions reach the memory only through `parameter_space_`, its knot
vectors, and `physical_space_`, and never make these pointers point elsewhere. Simplification: an object in which two directions share
one knot vector object (which only a `NURBSGenerator` can build) is not modelled and reported as `ub`. -/
def call (h : Heap K) (o : Obj) (f : Spl K → M (Spl K)) : M (Heap K) := do
  let c ← getN h.pss o.ps
  let s ← h.view o
  let s' ← f s
  if c.knots.Nodup ∧ s'.ps.knots.length = c.knots.length then
    return ⟨writeAll c.knots s'.ps.knots h.kvs, h.pss.set o.ps ⟨c.knots, s'.ps.degree, s'.ps.basis⟩, h.phs.set o.ph s'.ph⟩
  else .error .ub

/-- The weights of a part, for a NURBS (nurbs.h:122). -/
def partWeights (ph : Phys K) (first length : ℤ) (d : ℕ) : M (Option (List K)) :=
  match ph.weights with
  | none => .ok none
  | some _ => (ph.dividedWeights first length d).map some

/-- One part of `SudivideSpline` (b_spline.h:103-109, nurbs.h:119-126): in the divided direction the knot vector is new, in the other
directions `GetDividedKnotVectors` (parameter_space.h:197-199) passes on the pointers of the divided spline; the constructor and then
the copy constructor are called. -/
def subdividePart (h : Heap K) (o : Obj) (knots : List (List K)) (first : ℤ) (d : ℕ) : M (Heap K × Obj × ℤ) := do
  let c ← getN h.pss o.ps
  let s ← h.view o
  let U ← getN knots d
  let p ← getN s.ps.degree d
  let length : ℤ := (U.length : ℤ) - p - 1
  let points ← s.ph.dividedCPs first length d
  let weights ← partWeights s.ph first length d
  let h1 : Heap K := ⟨h.kvs ++ [U], h.pss, h.phs⟩
  let (h2, r) ← h1.newSpline (c.knots.set d h.kvs.length) s.ps.degree points weights
  let (h3, r') ← h2.copy r
  return (h3, r', length)

/-- `SudivideSpline(param_coord, dimension)` (b_spline.h:93-111, nurbs.h:107-128). -/
def subdivide (h : Heap K) (o : Obj) (x : K) (d : ℕ) : M (Heap K × Obj × Obj) := do
  let s ← h.view o
  let U ← getN s.ps.knots d
  let p ← getN s.ps.degree d
  let h1 ← h.call o (fun s => s.insertKnot x d (Spl.subdivideMult p U x))
  let s1 ← h1.view o
  let (kl, kr) ← s1.ps.dividedKnotVectors x d
  let (h2, l, len) ← h1.subdividePart o kl 0 d
  let (h3, r, _) ← h2.subdividePart o kr len d
  return (h3, l, r)

end Heap

/-- The memory and the caller's variables: spline and generator objects, and pointers to knot vectors. -/
structure Prog (K : Type) where
  heap : Heap K
  objs : List Obj
  kvars : List ℕ
  deriving DecidableEq

/-- What a caller can do. Variables are numbered in the order of their creation. -/
inductive Cmd (K : Type) where
  /-- `auto kv = std::make_shared<baf::KnotVector>(U)` -/
  | knotVector (U : List K)
  /-- `auto kv = spline.GetKnotVector(d)` (spline.h:128-130) hands out the pointer. -/
  | getKnotVector (i d : ℕ)
  /-- Any change of a knot vector through a pointer: `*kv = U`, `(*kv)[j] = u`, `kv->InsertKnot(u)`, `kv->RemoveKnot(u)` (knot_vector.h). -/
  | setKnots (j : ℕ) (U : List K)
  /-- `BSpline(kvs, degree, points)` or `NURBS(kvs, degree, points, weights)` -/
  | construct (js degree : List ℕ) (points : List (List K)) (weights : Option (List K))
  /-- `BSplineGenerator(kvs, degree, points)` or `NURBSGenerator(kvs, degree, points, weights)` -/
  | generator (js degree : List ℕ) (points : List (List K)) (weights : Option (List K))
  /-- `BSpline(generator)` or `NURBS(generator)` (b_spline.h:44-46, nurbs.h:44-46): takes over both pointers. -/
  | fromGenerator (i : ℕ)
  /-- `BSpline(spline)` or `NURBS(spline)`: copy constructor -/
  | copy (i : ℕ)
  /-- a member function call that may change the object -/
  | call (i : ℕ) (f : Spl K → M (Spl K))
  /-- `spline.SudivideSpline(x, d)`: two new variables -/
  | subdivide (i : ℕ) (x : K) (d : ℕ)

namespace Prog
variable {K : Type} [LinearOrder K] [Field K]

/-- The values of variables. -/
def lookup (vars : List ℕ) : List ℕ → M (List ℕ)
  | [] => .ok []
  | j :: js => do
    let a ← getN vars j
    let as ← lookup vars js
    return a :: as

/-- What spline variable `i` holds. -/
def view (σ : Prog K) (i : ℕ) : M (Spl K) := do
  let o ← getN σ.objs i
  σ.heap.view o

/-- One command. -/
def step (σ : Prog K) : Cmd K → M (Prog K)
  | .knotVector U => .ok ⟨⟨σ.heap.kvs ++ [U], σ.heap.pss, σ.heap.phs⟩, σ.objs, σ.kvars ++ [σ.heap.kvs.length]⟩
  | .getKnotVector i d => do
    let o ← getN σ.objs i
    let c ← getN σ.heap.pss o.ps
    let a ← getN c.knots d
    return ⟨σ.heap, σ.objs, σ.kvars ++ [a]⟩
  | .setKnots j U => do
    let a ← getN σ.kvars j
    return ⟨⟨σ.heap.kvs.set a U, σ.heap.pss, σ.heap.phs⟩, σ.objs, σ.kvars⟩
  | .construct js degree points weights => do
    let as ← lookup σ.kvars js
    let (h, o) ← σ.heap.newSpline as degree points weights
    return ⟨h, σ.objs ++ [o], σ.kvars⟩
  | .generator js degree points weights => do
    let as ← lookup σ.kvars js
    let (h, o) ← σ.heap.newGenerator as degree points weights
    return ⟨h, σ.objs ++ [o], σ.kvars⟩
  | .fromGenerator i => do
    let o ← getN σ.objs i
    return ⟨σ.heap, σ.objs ++ [o], σ.kvars⟩
  | .copy i => do
    let o ← getN σ.objs i
    let (h, o') ← σ.heap.copy o
    return ⟨h, σ.objs ++ [o'], σ.kvars⟩
  | .call i f => do
    let o ← getN σ.objs i
    let h ← σ.heap.call o f
    return ⟨h, σ.objs, σ.kvars⟩
  | .subdivide i x d => do
    let o ← getN σ.objs i
    let (h, l, r) ← σ.heap.subdivide o x d
    return ⟨h, σ.objs ++ [l, r], σ.kvars⟩

/-- A sequence of commands. -/
def run : List (Cmd K) → Prog K → M (Prog K)
  | [], σ => .ok σ
  | c :: cs, σ => do
    let σ' ← σ.step c
    run cs σ'

end Prog
end SplineLib
