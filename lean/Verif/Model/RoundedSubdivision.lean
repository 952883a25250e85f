import Verif.Model.RoundedInsertion

/-!
# Subdivision with rounded arithmetic

`SudivideSpline` where every floating point operation is followed by a rounding. The only arithmetic is in the insertion of knots, in the
search for the knot span and in the new basis functions; knots, control points and weights are copied.
-/

namespace SplineLib
set_option linter.unusedSectionVars false

namespace Fl
variable {K : Type} [LinearOrder K] [Field K] (r : Rounding K)

/-- `GetDividedKnotVectors(param_coord, dimension)` (parameter_space.h:191-207). -/
def dividedKnotVectors (ps : PS K) (x : K) (d : ℕ) : M (List (List K) × List (List K)) := do
  let U ← getN ps.knots d
  let p ← getN ps.degree d
  let k ← span r U x
  let left ← buildList (fun j => getI U j) (k + 1).toNat
  let right ← buildList (fun j => getI U (k - p + j)) ((U.length : ℤ) - (k - p)).toNat
  return (ps.knots.set d left, ps.knots.set d right)

/-- Copy constructors (spline.h:44-47, b_spline.h:48-51, nurbs.h:48-51). -/
def copy (s : Spl K) : M (Spl K) := do
  let ps ← copyPS r s.ps
  return ⟨ps, s.ph⟩

/-- One part of `SudivideSpline` (b_spline.h:104-107, nurbs.h:120-124); also returns `length`. -/
def subdividePart (s : Spl K) (knots : List (List K)) (first : ℤ) (d : ℕ) : M (Spl K × ℤ) := do
  let U ← getN knots d
  let p ← getN s.ps.degree d
  let length : ℤ := (U.length : ℤ) - p - 1
  let points ← s.ph.dividedCPs first length d
  match s.ph.weights with
  | none =>
    let q ← newBSpline r knots s.ps.degree points
    let q ← copy r q
    return (q, length)
  | some _ =>
    let weights ← s.ph.dividedWeights first length d
    let q ← newNurbs r knots s.ps.degree points weights
    let q ← copy r q
    return (q, length)

/-- `SudivideSpline(param_coord, dimension)` (b_spline.h:93-111, nurbs.h:107-128): returns the changed original and the two parts. -/
def subdivide (s : Spl K) (x : K) (d : ℕ) : M (Spl K × Spl K × Spl K) := do
  let U ← getN s.ps.knots d
  let p ← getN s.ps.degree d
  let s ← insertKnot r s x d (Spl.subdivideMult p U x)
  let (kl, kr) ← dividedKnotVectors r s.ps x d
  let (l, len) ← subdividePart r s kl 0 d
  let (q, _) ← subdividePart r s kr len d
  return (s, l, q)

end Fl
end SplineLib
