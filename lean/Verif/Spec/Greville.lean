import Verif.Spec.Spline

/-!
# Control points of polynomials

The control points of the monomials are symmetric functions of `p` consecutive knots. For the exponent one they are averages of knots, the Greville
abscissae.
-/

namespace SplineLib
set_option linter.unusedSectionVars false
variable {K : Type} [Field K] [LinearOrder K] [IsStrictOrderedRing K]

/-- The elementary symmetric function of degree `m`: the sum of all products of `m` of the numbers. -/
def elemSym : List K → ℕ → K
  | _, 0 => 1
  | [], _ + 1 => 0
  | a :: l, m + 1 => elemSym l (m + 1) + a * elemSym l m

/-- The knots `u_{i+1}, …, u_{i+p}` inside the support of the basis function `i`. -/
def innerWindow (U : List K) (p i : ℕ) : List K := (List.range p).map fun j => knot U (i + 1 + j)

/-- The `i`-th control point of the monomial of degree `m`. -/
def monomialPoint (U : List K) (p m i : ℕ) : K := elemSym (innerWindow U p i) m / (p.choose m : K)

/-- The control points of monomials, one function of the index per direction. -/
def monomialFns : List (List K) → List ℕ → List ℕ → List (ℕ → K)
  | U :: Us, p :: ps, m :: ms => monomialPoint U p m :: monomialFns Us ps ms
  | _, _, _ => []

/-- The monomial `x_1^{m_1} x_2^{m_2} …`. -/
def monomialAt (x : List K) (m : List ℕ) : K := (List.zipWith (· ^ ·) x m).prod

/-- The average of `p` consecutive knots. -/
def greville (U : List K) (p i : ℕ) : K := (innerWindow U p i).sum / (p : K)

end SplineLib
