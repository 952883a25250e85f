import Verif.Spec.Spline
import Mathlib.Data.Nat.Choose.Basic

/-!
# Bernstein polynomials and Bézier spans (specification)
-/

namespace SplineLib
open Finset
variable {K : Type} [Field K] [LinearOrder K]

/-- The Bernstein polynomial `C(n,j) t^j (1-t)^(n-j)`. -/
def bern (n j : ℕ) (t : K) : K := (n.choose j : K) * t ^ j * (1 - t) ^ (n - j)

/-- `x` lies in the span from knot `k` to knot `k+1`, and both knots are repeated `p` times. The right end belongs to the span only at the end of the
range. -/
structure InBezierSpan (U : List K) (p k : ℕ) (x : K) : Prop where
  bound : k + 1 < U.length
  inside : (knot U k ≤ x ∧ x < knot U (k + 1)) ∨ (knot U k < x ∧ x = knot U (k + 1) ∧ x = lastKnot U)
  left : ∀ j < p, knot U (k - j) = knot U k
  right : ∀ j < p, knot U (k + 1 + j) = knot U (k + 1)

/-- The same in each direction. -/
def InBezierSpans : List (List K) → List ℕ → List ℕ → List K → Prop
  | U :: Us, p :: ps, k :: ks, x :: xs => InBezierSpan U p k x ∧ InBezierSpans Us ps ks xs
  | [], [], [], [] => True
  | _, _, _, _ => False

/-- The parameters relative to their spans. -/
def localParams : List (List K) → List ℕ → List K → List K
  | U :: Us, k :: ks, x :: xs => (x - knot U k) / (knot U (k + 1) - knot U k) :: localParams Us ks xs
  | _, _, _ => []

/-- The Bernstein polynomials of each direction. -/
def bernFns (ps : List ℕ) (ts : List K) : List (ℕ → K) := List.zipWith (fun p t j => bern p j t) ps ts

/-- The tensor product Bézier form with degrees `ps` and coefficients `F`. -/
def bezierSum (ps : List ℕ) (ts : List K) (F : List ℕ → K) : K := msum (ps.map (· + 1)) fun J => dprod (bernFns ps ts) J * F J

/-- The control points of the spans `ks`: they start at index `k - p` in each direction. -/
def spanIndex (ks ps J : List ℕ) : List ℕ := List.zipWith (· + ·) (List.zipWith (· - ·) ks ps) J

end SplineLib
