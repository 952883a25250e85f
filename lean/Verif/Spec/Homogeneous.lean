import Verif.Spec.Spline

/-!
# Homogeneous coordinates of a spline (specification)
-/

namespace SplineLib
variable {K : Type} [Field K] [LinearOrder K]

/-- Homogeneous coordinate `c` of the control point `I`: the weighted coordinates, then the weight. -/
def hom (s : Spl K) (c : ℕ) (I : List ℕ) : K := if c = s.ph.dim then wgt s I else wgt s I * cpt s I c

/-- Homogeneous coordinate `c` of the spline at `x`. -/
def homSum (s : Spl K) (x : List K) (c : ℕ) : K := tensorSum s x (hom s c)

/-- The product of the basis functions of the directions other than `d`. -/
def others (Us : List (List K)) (ps : List ℕ) (x : List K) (d : ℕ) (J : List ℕ) : K := dprod ((basisFns Us ps x).set d fun _ => 1) J

/-- The same kind of spline with the same parameter domain and the same homogeneous coordinates at every parameter. For
B-splines the last coordinate is 1, so that this is equality of the points. -/
structure SameHomogeneous (s s' : Spl K) : Prop where
  dim : s'.ph.dim = s.ph.dim
  kind : s.ph.weights = none ↔ s'.ph.weights = none
  domain : ∀ x, InDomain s' x ↔ InDomain s x
  values : ∀ x, InDomain s x → ∀ c ≤ s.ph.dim, homSum s' x c = homSum s x c

end SplineLib
