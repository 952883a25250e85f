import Verif.Spec.Spline

/-!
# Specification of changing knots without changing the spline
-/

namespace SplineLib
variable {K : Type} [Field K] [LinearOrder K]

/-- `t` lies strictly inside the range of `U` and is equal to, or at least `kEpsilon` away from, each of its knots. -/
structure Admissible (U : List K) (t : K) : Prop where
  lo : knot U 0 < t
  hi : t < lastKnot U
  sep : Separated (t :: U)

theorem admissible_iff (U : List K) (t : K) : Admissible U t ↔ (knot U 0 < t ∧ t < lastKnot U ∧ Separated (t :: U)) :=
  ⟨fun h => ⟨h.lo, h.hi, h.sep⟩, fun ⟨a, b, c⟩ => ⟨a, b, c⟩⟩

instance (U : List K) (t : K) : Decidable (Admissible U t) := decidable_of_iff _ (admissible_iff U t).symm

/-- `V` is sorted and consists of the knots of `U` and `m` more copies of `t`. -/
def KnotsAdded (U : List K) (t : K) (m : ℕ) (V : List K) : Prop :=
  SortedKnots V ∧ V.length = U.length + m ∧ ∀ y, V.count y = U.count y + if y = t then m else 0

/-- `V` is sorted and consists of the knots of `U` without `m` copies of `t`. -/
def KnotsRemoved (U : List K) (t : K) (m : ℕ) (V : List K) : Prop :=
  SortedKnots V ∧ V.length + m = U.length ∧ ∀ y, V.count y + (if y = t then m else 0) = U.count y

/-- The Euclidean distance of two points is at most `r`. -/
def Within (r : K) (a b : List K) : Prop :=
  a.length = b.length ∧ 0 ≤ r ∧ (List.zipWith (fun x y => (x - y) ^ 2) a b).sum ≤ r ^ 2

/-- Both splines have the same dimension, are of the same kind and evaluate to the same values at every point of the parameter
domain of the first (the components include, for NURBS, the weight function as component `dim`). -/
structure SameGeometry (s s' : Spl K) : Prop where
  dim : s'.ph.dim = s.ph.dim
  kind : s.ph.weights = none ↔ s'.ph.weights = none
  domain : ∀ x, InDomain s' x ↔ InDomain s x
  values : ∀ x, InDomain s x → ∀ dims : List ℕ, (∀ c ∈ dims, c < s.ph.dim ∨ (c = s.ph.dim ∧ IsNurbs s)) →
    s'.evaluate x (zl dims) = s.evaluate x (zl dims)

theorem SameGeometry.refl (s : Spl K) : SameGeometry s s := ⟨rfl, Iff.rfl, fun _ => Iff.rfl, fun _ _ _ _ => rfl⟩

end SplineLib
