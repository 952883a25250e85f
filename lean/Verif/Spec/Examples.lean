import Verif.Spec.Spline
import Verif.Core.Eval

/-!
# Concrete splines used to show that the hypotheses of the theorems are met

These are the objects that the constructors produce (see the `example`s), over the rational numbers.
-/

namespace SplineLib

/-- A planar quadratic B-spline curve with one interior knot. -/
def exCurve : Spl ℚ :=
  ⟨⟨[[0, 0, 0, 1/2, 1, 1, 1]], [2], mkTable [[0, 0, 0, 1/2, 1, 1, 1]] [2]⟩,
   ⟨2, [4], [0, 0, 1, 2, 3, 2, 4, 0], none⟩⟩

example : Spl.newBSpline [[0, 0, 0, 1/2, 1, 1, 1]] [2] [[0, 0], [1, 2], [3, 2], [4, (0 : ℚ)]] = .ok exCurve := by decide +kernel

/-- A B-spline surface of degrees 2 and 1 with scalar control points; the second parameter range starts at -1. -/
def exSurface : Spl ℚ :=
  ⟨⟨[[0, 0, 0, 1/2, 1, 1, 1], [-1, -1, 3, 3]], [2, 1], mkTable [[0, 0, 0, 1/2, 1, 1, 1], [-1, -1, 3, 3]] [2, 1]⟩,
   ⟨1, [4, 2], [0, 1, 3, 4, 2, -1, 7, 5], none⟩⟩

example : Spl.newBSpline [[0, 0, 0, 1/2, 1, 1, 1], [-1, -1, 3, 3]] [2, 1] [[0], [1], [3], [4], [2], [-1], [7], [(5 : ℚ)]] =
    .ok exSurface := by decide +kernel

/-- A NURBS curve of degree 2 with weights 1, 2, 1/2, 3. -/
def exNurbs : Spl ℚ :=
  ⟨⟨[[0, 0, 0, 1/2, 1, 1, 1]], [2], mkTable [[0, 0, 0, 1/2, 1, 1, 1]] [2]⟩,
   ⟨2, [4], [0, 0, 1, 2, 3, 2, 4, 0], some [1, 2, 1/2, 3]⟩⟩

example : Spl.newNurbs [[0, 0, 0, 1/2, 1, 1, 1]] [2] [[0, 0], [1, 2], [3, 2], [4, (0 : ℚ)]] [1, 2, 1/2, 3] = .ok exNurbs := by
  decide +kernel

/-- A NURBS surface of degrees 2 and 1. -/
def exNurbsSurface : Spl ℚ :=
  ⟨⟨[[0, 0, 0, 1/2, 1, 1, 1], [-1, -1, 3, 3]], [2, 1], mkTable [[0, 0, 0, 1/2, 1, 1, 1], [-1, -1, 3, 3]] [2, 1]⟩,
   ⟨1, [4, 2], [0, 1, 3, 4, 2, -1, 7, 5], some [1, 2, 3, 1, 1/2, 1, 1, 4]⟩⟩

theorem exCurve_wf : WFSpl exCurve where
  knots := by simp only [exCurve]; exact .cons (by decide +kernel) .nil
  basis := by decide +kernel
  num := by decide +kernel
  dim := by decide +kernel
  cps := by decide +kernel
  weights := by intro w h; exact absurd h (by simp [exCurve])

theorem exSurface_wf : WFSpl exSurface where
  knots := by simp only [exSurface]; exact .cons (by decide +kernel) (.cons (by decide +kernel) .nil)
  basis := by decide +kernel
  num := by decide +kernel
  dim := by decide +kernel
  cps := by decide +kernel
  weights := by intro w h; exact absurd h (by simp [exSurface])

theorem exNurbs_wf : WFSpl exNurbs where
  knots := by simp only [exNurbs]; exact .cons (by decide +kernel) .nil
  basis := by decide +kernel
  num := by decide +kernel
  dim := by decide +kernel
  cps := by decide +kernel
  weights := by
    intro w h
    obtain rfl : [1, 2, 1/2, 3] = w := by simpa [exNurbs] using h
    exact ⟨by decide +kernel, by decide +kernel⟩

theorem exNurbsSurface_wf : WFSpl exNurbsSurface where
  knots := by simp only [exNurbsSurface]; exact .cons (by decide +kernel) (.cons (by decide +kernel) .nil)
  basis := by decide +kernel
  num := by decide +kernel
  dim := by decide +kernel
  cps := by decide +kernel
  weights := by
    intro w h
    obtain rfl : [1, 2, 3, 1, 1/2, 1, 1, 4] = w := by simpa [exNurbsSurface] using h
    exact ⟨by decide +kernel, by decide +kernel⟩

end SplineLib
