import Verif.Model.Examples
import Verif.Props.Bezier
import Verif.Props.VtkText

/-!
# C107: the example programs
-/

namespace SplineLib
namespace Ex
set_option linter.unusedSectionVars false
open Str Prn VtkFormat Vtk
variable {K : Type} [Field K] [LinearOrder K] [IsStrictOrderedRing K]

/-- The spline of the optimizer for the middle control point `(x, y)`. -/
theorem parabola_built (x y : K) : ∃ s, Spl.newBSpline [[0, 0, 0, 1, 1, 1]] [2] [[-1, 0], [x, y], [1, 0]] = .ok s ∧ WFSpl s ∧ IsBSpline s ∧
    s.ps.knots = [[0, 0, 0, 1, 1, 1]] ∧ s.ps.degree = [2] ∧ s.ph.dim = 2 ∧ s.ph.cps = [-1, 0, x, y, 1, 0] := by
  have hk : kEps K < 1 := by
    unfold kEps
    rw [div_lt_one (by positivity)]; norm_num
  have hw : WFKnots ([0, 0, 0, 1, 1, 1] : List K) 2 := by
    refine ⟨by simp [SortedKnots], by simp, ?_, ?_, by simp [knot, lastKnot], ?_⟩
    · intro i hi
      interval_cases i <;> simp [knot]
    · intro i hi
      interval_cases i <;> simp [knot, lastKnot]
    · intro a ha b hb hab
      have h1 : a = 0 ∨ a = 1 := by simpa using ha
      have h2 : b = 0 ∨ b = 1 := by simpa using hb
      rcases h1 with rfl | rfl <;> rcases h2 with rfl | rfl <;> first | exact absurd hab (lt_irrefl _) | exact absurd hab (not_lt.2 zero_le_one) | (simp; exact hk.le)
  have hlen : ∀ q ∈ ([[-1, 0], [x, y], [1, 0]] : List (List K)), q.length = 2 := by simp
  obtain ⟨s, h1, h2⟩ := newBSpline_ok (knots := [[0, 0, 0, 1, 1, 1]]) (degree := [2]) (points := [[-1, 0], [x, y], [1, 0]]) (by simp)
    (.cons hw.clamped .nil) (by simp [nptsOf]) (by simp [nptsOf]) ⟨2, hlen⟩
  exact ⟨s, h1, h2.wf (.cons hw .nil) (by simp) (by simp [nptsOf]) (m := 2) (by norm_num) hlen (by simp), h2.weights, h2.knots, h2.degree,
    h2.dim [-1, 0] (by simp), by rw [h2.cps]; simp⟩

section
variable [LawfulSig 5 K]

/-- **C107** The optimizer example never writes a file: with two coordinates it is undefined (it calls a function of a null pointer), with
any other number of arguments it ends with `runtime_error`. -/
theorem C107_optimizer_undefined (atof : List Char → K) (args : List (List Char)) :
    optimizer atof args = if args.length = 3 then .error .ub else .error (.thrown .runtimeError) := by
  unfold optimizer optimizerWith
  by_cases h : args.length = 3
  · rw [if_neg (by simpa using h), if_pos h]
    obtain ⟨a, b, c, rfl⟩ := List.length_eq_three.1 h
    obtain ⟨s, h1, _⟩ := parabola_built (atof b) (atof c)
    show createVtk none [[-1, 0], [atof b, atof c], [1, 0]] = _
    unfold createVtk
    rw [h1, ok_bind]; rfl
  · rw [if_pos h, if_neg h]

/-- **C107** With a pointer to a writer, the program writes 100 line segments of the parabola from (-1, 0) to (1, 0) with the
control point given by the arguments: 101 points for equidistant parameters, six digits each. -/
theorem C107_optimizer_with_writer (atof : List Char → K) (name a b : List Char) :
    ∃ text points cells types, optimizerWith (some ()) atof [name, a, b] = .ok text ∧ IsGrid text points cells types [] ∧
      List.Forall₂ (List.Forall₂ (NearestDecimal 6)) ((List.range 101).map fun k : ℕ =>
        [-(1 - (k : K) / 100) ^ 2 + 2 * (k / 100) * (1 - k / 100) * atof a + (k / 100) ^ 2, 2 * (k / 100) * (1 - k / 100) * atof b, 0]) points ∧
      ListsCells [100] 0 (cellLines cells) ∧ zl types = List.replicate 100 (cellType 1) := by
  obtain ⟨s, h1, hwf, hb, hk, hp, hd, hc⟩ := parabola_built (atof a) (atof b)
  obtain ⟨text, points, cells, types, e1, e2, e3, e4, e5⟩ := C73_file (splines := [s]) (nss := [[100]])
    (.cons ⟨hwf, by rw [hk]; rfl, by simp, Or.inl rfl⟩ .nil)
  refine ⟨text, points, cells, types, ?_, e2, ?_, ?_, ?_⟩
  · show createVtk (some ()) [[-1, 0], [atof a, atof b], [1, 0]] = _
    unfold createVtk
    rw [h1, ok_bind]; exact e1
  · rw [List.zipWith_cons_cons, List.zipWith_nil_left, List.flatten_cons, List.flatten_nil, List.append_nil] at e3
    convert e3 using 1
    unfold gridValues
    refine List.map_congr_left fun k hk' => ?_
    have hk1 : k < 101 := List.mem_range.1 hk'
    have hg : gridParam s.ps.knots [100] (unlin ([100].map (· + 1)) k) = [(k : K) / 100] := by
      rw [hk]
      simp [gridParam, unlin, knot, lastKnot, Nat.mod_eq_of_lt hk1]
    have hx : (0 : K) ≤ k / 100 ∧ (k : K) / 100 ≤ 1 := by
      refine ⟨by positivity, ?_⟩
      rw [div_le_one (by norm_num)]
      exact_mod_cast (by omega : k ≤ 100)
    have key : ∀ c < 2, splineValue s [(k : K) / 100] c = bezier 2 (fun j => cpt s [j] c) ((k : K) / 100) := by
      intro c hc2
      have f1 := C93_bezier_curve hwf hb (p := 2) (a := 0) (b := 1) (by rw [hk]; rfl) hp hx [c] (by simpa [hd] using hc2)
      have f2 := evaluate_bspline hwf hb (x := [(k : K) / 100]) (by
        unfold InDomain; rw [hk]; exact .cons ⟨by simpa [knot] using hx.1, by simpa [knot, lastKnot] using hx.2⟩ .nil) [c] (by simpa [hd] using hc2)
      rw [f1] at f2
      have f3 := Except.ok.inj f2
      unfold splineValue
      rw [show s.ph.weights = none from hb]
      simpa using f3.symm
    have hn : npts s = [3] := by rw [npts_eq, hk, hp]; rfl
    have hlin : ∀ j, lin [3] [j] = j := fun j => by simp [lin]
    rw [hg]
    unfold padded
    rw [hd]
    simp only [List.range, List.range.loop, List.map_cons, List.map_nil]
    rw [if_pos (by norm_num), if_pos (by norm_num), if_neg (by norm_num), key 0 (by norm_num), key 1 (by norm_num)]
    unfold bezier cpt
    rw [hn, hd, hc]
    simp only [Finset.sum_range_succ, Finset.sum_range_zero, hlin]
    simp
  · obtain ⟨x, y, f1, f2, f3⟩ := e4
    rw [show y = [] from f3, List.append_nil] at f1
    rw [f1]; exact f2
  · simpa using e5

end

/-- **C107** ex1.cc (a program without input) computes the first coordinate at the parameter 1: the middle between the second and the third
control point. -/
theorem C107_ex1 : (ex1 : M (List ℚ)) = .ok [9] := by decide +kernel

end Ex
end SplineLib
