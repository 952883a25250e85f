import Verif.Core.HeapSubdivide
import Verif.Props.History

/-!
# Property C25 (copies are independent of their originals)

The statements are about programs of a caller (`Cmd`), which create and change knot vectors, construct splines from them, copy and
subdivide splines, use generators, and call arbitrary member functions (`Cmd.call` takes an arbitrary function on what the object
holds; a call that throws and is caught is the call that leaves the object as it is after the exception).
-/

namespace SplineLib
set_option linter.unusedSectionVars false
variable {K : Type} [Field K] [LinearOrder K] [IsStrictOrderedRing K]

open Heap Prog

/-- The state in which a program starts. -/
def Prog.start : Prog K := ⟨⟨[], [], []⟩, [], []⟩

/-- A state that some program reaches. -/
def Prog.Reachable (σ : Prog K) : Prop := ∃ prog, run prog Prog.start = .ok σ

theorem Prog.Reachable.wf {σ : Prog K} (h : σ.Reachable) : WF σ := by
  obtain ⟨prog, e⟩ := h
  refine run_wf ⟨?_, ?_, ?_⟩ e <;> simp [Prog.start, Heap.WF]

/-- The contents of knot vector variable `j`. -/
def Prog.knotsOf (σ : Prog K) (j : ℕ) : M (List K) := do
  let a ← getN σ.kvars j
  getN σ.heap.kvs a

/-- Variable `c` of `σ` is on its own: whatever program runs, as long as it names `c` only to call its member functions,
* what `c` holds in the end is what these calls make of what it held, and
* what all other spline and knot vector variables hold in the end is the same as without these calls. -/
def Independent (σ : Prog K) (c : ℕ) : Prop :=
  ∀ prog τ, (∀ cmd ∈ prog, OnlyCalls c cmd) → run prog σ = .ok τ →
    (∀ s, σ.view c = .ok s → ∃ s', applyAll (callsOn c prog) s = .ok s' ∧ τ.view c = .ok s') ∧
    ∃ τ', run (prog.filter fun cmd => !cmd.names c) σ = .ok τ' ∧ (∀ i, i ≠ c → τ.view i = τ'.view i) ∧ ∀ j, τ.knotsOf j = τ'.knotsOf j

theorem Prog.Private.independent {σ : Prog K} {c : ℕ} {F : Foot} (p : Private σ c F) (w : WF σ) : Independent σ c := by
  intro prog τ hn e
  obtain ⟨p', _, h1, τ', h2, h3⟩ := run_noninterference p w hn e
  refine ⟨h1, τ', h2, fun i hi => p'.view_eq h3 hi, ?_⟩
  intro j
  unfold Prog.knotsOf
  rw [← h3.kvars]
  cases ha : getN τ.kvars j with
  | error e => rfl
  | ok a =>
    simp only [ok_bind]
    exact getN_congr (h3.heap.kv a (p'.kvars a (List.mem_of_getElem? (getN_ok ha))))

theorem copy_consistent {s : Spl K} (h : PS.basisTable s.ps.knots s.ps.degree = .ok s.ps.basis) : s.copy = .ok s := by
  simp only [Spl.copy, PS.copy, h, ok_bind, pure_ok]

theorem view_lt {σ : Prog K} {i : ℕ} {s : Spl K} (h : σ.view i = .ok s) : i < σ.objs.length := by
  obtain ⟨o, ho, _⟩ := bind_ok h
  exact (List.getElem?_eq_some_iff.1 (getN_ok ho)).1

theorem view_objs {σ : Prog K} {i : ℕ} {o : Obj} (h : σ.objs[i]? = some o) : σ.view i = σ.heap.view o := by
  have : getN σ.objs i = .ok o := by simp only [getN, h]
  simp only [Prog.view, this, ok_bind]

/-- The old variables hold what they held when the memory grows next to them. -/
theorem view_grown {σ : Prog K} (w : WF σ) {h : Heap K} (k : ∀ F, InRange σ.heap F → Keeps F σ.heap h) (os : List Obj) (as : List ℕ)
    {i : ℕ} (hi : i < σ.objs.length) : Prog.view ⟨h, σ.objs ++ os, as⟩ i = σ.view i := by
  have ho : σ.objs[i]? = some σ.objs[i] := List.getElem?_eq_getElem hi
  have l := w.objs _ (List.getElem_mem hi)
  rw [view_objs (σ := ⟨h, σ.objs ++ os, as⟩) (by rw [List.getElem?_append_left hi]; exact ho), view_objs ho]
  exact view_old (k _ (inRange_footOf w.heap l)) l

/-- **C25**, copy constructor: the copy holds what the original holds (for objects whose basis functions are up to date, which by C23
are all objects that the operations produce), all other variables hold what they held, and from then on copy and original do not
influence each other. -/
theorem C25_copy_independent {σ σ1 : Prog K} (hr : σ.Reachable) {i : ℕ} {s : Spl K} (hs : σ.view i = .ok s)
    (hb : PS.basisTable s.ps.knots s.ps.degree = .ok s.ps.basis) (e : σ.step (.copy i) = .ok σ1) :
    σ1.view σ.objs.length = .ok s ∧ (∀ j < σ.objs.length, σ1.view j = σ.view j) ∧ Independent σ1 σ.objs.length := by
  have w := hr.wf
  have w1 := step_wf w e
  obtain ⟨o, ho, e⟩ := bind_ok e
  obtain ⟨⟨h, o'⟩, ho', e⟩ := bind_ok e
  cases e
  obtain ⟨g, f⟩ := grow_copy ho'
  obtain ⟨s1, s2, v1, v2, v3⟩ := view_copy ho'
  simp only [Prog.view, ho, ok_bind] at hs
  rw [hs] at v1
  cases v1
  rw [copy_consistent hb] at v2
  cases v2
  refine ⟨?_, ?_, (private_new w g f).independent w1⟩
  · rw [view_objs (o := o') (by simp)]
    exact v3
  · intro j hj
    exact view_grown w (fun F r => (keeps_copy r ho').1) [o'] _ hj

theorem knotsOf_all {σ : Prog K} : ∀ {js as : List ℕ} {ks : List (List K)}, lookup σ.kvars js = .ok as → readAll σ.heap.kvs as = .ok ks →
    List.Forall₂ (fun j U => σ.knotsOf j = .ok U) js ks
  | [], as, ks, has, v => by
    cases has
    cases v
    exact .nil
  | j :: js, as, ks, has, v => by
    obtain ⟨a, ha, has⟩ := bind_ok has
    obtain ⟨as', has', has⟩ := bind_ok has
    cases has
    obtain ⟨U, hU, v⟩ := bind_ok v
    obtain ⟨Us, hUs, v⟩ := bind_ok v
    cases v
    exact .cons (by simp only [Prog.knotsOf, ha, ok_bind]; exact hU) (knotsOf_all has' hUs)

theorem callsOn_nil {c : ℕ} : ∀ {prog : List (Cmd K)}, (∀ cmd ∈ prog, cmd.names c = false) → callsOn c prog = []
  | [], _ => rfl
  | cmd :: prog, h => by rw [callsOn_other (h cmd (by simp)), callsOn_nil fun x hx => h x (by simp [hx])]

/-- **C25**, construction from knot vectors: the new spline holds a spline constructed from what the caller's knot vectors contain, and
is independent of all other variables, including the caller's knot vectors. -/
theorem C25_construct_independent {σ σ1 : Prog K} (hr : σ.Reachable) {js degree : List ℕ} {points : List (List K)}
    {weights : Option (List K)} (e : σ.step (.construct js degree points weights) = .ok σ1) :
    (∃ ks s, List.Forall₂ (fun j U => σ.knotsOf j = .ok U) js ks ∧ Heap.construct ks degree points weights = .ok s ∧
      σ1.view σ.objs.length = .ok s) ∧ (∀ j < σ.objs.length, σ1.view j = σ.view j) ∧ Independent σ1 σ.objs.length := by
  have w := hr.wf
  have w1 := step_wf w e
  obtain ⟨as, has, e⟩ := bind_ok e
  obtain ⟨⟨h, o'⟩, ho', e⟩ := bind_ok e
  cases e
  obtain ⟨g, f⟩ := grow_newSpline ho'
  obtain ⟨ks, s, v1, v2, v3⟩ := view_newSpline ho'
  refine ⟨⟨ks, s, ?_, v2, ?_⟩, ?_, (private_new w g f).independent w1⟩
  · exact knotsOf_all has v1
  · rw [view_objs (o := o') (by simp)]
    exact v3
  · intro j hj
    exact view_grown w (fun F r => (keeps_newSpline r ho').1) [o'] _ hj

/-- **C25**, subdivision: although the parts are constructed from knot vector pointers of the divided spline, the two parts and the
divided spline are independent of each other. They hold what C20 describes. -/
theorem C25_subdivide_independent {σ σ1 : Prog K} (hr : σ.Reachable) {i : ℕ} {t : K} {d : ℕ} (e : σ.step (.subdivide i t d) = .ok σ1) :
    (∃ s s1 sl sr, σ.view i = .ok s ∧ s.subdivide t d = .ok (s1, sl, sr) ∧ σ1.view i = .ok s1 ∧ σ1.view σ.objs.length = .ok sl ∧
      σ1.view (σ.objs.length + 1) = .ok sr) ∧ Independent σ1 σ.objs.length ∧ Independent σ1 (σ.objs.length + 1) := by
  have w := hr.wf
  have w1 := step_wf w e
  obtain ⟨o, ho, e⟩ := bind_ok e
  obtain ⟨⟨h, l, r⟩, hh, e⟩ := bind_ok e
  cases e
  have hi : i < σ.objs.length := (List.getElem?_eq_some_iff.1 (getN_ok ho)).1
  obtain ⟨s, s1, sl, sr, v1, v2, v3, v4, v5⟩ := view_subdivide w.heap hh
  obtain ⟨g, f1, h2, g12, l2, g2, f2, _⟩ := grow_subdivide hh
  refine ⟨⟨s, s1, sl, sr, ?_, v2, ?_, ?_, ?_⟩, ?_, ?_⟩
  · rw [view_objs (getN_ok ho)]; exact v1
  · rw [view_objs (o := o) (by rw [List.getElem?_append_left hi]; exact getN_ok ho)]
    exact v3
  · rw [view_objs (o := l) (by simp)]
    exact v4
  · rw [view_objs (o := r) (by simp)]
    exact v5
  · refine Private.independent (F := footOf h l) ⟨⟨l, by simp, hasFoot_footOf f1.2.2.1⟩, ?_, fun a ha => f1.kv_apart (w.kvars a ha)⟩ w1
    intro j o' hj ho'
    rw [List.getElem?_append] at ho'
    split at ho'
    · exact f1.old_apart w.heap g (w.objs o' (List.mem_of_getElem? ho'))
    · obtain ⟨m, hm⟩ : ∃ m, j = σ.objs.length + (m + 1) := ⟨j - σ.objs.length - 1, by omega⟩
      subst hm
      rw [show σ.objs.length + (m + 1) - σ.objs.length = m + 1 by omega] at ho'
      cases m with
      | zero =>
        simp only [zero_add, List.getElem?_cons_succ, List.getElem?_cons_zero, Option.some.injEq] at ho'
        subst ho'
        exact f2.new_apart (g12.wf w.heap) g2 l2
      | succ m => simp at ho'
  · refine Private.independent (F := footOf h r) ⟨⟨r, by simp, hasFoot_footOf f2.2.2.1⟩, ?_,
      fun a ha => f2.kv_apart ((w.kvars a ha).trans_le g12.lkv)⟩ w1
    intro j o' hj ho'
    rw [List.getElem?_append] at ho'
    split at ho'
    · exact f2.old_apart (g12.wf w.heap) g2 ((w.objs o' (List.mem_of_getElem? ho')).grow g12)
    · rename_i hlt
      obtain ⟨m, hm⟩ : ∃ m, j = σ.objs.length + m := ⟨j - σ.objs.length, by omega⟩
      subst hm
      rw [show σ.objs.length + m - σ.objs.length = m by omega] at ho'
      match m, hj, ho' with
      | 0, _, ho' =>
        simp only [List.getElem?_cons_zero, Option.some.injEq] at ho'
        subst ho'
        exact f2.old_apart (g12.wf w.heap) g2 l2
      | 1, hj, _ => exact absurd rfl hj
      | m + 2, _, ho' => simp at ho'

/-- In particular: after copying, no program that does not name the copy changes any value that the copy evaluates to. -/
theorem C25_copy_evaluates_the_same {σ σ1 τ : Prog K} (hr : σ.Reachable) {i : ℕ} {s : Spl K} (hs : σ.view i = .ok s)
    (hb : PS.basisTable s.ps.knots s.ps.degree = .ok s.ps.basis) (e : σ.step (.copy i) = .ok σ1) {prog : List (Cmd K)}
    (hn : ∀ cmd ∈ prog, cmd.names σ.objs.length = false) (hrun : run prog σ1 = .ok τ) (x : List K) (dims : List ℤ) :
    ((τ.view σ.objs.length).bind fun s' => s'.evaluate x dims) = s.evaluate x dims := by
  obtain ⟨h1, _, h2⟩ := C25_copy_independent hr hs hb e
  obtain ⟨h3, _⟩ := h2 prog τ (fun cmd hc => Or.inl (hn cmd hc)) hrun
  obtain ⟨s', a1, a2⟩ := h3 s h1
  have : callsOn σ.objs.length prog = [] := callsOn_nil hn
  rw [this] at a1
  cases a1
  rw [a2]
  rfl

/-- And no sequence of calls on the copy changes any value that another variable evaluates to. -/
theorem C25_calls_on_copy_change_nothing_else {σ σ1 τ : Prog K} (hr : σ.Reachable) {i : ℕ} {s : Spl K} (hs : σ.view i = .ok s)
    (hb : PS.basisTable s.ps.knots s.ps.degree = .ok s.ps.basis) (e : σ.step (.copy i) = .ok σ1)
    (fs : List (Spl K → M (Spl K))) (hrun : run (fs.map (Cmd.call σ.objs.length)) σ1 = .ok τ) {j : ℕ} (hj : j < σ.objs.length)
    (x : List K) (dims : List ℤ) :
    ((τ.view j).bind fun s' => s'.evaluate x dims) = ((σ.view j).bind fun s' => s'.evaluate x dims) := by
  obtain ⟨_, h1, h2⟩ := C25_copy_independent hr hs hb e
  obtain ⟨_, τ', h3, h4, _⟩ := h2 _ τ (by
    intro cmd hc
    obtain ⟨f, _, rfl⟩ := List.mem_map.1 hc
    exact Or.inr ⟨f, rfl⟩) hrun
  have : (fs.map (Cmd.call σ.objs.length)).filter (fun cmd => !cmd.names σ.objs.length) = [] := by
    rw [List.filter_eq_nil_iff]
    intro cmd hc
    obtain ⟨f, _, rfl⟩ := List.mem_map.1 hc
    simp [Cmd.names]
  rw [this] at h3
  cases h3
  rw [h4 j (by omega), h1 j hj]

/-! ### Where objects do share

A program for the examples: two knot vectors of the caller, a NURBS generator on one of them, a spline from the generator, and a
spline constructed directly. -/

/-- Knots of the examples. -/
def exU : List ℚ := [0, 0, 1, 2, 2]

/-- One knot vector, a `NURBSGenerator` on it, two splines built by the generator, a copy of the first one. -/
def exShare : List (Cmd ℚ) :=
  [.knotVector exU, .generator [0] [1] [[0], [1], [4]] (some [1, 1, 1]), .fromGenerator 0, .fromGenerator 0, .copy 1]

/-- What variable `i` evaluates to after a program. -/
def outcome (prog : List (Cmd ℚ)) (i : ℕ) (x : ℚ) : M (List ℚ) := do
  let σ ← run prog Prog.start
  let s ← σ.view i
  s.evaluate [x] [0]

/-- The final state of a program that runs without error. -/
def finalState (prog : List (Cmd ℚ)) : Prog ℚ := (run prog Prog.start).toOption.getD Prog.start

/-- The hypotheses of the theorems can be met: a surface is constructed, copied and subdivided. -/
def exSurfaceProg : List (Cmd ℚ) :=
  [.knotVector exU, .knotVector [0, 0, 1, 1], .construct [0, 1] [1, 1] [[0], [1], [4], [2], [5], [3]] none]

example : (finalState exSurfaceProg).Reachable := ⟨exSurfaceProg, by decide +kernel⟩
example : (finalState exSurfaceProg).step (.copy 0) = .ok (finalState (exSurfaceProg ++ [.copy 0])) := by decide +kernel
example : (finalState exSurfaceProg).step (.subdivide 0 (1/2) 0) = .ok (finalState (exSurfaceProg ++ [.subdivide 0 (1/2) 0])) := by
  decide +kernel
example : ∃ s, (finalState exSurfaceProg).view 0 = .ok s ∧ PS.basisTable s.ps.knots s.ps.degree = .ok s.ps.basis :=
  ⟨((finalState exSurfaceProg).view 0).toOption.getD exSurface, by decide +kernel, by decide +kernel⟩
example : (finalState (exSurfaceProg ++ [.copy 0])).step (.call 1 fun s => s.insertKnot (1/2) 1) ≠ .error .ub := by decide +kernel

/-- **C25 fails for generators**: two splines made by one generator share their parameter and physical space. Removing a knot from the
first one changes what the second one evaluates to; the copy made before still evaluates to the old value. -/
theorem C25_generator_splines_share :
    outcome exShare 2 1 = .ok [1] ∧
    outcome (exShare ++ [.call 1 fun s => ((@Spl.removeKnot ℚ _ _ ratSqrt s 1 0 100 1).map Prod.fst)]) 2 1 = .ok [2] ∧
    outcome (exShare ++ [.call 1 fun s => ((@Spl.removeKnot ℚ _ _ ratSqrt s 1 0 100 1).map Prod.fst)]) 3 1 = .ok [1] := by
  decide +kernel

/-- **C25 fails for `NURBSGenerator`**: it keeps the caller's knot vectors, so a later change of them reaches the spline: here its
evaluation becomes undefined behaviour (knot span beyond the basis functions that were created before). The copy is not affected. -/
theorem C25_nurbs_generator_keeps_callers_knots :
    outcome exShare 1 (3/2) = .ok [5/2] ∧ outcome (exShare ++ [.setKnots 0 [0, 0, 1/2, 1, 5/4, 2, 2]]) 1 (3/2) = .error .ub ∧
    outcome (exShare ++ [.setKnots 0 [0, 0, 1/2, 1, 5/4, 2, 2]]) 3 (3/2) = .ok [5/2] := by
  decide +kernel

end SplineLib
