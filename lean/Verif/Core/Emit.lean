import Verif.Model.Emit
import Verif.Core.IritCut

/-!
# Lemmas about writers as sequences of outputs
-/

namespace SplineLib
set_option linter.unusedSectionVars false
open Str Prn

namespace Emitted

/-- The text, if the writer returned. -/
def run (a : Emitted) : M (List Char) :=
  match a.2 with
  | .ok _ => .ok a.1
  | .error e => .error e

@[simp] theorem run_emit (t : List Char) : (emit t).run = .ok t := rfl

@[simp] theorem run_emitM (x : M (List Char)) : (emitM x).run = x := by
  cases x <;> rfl

@[simp] theorem run_andThen (a b : Emitted) : (a.andThen b).run = a.run >>= fun x => b.run >>= fun y => .ok (x ++ y) := by
  obtain ⟨t, r⟩ := a
  obtain ⟨u, q⟩ := b
  cases r <;> cases q <;> rfl

theorem run_ok {a : Emitted} {t : List Char} : a.run = .ok t ↔ a = (t, .ok ()) := by
  obtain ⟨u, r⟩ := a
  cases r with
  | error e => simp [run]
  | ok v => simp [run]

theorem run_error {a : Emitted} {e : Err} : a.run = .error e ↔ a.2 = .error e := by
  obtain ⟨u, r⟩ := a
  cases r with
  | error e => simp [run]
  | ok v => simp [run]

theorem andThen_ok (t : List Char) (b : Emitted) : andThen (t, .ok ()) b = (t ++ b.1, b.2) := rfl

theorem andThen_error (t : List Char) (e : Err) (b : Emitted) : andThen (t, .error e) b = (t, .error e) := rfl

theorem andThen_assoc (a b c : Emitted) : (a.andThen b).andThen c = a.andThen (b.andThen c) := by
  obtain ⟨t, r⟩ := a
  obtain ⟨u, q⟩ := b
  cases r <;> cases q <;> simp [andThen]

end Emitted
open Emitted

theorem mbind_assoc {α β γ : Type} (x : M α) (f : α → M β) (g : β → M γ) : (x >>= f) >>= g = x >>= fun a => f a >>= g := by
  cases x <;> rfl

namespace Irit
variable {K : Type} [LinearOrder K] [Field K] [DecPrinter K]

theorem run_addSplineE (s : Spl K) (n : ℕ) : (addSplineE s n).run = addSpline s n := by
  unfold addSplineE addSpline
  simp only [run_andThen, run_emit, run_emitM, ok_bind, mbind_assoc]
  unfold splineBody
  split_ifs <;> simp only [mbind_assoc, error_bind, ok_bind, pure_ok, List.append_assoc]

theorem run_splinesE : ∀ (ss : List (Spl K)) (n : ℕ), (splinesE ss n).run = splinesText ss n
  | [], _ => rfl
  | [s], n => run_addSplineE s n
  | s :: t :: rest, n => by
    rw [splinesE, splinesText]
    simp only [run_andThen, run_addSplineE, run_emit, run_splinesE (t :: rest) (n + 1), ok_bind, mbind_assoc, pure_ok]
    rfl

theorem run_writeE (ss : List (Spl K)) : (writeE ss).run = writeFile ss := by
  unfold writeE writeFile
  simp only [run_andThen, run_emit, run_splinesE, ok_bind, mbind_assoc, pure_ok]

end Irit

namespace Iges
variable {K : Type} [LinearOrder K] [Field K] [GenPrinter K]

theorem run_writeE (f t1 t2 : List Char) (ss : List (Spl K)) : (writeE f t1 t2 ss).run = writeFile f t1 t2 ss := run_emitM _

end Iges

namespace Vtk
variable {K : Type} [LinearOrder K] [Field K] [SigPrinter 5 K]

theorem run_pointsE (s : Spl K) (scat : List ℤ) : ∀ (n : ℕ) (h : MIH) (acc : List (List K)),
    upLoop (fun h acc => do
      let x ← gridCoord s.ps.knots h.cur scat
      let l ← pointLine s x
      return acc ++ [l]) n h acc >>= (fun p => .ok (p.flatMap pointText)) =
    (pointsE s scat n h).run >>= fun t => .ok (acc.flatMap pointText ++ t) := by
  intro n
  induction n with
  | zero => intro h acc; simp [upLoop, pointsE]
  | succ n ih =>
    intro h acc
    rw [upLoop, pointsE]
    simp only [run_andThen, run_emitM, mbind_assoc, ok_bind, pure_ok]
    cases gridCoord s.ps.knots h.cur scat with
    | error e => rfl
    | ok x =>
      simp only [ok_bind]
      cases pointLine s x with
      | error e => rfl
      | ok l =>
        simp only [ok_bind]
        have := ih h.incr (acc ++ [l])
        simp only [pure_ok] at this
        rw [this]
        simp

theorem run_addPointsE (s : Spl K) (scat : List ℤ) (dim : ℕ) :
    (addPointsE s scat dim).run = addPoints s scat dim >>= fun p => .ok (p.flatMap pointText) := by
  unfold addPointsE addPoints
  split_ifs with h
  · dsimp only
    unfold writePoints
    rw [run_pointsE]
    cases (pointsE s (scat.take dim) _ _).run <;> rfl
  · rfl

theorem run_allPointsE : ∀ (ss : List (Spl K)) (cs : List (List ℤ)),
    (allPointsE ss cs).run = allPoints ss cs >>= fun p => .ok (p.flatMap pointText)
  | [], _ => by simp [allPointsE, allPoints]
  | _ :: _, [] => by simp [allPointsE, allPoints]
  | s :: ss, c :: cs => by
    rw [allPointsE, allPoints]
    simp only [run_andThen, run_addPointsE, run_allPointsE ss cs, mbind_assoc, ok_bind, pure_ok, List.flatMap_append]

omit [LinearOrder K] [Field K] [SigPrinter 5 K] in
theorem run_allCellsE : ∀ (ds : List ℕ) (cs : List (List ℤ)) (off : ℤ),
    (allCellsE ds cs off).run = allCells ds cs off >>= fun p => .ok (p.flatMap cellText)
  | [], _, _ => by simp [allCellsE, allCells]
  | _ :: _, [], _ => by simp [allCellsE, allCells]
  | d :: ds, c :: cs, off => by
    rw [allCellsE, allCells]
    simp only [run_andThen, run_emitM, run_allCellsE ds cs, mbind_assoc, ok_bind, pure_ok, List.flatMap_append]

theorem run_writeE (ss : List (Spl K)) (scat : List (List ℤ)) : (writeE ss scat).run = writeText ss scat := by
  unfold writeE writeText writeFile checkScattering
  dsimp only
  split_ifs with h
  · rfl
  · simp only [run_andThen, run_emit, run_emitM, run_allPointsE, run_allCellsE, mbind_assoc, ok_bind, pure_ok]
    cases checkSizes scat (ss.map fun s => s.ps.knots.length) with
    | error e => rfl
    | ok u =>
      simp only [ok_bind]
      cases allPoints ss scat with
      | error e => rfl
      | ok p =>
        simp only [ok_bind]
        cases allCells (ss.map fun s => s.ps.knots.length) scat 0 with
        | error e => rfl
        | ok c => simp only [ok_bind, fileText, List.append_assoc, List.nil_append]

end Vtk

section
variable {K : Type} [LinearOrder K] [Field K] [IsStrictOrderedRing K] [FloorRing K] [LawfulPrinter K]

theorem addSplineE_ok {s : Spl K} (h : WFSpl s) (hd : 1 ≤ s.ps.knots.length ∧ s.ps.knots.length ≤ 3) (n : ℕ) :
    Irit.addSplineE s n = ("  [OBJECT SPLINE".toList ++ (natText (n + 1) ++ ("\n    ".toList ++ (splText s ++ "    ]\n  ]\n".toList))), .ok ()) :=
  run_ok.1 ((Irit.run_addSplineE s n).trans (addSpline_eq h hd n))

theorem addSplineE_bad {s : Spl K} (hd : ¬ (1 ≤ s.ps.knots.length ∧ s.ps.knots.length ≤ 3)) (n : ℕ) :
    Irit.addSplineE s n = ("  [OBJECT SPLINE".toList ++ (natText (n + 1) ++ "\n    ".toList), .error (.thrown .runtimeError)) := by
  have : Irit.splineBody s = .error (.thrown .runtimeError) := by
    unfold Irit.splineBody
    rw [if_neg (by omega), if_neg (by omega), if_neg (by omega)]
  unfold Irit.addSplineE
  rw [this]
  simp [emitM, emit, andThen]

theorem splinesE_bad {bad : Spl K} (hb : ¬ (1 ≤ bad.ps.knots.length ∧ bad.ps.knots.length ≤ 3)) (rest : List (Spl K)) :
    ∀ (ss : List (Spl K)) (n : ℕ), (∀ s ∈ ss, WFSpl s ∧ 1 ≤ s.ps.knots.length ∧ s.ps.knots.length ≤ 3) →
    ∃ t, Irit.splinesE (ss ++ bad :: rest) n = (t, .error (.thrown .runtimeError)) ∧
      Tokens (splitSep ' ') (strip t) (blockToks ss n ++ ["[OBJECT".toList, "SPLINE".toList ++ natText (n + ss.length + 1)]) ∧
      ∃ u, strip t = ' ' :: u := by
  intro ss
  induction ss with
  | nil =>
    intro n _
    have e : Irit.splinesE ([] ++ bad :: rest) n =
        ("  [OBJECT SPLINE".toList ++ (natText (n + 1) ++ "\n    ".toList), .error (.thrown .runtimeError)) := by
      cases rest with
      | nil => exact addSplineE_bad hb n
      | cons r rest => rw [List.nil_append, Irit.splinesE, addSplineE_bad hb n, andThen_error]
    refine ⟨_, e, ?_, ?_⟩
    · have n1 : strip "  [OBJECT SPLINE".toList = List.replicate 2 ' ' ++ ("[OBJECT".toList ++ (' ' :: "SPLINE".toList)) := by decide
      have n2 : strip "\n    ".toList = List.replicate 4 ' ' ++ [] := by decide
      have hw : Word ("SPLINE".toList ++ natText (n + 1)) :=
        ⟨by simp, fun c hc => (List.mem_append.1 hc).elim (fun h => (by decide : ∀ c ∈ "SPLINE".toList, ¬ splitSep ' ' c) c h)
          ((word_natText (n + 1)).2 c)⟩
      have a1 := hw.tokens (Or.inr ⟨_, rfl⟩) (tokens_blanks (.nil : Tokens (splitSep ' ') [] []) 4)
      have a2 := Word.tokens (t := "[OBJECT".toList) ⟨by decide, by decide⟩ (Or.inr ⟨_, rfl⟩) (tokens_blank a1)
      have a3 := tokens_blanks a2 2
      rw [strip_append, strip_append, strip_natText, n1, n2]
      simpa [blockToks] using a3
    · rw [strip_append]; exact ⟨_, rfl⟩
  | cons s ss ih =>
    intro n h
    obtain ⟨h1, h2⟩ := h s (by simp)
    obtain ⟨b, e1, e2, u, e3⟩ := ih (n + 1) (fun x hx => h x (by simp [hx]))
    have hne : ∃ y l, ss ++ bad :: rest = y :: l := by
      cases ss with
      | nil => exact ⟨_, _, rfl⟩
      | cons y l => exact ⟨_, _, rfl⟩
    obtain ⟨y, l, hyl⟩ := hne
    rw [List.cons_append, hyl, Irit.splinesE, ← hyl, e1, addSplineE_ok h1 h2 n, andThen_ok]
    refine ⟨_, rfl, ?_, ?_⟩
    · have hb' : strip (andThen (emit ['\n']) (b, .error (.thrown .runtimeError))).1 = strip b := by
        show strip ('\n' :: b) = _
        simp [strip]
      have := tokens_block h1 n (e := []) (r := strip b) ⟨by decide, by decide⟩ (Or.inr ⟨u, e3⟩) e2
      rw [strip_append, hb']
      have e : n + (s :: ss).length + 1 = n + 1 + ss.length + 1 := by simp only [List.length_cons]; omega
      rw [e, blockToks]
      simpa using this
    · rw [List.append_assoc, strip_append]; exact ⟨_, rfl⟩

/-- Words behind the splines that are not the key word of a spline do not matter. -/
theorem readAll_blocks_post {post : List (List Char)} (hp : ∀ k, Irit.splinePositions post k = []) :
    ∀ (ss rs : List (Spl K)), List.Forall₂ (fun s r => Writable s ∧ backSpline s = .ok r) ss rs →
    ∀ (n : ℕ) (pre : List (List Char)), Short (blockToks ss n) →
      Irit.readAll K (pre ++ (blockToks ss n ++ post)) (Irit.splinePositions (blockToks ss n ++ post) pre.length) = .ok rs := by
  intro ss rs h
  induction h with
  | nil => intro n pre _; rw [blockToks, List.nil_append, hp]; rfl
  | @cons s r ss rs h1 h2 ih =>
    intro n pre hs
    obtain ⟨h1, hr⟩ := h1
    rw [blockToks] at hs ⊢
    have hs1 : Short (splToks s) := fun t ht => hs t (by simp [ht])
    have hs2 : Short (blockToks ss (n + 1)) := fun t ht => hs t (by simp [ht])
    obtain ⟨a, b⟩ := readAll_block h1 hs1 hr (n + 1) pre ("]".toList :: "]".toList :: (blockToks ss (n + 1) ++ post))
    have e0 : "[OBJECT".toList :: ("SPLINE".toList ++ natText (n + 1)) :: (splToks s ++ "]".toList :: "]".toList :: blockToks ss (n + 1)) ++ post =
        "[OBJECT".toList :: ("SPLINE".toList ++ natText (n + 1)) :: (splToks s ++ "]".toList :: "]".toList :: (blockToks ss (n + 1) ++ post)) := by
      simp
    rw [e0, a, b]
    have := ih (n + 1) (pre ++ ("[OBJECT".toList :: ("SPLINE".toList ++ natText (n + 1)) :: (splToks s ++ ["]".toList, "]".toList]))) hs2
    have e : Irit.splinePositions ("]".toList :: "]".toList :: (blockToks ss (n + 1) ++ post)) (pre.length + 2 + (splToks s).length) =
        Irit.splinePositions (blockToks ss (n + 1) ++ post) (pre.length + 2 + (splToks s).length + 1 + 1) := by
      rw [Irit.splinePositions, if_neg (by decide), Irit.splinePositions, if_neg (by decide)]
    rw [e]
    have e1 : (pre ++ ("[OBJECT".toList :: ("SPLINE".toList ++ natText (n + 1)) :: (splToks s ++ ["]".toList, "]".toList]))) ++
        (blockToks ss (n + 1) ++ post) = pre ++ ("[OBJECT".toList :: ("SPLINE".toList ++ natText (n + 1)) ::
          (splToks s ++ "]".toList :: "]".toList :: (blockToks ss (n + 1) ++ post))) := by simp
    have e2 : (pre ++ ("[OBJECT".toList :: ("SPLINE".toList ++ natText (n + 1)) :: (splToks s ++ ["]".toList, "]".toList]))).length =
        pre.length + 2 + (splToks s).length + 1 + 1 := by
      simp only [List.length_append, List.length_cons, List.length_nil]; omega
    rw [e1, e2] at this
    rw [this]
    rfl

/-- What is left of a file with a spline that cannot be written is read as the splines in front of it. -/
theorem readFile_left {bad : Spl K} (hb : ¬ (1 ≤ bad.ps.knots.length ∧ bad.ps.knots.length ≤ 3)) (rest : List (Spl K))
    {ss rs : List (Spl K)} (h : List.Forall₂ (fun s r => Writable s ∧ backSpline s = .ok r) ss rs) :
    ∃ t, Irit.writeE (ss ++ bad :: rest) = (t, .error (.thrown .runtimeError)) ∧ (t.length < 2 ^ 32 → Irit.readFile K t = .ok rs) := by
  obtain ⟨t, h1, h2, v, h5⟩ := splinesE_bad hb rest ss 0 (writable_mem h)
  refine ⟨"[OBJECT SPLINES\n".toList ++ t, ?_, fun hl => ?_⟩
  · unfold Irit.writeE
    rw [h1, andThen_error]
    rfl
  · have n1 : strip "[OBJECT SPLINES\n".toList = "[OBJECT".toList ++ (' ' :: "SPLINES".toList) := by decide
    have a1 := Word.tokens (t := "SPLINES".toList) ⟨by decide, by decide⟩ (Or.inr ⟨v, h5⟩) h2
    have a2 := Word.tokens (t := "[OBJECT".toList) ⟨by decide, by decide⟩ (Or.inr ⟨_, rfl⟩) (tokens_blank a1)
    unfold Irit.readFile
    rw [getlines_flatten]
    dsimp only
    set post := ["[OBJECT".toList, "SPLINE".toList ++ natText (0 + ss.length + 1)] with hpost
    have hp : ∀ k, Irit.splinePositions post k = [] := fun k => by
      rw [hpost, Irit.splinePositions, if_neg (by decide), Irit.splinePositions, if_neg (by
        intro hh
        have := congrArg List.head? hh
        simp at this), Irit.splinePositions]
    have a3 : Tokens (splitSep ' ') (strip ("[OBJECT SPLINES\n".toList ++ t)) ("[OBJECT".toList :: "SPLINES".toList :: (blockToks ss 0 ++ post)) := by
      rw [strip_append, n1]
      simpa using a2
    rw [tokens_split a3]
    have hs : Short (blockToks ss 0) := fun w hw => by
      have a := tokens_short h2 w (by simp [hw])
      have b := strip_length t
      simp only [List.length_append] at hl
      omega
    have := readAll_blocks_post hp ss rs h 0 ["[OBJECT".toList, "SPLINES".toList] hs
    have e : Irit.splinePositions ("[OBJECT".toList :: "SPLINES".toList :: (blockToks ss 0 ++ post)) 0 =
        Irit.splinePositions (blockToks ss 0 ++ post) 2 := by
      rw [Irit.splinePositions, if_neg (by decide), Irit.splinePositions, if_neg (by decide)]
    rw [e]
    exact this

end
end SplineLib
