import Verif.Core.IgesCut
import Verif.Props.Irit
import Verif.Props.Iges

/-!
# C74: IRIT and IGES files that were cut off

A beginning of a written file is never mistaken for a file with other splines. But such files are not refused: splines are lost
without a notice, or the readers run behind the end of their data.
-/

namespace SplineLib
set_option linter.unusedSectionVars false
open Str Prn

section
variable {K : Type} [LinearOrder K] [Field K] [IsStrictOrderedRing K] [FloorRing K] [LawfulPrinter K]

/-- What C36 says about the splines of a file. -/
theorem irit_backs {ss : List (Spl K)} (h : ∀ s ∈ ss, WFSpl s ∧ (npts s).prod < 2 ^ 64)
    (hd : ∀ s ∈ ss, 1 ≤ s.ps.knots.length ∧ s.ps.knots.length ≤ 3)
    (hw : ∀ s ∈ ss, ∀ w, s.ph.weights = some w → ∀ a ∈ w, 1 / 10 ^ 6 ≤ a) :
    ∃ rs, List.Forall₂ (fun s r => (Writable s ∧ backSpline s = .ok r) ∧ ReadBack s r) ss rs := by
  have hw' : ∀ s ∈ ss, ∀ w, s.ph.weights = some w → ∀ a ∈ w, rd a ≠ 0 := fun s hs w h1 a h2 => (rd_pos (hw s hs w h1 a h2)).ne'
  exact forall₂_choose ss fun s hs => by
    obtain ⟨r, h1, h2⟩ := backSpline_ok (h s hs).1 (h s hs).2
    exact ⟨r, ⟨⟨(h s hs).1, hd s hs, hw' s hs⟩, h1⟩, built_readBack (h s hs).1 (hw' s hs) h2⟩

/-- **C74** If the reader returns splines for a beginning of a written IRIT file, they are the first ones of the file. -/
theorem C74_irit_first_splines {ss : List (Spl K)} (h : ∀ s ∈ ss, WFSpl s ∧ (npts s).prod < 2 ^ 64)
    (hd : ∀ s ∈ ss, 1 ≤ s.ps.knots.length ∧ s.ps.knots.length ≤ 3)
    (hw : ∀ s ∈ ss, ∀ w, s.ph.weights = some w → ∀ a ∈ w, 1 / 10 ^ 6 ≤ a)
    {text : List Char} (ht : Irit.writeFile ss = .ok text) (hl : text.length < 2 ^ 31) {p : List Char} (hp : p <+: text)
    {ps : List (Spl K)} (hok : Irit.readFile K p = .ok ps) :
    ∃ rs, Irit.readFile K text = .ok rs ∧ List.Forall₂ ReadBack ss rs ∧ ps <+: rs := by
  obtain ⟨rs, hrs⟩ := irit_backs h hd hw
  have hrs' := hrs.imp fun _ _ h => h.1
  obtain ⟨t, h1, h2⟩ := readFile_eq hrs'
  rw [ht] at h1
  cases h1
  exact ⟨rs, h2 (by omega), hrs.imp fun _ _ h => h.2, readFile_cut hrs' ht (by omega) hp hok⟩

/-- **C74** A beginning of an IRIT file is not refused if it ends between two splines: the splines behind the cut are missing. -/
theorem C74_irit_splines_lost {ss1 ss2 : List (Spl K)} (h : ∀ s ∈ ss1 ++ ss2, WFSpl s ∧ (npts s).prod < 2 ^ 64)
    (hd : ∀ s ∈ ss1 ++ ss2, 1 ≤ s.ps.knots.length ∧ s.ps.knots.length ≤ 3)
    (hw : ∀ s ∈ ss1 ++ ss2, ∀ w, s.ph.weights = some w → ∀ a ∈ w, 1 / 10 ^ 6 ≤ a)
    {text : List Char} (ht : Irit.writeFile (ss1 ++ ss2) = .ok text) (hl : text.length < 2 ^ 31) :
    ∃ p, p <+: text ∧ p ≠ text ∧ ∃ rs, Irit.readFile K p = .ok rs ∧ List.Forall₂ ReadBack ss1 rs := by
  obtain ⟨rs, hrs⟩ := irit_backs (ss := ss1) (fun s hs => h s (by simp [hs])) (fun s hs => hd s (by simp [hs])) (fun s hs => hw s (by simp [hs]))
  obtain ⟨p, h1, h2, h3⟩ := readFile_between (hrs.imp fun _ _ h => h.1) ht (by omega)
  exact ⟨p, h1, h2, rs, h3, hrs.imp fun _ _ h => h.2⟩

/-- **C74** Every IRIT file with a spline has a beginning on which the reader has undefined behaviour. -/
theorem C74_irit_undefined {ss : List (Spl K)} (hne : ss ≠ []) (h : ∀ s ∈ ss, WFSpl s)
    (hd : ∀ s ∈ ss, 1 ≤ s.ps.knots.length ∧ s.ps.knots.length ≤ 3) {text : List Char} (ht : Irit.writeFile ss = .ok text) :
    ∃ p, p <+: text ∧ Irit.readFile K p = .error .ub := by
  cases ss with
  | nil => exact absurd rfl hne
  | cons s ss => exact readFile_keyword (h s (by simp)) (hd s (by simp)) ht

end

section
variable {K : Type} [LinearOrder K] [Field K] [IsStrictOrderedRing K] [FloorRing K] [LawfulGen K]

/-- **C74** If the reader returns splines for a beginning of a written IGES file, these are all splines of the file, or none. -/
theorem C74_iges_all_or_none {filename time1 time2 : List Char} {ss : List (Spl K)} (h : IgesWritable filename time1 time2 ss)
    (hn : '\n' ∉ filename ∧ '\n' ∉ time1 ∧ '\n' ∉ time2) {file : List Char} (hw : Iges.writeFile filename time1 time2 ss = .ok file)
    {p : List Char} (hp : p <+: file) {ps : List (Spl K)} (hok : Iges.readFile K p = .ok ps) :
    ps = [] ∨ Iges.readFile K file = .ok ps := by
  have hf := h.fits
  obtain ⟨m, _, hpc, hl⟩ := fileLines_eq hf
  have hfile : file = (igesLines (Iges.globalContents filename time1 time2 m) ss).flatMap fun l => l ++ ['\n'] := by
    unfold Iges.writeFile at hw
    rw [hl, ok_bind] at hw
    exact (Except.ok.inj hw).symm
  have hnn := noNewline_lines (noNewline_global hn m) ss
  subst hfile
  unfold Iges.readFile at hok
  rcases readLines_cut _ hnn p hp with ⟨k, hk⟩ | hk
  · obtain ⟨i, j, hij, hr⟩ := readLines_take hpc hf.count hf.total k
    rw [hk, hr, ok_bind] at hok
    dsimp only at hok
    obtain ⟨l, hb, hok⟩ := bind_eq_ok.1 hok
    cases hok
    rw [List.length_map] at hb
    rcases readEntities_cut hf.total hij hb with rfl | ⟨h1, h2⟩
    · exact Or.inl rfl
    · right
      rw [List.take_of_length_le (by rw [secD_length]; exact h1), List.take_of_length_le (by rw [secP_length]; exact h2)] at hb
      unfold Iges.readFile
      rw [getlines_lines _ hnn, readLines_file hpc hf.count hf.total, ok_bind]
      dsimp only
      rw [List.length_map, hb]; rfl
  · rw [hk] at hok
    cases hok

theorem flatMap_prefix {α β : Type} {a b : List α} (h : a <+: b) (f : α → List β) : a.flatMap f <+: b.flatMap f := by
  obtain ⟨c, rfl⟩ := h
  rw [List.flatMap_append]
  exact List.prefix_append _ _

/-- **C74** A beginning of an IGES file is not refused if it ends in front of the directory entries: all splines are missing. -/
theorem C74_iges_splines_lost {filename time1 time2 : List Char} {ss : List (Spl K)} (h : IgesWritable filename time1 time2 ss)
    (hn : '\n' ∉ filename ∧ '\n' ∉ time1 ∧ '\n' ∉ time2) {file : List Char} (hw : Iges.writeFile filename time1 time2 ss = .ok file) :
    ∃ p, p <+: file ∧ p ≠ file ∧ p ≠ [] ∧ Iges.readFile K p = .ok [] := by
  have hf := h.fits
  obtain ⟨m, _, hpc, hl⟩ := fileLines_eq hf
  have hfile : file = (igesLines (Iges.globalContents filename time1 time2 m) ss).flatMap fun l => l ++ ['\n'] := by
    unfold Iges.writeFile at hw
    rw [hl, ok_bind] at hw
    exact (Except.ok.inj hw).symm
  have hnn := noNewline_lines (noNewline_global hn m) ss
  subst hfile
  set c := Iges.globalContents filename time1 time2 m
  have hpre : startLines ++ globalLines c <+: igesLines c ss := by
    unfold igesLines
    rw [List.append_assoc, List.append_assoc]
    exact List.prefix_append _ _
  refine ⟨_, flatMap_prefix hpre _, ?_, ?_, ?_⟩
  · intro he
    have := congrArg List.length he
    unfold igesLines at this
    simp only [List.flatMap_append, List.length_append] at this
    have ht : (terminateLines 1 (pieces 72 c) (2 * ss.length) (pTotal ss)).flatMap (fun l => l ++ ['\n']) ≠ [] := by
      unfold terminateLines; simp
    have := List.length_pos_iff.2 ht
    omega
  · unfold startLines; simp
  · have hS := readLines_section _ _ numbered_start
    have hG := readLines_section _ _ (numbered_72 'G' c 0 (pieces 72 c))
    have := readLines_append hG _ _ _ hS
    unfold Iges.readFile
    rw [getlines_lines _ fun l hl => hnn l (hpre.subset hl)]
    unfold globalLines
    rw [this, ok_bind]
    simp [buildList, pure, Except.pure, bind, Except.bind]

/-- **C74** Nothing is lost if only the terminate section is missing. -/
theorem C74_iges_terminate_section {filename time1 time2 : List Char} {ss : List (Spl K)} (h : IgesWritable filename time1 time2 ss)
    (hn : '\n' ∉ filename ∧ '\n' ∉ time1 ∧ '\n' ∉ time2) :
    ∃ S G D P T, Iges.writeFile filename time1 time2 ss = .ok ((S ++ G ++ D ++ P ++ T).flatMap fun l => l ++ ['\n']) ∧
      IgesLayout ss S G D P T ∧ Iges.readFile K ((S ++ G ++ D ++ P).flatMap fun l => l ++ ['\n']) =
        Iges.readFile K ((S ++ G ++ D ++ P ++ T).flatMap fun l => l ++ ['\n']) := by
  have hf := h.fits
  obtain ⟨m, _, hp, hl⟩ := fileLines_eq hf
  refine ⟨_, _, _, _, _, ?_, layout_lines hp hf.count hf.total, ?_⟩
  · unfold Iges.writeFile
    rw [hl, ok_bind]; rfl
  · have hnn := noNewline_lines (noNewline_global hn m) ss
    have hS := readLines_section _ _ numbered_start
    have hG := readLines_section _ _ (numbered_72 'G' (Iges.globalContents filename time1 time2 m) 0 (pieces 72 (Iges.globalContents filename time1 time2 m)))
    have hD := readLines_section _ _ (numbered_secD ss 0 0 (by have := hf.total; omega))
    have hP := readLines_section _ _ (numbered_secP ss 0 0 (by have := hf.count; omega))
    have := readLines_append hP _ _ _ (readLines_append hD _ _ _ (readLines_append hG _ _ _ hS))
    have hfile := readLines_file (ss := ss) hp hf.count hf.total
    have hnn' := hnn
    unfold igesLines at hfile hnn'
    unfold Iges.readFile
    rw [getlines_lines _ hnn', getlines_lines _ fun l hl => hnn l (by unfold igesLines; exact List.mem_append_left _ hl), hfile]
    unfold globalLines
    rw [this]
    simp

/-- **C74** Every beginning of an IGES file that ends inside of the first 71 columns of a line leads to undefined behaviour. -/
theorem C74_iges_undefined {filename time1 time2 : List Char} {ss : List (Spl K)} (h : IgesWritable filename time1 time2 ss)
    (hn : '\n' ∉ filename ∧ '\n' ∉ time1 ∧ '\n' ∉ time2) :
    ∃ ls : List (List Char), Iges.writeFile filename time1 time2 ss = .ok (ls.flatMap fun l => l ++ ['\n']) ∧
      ∀ k (hk : k < ls.length) q, q <+: ls[k] → q ≠ [] → q.length < 72 →
        Iges.readFile K ((ls.take k).flatMap (fun l => l ++ ['\n']) ++ q) = .error .ub := by
  have hf := h.fits
  obtain ⟨m, _, hp, hl⟩ := fileLines_eq hf
  refine ⟨igesLines (Iges.globalContents filename time1 time2 m) ss, ?_, ?_⟩
  · unfold Iges.writeFile
    rw [hl, ok_bind]; rfl
  · intro k hk q hq h0 h72
    have hnn := noNewline_lines (noNewline_global hn m) ss
    have hqn : ∀ c ∈ q, c ≠ '\n' := fun c hc e => hnn _ (List.getElem_mem hk) (e ▸ hq.subset hc)
    have hlines : ∀ a : List (List Char), (∀ l ∈ a, '\n' ∉ l) → getlines '\n' (a.flatMap (fun l => l ++ ['\n']) ++ q) = a ++ [q] := by
      intro a
      induction a with
      | nil =>
        intro _
        have := getlinesFrom_run q [] [] hqn
        rw [List.append_nil, List.nil_append] at this
        rw [List.flatMap_nil, List.nil_append, List.nil_append]
        unfold getlines
        rw [this, getlinesFrom]
        simp [h0]
      | cons l a ih =>
        intro ha
        have hl : ∀ c ∈ l, c ≠ '\n' := fun c hc e => ha l (by simp) (e ▸ hc)
        have ih := ih fun l hl => ha l (by simp [hl])
        unfold getlines at ih ⊢
        rw [List.flatMap_cons, List.append_assoc, List.append_assoc, getlinesFrom_run l [] _ hl, List.nil_append, List.singleton_append,
          getlinesFrom]
        simp [ih]
    have hub : ∀ a : List (List Char), Iges.readLines (a ++ [q]) = .error .ub := by
      intro a
      induction a with
      | nil => rw [List.nil_append, readLines_single]; unfold Iges.column73; rw [if_pos h72]; rfl
      | cons l a ih =>
        rw [List.cons_append, Iges.readLines, ih]
        unfold Iges.column73
        split <;> rfl
    unfold Iges.readFile
    rw [hlines _ fun l hl => hnn l (List.mem_of_mem_take hl), hub]
    rfl

end

/-! ### Examples -/

section
attribute [local instance] halfUp genHalfUp

example : ∃ p, ∃ text, Irit.writeFile [exCurve, exNurbs, exNurbsSurface] = .ok text ∧ (text.length < 2 ^ 31 → p <+: text ∧ p ≠ text ∧
    ∃ rs, Irit.readFile ℚ p = .ok rs ∧ rs.length = 2) := by
  have hall : ∀ s ∈ [exCurve, exNurbs] ++ [exNurbsSurface], WFSpl s := exIges_wf
  obtain ⟨text, h1, _⟩ := writeFile_ok (ss := [exCurve, exNurbs, exNurbsSurface]) fun s hs => ⟨hall s hs, by revert s; decide +kernel⟩
  by_cases hl : text.length < 2 ^ 31
  · obtain ⟨p, a, b, rs, c, d⟩ := C74_irit_splines_lost (ss1 := [exCurve, exNurbs]) (ss2 := [exNurbsSurface])
      (fun s hs => ⟨hall s hs, by revert s; decide +kernel⟩) (by decide +kernel) (by decide +kernel) h1 hl
    exact ⟨p, text, h1, fun _ => ⟨a, b, rs, c, d.length_eq.symm⟩⟩
  · exact ⟨[], text, h1, fun h => absurd h hl⟩

example {file p : List Char} {ps : List (Spl ℚ)}
    (hw : Iges.writeFile "a.igs".toList "t".toList "t".toList [exCurve, exNurbs, exNurbsSurface] = .ok file) (hp : p <+: file)
    (hok : Iges.readFile ℚ p = .ok ps) : ps = [] ∨ Iges.readFile ℚ file = .ok ps :=
  C74_iges_all_or_none exIges (by decide +kernel) hw hp hok

end
end SplineLib
