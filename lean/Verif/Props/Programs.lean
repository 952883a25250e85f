import Verif.Model.Programs
import Verif.Props.Files
import Verif.Props.ConverterLog

/-!
# C81: the conversion programs and the files

What a run of one of the nine conversion programs does to the files: which files change, what they contain afterwards, what happens if files coincide,
and what a second run does.
-/

namespace SplineLib
set_option linter.unusedSectionVars false
open Str Prn
namespace Conv
open Log
variable {K : Type} [LinearOrder K] [Field K] [IsStrictOrderedRing K] [FloorRing K] [DecPrinter K] [GenPrinter K] [SigPrinter 5 K]

/-- The setting of a run: the log file is a text that names an input file and requests something; the input file holds splines. -/
structure Ready (w : Surroundings K) (fs : Files) (source : FileFormat) (logFile text : List Char) (c : ConverterLog) (splines : List (Spl K)) :
    Prop where
  noHelp : ¬ AsksHelp logFile
  log : fs logFile = some (.text text)
  parsed : Log.new K (some text) = .ok c
  positions : c.positions ≠ []
  input : readContent w source (fs c.input) = .ok splines
  dims : ∀ s ∈ splines, 1 ≤ s.ps.knots.length ∧ s.ps.knots.length ≤ 4

theorem Ready.run {w : Surroundings K} {fs : Files} {source : FileFormat} {logFile text : List Char} {c : ConverterLog} {splines : List (Spl K)}
    (h : Ready w fs source logFile text c splines) (time : List Char) : Run K (programEnv w time fs) source logFile c splines (dimsOf splines) where
  noHelp := h.noHelp
  log := by
    have : (programEnv w time fs).file logFile = some text := by simp only [programEnv, h.log]
    rw [this]; exact h.parsed
  positions := h.positions
  read := h.input
  dims := mapM_dim h.dims

/-- What the program hands to the writer, and what follows. -/
theorem runProgram_eq {w : Surroundings K} {fs : Files} {source target : FileFormat} {logFile text : List Char} {c : ConverterLog}
    {splines : List (Spl K)} (h : Ready w fs source logFile text c splines) (time : List Char) (m : ℤ) (hv : target ≠ .vtk) :
    ∃ out, Picked splines (Wanted c.positions (Supported (dimsOf splines) m)) out ∧
      runProgram w time fs source target m [logFile] =
        match writeContent w c.output target out [] with
        | .ok ct => (appendFile (setFile fs c.output ct) logFile (Log.entry (Wanted c.positions (Supported (dimsOf splines) m)) c.input c.output time), .ok ())
        | .error e => (writtenAs w fs target c.output out [], .error e) := by
  obtain ⟨out, nw, hpk, hg, hp⟩ := prepare_ok (K := K) (target := target) (h.run time) m
  refine ⟨out, hpk, ?_⟩
  rw [if_neg hv, ok_bind] at hp
  dsimp only at hp
  rw [pure_ok] at hp
  have hw : (programEnv w time fs).write target out c.output [] = (do let _ ← writeContent w c.output target out []; return ()) := rfl
  unfold runProgram program
  rw [if_neg (by simp [unfinishedLog, h.log])]
  dsimp only
  rw [not_help h.noHelp, hp]
  simp only [Bool.false_eq_true, if_false]
  rw [hw]
  cases hc : writeContent w c.output target out [] with
  | error e => simp only [error_bind]
  | ok ct =>
    simp only [ok_bind, pure_ok, logText_entry]
    simp only [writtenAs, hc]
    rfl

/-- **C81** A successful run to IGES, IRIT or XML: the output file holds what the writer makes of the wanted splines, the log file is its old text
with one entry appended, and every other file is as before. -/
theorem C81_success {w : Surroundings K} {fs : Files} {source target : FileFormat} {logFile text : List Char} {c : ConverterLog}
    {splines : List (Spl K)} (h : Ready w fs source logFile text c splines) (time : List Char) (m : ℤ) (hv : target ≠ .vtk)
    (hne : c.output ≠ logFile) :
    ∃ out, Picked splines (Wanted c.positions (Supported (dimsOf splines) m)) out ∧
      ∀ ct, writeContent w c.output target out [] = .ok ct → ∃ fs', runProgram w time fs source target m [logFile] = (fs', .ok ()) ∧
        fs' c.output = some ct ∧
        fs' logFile = some (.text (text ++ Log.entry (Wanted c.positions (Supported (dimsOf splines) m)) c.input c.output time)) ∧
        ∀ n, n ≠ c.output → n ≠ logFile → fs' n = fs n := by
  obtain ⟨out, h1, h2⟩ := runProgram_eq h time m hv
  refine ⟨out, h1, fun ct hct => ?_⟩
  rw [hct] at h2
  refine ⟨_, h2, ?_⟩
  have hl : setFile fs c.output ct logFile = some (.text text) := by simp [setFile, hne.symm, h.log]
  unfold appendFile
  rw [hl]
  dsimp only
  refine ⟨by simp [setFile, hne], by simp [setFile], fun n h1 h2 => by simp [setFile, h1, h2]⟩

/-- **C81** If the output file is the log file, the log is lost: the file holds the output followed by the entry. -/
theorem C81_log_lost {w : Surroundings K} {fs : Files} {source target : FileFormat} {logFile text : List Char} {c : ConverterLog}
    {splines : List (Spl K)} (h : Ready w fs source logFile text c splines) (time : List Char) (m : ℤ) (hv : target ≠ .vtk)
    (he : c.output = logFile) :
    ∃ out, Picked splines (Wanted c.positions (Supported (dimsOf splines) m)) out ∧
      ∀ t, writeContent w c.output target out [] = .ok (.text t) → ∃ fs', runProgram w time fs source target m [logFile] = (fs', .ok ()) ∧
        fs' logFile = some (.text (t ++ Log.entry (Wanted c.positions (Supported (dimsOf splines) m)) c.input c.output time)) ∧
        ∀ n, n ≠ logFile → fs' n = fs n := by
  obtain ⟨out, h1, h2⟩ := runProgram_eq h time m hv
  refine ⟨out, h1, fun t hct => ?_⟩
  rw [hct] at h2
  refine ⟨_, h2, ?_⟩
  have hl : setFile fs c.output (.text t) logFile = some (.text t) := by simp [setFile, he]
  unfold appendFile
  rw [hl]
  dsimp only
  refine ⟨by simp [setFile], fun n h1 => by simp [setFile, h1, he]⟩

/-- **C81** If the writer throws an exception, so does the program; there is no log entry. The XML file is as it was before; any other output file holds
what the writer had written until then. -/
theorem C81_failed_writer {w : Surroundings K} {fs : Files} {source target : FileFormat} {logFile text : List Char} {c : ConverterLog}
    {splines : List (Spl K)} (h : Ready w fs source logFile text c splines) (time : List Char) (m : ℤ) (hv : target ≠ .vtk) :
    ∃ out, Picked splines (Wanted c.positions (Supported (dimsOf splines) m)) out ∧
      ∀ x, writeContent w c.output target out [] = .error (.thrown x) → ∃ fs', runProgram w time fs source target m [logFile] = (fs', .error (.thrown x)) ∧
        (target = .xml → fs' = fs) ∧ (target = .irit → fs' = setFile fs c.output (.text (Irit.writeE out).1)) ∧
        (target = .iges → fs' = setFile fs c.output (.text [])) := by
  obtain ⟨out, h1, h2⟩ := runProgram_eq h time m hv
  refine ⟨out, h1, fun x hx => ?_⟩
  rw [hx] at h2
  refine ⟨_, h2, ?_, ?_, ?_⟩ <;> rintro rfl <;> unfold writtenAs <;> rw [hx]
  · rfl
  · rfl
  · have : (Iges.writeE c.output w.time1 w.time2 out).1 = [] := by
      unfold Iges.writeE
      cases h : Iges.writeFile c.output w.time1 w.time2 out with
      | error e => rfl
      | ok t =>
        rw [writeContent, h] at hx
        cases hx
    simp only [leftover, this]

theorem writtenAs_other (w : Surroundings K) (fs : Files) (target : FileFormat) (output : List Char) (ss : List (Spl K)) (scat : List (List ℤ))
    {n : List Char} (h : n ≠ output) : writtenAs w fs target output ss scat n = fs n := by
  unfold writtenAs
  cases writeContent w output target ss scat with
  | ok c => simp [setFile, h]
  | error e =>
    cases e with
    | thrown x =>
      dsimp only
      cases leftover w output target ss scat with
      | some c => simp [setFile, h]
      | none => rfl
    | _ => dsimp only; split_ifs <;> simp [setFile, h]

theorem appendFile_other (fs : Files) (name text : List Char) {n : List Char} (h : n ≠ name) : appendFile fs name text n = fs n := by
  unfold appendFile
  rcases fs name with _ | ⟨_ | _⟩ <;> simp [setFile, h]

/-- **C81** Whatever a program does, it changes at most the output file named in the log file and the log file. -/
theorem C81_other_files (w : Surroundings K) (time : List Char) (fs : Files) (source target : FileFormat) (m : ℤ) (args : List (List Char))
    {n : List Char} (hl : ∀ a ∈ args, n ≠ a)
    (ho : ∀ a ∈ args, ∀ text c, fs a = some (.text text) → Log.new K (some text) = .ok c → n ≠ c.output) :
    (runProgram w time fs source target m args).1 n = fs n := by
  unfold runProgram
  split_ifs
  · rfl
  dsimp only
  rcases args with _ | ⟨a, _ | ⟨b, l⟩⟩
  · rfl
  · unfold program
    dsimp only
    split_ifs with hh
    · rfl
    · cases hp : prepare K (programEnv w time fs) source target m a with
      | error e => rfl
      | ok r =>
        obtain ⟨c', out, scat⟩ := r
        have hout : n ≠ c'.output := by
          unfold prepare at hp
          obtain ⟨c, hc, hp⟩ := bind_eq_ok.1 hp
          obtain ⟨spl, _, hp⟩ := bind_eq_ok.1 hp
          obtain ⟨pos, _, hp⟩ := bind_eq_ok.1 hp
          obtain ⟨r, hr, hp⟩ := bind_eq_ok.1 hp
          have hp : r.1 = c' := by
            dsimp only at hp
            split_ifs at hp <;>
              (obtain ⟨sc, _, hp⟩ := bind_eq_ok.1 hp
               obtain ⟨ou, _, hp⟩ := bind_eq_ok.1 hp
               rw [pure_ok, Except.ok.injEq, Prod.mk.injEq] at hp
               exact hp.1)
          have hco : c'.output = c.output := by
            rw [← hp]
            unfold Log.getPositions at hr
            split at hr
            · simp at hr
            · simp only [Except.ok.injEq] at hr
              rw [← hr]
              dsimp only
              split_ifs <;> rfl
          rw [hco]
          cases hfa : fs a with
          | none => simp [programEnv, hfa, Log.new] at hc
          | some ct =>
            cases ct with
            | unfinished => simp [programEnv, hfa, Log.new] at hc
            | text t =>
              have : (programEnv w time fs).file a = some t := by simp only [programEnv, hfa]
              rw [this] at hc
              exact ho a (by simp) t c hfa hc
        dsimp only
        cases (programEnv w time fs).write target out c'.output scat with
        | error e => exact writtenAs_other w fs target c'.output out scat hout
        | ok u =>
          dsimp only
          rw [appendFile_other _ _ _ (hl a (by simp))]
          exact writtenAs_other w fs target c'.output out scat hout
  · rfl

/-- **C81** If the log file or the input file cannot be opened, or the input file is refused, the program throws a `std::runtime_error` and no file
changes. -/
theorem C81_unreadable {w : Surroundings K} {fs : Files} {source : FileFormat} (target : FileFormat) (time : List Char) (m : ℤ) {logFile : List Char}
    (hn : ¬ AsksHelp logFile) (h : fs logFile = none ∨ ∃ text c, fs logFile = some (.text text) ∧ Log.new K (some text) = .ok c ∧
      (fs c.input = none ∨ ∃ x, readContent w source (fs c.input) = .error (.thrown x))) :
    runProgram w time fs source target m [logFile] = (fs, .error (.thrown .runtimeError)) := by
  have : program K (programEnv w time fs) source target m [logFile] = { result := .error (.thrown .runtimeError) } := by
    apply C63_failures _ _ _ _ hn
    rcases h with h | ⟨text, c, h1, h2, h3⟩
    · left; simp only [programEnv, h]
    · right
      have hf : (programEnv w time fs).file logFile = some text := by simp only [programEnv, h1]
      rw [hf]
      rcases h3 with h3 | ⟨x, h3⟩
      · exact ⟨c, .runtimeError, h2, by simp only [programEnv, h3]; cases source <;> rfl⟩
      · exact ⟨c, x, h2, h3⟩
  unfold runProgram
  rw [this, if_neg]
  rcases h with h | ⟨text, c, h, _⟩ <;> simp [unfinishedLog, h]

/-- **C81** Help and wrong numbers of arguments change no file. -/
theorem C81_no_run (w : Surroundings K) (time : List Char) (fs : Files) (source target : FileFormat) (m : ℤ) {args : List (List Char)}
    (h : args.length ≠ 1 ∨ ∃ a, args = [a] ∧ AsksHelp a) : (runProgram w time fs source target m args).1 = fs := by
  rcases h with h | ⟨a, rfl, h⟩
  · unfold runProgram; rw [C63_arguments _ _ _ _ h]; split_ifs <;> rfl
  · unfold runProgram; rw [C63_help _ _ _ _ h]; split_ifs <;> rfl

/-- **C81** A successful run to VTK with one row of cell numbers per requested position. -/
theorem C81_success_vtk {w : Surroundings K} {fs : Files} {source : FileFormat} {logFile text : List Char} {c : ConverterLog}
    {splines : List (Spl K)} (h : Ready w fs source logFile text c splines) (time : List Char) (m : ℤ) (hall : c.positions.head? ≠ some (-1))
    (hl : c.scattering.length = c.positions.length) (hne : c.output ≠ logFile) :
    ∃ out, Picked splines (Wanted c.positions (Supported (dimsOf splines) m)) out ∧
      ∀ t, Vtk.writeText out (RequestedScat c.positions c.scattering (Supported (dimsOf splines) m)) = .ok t →
        ∃ fs', runProgram w time fs source .vtk m [logFile] = (fs', .ok ()) ∧ fs' c.output = some (.text t) ∧
          fs' logFile = some (.text (text ++ Log.entry (Wanted c.positions (Supported (dimsOf splines) m)) c.input c.output time)) ∧
          ∀ n, n ≠ c.output → n ≠ logFile → fs' n = fs n := by
  obtain ⟨out, nw, hpk, hg, hp⟩ := prepare_ok (K := K) (target := .vtk) (h.run time) m
  refine ⟨out, hpk, fun t ht => ?_⟩
  rw [if_pos rfl, C62_scattering (h.run time).fresh h.positions hall hl, ok_bind] at hp
  dsimp only at hp
  rw [pure_ok] at hp
  have hc : writeContent w c.output .vtk out (RequestedScat c.positions c.scattering (Supported (dimsOf splines) m)) = .ok (.text t) := by
    rw [writeContent, ht]; rfl
  have hw : (programEnv w time fs).write .vtk out c.output (RequestedScat c.positions c.scattering (Supported (dimsOf splines) m)) = .ok () := by
    show (do let _ ← writeContent w c.output .vtk out _; return ()) = _
    rw [hc]; rfl
  have key : runProgram w time fs source .vtk m [logFile] = (appendFile (setFile fs c.output (.text t)) logFile
      (Log.entry (Wanted c.positions (Supported (dimsOf splines) m)) c.input c.output time), .ok ()) := by
    unfold runProgram program
    rw [if_neg (by simp [unfinishedLog, h.log])]
    dsimp only
    rw [not_help h.noHelp, hp]
    simp only [Bool.false_eq_true, if_false, hw, logText_entry, writtenAs, hc]
    rfl
  refine ⟨_, key, ?_⟩
  have hl : setFile fs c.output (.text t) logFile = some (.text text) := by simp [setFile, hne.symm, h.log]
  unfold appendFile
  rw [hl]
  dsimp only
  refine ⟨by simp [setFile, hne], by simp [setFile], fun n h1 h2 => by simp [setFile, h1, h2]⟩

/-- **C81** If the names of the files fit the program, the files are those that the converter class makes, but for the entry in the log file. -/
theorem C81_same_as_converter {w : Surroundings K} {fs : Files} {source target : FileFormat} {logFile text : List Char} {c : ConverterLog}
    {splines : List (Spl K)} {m : ℤ} (hm : programDim source target = some m) (h : Ready w fs source logFile text c splines) (time : List Char)
    (hv : target ≠ .vtk) (hi : fileFormat c.input = source) (ho : fileFormat c.output = target) :
    ∃ out, Picked splines (Wanted c.positions (Supported (dimsOf splines) m)) out ∧
      ∀ ct, writeContent w c.output target out [] = .ok ct →
        ∃ fs1 written, convert w fs c.input c.output (if c.positions.head? = some (-1) then [] else c.positions) [] = (fs1, .ok written) ∧
          runProgram w time fs source target m [logFile] = (appendFile fs1 logFile (Log.entry written c.input c.output time), .ok ()) := by
  obtain ⟨hr, hh, _⟩ := programDim_holds hm
  obtain ⟨out, h1, h2⟩ := runProgram_eq h time m hv
  subst hi
  subst ho
  obtain ⟨out2, h3, h4⟩ := C64_conversion (w := w) (fs := fs) (positions := if c.positions.head? = some (-1) then [] else c.positions) [] hr
    h.input h.dims hh hv
  have hW : Requested (if c.positions.head? = some (-1) then [] else c.positions) (Supported (dimsOf splines) m)
      = Wanted c.positions (Supported (dimsOf splines) m) := by
    unfold Requested Wanted
    by_cases hall : c.positions.head? = some (-1)
    · simp [hall]
    · rw [if_neg hall, if_neg h.positions, if_neg hall]
  rw [hW] at h3 h4
  rw [← picked_unique h1 h3] at h4
  refine ⟨out, h1, fun ct hct => ?_⟩
  rw [hct] at h2
  exact ⟨_, _, h4 ct hct, h2⟩

/-- A text behind which a log entry can be appended without changing what is read: it does not end in a bare header of a path. -/
def Closed (text : List Char) : Prop :=
  text.getLast?.getD '\n' = '\n' ∨ ∀ l, (getlines '\n' text).getLast? = some l → ¬ "input:".toList <+: l ∧ ¬ "output:".toList <+: l

theorem closed_entry (text time : List Char) (c : ConverterLog) (hp : PathsOK c) (ht : TimeText time) : Closed (text ++ logText c time) := by
  right
  obtain ⟨tm, rfl, hn, hnl⟩ := ht
  obtain ⟨t, pre, hpre, h1⟩ := openText_append text ("log:\n".toList ++ (tm ++ ['\n']) ++ sentence c)
  obtain ⟨l0, hl0⟩ := sentence_head c
  have hs : sentence c ≠ [] := by rcases hl0 with h | h <;> rw [h] <;> simp
  have h2 : getlines '\n' ("log:\n".toList ++ (tm ++ ['\n']) ++ sentence c) = ["log:".toList, tm, sentence c] := by
    have e : "log:\n".toList ++ (tm ++ ['\n']) ++ sentence c = unlines ["log:".toList, tm] ++ sentence c := by
      simp [unlines]
    rw [e, getlinesFrom_append_lines _ _ (by
      intro l hl
      simp only [List.mem_cons, List.not_mem_nil, or_false] at hl
      rcases hl with rfl | rfl
      · decide
      · exact hnl), getlines_one (sentence_no_newline hp.1 hp.2) hs]
    rfl
  intro l hl
  have h3 : getlines '\n' (text ++ logText c (tm ++ ['\n'])) = (openText (text ++ logText c (tm ++ ['\n']))).lines := rfl
  rw [h3, logText_eq, h1, h2] at hl
  have h4 : l = sentence c := by
    have e : getlines '\n' text ++ [] :: (pre ++ ["log:".toList, tm, sentence c]) = (getlines '\n' text ++ [] :: (pre ++ ["log:".toList, tm])) ++ [sentence c] := by
      simp
    simp only [strm] at hl
    rw [e, List.getLast?_concat] at hl
    exact (Option.some.inj hl).symm
  rw [h4]
  rcases hl0 with h | h <;> rw [h] <;> exact ⟨by rw [List.prefix_iff_eq_take]; simp, by rw [List.prefix_iff_eq_take]; simp⟩

/-- The program is run once for each of the times, until a run fails. -/
def runAgain (w : Surroundings K) (fs : Files) (source target : FileFormat) (m : ℤ) (logFile : List Char) : List (List Char) → Files × M Unit
  | [] => (fs, .ok ())
  | t :: ts =>
    match runProgram w t fs source target m [logFile] with
    | (fs', .ok _) => runAgain w fs' source target m logFile ts
    | (fs', .error e) => (fs', .error e)

/-- **C81** Repeated runs with the same log file, which grows with every run: the output file is the same each time, and the log file has one entry for
each run. -/
theorem C81_run_again {w : Surroundings K} {fs : Files} {source target : FileFormat} {logFile text : List Char} {c : ConverterLog}
    {splines : List (Spl K)} (h : Ready w fs source logFile text c splines) {times : List (List Char)} (ht : ∀ t ∈ times, TimeText t) (m : ℤ)
    (hv : target ≠ .vtk) (ho : c.output ≠ logFile) (hi : c.input ≠ logFile) (hio : c.input ≠ c.output) (hc : Closed text) :
    ∃ out, Picked splines (Wanted c.positions (Supported (dimsOf splines) m)) out ∧
      ∀ ct, writeContent w c.output target out [] = .ok ct → ∃ fs', runAgain w fs source target m logFile times = (fs', .ok ()) ∧
        (times ≠ [] → fs' c.output = some ct) ∧
        fs' logFile = some (.text (text ++ times.flatMap (Log.entry (Wanted c.positions (Supported (dimsOf splines) m)) c.input c.output))) ∧
        ∀ n, n ≠ c.output → n ≠ logFile → fs' n = fs n := by
  induction times generalizing fs text with
  | nil =>
    obtain ⟨out, h1, _⟩ := runProgram_eq h [] m hv
    exact ⟨out, h1, fun ct _ => ⟨fs, rfl, by simp, by simpa using h.log, fun _ _ _ => rfl⟩⟩
  | cons t ts ih =>
    obtain ⟨out, h1, h2⟩ := C81_success h t m hv ho
    refine ⟨out, h1, fun ct hct => ?_⟩
    obtain ⟨fs1, h3, h4, h5, h6⟩ := h2 ct hct
    have hp := new_paths h.parsed
    set c' : ConverterLog := { c with written := Wanted c.positions (Supported (dimsOf splines) m) } with hc'
    have he : Log.entry (Wanted c.positions (Supported (dimsOf splines) m)) c.input c.output t = logText c' t := (logText_entry c' t).symm
    have hr : Ready w fs1 source logFile (text ++ logText c' t) c splines := by
      refine ⟨h.noHelp, by rw [h5, he], ?_, h.positions, ?_, h.dims⟩
      · rw [C61_reread text t (ht t (by simp)) c' hp.1 hp.2 hc]
        exact h.parsed
      · rw [h6 _ hio hi]; exact h.input
    obtain ⟨out2, g1, g2⟩ := ih hr (fun t' h' => ht t' (by simp [h'])) (closed_entry text t c' hp (ht t (by simp)))
    rw [picked_unique g1 h1] at g2
    obtain ⟨fs2, g3, g4, g5, g6⟩ := g2 ct hct
    refine ⟨fs2, ?_, fun _ => ?_, ?_, ?_⟩
    · unfold runAgain; rw [h3]; exact g3
    · by_cases hts : ts = []
      · subst hts
        unfold runAgain at g3
        rw [Prod.mk.injEq] at g3
        rw [← g3.1]; exact h4
      · exact g4 hts
    · rw [g5, List.flatMap_cons, he, List.append_assoc]
    · intro n n1 n2; rw [g6 n n1 n2, h6 n n1 n2]

end Conv

namespace Conv
open Log
variable {K : Type} [LinearOrder K] [Field K] [IsStrictOrderedRing K] [FloorRing K] [LawfulPrinter K] [LawfulGen K] [SigPrinter 5 K]

/-- **C81** The program succeeds, and the reader of the output format finds the wanted splines in the output file, if these suit the format of the
output file's name and that is the format of the program. -/
theorem C81_round_trip {w : Surroundings K} {fs : Files} {source target : FileFormat} {logFile text : List Char} {c : ConverterLog}
    {splines : List (Spl K)} (h : Ready w fs source logFile text c splines) (time : List Char) (m : ℤ) (ho : c.output ≠ logFile)
    (hf : fileFormat c.output = target) (hwf : ∀ s ∈ splines, WFSpl s) {out : List (Spl K)}
    (hp : Picked splines (Wanted c.positions (Supported (dimsOf splines) m)) out) (hs : Suits w out c.output) :
    ∃ fs', runProgram w time fs source target m [logFile] = (fs', .ok ()) ∧ readContent w target (fs' c.output) = .ok out ∧
      fs' logFile = some (.text (text ++ Log.entry (Wanted c.positions (Supported (dimsOf splines) m)) c.input c.output time)) := by
  subst hf
  obtain ⟨out2, h1, h2⟩ := C81_success h time m (suits_dims hs).2.1 ho
  rw [picked_unique h1 hp] at h2
  have hw : ∀ s ∈ out, WFSpl s := by
    intro s hs
    obtain ⟨k, hk, rfl⟩ := List.getElem_of_mem hs
    obtain ⟨p, _, h4, h5⟩ := hp.2 k (by rw [← hp.1]; exact hk)
    rw [List.getElem?_eq_getElem hk, List.getElem?_eq_getElem h4, Option.some.injEq] at h5
    rw [h5]
    exact hwf _ (List.getElem_mem _)
  obtain ⟨ct, h3, h4⟩ := suits_round_trip hw hs
  obtain ⟨fs', g1, g2, g3, _⟩ := h2 ct h3
  exact ⟨fs', g1, by rw [g2]; exact h4, g3⟩

/-! ## An example -/

section
attribute [local instance] halfUp genHalfUp sigHalfUp

def exRequest : List Char := "input:\na.itd\n\noutput:\nb.xml\n\noptions:\nall\n".toList

def exRequestLog : ConverterLog := { input := "a.itd".toList, output := "b.xml".toList, positions := [-1] }

/-- A log file that asks for all splines of an IRIT file. -/
theorem exReady : ∃ fs : Files, Ready exSurroundings fs .irit "log.txt".toList exRequest exRequestLog [exPolygon, exNurbs] := by
  obtain ⟨ct, _, h2⟩ := suits_round_trip (w := exSurroundings) (ss := [exPolygon, exNurbs])
    (by simp only [List.mem_cons, List.not_mem_nil, or_false, forall_eq_or_imp, forall_eq]; exact ⟨exPolygon_wf, exNurbs_wf⟩) exSuits_irit
  rw [show fileFormat "a.itd".toList = .irit by decide +kernel] at h2
  refine ⟨fun n => if n = "a.itd".toList then some ct else if n = "log.txt".toList then some (.text exRequest) else none, ?_⟩
  refine ⟨by unfold AsksHelp; decide, ?_, by decide +kernel, by simp [exRequestLog], ?_, by decide +kernel⟩
  · have e : "log.txt".toList ≠ "a.itd".toList := by decide
    simp only [e, if_false, if_true]
  · have e : exRequestLog.input = "a.itd".toList := rfl
    simp only [e, if_true]
    exact h2

/-- The program converts it to XML, and the XML file holds the same splines. -/
example : ∃ fs fs' : Files, Ready exSurroundings fs .irit "log.txt".toList exRequest exRequestLog [exPolygon, exNurbs] ∧
    runProgram exSurroundings "Mon Nov 16 09:17:03 2026\n".toList fs .irit .xml 4 ["log.txt".toList] = (fs', .ok ()) ∧
    readContent exSurroundings .xml (fs' "b.xml".toList) = .ok [exPolygon, exNurbs] := by
  obtain ⟨fs, h⟩ := exReady
  have hw : Wanted exRequestLog.positions (Supported (dimsOf [exPolygon, exNurbs]) 4) = [0, 1] := by decide +kernel
  obtain ⟨fs', h1, h2, _⟩ := C81_round_trip h "Mon Nov 16 09:17:03 2026\n".toList 4 (by decide) (target := .xml) (by decide +kernel)
    (by simp only [List.mem_cons, List.not_mem_nil, or_false, forall_eq_or_imp, forall_eq]; exact ⟨exPolygon_wf, exNurbs_wf⟩)
    (out := [exPolygon, exNurbs]) (by
      rw [hw]
      refine ⟨rfl, fun k hk => ?_⟩
      have hk : k < 2 := hk
      interval_cases k
      · exact ⟨0, by decide, by decide, rfl⟩
      · exact ⟨1, by decide, by decide, rfl⟩) exSuits_xml
  exact ⟨fs, fs', h, h1, h2⟩

example : Closed exRequest := .inl (by decide +kernel)

end

end Conv
end SplineLib
