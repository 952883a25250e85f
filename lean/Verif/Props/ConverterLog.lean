import Verif.Core.ConverterLog
import Verif.Props.Converter

/-!
# C61, C62, C63: log files and conversion programs
-/

namespace SplineLib
namespace Log
set_option linter.unusedSectionVars false
open Str Prn Conv

/-! ## The format of a log file (specification) -/

/-- A section of a log file. -/
inductive Sec
  | input (path : List Char)
  | output (path : List Char)
  | all
  | options (positions : List ℤ)
  | scattering (rows : List (List ℕ))

/-- The lines of a section, as the help text describes them. -/
def Sec.lines : Sec → List (List Char)
  | .input p => ["input:".toList, p]
  | .output p => ["output:".toList, p]
  | .all => ["options:".toList, "all".toList]
  | .options ps => "options:".toList :: ps.map intText
  | .scattering rows => "scattering:".toList :: rows.map rowText

/-- Paths have no line end, positions and numbers of a row are `int`s, rows are not empty. -/
def Sec.OK : Sec → Prop
  | .input p => '\n' ∉ p
  | .output p => '\n' ∉ p
  | .all => True
  | .options ps => ∀ p ∈ ps, -2 ^ 31 < p ∧ p < 2 ^ 31
  | .scattering rows => ∀ r ∈ rows, RowOK r

/-- A log file: other lines, then sections that are each followed by an empty line and other lines, and possibly a last section that is
ended by the end of the file. Other lines start no section. -/
structure Doc where
  header : List (List Char)
  items : List (Sec × List (List Char))
  last : Option Sec

def Doc.lines (d : Doc) : List (List Char) :=
  d.header ++ (d.items.flatMap fun i => i.1.lines ++ [] :: i.2) ++ (match d.last with | none => [] | some s => s.lines)

def Doc.secs (d : Doc) : List Sec := d.items.map Prod.fst ++ d.last.toList

def Other (l : List Char) : Prop := Neutral l ∧ '\n' ∉ l

structure Doc.OK (d : Doc) : Prop where
  header : ∀ l ∈ d.header, Other l
  items : ∀ i ∈ d.items, i.1.OK ∧ ∀ l ∈ i.2, Other l
  last : ∀ s, d.last = some s → s.OK

/-- The input path: that of the last such section. -/
def inputOf (ss : List Sec) : List Char := ((ss.filterMap fun | .input p => some p | _ => none).getLast?).getD []

def outputOf (ss : List Sec) : List Char := ((ss.filterMap fun | .output p => some p | _ => none).getLast?).getD []

/-- The positions: those of all sections; "all" forgets the earlier ones and counts as position -1. -/
def positionsOf (ss : List Sec) : List ℤ :=
  ss.foldl (fun acc s => match s with | .all => [-1] | .options ps => acc ++ ps | _ => acc) []

def rowsOf (ss : List Sec) : List (List ℤ) := ss.flatMap fun | .scattering rows => intRows rows | _ => []

/-! ## C61: reading -/

/-- What one section does to the members. -/
def Sec.apply (c : ConverterLog) : Sec → ConverterLog
  | .input p => { c with input := p }
  | .output p => { c with output := p }
  | .all => { c with positions := [-1] }
  | .options ps => { c with positions := c.positions ++ ps }
  | .scattering rows => { c with scattering := c.scattering ++ intRows rows }

theorem foldl_apply (ss : List Sec) : ss.foldl Sec.apply {} =
    { input := inputOf ss, output := outputOf ss, positions := positionsOf ss, scattering := rowsOf ss } := by
  induction ss using List.reverseRecOn with
  | nil => rfl
  | append_singleton ss s ih =>
    rw [List.foldl_append, ih]
    cases s <;> simp [Sec.apply, inputOf, outputOf, positionsOf, rowsOf, List.filterMap_append, List.flatMap_append]

section
variable {K : Type} [Field K] [LinearOrder K] [IsStrictOrderedRing K] [FloorRing K]

theorem parses_sec {s : Sec} (h : s.OK) {js ls : List (List Char)} (hj : ∀ l ∈ js, Neutral l) {t : Bool} {c : ConverterLog}
    {r : M ConverterLog} (hp : Parses K ls t (s.apply c) r) : Parses K (s.lines ++ [] :: (js ++ ls)) t c r := by
  have hp2 := parses_neutrals (K := K) hj hp
  cases s with
  | input p => exact parses_input (parses_neutral neutral_nil hp2)
  | output p => exact parses_output (parses_neutral neutral_nil hp2)
  | all => exact parses_all (parses_neutral neutral_nil hp2)
  | options ps => exact parses_options h hp2
  | scattering rows => exact parses_scattering h hp2

theorem parses_last {s : Sec} (h : s.OK) {t : Bool} {c : ConverterLog} : Parses K s.lines t c (.ok (s.apply c)) := by
  cases s with
  | input p => exact parses_input (parses_nil t _)
  | output p => exact parses_output (parses_nil t _)
  | all => exact parses_all (parses_nil t _)
  | options ps => exact parses_options_end h
  | scattering rows => exact parses_scattering_end h

theorem parses_doc {d : Doc} (h : d.OK) (t : Bool) (c : ConverterLog) : Parses K d.lines t c (.ok (d.secs.foldl Sec.apply c)) := by
  obtain ⟨header, items, last⟩ := d
  unfold Doc.lines Doc.secs
  rw [List.append_assoc]
  refine parses_neutrals (fun l hl => (h.header l hl).1) ?_
  dsimp only
  have hit := h.items
  have hla := h.last
  dsimp only at hit hla
  clear h
  induction items generalizing c with
  | nil =>
    cases last with
    | none => exact parses_nil t c
    | some s => exact parses_last (hla s rfl)
  | cons i items ih =>
    rw [List.flatMap_cons, List.append_assoc, List.map_cons, List.cons_append, List.foldl_cons, List.append_assoc, List.cons_append]
    obtain ⟨h1, h2⟩ := hit i (by simp)
    exact parses_sec h1 (fun l hl => (h2 l hl).1) (ih (Sec.apply c i.1) fun j hj => hit j (by simp [hj]))

theorem sec_lines_newline {s : Sec} (h : s.OK) : ∀ l ∈ s.lines, '\n' ∉ l := by
  cases s with
  | input p => intro l hl; simp only [Sec.lines, List.mem_cons, List.not_mem_nil, or_false] at hl; rcases hl with rfl | rfl; exacts [by decide, h]
  | output p => intro l hl; simp only [Sec.lines, List.mem_cons, List.not_mem_nil, or_false] at hl; rcases hl with rfl | rfl; exacts [by decide, h]
  | all => intro l hl; simp only [Sec.lines, List.mem_cons, List.not_mem_nil, or_false] at hl; rcases hl with rfl | rfl <;> decide
  | options ps =>
    intro l hl
    rcases List.mem_cons.1 hl with rfl | hl
    · decide
    · obtain ⟨p, _, rfl⟩ := List.mem_map.1 hl; exact intText_no_newline p
  | scattering rows =>
    intro l hl
    rcases List.mem_cons.1 hl with rfl | hl
    · decide
    · obtain ⟨p, _, rfl⟩ := List.mem_map.1 hl; exact rowText_no_newline p

theorem doc_newline {d : Doc} (h : d.OK) : ∀ l ∈ d.lines, '\n' ∉ l := by
  intro l hl
  unfold Doc.lines at hl
  rcases List.mem_append.1 hl with hl | hl
  · rcases List.mem_append.1 hl with hl | hl
    · exact (h.header l hl).2
    · obtain ⟨i, hi, hl⟩ := List.mem_flatMap.1 hl
      obtain ⟨h1, h2⟩ := h.items i hi
      rcases List.mem_append.1 hl with hl | hl
      · exact sec_lines_newline h1 l hl
      · rcases List.mem_cons.1 hl with rfl | hl
        · simp
        · exact (h2 l hl).2
  · cases hd : d.last with
    | none => rw [hd] at hl; simp at hl
    | some s => rw [hd] at hl; exact sec_lines_newline (h.last s hd) l hl

/-- **C61.** A log file whose sections are separated by empty lines is read as written: the input and output paths, the requested
positions and the rows of the scattering. The sections may come in any order, other lines may stand between them, and the last line
need not be terminated. -/
theorem C61_read_log {d : Doc} (h : d.OK) {text : List Char} (ht : TextOf d.lines text) :
    new K (some text) =
      .ok { input := inputOf d.secs, output := outputOf d.secs, positions := positionsOf d.secs, scattering := rowsOf d.secs } := by
  obtain ⟨t, h1⟩ := openText_of ht (doc_newline h)
  unfold new
  dsimp only
  rw [h1, ← foldl_apply]
  exact parses_doc h t {} _ _ (by simp [strm])

/-- **C61, one section of each kind in any order.** -/
theorem C61_any_order {d : Doc} (h : d.OK) {text : List Char} (ht : TextOf d.lines text) {p q : List Char} {ps : List ℤ}
    {rows : List (List ℕ)} (hs : d.secs.Perm [.input p, .output q, .options ps, .scattering rows]) :
    new K (some text) = .ok { input := p, output := q, positions := ps, scattering := intRows rows } := by
  rw [C61_read_log h ht]
  have h1 : ∀ {f : Sec → Option (List Char)} {a : List Char}, ([.input p, .output q, .options ps, .scattering rows].filterMap f) = [a] →
      ((d.secs.filterMap f).getLast?).getD [] = a := by
    intro f a e
    have := (hs.filterMap f)
    rw [e] at this
    rw [List.perm_singleton.1 this]; rfl
  have h2 : inputOf d.secs = p := h1 rfl
  have h3 : outputOf d.secs = q := h1 rfl
  have h4 : rowsOf d.secs = intRows rows := by
    have := List.Perm.flatMap_right (fun | .scattering rows => intRows rows | _ => []) hs
    have e : ∀ (ss : List Sec), (∀ s ∈ ss, ∀ r, s = Sec.scattering r → r = rows) → rowsOf ss =
        (List.replicate (ss.filter fun | .scattering _ => true | _ => false).length (intRows rows)).flatten := by
      intro ss
      induction ss with
      | nil => intro _; rfl
      | cons s ss ih =>
        intro hh
        have hi := ih fun s hs => hh s (by simp [hs])
        unfold rowsOf at hi ⊢
        rw [List.flatMap_cons, hi]
        cases s with
        | scattering r =>
          rw [hh _ (by simp) r rfl]
          simp [List.replicate_succ]
        | _ => simp
    rw [e d.secs fun s hsm r hr => by
      subst hr
      have := hs.mem_iff.1 hsm
      simpa using this]
    rw [((hs.filter _).length_eq)]
    simp
  have h5 : positionsOf d.secs = ps := by
    have e : ∀ (ss : List Sec) (acc : List ℤ), (∀ s ∈ ss, s ≠ Sec.all) → (∀ s ∈ ss, ∀ r, s = Sec.options r → r = ps) →
        ss.foldl (fun acc s => match s with | .all => [-1] | .options ps => acc ++ ps | _ => acc) acc =
        acc ++ (List.replicate (ss.filter fun | .options _ => true | _ => false).length ps).flatten := by
      intro ss
      induction ss with
      | nil => intro acc _ _; simp
      | cons s ss ih =>
        intro acc hh1 hh2
        have hi := fun acc => ih acc (fun s hs => hh1 s (by simp [hs])) fun s hs => hh2 s (by simp [hs])
        rw [List.foldl_cons, hi]
        cases s with
        | all => exact absurd rfl (hh1 _ (by simp))
        | options r =>
          rw [hh2 _ (by simp) r rfl]
          simp [List.replicate_succ]
        | _ => simp
    unfold positionsOf
    rw [e d.secs [] (fun s hsm hr => by subst hr; have := hs.mem_iff.1 hsm; simp at this) fun s hsm r hr => by
      subst hr
      have := hs.mem_iff.1 hsm
      simpa using this]
    rw [((hs.filter _).length_eq)]
    simp
  rw [h2, h3, h4, h5]

/-- A log file that cannot be opened is refused. -/
theorem C61_unreadable : new K none = .error (.thrown .runtimeError) := rfl

end

/-- The log file of the test of the VTK converter (test/io/io_converter_executables_test.cc). -/
def exDoc : Doc := ⟨[], [(.input "a.itd".toList, []), (.output "out.vtk".toList, ["#".toList]), (.options [0, 3, 5], [])],
  some (.scattering [[30], [10, 20], [6, 7, 5]])⟩

def exLog : List Char := "input:\na.itd\n\noutput:\nout.vtk\n\n#\noptions:\n0\n3\n5\n\nscattering:\n30\n10 20\n6 7 5".toList

theorem exDoc_ok : exDoc.OK where
  header := by simp [exDoc]
  items := by
    intro i hi
    simp only [exDoc, List.mem_cons, List.not_mem_nil, or_false] at hi
    rcases hi with rfl | rfl | rfl
    · exact ⟨by simp only [Sec.OK]; decide, by simp⟩
    · refine ⟨by simp only [Sec.OK]; decide, ?_⟩
      intro l hl
      have : l = "#".toList := by simpa using hl
      subst this
      exact ⟨⟨by decide, by decide, by decide, by decide⟩, by decide⟩
    · exact ⟨by simp only [Sec.OK]; decide, by simp⟩
  last := by
    intro s hs
    have : s = .scattering [[30], [10, 20], [6, 7, 5]] := by simpa [exDoc] using hs.symm
    subst this
    intro r hr
    simp only [List.mem_cons, List.not_mem_nil, or_false] at hr
    rcases hr with rfl | rfl | rfl <;>
      exact ⟨by simp, by simp [rowText, natText], by simp⟩

theorem exDoc_lines : exDoc.lines = ["input:".toList, "a.itd".toList, [], "output:".toList, "out.vtk".toList, [], "#".toList,
    "options:".toList, "0".toList, "3".toList, "5".toList, [], "scattering:".toList, "30".toList, "10 20".toList] ++ ["6 7 5".toList] := by
  simp [exDoc, Doc.lines, Sec.lines, rowText, natText, intText, digit]

theorem exDoc_text : TextOf exDoc.lines exLog := by
  rw [exDoc_lines]
  exact Or.inr ⟨_, _, rfl, by decide, by decide +kernel⟩

example : exDoc.OK ∧ TextOf exDoc.lines exLog := ⟨exDoc_ok, exDoc_text⟩

/-- **C61 without empty lines is false.** The header that follows the positions directly is consumed as the end of that section, so the
path behind it is not read. -/
theorem C61_adjacent_counterexample :
    ¬ ∀ (ss : List Sec), (∀ s ∈ ss, s.OK) → new ℚ (some (unlines (ss.flatMap Sec.lines))) =
      .ok { input := inputOf ss, output := outputOf ss, positions := positionsOf ss, scattering := rowsOf ss } := by
  intro h
  have h2 := h [.options [0], .input "a".toList] (by
    intro s hs
    simp only [List.mem_cons, List.not_mem_nil, or_false] at hs
    rcases hs with rfl | rfl <;> simp [Sec.OK])
  have e : unlines ([Sec.options [0], .input "a".toList].flatMap Sec.lines) = "options:\n0\ninput:\na\n".toList := by
    simp [Sec.lines, unlines, intText, natText, digit]
  rw [e] at h2
  have h3 : new ℚ (some "options:\n0\ninput:\na\n".toList) = .ok { positions := [0] } := by
    have hp : ∀ (t : Bool), openText "options:\n0\ninput:\na\n".toList = strm ["options:".toList, "0".toList, "input:".toList, "a".toList] true := by
      decide
    unfold new
    dsimp only
    rw [hp true]
    decide +kernel
  rw [h3] at h2
  simp [inputOf] at h2

/-! ## Reading a log file again -/

/-- A text like that of `asctime`: one line that starts no section. -/
def TimeText (time : List Char) : Prop := ∃ t, time = t ++ ['\n'] ∧ Other t

example : TimeText "Mon Nov 16 09:17:03 2026\n".toList :=
  ⟨"Mon Nov 16 09:17:03 2026".toList, by decide, ⟨by decide, by decide, by decide, by decide⟩, by decide⟩

/-- The sentence of a log entry. -/
def sentence (c : ConverterLog) : List Char :=
  (if c.written.isEmpty then "No splines".toList
   else "The ".toList ++ (if c.written.length == 1 then "spline".toList else "splines".toList) ++ " at position".toList ++
     (if c.written.length == 1 then " ".toList else "s ".toList) ++ positionsText c.written) ++
  " in file ".toList ++ c.input ++ (if c.written.length == 1 then " has".toList else " have".toList) ++ " been written to ".toList ++ c.output

theorem logText_eq (c : ConverterLog) (time : List Char) : logText c time = '\n' :: '\n' :: ("log:\n".toList ++ time ++ sentence c) := by
  have e : "\n\nlog:\n".toList = '\n' :: '\n' :: "log:\n".toList := by decide
  unfold logText sentence
  rw [e]
  simp only [List.cons_append, List.append_assoc]

theorem positionsText_no_newline : ∀ (l : List ℤ), '\n' ∉ positionsText l
  | [] => by simp [positionsText]
  | [p] => intText_no_newline p
  | p :: q :: l => by
    rw [positionsText]
    · simp only [List.mem_append, not_or]
      exact ⟨⟨intText_no_newline p, by decide⟩, positionsText_no_newline (q :: l)⟩
    · simp

theorem sentence_no_newline {c : ConverterLog} (hi : '\n' ∉ c.input) (ho : '\n' ∉ c.output) : '\n' ∉ sentence c := by
  unfold sentence
  have h1 : '\n' ∉ (if c.written.length == 1 then " has".toList else " have".toList) := by split <;> decide
  have h2 : '\n' ∉ (if c.written.length == 1 then "spline".toList else "splines".toList) := by split <;> decide
  have h3 : '\n' ∉ (if c.written.length == 1 then " ".toList else "s ".toList) := by split <;> decide
  have h4 : '\n' ∉ (if c.written.isEmpty then "No splines".toList
   else "The ".toList ++ (if c.written.length == 1 then "spline".toList else "splines".toList) ++ " at position".toList ++
     (if c.written.length == 1 then " ".toList else "s ".toList) ++ positionsText c.written) := by
    split
    · decide
    · simp only [List.mem_append, not_or]
      exact ⟨⟨⟨⟨by decide, h2⟩, by decide⟩, h3⟩, positionsText_no_newline _⟩
  simp only [List.mem_append, not_or]
  exact ⟨⟨⟨⟨⟨h4, by decide⟩, hi⟩, h1⟩, by decide⟩, ho⟩

theorem neutral_head {c : Char} {l : List Char} (h : c ≠ 'i' ∧ c ≠ 'o' ∧ c ≠ 's') : Neutral (c :: l) := by
  have key : ∀ (d : Char) (r : List Char), c ≠ d → startsWith (c :: l) (d :: r) = false := by
    intro d r hd
    rw [← Bool.not_eq_true, startsWith_iff, List.cons_prefix_cons]
    exact fun h => hd h.1.symm
  exact ⟨key 'i' _ h.1, key 'o' _ h.2.1, key 'o' _ h.2.1, key 's' _ h.2.2⟩

theorem sentence_head (c : ConverterLog) : ∃ l, sentence c = 'T' :: l ∨ sentence c = 'N' :: l := by
  unfold sentence
  split
  · exact ⟨_, Or.inr rfl⟩
  · exact ⟨_, Or.inl rfl⟩

section
variable {K : Type} [Field K] [LinearOrder K] [IsStrictOrderedRing K] [FloorRing K]

/-- **C61, reading again.** Appending a log entry does not change what is read from the log file, whatever the file contains. (The last
line before the entry must be terminated or not be a bare header of a path.) -/
theorem C61_reread (text time : List Char) (ht : TimeText time) (c : ConverterLog) (hi : '\n' ∉ c.input) (ho : '\n' ∉ c.output)
    (hend : text.getLast?.getD '\n' = '\n' ∨ ∀ l, (getlines '\n' text).getLast? = some l → ¬ "input:".toList <+: l ∧ ¬ "output:".toList <+: l) :
    new K (some (text ++ logText c time)) = new K (some text) := by
  obtain ⟨tm, rfl, hn, hnl⟩ := ht
  obtain ⟨t, pre, hpre, h1⟩ := openText_append text ("log:\n".toList ++ (tm ++ ['\n']) ++ sentence c)
  obtain ⟨l0, hl0⟩ := sentence_head c
  have hs : Other (sentence c) ∧ sentence c ≠ [] := by
    refine ⟨⟨?_, sentence_no_newline hi ho⟩, by rcases hl0 with h | h <;> rw [h] <;> simp⟩
    rcases hl0 with h | h <;> rw [h] <;> exact neutral_head (by decide)
  have h2 : getlines '\n' ("log:\n".toList ++ (tm ++ ['\n']) ++ sentence c) = ["log:".toList, tm, sentence c] := by
    have e : "log:\n".toList ++ (tm ++ ['\n']) ++ sentence c = unlines ["log:".toList, tm] ++ sentence c := by
      simp [unlines]
    rw [e, getlinesFrom_append_lines _ _ (by
      intro l hl
      simp only [List.mem_cons, List.not_mem_nil, or_false] at hl
      rcases hl with rfl | rfl
      · decide
      · exact hnl), getlines_one hs.1.2 hs.2]
    rfl
  obtain ⟨t0, h3⟩ := openText_lines text
  have ht0 : (openText text).term = t0 := by rw [h3]; rfl
  have hg : GoodEnd (getlines '\n' text) t0 := by
    rcases hend with h | h
    · left
      rw [← ht0]
      simp [openText, h]
    · right
      intro l hl
      obtain ⟨h4, h5⟩ := h l hl
      exact ⟨by rw [← Bool.not_eq_true, startsWith_iff]; exact h4, by rw [← Bool.not_eq_true, startsWith_iff]; exact h5⟩
  unfold new
  dsimp only
  rw [logText_eq, h1, h2, h3]
  refine readLoop_append (pre ++ ["log:".toList, tm, sentence c]) ?_ t0 t _ _ le_rfl hg _ _ _ _ _ (by simp [strm]) (by simp [strm])
  intro l hl
  rcases List.mem_append.1 hl with hl | hl
  · rw [hpre l hl]; exact neutral_nil
  · simp only [List.mem_cons, List.not_mem_nil, or_false] at hl
    rcases hl with rfl | rfl | rfl
    · exact ⟨by decide, by decide, by decide, by decide⟩
    · exact hn
    · exact hs.1.1

/-- The hypothesis about the last line is needed: behind an unterminated second header "input:" the first path is kept, but with the entry
appended the empty line is the path. -/
theorem C61_reread_counterexample : ¬ ∀ (text time : List Char), TimeText time → ∀ c : ConverterLog, '\n' ∉ c.input → '\n' ∉ c.output →
    new ℚ (some (text ++ logText c time)) = new ℚ (some text) := by
  intro h
  have h1 := h "input:\na\ninput:".toList "x\n".toList ⟨"x".toList, by decide, ⟨by decide, by decide, by decide, by decide⟩, by decide⟩
    {} (by simp) (by simp)
  exact absurd h1 (by decide +kernel)

/-! ### The paths are lines of the file -/

theorem getline_sub (st : Stream) (str : List Char) : (getline st str).2.2.lines ⊆ st.lines ∧
    ((getline st str).2.1 ∈ st.lines ∨ (getline st str).2.1 = str ∨ (getline st str).2.1 = []) := by
  unfold getline
  split
  · split
    · simp
    · next l h => simp [h]
    · next l ls h => rw [h]; exact ⟨by simp, Or.inl (by simp)⟩
  · simp

theorem readOptions_sub : ∀ (f : ℕ) (st : Stream) (line : List Char) (acc : List ℤ) {r : List ℤ × List Char × Stream},
    readOptions f st line acc = .ok r → r.2.2.lines ⊆ st.lines
  | 0, _, _, _, _, h => by simp [readOptions] at h
  | f + 1, st, line, acc, r, h => by
    have hg := (getline_sub st line).1
    rw [readOptions] at h
    rcases hgl : getline st line with ⟨b, l, st'⟩
    rw [hgl] at h hg
    cases b with
    | false => simp only [Except.ok.injEq] at h; subst h; exact hg
    | true =>
      dsimp only at h
      split at h
      · simp only [Except.ok.injEq] at h; subst h; exact hg
      · split at h
        · simp only [Except.ok.injEq] at h; subst h; exact hg
        · obtain ⟨p, _, h2⟩ := bind_eq_ok.1 h
          exact fun m hm => hg (readOptions_sub f st' l _ h2 hm)

theorem readScattering_sub : ∀ (f : ℕ) (st : Stream) (line : List Char) (acc : List (List ℤ)) {r : List (List ℤ) × List Char × Stream},
    readScattering K f st line acc = .ok r → r.2.2.lines ⊆ st.lines
  | 0, _, _, _, _, h => by simp [readScattering] at h
  | f + 1, st, line, acc, r, h => by
    have hg := (getline_sub st line).1
    rw [readScattering] at h
    rcases hgl : getline st line with ⟨b, l, st'⟩
    rw [hgl] at h hg
    cases b with
    | false => simp only [Except.ok.injEq] at h; subst h; exact hg
    | true =>
      dsimp only at h
      split at h
      · simp only [Except.ok.injEq] at h; subst h; exact hg
      · obtain ⟨p, _, h2⟩ := bind_eq_ok.1 h
        exact fun m hm => hg (readScattering_sub f st' l _ h2 hm)

/-- No member that is a path contains a line end. -/
def PathsOK (c : ConverterLog) : Prop := '\n' ∉ c.input ∧ '\n' ∉ c.output

theorem readPaths_ok {c : ConverterLog} {line : List Char} {st : Stream} (hst : ∀ l ∈ st.lines, '\n' ∉ l) (hc : PathsOK c) :
    (∀ l ∈ (readPaths c line st).2.lines, '\n' ∉ l) ∧ PathsOK (readPaths c line st).1 := by
  have key : ∀ (st : Stream) (str : List Char), (∀ l ∈ st.lines, '\n' ∉ l) → '\n' ∉ str →
      (∀ l ∈ (getline st str).2.2.lines, '\n' ∉ l) ∧ '\n' ∉ (getline st str).2.1 := by
    intro st str h1 h2
    obtain ⟨h3, h4⟩ := getline_sub st str
    refine ⟨fun l hl => h1 l (h3 hl), ?_⟩
    rcases h4 with h | h | h
    · exact h1 _ h
    · rw [h]; exact h2
    · rw [h]; simp
  unfold readPaths
  by_cases h1 : startsWith line "input:".toList = true
  · obtain ⟨k1, k2⟩ := key st c.input hst hc.1
    rw [if_pos h1]
    dsimp only
    split
    · obtain ⟨k3, k4⟩ := key (getline st c.input).2.2 c.output k1 hc.2
      exact ⟨k3, k2, k4⟩
    · exact ⟨k1, k2, hc.2⟩
  · rw [if_neg h1]
    dsimp only
    split
    · obtain ⟨k3, k4⟩ := key st c.output hst hc.2
      exact ⟨k3, hc.1, k4⟩
    · exact ⟨hst, hc⟩

theorem readLoop_paths : ∀ (f : ℕ) (st : Stream) (line : List Char) (c r : ConverterLog), (∀ l ∈ st.lines, '\n' ∉ l) → PathsOK c →
    readLoop K f st line c = .ok r → PathsOK r
  | 0, _, _, _, _, _, _, h => by simp [readLoop] at h
  | f + 1, st, line, c, r, hst, hc, h => by
    have hg := (getline_sub st line).1
    rw [readLoop] at h
    rcases hgl : getline st line with ⟨b, l, st'⟩
    rw [hgl] at h hg
    cases b with
    | false => simp only [Except.ok.injEq] at h; subst h; exact hc
    | true =>
      dsimp only at h
      obtain ⟨k1, k2⟩ := readPaths_ok (c := c) (line := l) (st := st') (fun m hm => hst m (hg hm)) hc
      obtain ⟨b, hb, h⟩ := bind_eq_ok.1 h
      obtain ⟨d, hd, h⟩ := bind_eq_ok.1 h
      have hb2 : (∀ m ∈ b.2.2.lines, '\n' ∉ m) ∧ PathsOK b.1 := by
        unfold optionsBranch at hb
        split at hb
        · obtain ⟨q, hq, hb⟩ := bind_eq_ok.1 hb
          rw [pure_ok, Except.ok.injEq] at hb
          subst hb
          exact ⟨fun m hm => k1 m (readOptions_sub f _ _ _ hq hm), k2⟩
        · simp only [Except.ok.injEq] at hb; subst hb; exact ⟨k1, k2⟩
      have hd2 : (∀ m ∈ d.2.2.lines, '\n' ∉ m) ∧ PathsOK d.1 := by
        unfold scatteringBranch at hd
        split at hd
        · obtain ⟨q, hq, hd⟩ := bind_eq_ok.1 hd
          rw [pure_ok, Except.ok.injEq] at hd
          subst hd
          exact ⟨fun m hm => hb2.1 m (readScattering_sub f _ _ _ hq hm), hb2.2⟩
        · simp only [Except.ok.injEq] at hd; subst hd; exact hb2
      exact readLoop_paths f _ _ _ _ hd2.1 hd2.2 h

theorem new_paths {text : List Char} {c : ConverterLog} (h : new K (some text) = .ok c) : PathsOK c := by
  obtain ⟨t, ht⟩ := openText_lines text
  unfold new at h
  dsimp only at h
  refine readLoop_paths _ _ _ _ _ ?_ ⟨by simp, by simp⟩ h
  rw [ht]
  exact (textOf_lines text).2

theorem readLoop_written : ∀ (f : ℕ) (st : Stream) (line : List Char) (c r : ConverterLog),
    readLoop K f st line c = .ok r → r.written = c.written ∧ r.notWritten = c.notWritten
  | 0, _, _, _, _, h => by simp [readLoop] at h
  | f + 1, st, line, c, r, h => by
    rw [readLoop] at h
    rcases hgl : getline st line with ⟨b, l, st'⟩
    rw [hgl] at h
    cases b with
    | false => simp only [Except.ok.injEq] at h; subst h; exact ⟨rfl, rfl⟩
    | true =>
      dsimp only at h
      obtain ⟨b, hb, h⟩ := bind_eq_ok.1 h
      obtain ⟨d, hd, h⟩ := bind_eq_ok.1 h
      have h1 : (readPaths c l st').1.written = c.written ∧ (readPaths c l st').1.notWritten = c.notWritten := by
        unfold readPaths
        split_ifs <;> exact ⟨rfl, rfl⟩
      have hb2 : b.1.written = c.written ∧ b.1.notWritten = c.notWritten := by
        unfold optionsBranch at hb
        split at hb
        · obtain ⟨q, hq, hb⟩ := bind_eq_ok.1 hb
          rw [pure_ok, Except.ok.injEq] at hb
          subst hb; exact h1
        · simp only [Except.ok.injEq] at hb; subst hb; exact h1
      have hd2 : d.1.written = c.written ∧ d.1.notWritten = c.notWritten := by
        unfold scatteringBranch at hd
        split at hd
        · obtain ⟨q, hq, hd⟩ := bind_eq_ok.1 hd
          rw [pure_ok, Except.ok.injEq] at hd
          subst hd; exact hb2
        · simp only [Except.ok.injEq] at hd; subst hd; exact hb2
      obtain ⟨e1, e2⟩ := readLoop_written f _ _ _ _ h
      exact ⟨e1.trans hd2.1, e2.trans hd2.2⟩

/-- A log object that was just read has written nothing. -/
theorem new_fresh {text : List Char} {c : ConverterLog} (h : new K (some text) = .ok c) : c.written = [] ∧ c.notWritten = [] := by
  unfold new at h
  exact readLoop_written _ _ _ _ _ h

end

/-! ## C62: positions and scattering -/

/-- The positions to write: all possible ones if the first requested position is -1 (that is, "all"), otherwise the requested ones that
are possible, in the requested order. -/
def Wanted (requested possible : List ℤ) : List ℤ :=
  if requested.head? = some (-1) then possible else requested.filter fun p => decide (p ∈ possible)

theorem getPositions_new {c : ConverterLog} (hw : c.written = []) (hp : c.positions ≠ []) (possible : List ℤ) :
    ∃ nw, getPositions c possible = .ok ({ c with written := Wanted c.positions possible, notWritten := nw }, Wanted c.positions possible) := by
  obtain ⟨p, ps, h⟩ := List.exists_cons_of_ne_nil hp
  obtain ⟨i, o, pos, w, nw, sc⟩ := c
  dsimp only at h hw
  subst h hw
  unfold getPositions Wanted
  by_cases h1 : p = -1
  · refine ⟨nw, ?_⟩
    simp [h1]
  · refine ⟨nw ++ (p :: ps).filter fun q => !possible.contains q, ?_⟩
    have e : (fun q => possible.contains q) = fun q => decide (q ∈ possible) := by
      funext q; simp
    simp only [h1, if_false, List.head?_cons, Option.some.injEq, List.nil_append, e]

/-- **C62, positions.** A log object that was just read returns the wanted positions, and remembers them as written. -/
theorem C62_positions {c : ConverterLog} (hw : c.written = []) (hp : c.positions ≠ []) (possible : List ℤ) :
    ∃ c', getPositions c possible = .ok (c', Wanted c.positions possible) ∧ c'.written = Wanted c.positions possible ∧
      c'.input = c.input ∧ c'.output = c.output := by
  obtain ⟨nw, h⟩ := getPositions_new hw hp possible
  exact ⟨_, h, rfl, rfl, rfl⟩

theorem mem_wanted {requested possible : List ℤ} {p : ℤ} (h : p ∈ Wanted requested possible) : p ∈ possible := by
  unfold Wanted at h
  split_ifs at h with h1
  · exact h
  · simpa using (List.mem_filter.1 h).2

/-- **C62, scattering of listed positions.** With one row per option line, the scattering is that of the lines whose positions are
written, in the same order. -/
theorem C62_scattering {c : ConverterLog} (hw : c.written = []) (hp : c.positions ≠ []) (hall : c.positions.head? ≠ some (-1))
    (hl : c.scattering.length = c.positions.length) (possible : List ℤ) :
    (getPositions c possible >>= fun r => getScattering r.1) = .ok (RequestedScat c.positions c.scattering possible) := by
  obtain ⟨nw, h⟩ := getPositions_new hw hp possible
  obtain ⟨p, ps, hc⟩ := List.exists_cons_of_ne_nil hp
  rw [h, ok_bind]
  unfold getScattering
  dsimp only
  have hne : p ≠ -1 := by
    rw [hc] at hall
    simpa using hall
  have hw2 : ∀ q ∈ c.positions, q ∈ Wanted c.positions possible ↔ q ∈ possible := by
    intro q hq
    refine ⟨mem_wanted, fun h => ?_⟩
    rw [Wanted, if_neg hall]
    exact List.mem_filter.2 ⟨hq, by simpa using h⟩
  have h2 := getScattering_eq (Wanted c.positions possible) possible c.positions [] c.scattering hl hw2
  rw [hc] at h2 ⊢
  dsimp only
  rw [if_pos hne]
  exact h2

/-- **C62, scattering of all positions.** Under "all", row `p` of the section belongs to the spline at position `p`. -/
theorem C62_scattering_all {c : ConverterLog} (hall : c.positions.head? = some (-1)) (possible : List ℤ)
    (hposs : ∀ p ∈ possible, 0 ≤ p ∧ p < c.scattering.length) :
    ∃ rows, (getPositions c possible >>= fun r => getScattering r.1) = .ok rows ∧ Picked c.scattering possible rows := by
  obtain ⟨p, ps, hc⟩ := List.exists_cons_of_ne_nil (l := c.positions) (by intro h; simp [h] at hall)
  have hp1 : p = -1 := by rw [hc] at hall; simpa using hall
  obtain ⟨rows, h1, h2⟩ := filterVector_ok c.scattering possible hposs
  refine ⟨rows, ?_, h2⟩
  unfold getPositions
  rw [hc, hp1]
  dsimp only
  rw [if_pos rfl, ok_bind]
  unfold getScattering
  dsimp only
  simpa using h1

/-- **C62, missing rows.** Under "all", a spline without a row is refused. -/
theorem C62_scattering_missing {c : ConverterLog} (hall : c.positions.head? = some (-1)) (possible : List ℤ)
    (h0 : ∀ p ∈ possible, 0 ≤ p) (hx : ∃ p ∈ possible, (c.scattering.length : ℤ) ≤ p) :
    (getPositions c possible >>= fun r => getScattering r.1) = .error (.thrown .runtimeError) := by
  obtain ⟨p, ps, hc⟩ := List.exists_cons_of_ne_nil (l := c.positions) (by intro h; simp [h] at hall)
  have hp1 : p = -1 := by rw [hc] at hall; simpa using hall
  have h1 := filterVector_high c.scattering possible h0 hx
  unfold getPositions
  rw [hc, hp1]
  dsimp only
  rw [if_pos rfl, ok_bind]
  unfold getScattering
  dsimp only
  simpa using h1

/-- **C62, no options.** A log object without a requested position (no section "options:", or an empty one) has undefined behaviour,
whatever the possible positions are. -/
theorem C62_no_options_undefined {c : ConverterLog} (h : c.positions = []) (possible : List ℤ) :
    getPositions c possible = .error .ub ∧ getScattering c = .error .ub := by
  unfold getPositions getScattering
  rw [h]
  exact ⟨rfl, rfl⟩

/-- **C62, asking again.** Unless all splines are requested, a second call repeats the positions: the result is not a function of the
requested and possible positions. -/
theorem C62_second_call {c : ConverterLog} (hw : c.written = []) (hp : c.positions ≠ []) (hall : c.positions.head? ≠ some (-1))
    (possible : List ℤ) : ∃ c', (getPositions c possible >>= fun r => getPositions r.1 possible)
      = .ok (c', Wanted c.positions possible ++ Wanted c.positions possible) := by
  obtain ⟨nw, h⟩ := getPositions_new hw hp possible
  obtain ⟨p, ps, hc⟩ := List.exists_cons_of_ne_nil hp
  have hne : p ≠ -1 := by
    rw [hc] at hall
    simpa using hall
  rw [h, ok_bind]
  unfold getPositions
  dsimp only
  have e : (fun q => possible.contains q) = fun q => decide (q ∈ possible) := by
    funext q; simp
  have hW : Wanted c.positions possible = c.positions.filter fun q => decide (q ∈ possible) := by
    rw [Wanted, if_neg hall]
  rw [hc] at hW ⊢
  dsimp only
  rw [if_neg hne]
  refine ⟨{ c with positions := p :: ps, written := Wanted (p :: ps) possible ++ Wanted (p :: ps) possible, notWritten := nw ++ (p :: ps).filter fun q => !possible.contains q }, ?_⟩
  simp only [e, hW]

example : ∃ c, new ℚ (some exLog) = .ok c ∧ c.written = [] ∧ c.positions ≠ [] ∧ c.scattering.length = c.positions.length ∧
    c.positions.head? ≠ some (-1) := by
  have h := C61_read_log (K := ℚ) exDoc_ok exDoc_text
  exact ⟨_, h, rfl, by decide, by decide, by decide⟩

/-! ## C63: the programs -/

section
variable {K : Type} [Field K] [LinearOrder K] [IsStrictOrderedRing K] [FloorRing K] {S : Type}

/-- The log entry of a run that wrote the splines at the given positions. -/
def entry (written : List ℤ) (input output time : List Char) : List Char :=
  let what := match written with
    | [] => ("No splines".toList, " have".toList)
    | [p] => ("The spline at position ".toList ++ intText p, " has".toList)
    | ps => ("The splines at positions ".toList ++ List.intercalate ", ".toList (ps.map intText), " have".toList)
  "\n\nlog:\n".toList ++ time ++ what.1 ++ " in file ".toList ++ input ++ what.2 ++ " been written to ".toList ++ output

theorem positionsText_eq : ∀ (l : List ℤ), positionsText l = List.intercalate ", ".toList (l.map intText)
  | [] => by simp [positionsText, List.intercalate]
  | [p] => by simp [positionsText, List.intercalate]
  | p :: q :: l => by
    rw [positionsText, positionsText_eq (q :: l)]
    · simp [List.intercalate, List.intersperse, List.append_assoc]
    · simp

theorem logText_entry (c : ConverterLog) (time : List Char) : logText c time = entry c.written c.input c.output time := by
  have a1 : "The spline at position ".toList = "The ".toList ++ "spline".toList ++ " at position".toList ++ " ".toList := by decide
  have a2 : "The splines at positions ".toList = "The ".toList ++ "splines".toList ++ " at position".toList ++ "s ".toList := by decide
  unfold logText entry
  rcases h : c.written with _ | ⟨p, _ | ⟨q, l⟩⟩
  · rfl
  · rw [a1]
    rfl
  · rw [a2, positionsText_eq]
    rfl

theorem picked_unique {α : Type} {l : List α} {ps : List ℤ} {a b : List α} (ha : Picked l ps a) (hb : Picked l ps b) : a = b := by
  apply List.ext_getElem?
  intro k
  by_cases hk : k < ps.length
  · obtain ⟨p, h1, _, h3⟩ := ha.2 k hk
    obtain ⟨q, h4, _, h6⟩ := hb.2 k hk
    rw [h1] at h4
    have : p = q := by simpa using h4
    rw [h3, h6, this]
  · rw [List.getElem?_eq_none (by rw [ha.1]; omega), List.getElem?_eq_none (by rw [hb.1]; omega)]

/-- The arguments ask for the help text. -/
def AsksHelp (arg : List Char) : Prop := "--help".toList <+: arg ∨ "-h".toList <+: arg

theorem not_help {arg : List Char} (h : ¬ AsksHelp arg) : (startsWith arg "--help".toList || startsWith arg "-h".toList) = false := by
  rw [← Bool.not_eq_true, Bool.or_eq_true, startsWith_iff, startsWith_iff]
  exact h

/-- The setting of a run: the log file can be read, it names a readable input file, and requests something. -/
structure Run (K : Type) [Field K] [LinearOrder K] [FloorRing K] (env : Env S) (source : FileFormat) (logFile : List Char)
    (c : ConverterLog) (splines : List S) (dims : List ℤ) : Prop where
  noHelp : ¬ AsksHelp logFile
  log : new K (env.file logFile) = .ok c
  positions : c.positions ≠ []
  read : env.read source c.input = .ok splines
  dims : splines.mapM env.dim = .ok dims

theorem Run.fresh {env : Env S} {source : FileFormat} {logFile : List Char} {c : ConverterLog} {splines : List S} {dims : List ℤ}
    (h : Run K env source logFile c splines dims) : c.written = [] := by
  have h1 := h.log
  cases hf : env.file logFile with
  | none => rw [hf] at h1; simp [new] at h1
  | some text => rw [hf] at h1; exact (new_fresh h1).1

theorem programDim_holds {source target : FileFormat} {m : ℤ} (h : programDim source target = some m) :
    Readable source ∧ Holds target m ∧ source ≠ target := by
  cases source <;> cases target <;> simp [programDim] at h <;> subst h <;>
    exact ⟨by simp [Readable], rfl, by decide⟩

/-- **C63, dimensions.** Each program converts a format that can be read to another one, and lets through exactly the dimensions that the
converter class lets through for its output format. There is a program for each such pair. -/
theorem C63_dimensions (source target : FileFormat) (m : ℤ) : programDim source target = some m ↔
    Readable source ∧ Holds target m ∧ source ≠ target := by
  refine ⟨programDim_holds, ?_⟩
  rintro ⟨h1, h2, h3⟩
  rcases h1 with rfl | rfl | rfl <;> cases target <;> simp_all [Holds, programDim]

theorem prepare_ok {env : Env S} {source target : FileFormat} {logFile : List Char} {c : ConverterLog} {splines : List S}
    {dims : List ℤ} (h : Run K env source logFile c splines dims) (m : ℤ) :
    ∃ out nw, Picked splines (Wanted c.positions (Supported dims m)) out ∧
      getPositions c (Supported dims m) = .ok ({ c with written := Wanted c.positions (Supported dims m), notWritten := nw },
        Wanted c.positions (Supported dims m)) ∧
      prepare K env source target m logFile = (do
        let scat ← if target = FileFormat.vtk then (getPositions c (Supported dims m) >>= fun r => getScattering r.1) else .ok []
        return ({ c with written := Wanted c.positions (Supported dims m), notWritten := nw }, out, scat)) := by
  obtain ⟨nw, hg⟩ := getPositions_new h.fresh h.positions (Supported dims m)
  have hpos := positions_eq ⟨fun _ => .ok [], env.dim, fun _ _ _ => .ok ()⟩ m splines dims h.dims
  obtain ⟨out, ho, hpk⟩ := filterVector_ok splines (Wanted c.positions (Supported dims m)) fun p hp =>
    requested_valid ⟨fun _ => .ok [], env.dim, fun _ _ _ => .ok ()⟩ m h.dims p (mem_wanted hp)
  refine ⟨out, nw, hpk, hg, ?_⟩
  unfold prepare
  rw [h.log, ok_bind, h.read]
  have e : guarded (Except.ok splines : M (List S)) = .ok splines := rfl
  rw [e, ok_bind, hpos, ok_bind, hg, ok_bind, ok_bind]
  dsimp only
  rw [ho]
  split_ifs
  · cases getScattering { c with written := Wanted c.positions (Supported dims m), notWritten := nw } <;> rfl
  · rfl

/-- **C63, what a program does.** A program whose output format is not VTK hands the wanted splines to the writer of the output file and
appends one entry, naming exactly the written positions, to its log file. -/
theorem C63_converts {env : Env S} {source target : FileFormat} {m : ℤ} {logFile : List Char} {c : ConverterLog} {splines : List S}
    {dims : List ℤ} (h : Run K env source logFile c splines dims) (hv : target ≠ .vtk)
    (hw : ∀ a b s, env.write target a b s = .ok ()) :
    ∃ out, Picked splines (Wanted c.positions (Supported dims m)) out ∧
      program K env source target m [logFile] = { output := some (out, c.output, []), log := some (logFile, entry (Wanted c.positions (Supported dims m)) c.input c.output env.time), result := .ok () } := by
  obtain ⟨out, nw, hpk, hg, hp⟩ := prepare_ok (K := K) (target := target) h m
  refine ⟨out, hpk, ?_⟩
  rw [if_neg hv, ok_bind] at hp
  dsimp only at hp
  rw [pure_ok] at hp
  unfold program
  dsimp only
  rw [not_help h.noHelp, hp]
  simp only [Bool.false_eq_true, if_false, hw, logText_entry]

/-- **C63, VTK.** With one row per option line, each written spline is handed over with the row of its line. -/
theorem C63_converts_vtk {env : Env S} {source : FileFormat} {m : ℤ} {logFile : List Char} {c : ConverterLog} {splines : List S}
    {dims : List ℤ} (h : Run K env source logFile c splines dims) (hall : c.positions.head? ≠ some (-1))
    (hl : c.scattering.length = c.positions.length) (hw : ∀ a b s, env.write .vtk a b s = .ok ()) :
    ∃ out, Picked splines (Wanted c.positions (Supported dims m)) out ∧
      program K env source .vtk m [logFile] = { output := some (out, c.output, RequestedScat c.positions c.scattering (Supported dims m)), log := some (logFile, entry (Wanted c.positions (Supported dims m)) c.input c.output env.time), result := .ok () } := by
  obtain ⟨out, nw, hpk, hg, hp⟩ := prepare_ok (K := K) (target := .vtk) h m
  refine ⟨out, hpk, ?_⟩
  rw [if_pos rfl, C62_scattering h.fresh h.positions hall hl, ok_bind] at hp
  dsimp only at hp
  rw [pure_ok] at hp
  unfold program
  dsimp only
  rw [not_help h.noHelp, hp]
  simp only [Bool.false_eq_true, if_false, hw, logText_entry]

/-- **C63, VTK, all splines.** Under "all" every spline is handed over with the row of its position, if there are rows up to the last
position. -/
theorem C63_converts_vtk_all {env : Env S} {source : FileFormat} {m : ℤ} {logFile : List Char} {c : ConverterLog} {splines : List S}
    {dims : List ℤ} (h : Run K env source logFile c splines dims) (hall : c.positions.head? = some (-1))
    (hl : ∀ p ∈ Supported dims m, p < c.scattering.length) (hw : ∀ a b s, env.write .vtk a b s = .ok ()) :
    ∃ out rows, Picked splines (Supported dims m) out ∧ Picked c.scattering (Supported dims m) rows ∧
      program K env source .vtk m [logFile] = { output := some (out, c.output, rows), log := some (logFile, entry (Supported dims m) c.input c.output env.time), result := .ok () } := by
  obtain ⟨out, nw, hpk, hg, hp⟩ := prepare_ok (K := K) (target := .vtk) h m
  obtain ⟨rows, h1, h2⟩ := C62_scattering_all hall (Supported dims m) fun p hp =>
    ⟨by obtain ⟨i, rfl, _⟩ := mem_supported.1 hp; omega, hl p hp⟩
  have hW : Wanted c.positions (Supported dims m) = Supported dims m := by rw [Wanted, if_pos hall]
  rw [hW] at hpk hp
  refine ⟨out, rows, hpk, h2, ?_⟩
  rw [if_pos rfl, h1, ok_bind] at hp
  dsimp only at hp
  rw [pure_ok] at hp
  unfold program
  dsimp only
  rw [not_help h.noHelp, hp]
  simp only [Bool.false_eq_true, if_false, hw, logText_entry]

/-- **C63, the same as the converter class.** A program hands to the writer what a new `IOConverter` hands to it when it is asked for the
positions of the options (for none, under "all"). -/
theorem C63_same_as_converter {env : Env S} {source target : FileFormat} {m : ℤ} (hm : programDim source target = some m)
    {logFile : List Char} {c : ConverterLog} {splines : List S}
    {dims : List ℤ} (h : Run K env source logFile c splines dims) (hv : target ≠ .vtk)
    (hw : ∀ a b s, env.write target a b s = .ok ()) :
    (program K env source target m [logFile]).output.map (fun o => (o.1, o.2.2))
      = (convertFile ⟨fun f => env.read f c.input, env.dim, fun f a s => env.write f a c.output s⟩ ⟨source, target, []⟩
          (if c.positions.head? = some (-1) then [] else c.positions) []).output := by
  obtain ⟨hr, hh, _⟩ := programDim_holds hm
  obtain ⟨out, hpk, hp⟩ := C63_converts (m := m) h hv hw
  rw [hp]
  obtain ⟨out2, hpk2, ho2, _⟩ := C40_first_call_partial
    (env := ⟨fun f => env.read f c.input, env.dim, fun f a s => env.write f a c.output s⟩) (c := ⟨source, target, []⟩)
    (if c.positions.head? = some (-1) then [] else c.positions) [] splines dims m hr h.read h.dims hh hv rfl (fun a b => hw _ _ _)
  have hW : Requested (if c.positions.head? = some (-1) then [] else c.positions) (Supported dims m)
      = Wanted c.positions (Supported dims m) := by
    unfold Requested Wanted
    by_cases hall : c.positions.head? = some (-1)
    · simp [hall]
    · rw [if_neg hall, if_neg h.positions, if_neg hall]
  rw [hW] at hpk2
  rw [ho2, picked_unique hpk hpk2]
  rfl

/-- **C63, running again.** After a run that appended its entry to the log file, the same run does the same again, provided the log file
did not end in a bare header of a path. -/
theorem C63_run_again {env : Env S} {source target : FileFormat} {m : ℤ} {logFile text added : List Char} (ht : TimeText env.time)
    (hf : env.file logFile = some text)
    (hend : text.getLast?.getD '\n' = '\n' ∨ ∀ l, (getlines '\n' text).getLast? = some l → ¬ "input:".toList <+: l ∧ ¬ "output:".toList <+: l)
    (hrun : (program K env source target m [logFile]).log = some (logFile, added)) :
    program K { env with file := Function.update env.file logFile (some (text ++ added)) } source target m [logFile]
      = program K env source target m [logFile] := by
  have key : prepare K { env with file := Function.update env.file logFile (some (text ++ added)) } source target m logFile
      = prepare K env source target m logFile := by
    have hadd : ∃ c', PathsOK c' ∧ added = logText c' env.time := by
      unfold program at hrun
      dsimp only at hrun
      split_ifs at hrun with hh
      · cases hp : prepare K env source target m logFile with
        | error e => rw [hp] at hrun; simp at hrun
        | ok r =>
          obtain ⟨c', out, scat⟩ := r
          rw [hp] at hrun
          dsimp only at hrun
          cases hwr : env.write target out c'.output scat with
          | error e => rw [hwr] at hrun; simp at hrun
          | ok u =>
            rw [hwr] at hrun
            simp only [Option.some.injEq, Prod.mk.injEq, true_and] at hrun
            refine ⟨c', ?_, hrun.symm⟩
            unfold prepare at hp
            obtain ⟨c, hc, hp⟩ := bind_eq_ok.1 hp
            obtain ⟨spl, _, hp⟩ := bind_eq_ok.1 hp
            obtain ⟨pos, _, hp⟩ := bind_eq_ok.1 hp
            obtain ⟨r, hr, hp⟩ := bind_eq_ok.1 hp
            have hp : r.1 = c' := by
              dsimp only at hp
              split_ifs at hp <;>
                (obtain ⟨sc, _, hp⟩ := bind_eq_ok.1 hp
                 obtain ⟨ou, _, hp⟩ := bind_eq_ok.1 hp
                 rw [pure_ok, Except.ok.injEq, Prod.mk.injEq] at hp
                 exact hp.1)
            rw [← hp]
            rw [hf] at hc
            have hk := new_paths hc
            unfold getPositions at hr
            split at hr
            · simp at hr
            · simp only [Except.ok.injEq] at hr
              rw [← hr]
              dsimp only
              split_ifs <;> exact hk
    obtain ⟨c', ⟨h1, h2⟩, rfl⟩ := hadd
    unfold prepare
    dsimp only
    rw [Function.update_self, hf, C61_reread text env.time ht c' h1 h2 hend]
  unfold program
  dsimp only
  rw [key]

/-- **C63, help.** Asked for help, a program reads and writes nothing. -/
theorem C63_help (env : Env S) (source target : FileFormat) (m : ℤ) {arg : List Char} (h : AsksHelp arg) :
    program K env source target m [arg] = { help := true, result := .ok () } := by
  have h1 : (startsWith arg "--help".toList || startsWith arg "-h".toList) = true := by
    rw [Bool.or_eq_true, startsWith_iff, startsWith_iff]
    exact h
  unfold program
  dsimp only
  rw [if_pos h1]

/-- **C63, arguments.** With no argument, or with more than one, a program throws before it reads or writes anything. -/
theorem C63_arguments (env : Env S) (source target : FileFormat) (m : ℤ) {args : List (List Char)} (h : args.length ≠ 1) :
    program K env source target m args = { result := .error (.thrown .runtimeError) } := by
  rcases args with _ | ⟨a, _ | ⟨b, l⟩⟩
  · rfl
  · simp at h
  · rfl

/-- **C63, failures.** If the log file cannot be opened, or the reader throws anything at all, a program throws a `std::runtime_error`; it
writes neither an output file nor a log entry. -/
theorem C63_failures (env : Env S) (source target : FileFormat) (m : ℤ) {logFile : List Char} (hn : ¬ AsksHelp logFile)
    (h : env.file logFile = none ∨ ∃ c e, new K (env.file logFile) = .ok c ∧ env.read source c.input = .error (.thrown e)) :
    program K env source target m [logFile] = { result := .error (.thrown .runtimeError) } := by
  have hp : prepare K env source target m logFile = .error (.thrown .runtimeError) := by
    unfold prepare
    rcases h with h | ⟨c, e, h1, h2⟩
    · rw [h]; rfl
    · rw [h1, ok_bind, h2]; rfl
  unfold program
  dsimp only
  rw [not_help hn, hp]
  rfl

/-- **C63, no log without output.** A log entry is appended only after the writer was called and succeeded. -/
theorem C63_log_after_output (env : Env S) (source target : FileFormat) (m : ℤ) (args : List (List Char))
    (h : (program K env source target m args).log ≠ none) : ∃ o, (program K env source target m args).output = some o ∧
      env.write target o.1 o.2.1 o.2.2 = .ok () ∧ (program K env source target m args).result = .ok () := by
  rcases args with _ | ⟨a, _ | ⟨b, l⟩⟩
  · simp [program] at h
  · unfold program at h ⊢
    dsimp only at h ⊢
    split_ifs at h ⊢ with hh
    · simp at h
    · cases hp : prepare K env source target m a with
      | error e => rw [hp] at h; simp at h
      | ok r =>
        obtain ⟨c', out, scat⟩ := r
        rw [hp] at h
        dsimp only at h ⊢
        cases hwr : env.write target out c'.output scat with
        | error e => rw [hwr] at h; simp at h
        | ok u => exact ⟨_, rfl, hwr, rfl⟩
  · simp [program] at h

end

/-- A file with four splines of dimensions 1, 4, 2 and 3, and the log file of the example above. -/
def exEnv : Env ℤ where
  file := fun _ => some exLog
  read := fun _ _ => .ok [1, 4, 2, 3]
  dim := fun d => .ok d
  write := fun _ _ _ _ => .ok ()
  time := "Mon Nov 16 09:17:03 2026\n".toList

theorem exRun : Run ℚ exEnv .irit "log.txt".toList
    { input := "a.itd".toList, output := "out.vtk".toList, positions := [0, 3, 5], scattering := [[30], [10, 20], [6, 7, 5]] }
    [1, 4, 2, 3] [1, 4, 2, 3] where
  noHelp := by unfold AsksHelp; decide
  log := C61_read_log (K := ℚ) exDoc_ok exDoc_text
  positions := by simp
  read := rfl
  dims := by decide

example : Wanted [0, 3, 5] (Supported [1, 4, 2, 3] 3) = [0, 3] := by decide

example : entry [0, 3] "a.itd".toList "out.vtk".toList "today\n".toList
    = "\n\nlog:\ntoday\nThe splines at positions 0, 3 in file a.itd have been written to out.vtk".toList := by
  have h : [(0 : ℤ), 3].map intText = ["0".toList, "3".toList] := by simp [intText, natText, digit]
  unfold entry
  dsimp only
  rw [h]
  decide +kernel

example : (program ℚ exEnv .irit .vtk 3 ["log.txt".toList]).output = some ([1, 3], "out.vtk".toList, [[30], [10, 20]]) := by
  obtain ⟨out, h1, h2⟩ := C63_converts_vtk (m := 3) exRun (by simp) rfl fun _ _ _ => rfl
  have h3 : Picked [1, 4, 2, 3] (Wanted [0, 3, 5] (Supported [1, 4, 2, 3] 3)) [(1 : ℤ), 3] := by
    refine ⟨by decide, ?_⟩
    intro k hk
    have hk2 : k < 2 := hk
    interval_cases k
    · exact ⟨0, by decide, by decide, rfl⟩
    · exact ⟨3, by decide, by decide, rfl⟩
  have h4 : RequestedScat [0, 3, 5] [[30], [10, 20], [6, 7, 5]] (Supported [1, 4, 2, 3] 3) = [[30], [10, 20]] := by decide
  rw [h2, picked_unique h1 h3]
  dsimp only
  rw [h4]

end Log
end SplineLib
