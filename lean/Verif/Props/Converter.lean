import Verif.Model.Converter
import Verif.Core.Loops

/-!
# C40: what a converter writes, over all histories of calls
-/

namespace SplineLib
namespace Conv
open Str
set_option linter.unusedSectionVars false

variable {S : Type}

/-! ## Independent description -/

/-- The positions of the splines of the input file whose dimension the output format supports, in the order of the file. -/
def Supported (dims : List ℤ) (m : ℤ) : List ℤ :=
  ((List.range dims.length).filter fun i => decide (dims.getD i 0 ≤ m)).map fun i : ℕ => (i : ℤ)

/-- The positions that a call should write: the requested ones that are supported, in the requested order; all supported ones
if nothing is requested. -/
def Requested (positions supported : List ℤ) : List ℤ :=
  if positions = [] then supported else positions.filter fun p => decide (p ∈ supported)

/-- The splines at given positions. -/
def Picked {α : Type} (l : List α) (ps : List ℤ) (out : List α) : Prop :=
  out.length = ps.length ∧ ∀ k < ps.length, ∃ p : ℕ, ps[k]? = some (p : ℤ) ∧ p < l.length ∧ out[k]? = l[p]?

/-! ## The functions of the model -/

theorem positionsFrom_eq (env : Env S) (m : ℤ) (splines : List S) (dims : List ℤ) (h : splines.mapM env.dim = .ok dims)
    (i : ℕ) : positionsFrom env m i splines
      = .ok (((List.range dims.length).filter fun k => decide (dims.getD k 0 ≤ m)).map fun k : ℕ => ((i + k : ℕ) : ℤ)) := by
  induction splines generalizing dims i with
  | nil =>
    have : dims = [] := by simpa [pure, Except.pure] using h.symm
    subst this; rfl
  | cons s l ih =>
    rw [List.mapM_cons] at h
    cases hd : env.dim s with
    | error e => rw [hd] at h; simp [bind, Except.bind] at h
    | ok d =>
      rw [hd] at h
      cases hl : l.mapM env.dim with
      | error e => rw [hl] at h; simp [bind, Except.bind] at h
      | ok ds =>
        rw [hl] at h
        have hd2 : dims = d :: ds := by simpa [bind, Except.bind, pure, Except.pure] using h.symm
        subst hd2
        have h2 := ih ds hl (i + 1)
        rw [positionsFrom, hd, ok_bind]
        rw [show ((i : ℤ) + 1) = ((i + 1 : ℕ) : ℤ) by push_cast; rfl, h2, ok_bind, pure_ok]
        rw [List.length_cons, List.range_succ_eq_map, List.filter_cons]
        simp only [List.getD_cons_zero, List.filter_map, Function.comp_def, List.getD_cons_succ]
        have e : (List.map (fun k : ℕ => ((i + 1 + k : ℕ) : ℤ)) (List.filter (fun k => decide (ds.getD k 0 ≤ m)) (List.range ds.length)))
            = List.map (fun k : ℕ => ((i + k : ℕ) : ℤ))
              (List.map Nat.succ (List.filter (fun k => decide (ds.getD k 0 ≤ m)) (List.range ds.length))) := by
          rw [List.map_map]; apply List.map_congr_left; intro k _; simp [Function.comp]; omega
        rw [e]
        by_cases hm : d ≤ m
        · simp only [hm, decide_true, if_true, List.map_cons, Nat.add_zero]
        · simp only [hm, decide_false, if_false, Bool.false_eq_true]

theorem positions_eq (env : Env S) (m : ℤ) (splines : List S) (dims : List ℤ) (h : splines.mapM env.dim = .ok dims) :
    positionsFrom env m 0 splines = .ok (Supported dims m) := by
  have h2 := positionsFrom_eq env m splines dims h 0
  simpa [Supported] using h2

theorem getPositions_eq (written positions possible : List ℤ) :
    getPositions written positions possible = (if positions = [] then [] else written) ++ Requested positions possible := by
  unfold getPositions Requested
  cases positions with
  | nil => simp
  | cons p l => simp

theorem mem_supported {dims : List ℤ} {m p : ℤ} :
    p ∈ Supported dims m ↔ ∃ i : ℕ, p = i ∧ i < dims.length ∧ dims.getD i 0 ≤ m := by
  unfold Supported
  simp only [List.mem_map, List.mem_filter, List.mem_range, decide_eq_true_eq]
  constructor
  · rintro ⟨i, ⟨h1, h2⟩, rfl⟩; exact ⟨i, rfl, h1, h2⟩
  · rintro ⟨i, rfl, h1, h2⟩; exact ⟨i, ⟨h1, h2⟩, rfl⟩

theorem mem_requested {positions supported : List ℤ} {p : ℤ} (h : p ∈ Requested positions supported) : p ∈ supported := by
  unfold Requested at h
  split_ifs at h with h1
  · exact h
  · simpa using (List.mem_filter.1 h).2

/-- Filtering at valid positions succeeds with the entries at these positions. -/
theorem filterVector_ok {α : Type} (l : List α) (ps : List ℤ) (h : ∀ p ∈ ps, 0 ≤ p ∧ p < l.length) :
    ∃ out, filterVector l ps = .ok out ∧ Picked l ps out := by
  induction ps with
  | nil => exact ⟨[], rfl, rfl, by simp⟩
  | cons p ps ih =>
    obtain ⟨out, h1, h2, h3⟩ := ih (fun q hq => h q (List.mem_cons_of_mem _ hq))
    obtain ⟨hp0, hp1⟩ := h p List.mem_cons_self
    obtain ⟨q, rfl⟩ := Int.eq_ofNat_of_zero_le hp0
    have hq : q < l.length := by omega
    refine ⟨l[q] :: out, ?_, by simp [h2], ?_⟩
    · rw [filterVector, if_pos hp1]
      have : getI l (q : ℤ) = .ok l[q] := by rw [getI_nat]; simp [getN, hq]
      rw [this, ok_bind, h1, ok_bind, pure_ok]
    · intro k hk
      cases k with
      | zero => exact ⟨q, by simp, hq, by simp [hq]⟩
      | succ k =>
        obtain ⟨p', h4, h5, h6⟩ := h3 k (by simpa using hk)
        exact ⟨p', by simpa using h4, h5, by simpa using h6⟩

/-- Filtering at a position that is too high, after valid ones, is refused. -/
theorem filterVector_high {α : Type} (l : List α) (ps : List ℤ) (h : ∀ p ∈ ps, 0 ≤ p) (hx : ∃ p ∈ ps, (l.length : ℤ) ≤ p) :
    filterVector l ps = .error (.thrown .runtimeError) := by
  induction ps with
  | nil => simp at hx
  | cons p ps ih =>
    rw [filterVector]
    split_ifs with hp
    · obtain ⟨q, rfl⟩ := Int.eq_ofNat_of_zero_le (h p List.mem_cons_self)
      have hq : q < l.length := by
        have : (q : ℤ) < l.length := hp
        omega
      have e : getI l (q : ℤ) = .ok l[q] := by rw [getI_nat]; simp [getN, hq]
      rw [e, ok_bind, ih (fun q hq => h q (List.mem_cons_of_mem _ hq)) ?_]
      · rfl
      · obtain ⟨r, hr, hr2⟩ := hx
        rcases List.mem_cons.1 hr with rfl | hr
        · exact absurd hr2 (by simp only [not_le]; exact hp)
        · exact ⟨r, hr, hr2⟩
    · rfl

/-- Formats that can be read and formats that can be written, with the highest supported dimension. -/
def Readable (f : FileFormat) : Prop := f = .iges ∨ f = .irit ∨ f = .xml

theorem reader_ok {f : FileFormat} (h : Readable f) : reader f = .ok f := by
  rcases h with h | h | h <;> subst h <;> rfl

/-- Highest dimension of the splines that each output format can hold. -/
def Holds : FileFormat → ℤ → Prop
  | .iges, m => m = 2
  | .irit, m => m = 3
  | .vtk, m => m = 3
  | .xml, m => m = 4
  | .error, _ => False

theorem maxDim_ok {f : FileFormat} {m : ℤ} (h : Holds f m) : maxDim f = .ok m := by
  cases f <;> simp only [Holds] at h <;> first | (subst h; rfl) | exact h.elim

/-! ## One call -/

theorem mapM_length (env : Env S) {splines : List S} {dims : List ℤ} (hd : splines.mapM env.dim = .ok dims) :
    dims.length = splines.length := by
  induction splines generalizing dims with
  | nil => simp [pure, Except.pure] at hd; simp [hd.symm]
  | cons s l ih =>
    rw [List.mapM_cons] at hd
    cases h1 : env.dim s with
    | error e => rw [h1] at hd; simp [bind, Except.bind] at hd
    | ok d =>
      rw [h1] at hd
      cases hl : l.mapM env.dim with
      | error e => rw [hl] at hd; simp [bind, Except.bind] at hd
      | ok ds =>
        rw [hl] at hd
        have hd2 : dims = d :: ds := by simpa [bind, Except.bind, pure, Except.pure] using hd.symm
        subst hd2
        simp [ih hl]

theorem requested_valid (env : Env S) {splines : List S} {dims : List ℤ} (m : ℤ) (hd : splines.mapM env.dim = .ok dims) :
    ∀ p ∈ Supported dims m, 0 ≤ p ∧ p < splines.length := by
  intro p hp
  obtain ⟨i, rfl, h1, _⟩ := mem_supported.1 hp
  have := mapM_length env hd
  omega

theorem front_ok (env : Env S) {c : Converter} {splines : List S} {dims : List ℤ} {m : ℤ} (hr : Readable c.input)
    (hs : env.read c.input = .ok splines) (hd : splines.mapM env.dim = .ok dims) (hm : Holds c.output m) :
    (do
      let f ← reader c.input
      let splines ← env.read f
      let m ← maxDim c.output
      let possible ← positionsFrom env m 0 splines
      return (splines, possible)) = (.ok (splines, Supported dims m) : M (List S × List ℤ)) := by
  rw [reader_ok hr, ok_bind, hs, ok_bind, maxDim_ok hm, ok_bind, positions_eq env m splines dims hd, ok_bind, pure_ok]


/-- What a call to a format other than VTK does, for a converter with any history: what is written is the old content of the
member (dropped if no positions are requested) followed by the requested splines. -/
theorem convertFile_eq (env : Env S) (c : Converter) (positions : List ℤ) (scattering : List (List ℤ)) (splines : List S)
    (dims : List ℤ) (m : ℤ) (hr : Readable c.input) (hs : env.read c.input = .ok splines) (hd : splines.mapM env.dim = .ok dims)
    (hm : Holds c.output m) (hv : c.output ≠ .vtk)
    (hw : positions = [] ∨ ∀ p ∈ c.written, 0 ≤ p ∧ p < splines.length)
    (hwr : ∀ a b, env.write c.output a b = .ok ()) :
    ∃ out w, w = (if positions = [] then [] else c.written) ++ Requested positions (Supported dims m) ∧
      Picked splines w out ∧
      convertFile env c positions scattering = ⟨{ c with written := w }, some (out, []), .ok w⟩ := by
  set w := (if positions = [] then [] else c.written) ++ Requested positions (Supported dims m) with hwdef
  have hval : ∀ p ∈ w, 0 ≤ p ∧ p < splines.length := by
    intro p hp
    rw [hwdef] at hp
    rcases List.mem_append.1 hp with hp | hp
    · rcases hw with h | h
      · rw [if_pos h] at hp; simp at hp
      · split_ifs at hp with h1
        · simp at hp
        · exact h p hp
    · exact requested_valid env m hd p (mem_requested hp)
  obtain ⟨out, ho, hpk⟩ := filterVector_ok splines w hval
  refine ⟨out, w, rfl, hpk, ?_⟩
  unfold convertFile
  rw [front_ok env hr hs hd hm]
  dsimp only
  rw [getPositions_eq, ← hwdef, ho, ok_bind, if_neg hv, ok_bind, pure_ok]
  dsimp only
  rw [hwr]

/-- **C40, first call.** The first call on a converter object writes exactly the requested splines that the format supports, in
the requested order (all supported ones if none are requested), and returns their positions. -/
theorem C40_first_call_partial (env : Env S) (c : Converter) (positions : List ℤ) (scattering : List (List ℤ)) (splines : List S)
    (dims : List ℤ) (m : ℤ) (hr : Readable c.input) (hs : env.read c.input = .ok splines) (hd : splines.mapM env.dim = .ok dims)
    (hm : Holds c.output m) (hv : c.output ≠ .vtk) (hc : c.written = []) (hwr : ∀ a b, env.write c.output a b = .ok ()) :
    ∃ out, Picked splines (Requested positions (Supported dims m)) out ∧
      (convertFile env c positions scattering).output = some (out, []) ∧
      (convertFile env c positions scattering).result = .ok (Requested positions (Supported dims m)) := by
  obtain ⟨out, w, h1, h2, h3⟩ := convertFile_eq env c positions scattering splines dims m hr hs hd hm hv
    (Or.inr (by simp [hc])) hwr
  rw [hc] at h1
  have : w = Requested positions (Supported dims m) := by rw [h1]; split_ifs <;> rfl
  subst this
  exact ⟨out, h2, by rw [h3], by rw [h3]⟩

/-- **C40, no positions requested.** A call without positions writes all supported splines and returns their positions, whatever
calls were made before. -/
theorem C40_all_splines_any_history (env : Env S) (c : Converter) (scattering : List (List ℤ)) (splines : List S)
    (dims : List ℤ) (m : ℤ) (hr : Readable c.input) (hs : env.read c.input = .ok splines) (hd : splines.mapM env.dim = .ok dims)
    (hm : Holds c.output m) (hv : c.output ≠ .vtk) (hwr : ∀ a b, env.write c.output a b = .ok ()) :
    ∃ out, Picked splines (Supported dims m) out ∧
      (convertFile env c [] scattering).output = some (out, []) ∧
      (convertFile env c [] scattering).result = .ok (Supported dims m) := by
  obtain ⟨out, w, h1, h2, h3⟩ := convertFile_eq env c [] scattering splines dims m hr hs hd hm hv (Or.inl rfl) hwr
  have : w = Supported dims m := by rw [h1]; simp [Requested]
  subst this
  exact ⟨out, h2, by rw [h3], by rw [h3]⟩

/-! ## Histories -/

/-- The object after a sequence of calls. -/
def after (env : Env S) (c : Converter) : List (List ℤ × List (List ℤ)) → Converter
  | [] => c
  | (p, s) :: l => after env (convertFile env c p s).conv l

/-- What the calls of a history requested since the last one without positions. -/
def Since (supported : List ℤ) : List (List ℤ) → List ℤ → List ℤ
  | [], acc => acc
  | p :: l, acc => Since supported l ((if p = [] then [] else acc) ++ Requested p supported)

theorem after_eq (env : Env S) (splines : List S) (dims : List ℤ) (m : ℤ) (hd : splines.mapM env.dim = .ok dims)
    (calls : List (List ℤ × List (List ℤ))) (c : Converter) (hr : Readable c.input) (hs : env.read c.input = .ok splines)
    (hm : Holds c.output m) (hv : c.output ≠ .vtk) (hwr : ∀ a b, env.write c.output a b = .ok ())
    (hw : ∀ p ∈ c.written, p ∈ Supported dims m) :
    after env c calls = { c with written := Since (Supported dims m) (calls.map Prod.fst) c.written } ∧
      ∀ p ∈ Since (Supported dims m) (calls.map Prod.fst) c.written, p ∈ Supported dims m := by
  induction calls generalizing c with
  | nil => exact ⟨rfl, hw⟩
  | cons a l ih =>
    obtain ⟨p, s⟩ := a
    have hw2 : ∀ q ∈ c.written, 0 ≤ q ∧ q < splines.length := by
      exact fun q hq => requested_valid env m hd q (hw q hq)
    obtain ⟨out, w, h1, h2, h3⟩ := convertFile_eq env c p s splines dims m hr hs hd hm hv (Or.inr hw2) hwr
    have hw3 : ∀ q ∈ w, q ∈ Supported dims m := by
      intro q hq
      rw [h1] at hq
      rcases List.mem_append.1 hq with hq | hq
      · split_ifs at hq with h4
        · simp at hq
        · exact hw q hq
      · exact mem_requested hq
    obtain ⟨h4, h5⟩ := ih { c with written := w } hr hs hm hv hwr hw3
    rw [after, h3]
    simp only [List.map_cons, Since]
    rw [← h1]
    exact ⟨h4, h5⟩

/-- **C40, every history.** After any sequence of calls on a fresh converter, a further call writes and returns the splines
requested by all calls since the last one without positions, in the order of the calls. -/
theorem C40_after_any_history (env : Env S) (c : Converter) (history : List (List ℤ × List (List ℤ)))
    (positions : List ℤ) (scattering : List (List ℤ)) (splines : List S) (dims : List ℤ) (m : ℤ)
    (hr : Readable c.input) (hs : env.read c.input = .ok splines) (hd : splines.mapM env.dim = .ok dims)
    (hm : Holds c.output m) (hv : c.output ≠ .vtk) (hc : c.written = [])
    (hwr : ∀ a b, env.write c.output a b = .ok ()) :
    ∃ out, Picked splines (Since (Supported dims m) (history.map Prod.fst ++ [positions]) []) out ∧
      (convertFile env (after env c history) positions scattering).output = some (out, []) ∧
      (convertFile env (after env c history) positions scattering).result
        = .ok (Since (Supported dims m) (history.map Prod.fst ++ [positions]) []) := by
  obtain ⟨h1, h2⟩ := after_eq env splines dims m hd history c hr hs hm hv hwr (by simp [hc])
  rw [hc] at h1 h2
  rw [h1]
  have hw2 : ∀ q ∈ Since (Supported dims m) (history.map Prod.fst) [], 0 ≤ q ∧ q < splines.length := by
    exact fun q hq => requested_valid env m hd q (h2 q hq)
  obtain ⟨out, w, h3, h4, h5⟩ := convertFile_eq env { c with written := Since (Supported dims m) (history.map Prod.fst) [] }
    positions scattering splines dims m hr hs hd hm hv (Or.inr hw2) hwr
  have e : ∀ (l : List (List ℤ)) (acc : List ℤ), Since (Supported dims m) (l ++ [positions]) acc
      = (if positions = [] then [] else Since (Supported dims m) l acc) ++ Requested positions (Supported dims m) := by
    intro l
    induction l with
    | nil => intro acc; simp [Since]
    | cons a l ih => intro acc; simp only [List.cons_append, Since]; exact ih _
  rw [e, ← h3]
  exact ⟨out, h4, by rw [h5], by rw [h5]⟩

/-- A file with two curves (dimension 1); spline objects are their positions. -/
def twoCurves : Env ℕ := ⟨fun _ => .ok [0, 1], fun _ => .ok 1, fun _ _ _ => .ok ()⟩

/-- The property as stated: a call gives the same result after any earlier calls. -/
def Repeatable (env : Env ℕ) (c : Converter) : Prop :=
  ∀ history positions scattering, (convertFile env (after env c history) positions scattering).result
    = (convertFile env c positions scattering).result

/-- **C40 is false.** Requesting spline 0 twice with the same converter writes it once the first time and twice the second time. -/
theorem C40_repeated_call_counterexample : ¬ Repeatable twoCurves ⟨.irit, .xml, []⟩ := by
  intro h
  have := h [([0], [])] [0] []
  exact absurd this (by simp [after, convertFile, twoCurves, reader, maxDim, positionsFrom, getPositions, filterVector, getI,
    getN, bind, Except.bind, pure, Except.pure])

/-- **C40, unreadable or unwritable formats.** They are refused with a runtime error and nothing is handed to a writer. -/
theorem C40_unknown_format_refused (env : Env S) (c : Converter) (positions : List ℤ) (scattering : List (List ℤ))
    (h : ¬ Readable c.input ∨ (c.output = .error ∧ ∃ splines, env.read c.input = .ok splines)) :
    convertFile env c positions scattering = ⟨c, none, .error (.thrown .runtimeError)⟩ := by
  obtain ⟨i, o, w⟩ := c
  by_cases hi : Readable i
  · rcases h with h | ⟨h, splines, hs⟩
    · exact absurd hi h
    · simp only at h hs
      subst h
      unfold convertFile
      simp only [reader_ok hi, ok_bind, hs, maxDim]
      rfl
  · unfold convertFile
    cases i
    case iges => exact absurd (Or.inl rfl) hi
    case irit => exact absurd (Or.inr (Or.inl rfl)) hi
    case xml => exact absurd (Or.inr (Or.inr rfl)) hi
    all_goals rfl

/-! ## VTK: the scatterings -/

/-- The scatterings that belong to the requested positions that are written. -/
def RequestedScat (positions : List ℤ) (scattering : List (List ℤ)) (supported : List ℤ) : List (List ℤ) :=
  ((positions.zip scattering).filter fun x => decide (x.1 ∈ supported)).map Prod.snd

theorem getScattering_eq (w sup : List ℤ) (positions : List ℤ) (pre scattering : List (List ℤ))
    (hl : scattering.length = positions.length) (hw : ∀ p ∈ positions, p ∈ w ↔ p ∈ sup) :
    filterVector (pre ++ scattering) (scatIndices w (pre.length : ℕ) positions) = .ok (RequestedScat positions scattering sup) := by
  induction positions generalizing pre scattering with
  | nil => simp [scatIndices, filterVector, RequestedScat]
  | cons p ps ih =>
    cases scattering with
    | nil => simp at hl
    | cons a sc =>
      have h2 := ih (pre ++ [a]) sc (by simpa using hl) (fun q hq => hw q (List.mem_cons_of_mem _ hq))
      rw [List.append_assoc, List.singleton_append, List.length_append, List.length_singleton] at h2
      have h3 := hw p List.mem_cons_self
      rw [scatIndices]
      by_cases hp : p ∈ sup
      · rw [if_pos (by simpa using h3.2 hp), filterVector, if_pos (by simp)]
        have e : getI (pre ++ a :: sc) ((pre.length : ℕ) : ℤ) = .ok a := by rw [getI_nat]; simp [getN]
        rw [e, ok_bind]
        rw [show (((pre.length : ℕ) : ℤ) + 1) = ((pre.length + 1 : ℕ) : ℤ) by push_cast; rfl, h2, ok_bind, pure_ok]
        simp [RequestedScat, hp]
      · rw [if_neg (by simpa using fun h => hp (h3.1 h))]
        rw [show (((pre.length : ℕ) : ℤ) + 1) = ((pre.length + 1 : ℕ) : ℤ) by push_cast; rfl, h2]
        simp [RequestedScat, hp]

theorem vtk_eq (env : Env S) (c : Converter) (positions : List ℤ) (scattering : List (List ℤ)) (splines : List S)
    (dims : List ℤ) (hr : Readable c.input) (hs : env.read c.input = .ok splines) (hd : splines.mapM env.dim = .ok dims)
    (hv : c.output = .vtk) (hpos : positions ≠ []) (hl : scattering.length = positions.length)
    (hw : ∀ p ∈ c.written, p ∈ Supported dims 3) :
    ∃ out, Picked splines (c.written ++ Requested positions (Supported dims 3)) out ∧
      (convertFile env c positions scattering).output = some (out, RequestedScat positions scattering (Supported dims 3)) ∧
      (convertFile env c positions scattering).result = (env.write .vtk out (RequestedScat positions scattering (Supported dims 3))
        >>= fun _ => .ok (c.written ++ Requested positions (Supported dims 3))) := by
  have hval : ∀ p ∈ c.written ++ Requested positions (Supported dims 3), 0 ≤ p ∧ p < splines.length := by
    intro p hp
    rcases List.mem_append.1 hp with hp | hp
    · exact requested_valid env 3 hd p (hw p hp)
    · exact requested_valid env 3 hd p (mem_requested hp)
  obtain ⟨out, ho, hpk⟩ := filterVector_ok splines _ hval
  refine ⟨out, hpk, ?_⟩
  have hw2 : ∀ p ∈ positions, p ∈ c.written ++ Requested positions (Supported dims 3) ↔ p ∈ Supported dims 3 := by
    intro p hp
    constructor
    · intro h
      rcases List.mem_append.1 h with h | h
      · exact hw p h
      · exact mem_requested h
    · intro h
      refine List.mem_append_right _ ?_
      rw [Requested, if_neg hpos]
      exact List.mem_filter.2 ⟨hp, by simpa using h⟩
  have hsc := getScattering_eq _ (Supported dims 3) positions [] scattering hl hw2
  have hsc2 : getScattering scattering positions (c.written ++ Requested positions (Supported dims 3))
      = .ok (RequestedScat positions scattering (Supported dims 3)) := by
    unfold getScattering
    rw [if_neg (by simpa using hpos)]
    exact hsc
  unfold convertFile
  rw [front_ok env hr hs hd (m := 3) (by rw [hv]; rfl)]
  dsimp only
  rw [getPositions_eq, if_neg hpos, ho, ok_bind, if_pos hv, hsc2, ok_bind, pure_ok]
  dsimp only
  rw [hv]
  cases env.write .vtk out (RequestedScat positions scattering (Supported dims 3)) <;> exact ⟨rfl, rfl⟩

/-- **C40, VTK, first call.** Each written spline is paired with the scattering given for its position. -/
theorem C40_vtk_first_call_partial (env : Env S) (c : Converter) (positions : List ℤ) (scattering : List (List ℤ)) (splines : List S)
    (dims : List ℤ) (hr : Readable c.input) (hs : env.read c.input = .ok splines) (hd : splines.mapM env.dim = .ok dims)
    (hv : c.output = .vtk) (hpos : positions ≠ []) (hl : scattering.length = positions.length) (hc : c.written = [])
    (hwr : ∀ a b, env.write .vtk a b = .ok ()) :
    ∃ out, Picked splines (Requested positions (Supported dims 3)) out ∧
      (convertFile env c positions scattering).output = some (out, RequestedScat positions scattering (Supported dims 3)) ∧
      (convertFile env c positions scattering).result = .ok (Requested positions (Supported dims 3)) := by
  obtain ⟨out, h1, h2, h3⟩ := vtk_eq env c positions scattering splines dims hr hs hd hv hpos hl (by simp [hc])
  rw [hc, List.nil_append] at h1 h3
  rw [hwr] at h3
  exact ⟨out, h1, h2, h3⟩

theorem requestedScat_length (sup positions : List ℤ) (scattering : List (List ℤ)) (hl : scattering.length = positions.length)
    (hpos : positions ≠ []) : (RequestedScat positions scattering sup).length = (Requested positions sup).length := by
  rw [Requested, if_neg hpos]
  clear hpos
  induction positions generalizing scattering with
  | nil => simp [RequestedScat]
  | cons p ps ih =>
    cases scattering with
    | nil => simp at hl
    | cons a sc =>
      have := ih sc (by simpa using hl)
      by_cases hp : p ∈ sup
      · simp only [RequestedScat, List.zip_cons_cons, List.filter_cons, hp, decide_true, if_true, List.map_cons,
          List.length_cons] at this ⊢
        rw [this]
      · simp only [RequestedScat, List.zip_cons_cons, List.filter_cons, hp, decide_false, Bool.false_eq_true, if_false] at this ⊢
        rw [this]

/-- **C40, VTK, later calls fail.** After a call that wrote something, a further call with positions hands the writer more splines
than scatterings, which the VTK writer refuses. -/
theorem C40_vtk_later_call_refused (env : Env S) (c : Converter) (positions : List ℤ) (scattering : List (List ℤ)) (splines : List S)
    (dims : List ℤ) (hr : Readable c.input) (hs : env.read c.input = .ok splines) (hd : splines.mapM env.dim = .ok dims)
    (hv : c.output = .vtk) (hpos : positions ≠ []) (hl : scattering.length = positions.length)
    (hc : c.written ≠ []) (hw : ∀ p ∈ c.written, p ∈ Supported dims 3)
    (hwr : ∀ a b, a.length ≠ b.length → env.write .vtk a b = .error (.thrown .runtimeError)) :
    (convertFile env c positions scattering).result = .error (.thrown .runtimeError) := by
  obtain ⟨out, h1, h2, h3⟩ := vtk_eq env c positions scattering splines dims hr hs hd hv hpos hl hw
  rw [h3, hwr]
  · rfl
  · rw [h1.1, requestedScat_length _ _ _ hl hpos, List.length_append]
    have := List.length_pos_iff.2 hc
    omega

/-! ## A case that meets the hypotheses -/

/-- A file with a curve, a volume and a surface; spline objects are their dimensions. -/
def mixedFile : Env ℤ := ⟨fun _ => .ok [1, 3, 2], fun d => .ok d, fun _ _ _ => .ok ()⟩

example : (convertFile mixedFile (new "a.itd".toList "b.iges".toList) [2, 1, 0, 7] []).result = .ok [2, 0] := by decide
example : Requested [2, 1, 0, 7] (Supported [1, 3, 2] 2) = [2, 0] := by decide
example : Readable (new "a.itd".toList "b.iges".toList).input ∧ Holds (new "a.itd".toList "b.iges".toList).output 2 ∧
    mixedFile.read .irit = .ok [1, 3, 2] ∧ ([1, 3, 2] : List ℤ).mapM mixedFile.dim = .ok [1, 3, 2] := by
  refine ⟨Or.inr (Or.inl ?_), ?_, rfl, rfl⟩
  · decide
  · have : (new "a.itd".toList "b.iges".toList).output = .iges := by decide
    rw [this]; rfl
example : (convertFile mixedFile (new "a.xml".toList "b.vtk".toList) [2, 0] [[4, 5], [6]]).output = some ([2, 1], [[4, 5], [6]]) := by decide

end Conv
end SplineLib
