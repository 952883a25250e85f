import Verif.Model.Files
import Verif.Props.Converter
import Verif.Props.Irit
import Verif.Props.XmlText
import Verif.Props.VtkText
import Verif.Props.Iges

/-!
# C64: converting files

The converter together with the readers and writers: which file changes and what it contains afterwards, and that chains of conversions
neither lose splines nor change numbers once they are rounded to the printed digits.
-/

namespace SplineLib
set_option linter.unusedSectionVars false
open Str Prn
variable {K : Type} [LinearOrder K] [Field K] [IsStrictOrderedRing K]

/-! ## IRIT files are exact for six decimals -/

section
variable [LawfulPrinter K] [FloorRing K]

/-- **C36** How far the coordinates of a NURBS can be off after reading back: at most `ε (1 + |x|) / (w - ε)` for a coordinate `x` with
weight `w`, where `ε` is half a unit of the last printed decimal. -/
theorem C36_nurbs_coordinates {s r : Spl K} (h : WFSpl s) (hb : ReadBack s r) {w : List K} (hw : s.ph.weights = some w) {i : ℕ}
    (hi : i < s.ph.cps.length) (h6 : 1 / 10 ^ 6 ≤ w.getD (i / s.ph.dim) 0) :
    |r.ph.cps.getD i 0 - s.ph.cps.getD i 0| ≤
      1 / (2 * 10 ^ 6) * (1 + |s.ph.cps.getD i 0|) / (w.getD (i / s.ph.dim) 0 - 1 / (2 * 10 ^ 6)) := by
  obtain ⟨w', hw'⟩ : ∃ w', r.ph.weights = some w' := by
    have := hb.kind
    rw [hw] at this
    exact Option.isSome_iff_exists.1 this
  have hk : i / s.ph.dim < (npts s).prod := Nat.div_lt_of_lt_mul (by rw [← h.cps]; exact hi)
  have hwl := (h.weights w hw).1
  have h1 := List.forall₂_iff_get.1 (hb.weights w w' hw hw')
  have h2 : |w'.getD (i / s.ph.dim) 0 - w.getD (i / s.ph.dim) 0| ≤ 1 / (2 * 10 ^ 6) := by
    have hl : i / s.ph.dim < w.length := by omega
    have := h1.2 (i / s.ph.dim) hl (by omega)
    simpa [List.getD_eq_getElem?_getD, hl, h1.1 ▸ hl, Near] using this
  have h3 := hb.coords i hi
  unfold Near homCoord at h3
  rw [hw, hw', hb.dim] at h3
  dsimp only at h3
  generalize w'.getD (i / s.ph.dim) 0 = b, w.getD (i / s.ph.dim) 0 = a at *
  generalize r.ph.cps.getD i 0 = y, s.ph.cps.getD i 0 = x at *
  generalize hε : (1 : K) / (2 * 10 ^ 6) = ε at *
  have hε2 : (1 : K) / 10 ^ 6 = 2 * ε := by rw [← hε]; field_simp
  have hε0 : 0 < ε := by rw [← hε]; positivity
  rw [hε2] at h6
  have hpos : 0 < a - ε := by linarith
  have hba : a - ε ≤ b := by linarith [(abs_le.1 h2).1]
  have hb0 : 0 < b := lt_of_lt_of_le hpos hba
  rw [le_div_iff₀ hpos]
  calc |y - x| * (a - ε) ≤ |y - x| * b := mul_le_mul_of_nonneg_left hba (abs_nonneg _)
    _ = |(b * y - a * x) - (b - a) * x| := by
      rw [← abs_of_pos hb0, ← abs_mul, abs_of_pos hb0]; congr 1; ring
    _ ≤ |b * y - a * x| + |(b - a) * x| := abs_sub _ _
    _ ≤ ε + ε * |x| := add_le_add h3 (by rw [abs_mul]; exact mul_le_mul_of_nonneg_right h2 (abs_nonneg _))
    _ = ε * (1 + |x|) := by ring

/-- **C36** Splines whose knots, weights and homogeneous coordinates have at most six decimals are read back exactly. -/
theorem C36_exact {ss : List (Spl K)} (h : ∀ s ∈ ss, WFSpl s ∧ (npts s).prod < 2 ^ 64)
    (hd : ∀ s ∈ ss, 1 ≤ s.ps.knots.length ∧ s.ps.knots.length ≤ 3)
    (h6 : ∀ s ∈ ss, (∀ U ∈ s.ps.knots, ∀ x ∈ U, SixDecimals x) ∧ (∀ i < s.ph.cps.length, SixDecimals (homCoord s i)) ∧
      ∀ w, s.ph.weights = some w → ∀ x ∈ w, SixDecimals x) :
    ∃ text, Irit.writeFile ss = .ok text ∧ (text.length < 2 ^ 31 → Irit.readFile K text = .ok ss) := by
  have key : ∀ s ∈ ss, Writable s ∧ backSpline s = .ok s := by
    intro s hs
    obtain ⟨h1, hsz⟩ := h s hs
    obtain ⟨k1, k2, k3⟩ := h6 s hs
    have hw : ∀ w, s.ph.weights = some w → ∀ a ∈ w, rd a ≠ 0 := fun w hw a ha => by
      rw [rd_eq_of_sixDecimals (k3 w hw a ha)]
      exact ((h1.weights w hw).2 a ha).ne'
    refine ⟨⟨h1, hd s hs, hw⟩, ?_⟩
    obtain ⟨r, h3, h4⟩ := backSpline_ok h1 hsz
    rw [h3]; congr 1
    have hid : ∀ {l : List K}, (∀ x ∈ l, SixDecimals x) → l.map rd = l := fun {l} hl => by
      conv_rhs => rw [← List.map_id l]
      exact List.map_congr_left fun x hx => rd_eq_of_sixDecimals (hl x hx)
    have e1 : (s.ps.knots.map fun U => U.map rd) = s.ps.knots := by
      conv_rhs => rw [← List.map_id s.ps.knots]
      exact List.map_congr_left fun U hU => hid (k1 U hU)
    have e2 : backPoints s = cpRows s := by
      unfold backPoints cpRows
      refine List.map_congr_left fun k hk => ?_
      rw [List.mem_range] at hk
      have hlt : ∀ c < s.ph.dim, s.ph.dim * k + c < s.ph.cps.length := fun c hc => by
        rw [h1.cps]
        calc s.ph.dim * k + c < s.ph.dim * k + s.ph.dim := by omega
          _ = s.ph.dim * (k + 1) := by ring
          _ ≤ _ := Nat.mul_le_mul_left _ hk
      cases hwe : s.ph.weights with
      | none =>
        refine hid fun x hx => ?_
        obtain ⟨c, hc, rfl⟩ := List.mem_map.1 hx
        have := k2 _ (hlt c (List.mem_range.1 hc))
        simpa [homCoord, hwe] using this
      | some w =>
        dsimp only
        conv_rhs => rw [← List.map_id (cpRow s.ph k)]
        refine List.map_congr_left fun x hx => ?_
        obtain ⟨c, hc, rfl⟩ := List.mem_map.1 hx
        rw [List.mem_range] at hc
        obtain ⟨hwl, hwp⟩ := h1.weights w hwe
        have hm : w.getD k 0 ∈ w := by
          rw [List.getD_eq_getElem?_getD, List.getElem?_eq_getElem (by omega)]; simp
        have h2 := k2 _ (hlt c hc)
        have hdiv : (s.ph.dim * k + c) / s.ph.dim = k := by
          rw [Nat.mul_add_div (by omega), Nat.div_eq_of_lt hc, Nat.add_zero]
        simp only [homCoord, hwe, hdiv] at h2
        rw [mul_comm, rd_eq_of_sixDecimals h2, rd_eq_of_sixDecimals (k3 w hwe _ hm), mul_div_cancel_left₀ _ (hwp _ hm).ne']
        rfl
    have e3 : (s.ph.weights.map fun w => backWeights w (npts s).prod) = s.ph.weights := by
      cases hwe : s.ph.weights with
      | none => rfl
      | some w =>
        obtain ⟨hwl, _⟩ := h1.weights w hwe
        rw [Option.map_some]; congr 1
        refine List.ext_getElem (by simp [backWeights, hwl]) fun i a b => ?_
        have : w.getD i 0 = w[i] := by simp [List.getD_eq_getElem?_getD, b]
        simp only [backWeights, List.getElem_map, List.getElem_range, this]
        exact rd_eq_of_sixDecimals (k3 w hwe _ (List.getElem_mem b))
    rw [e1, e2, e3] at h4
    have hne : cpRows s ≠ [] := by
      have a1 := cpRows_length s
      have a2 := npts_prod_pos h1
      intro h0; rw [h0, List.length_nil] at a1; omega
    refine (Built.ext hne ⟨rfl, rfl, ?_, fun q hq => (cpRows_dims s q hq).symm, ?_, (cpRows_flatten h1).symm, rfl⟩ h4).symm
    · have e := h1.basis
      rw [basisTable_eq (clamped_sizes (h1.knots.imp fun U p h => h.clamped))] at e
      exact (Except.ok.inj e).symm
    · rw [h1.num]; rfl
  obtain ⟨t, h1, h2⟩ := readFile_eq (List.forall₂_same.2 key)
  exact ⟨t, h1, fun hl => h2 (by omega)⟩
end

namespace Conv

/-! ## One conversion -/

section
variable [FloorRing K] [DecPrinter K] [GenPrinter K] [SigPrinter 5 K]

/-- The parametric dimensions of splines. -/
def dimsOf (ss : List (Spl K)) : List ℤ := ss.map fun s => (s.ps.knots.length : ℤ)

theorem mapM_dim {ss : List (Spl K)} (h : ∀ s ∈ ss, 1 ≤ s.ps.knots.length ∧ s.ps.knots.length ≤ 4) :
    ss.mapM splineDimension = .ok (dimsOf ss) := by
  induction ss with
  | nil => rfl
  | cons s ss ih =>
    rw [List.mapM_cons, ih fun t ht => h t (by simp [ht])]
    have : splineDimension s = .ok (s.ps.knots.length : ℤ) := if_pos (h s (by simp))
    rw [this]; rfl

/-- **C64** Converting a file to IGES, IRIT or XML: the output file gets what the writer of its format makes of the requested splines that
the format can hold, in the requested order, and all other files stay as they are. -/
theorem C64_conversion {w : Surroundings K} {fs : Files} {input output : List Char} {positions : List ℤ} (scattering : List (List ℤ))
    {splines : List (Spl K)} {m : ℤ} (hr : Readable (fileFormat input)) (hs : readContent w (fileFormat input) (fs input) = .ok splines)
    (hd : ∀ s ∈ splines, 1 ≤ s.ps.knots.length ∧ s.ps.knots.length ≤ 4) (hm : Holds (fileFormat output) m)
    (hv : fileFormat output ≠ .vtk) :
    ∃ out, Picked splines (Requested positions (Supported (dimsOf splines) m)) out ∧
      ∀ c, writeContent w output (fileFormat output) out [] = .ok c →
        convert w fs input output positions scattering = (setFile fs output c, .ok (Requested positions (Supported (dimsOf splines) m))) := by
  set env := fileEnv w fs input output with henv
  have hdm : splines.mapM env.dim = .ok (dimsOf splines) := mapM_dim hd
  obtain ⟨out, ho, hpk⟩ := filterVector_ok splines (Requested positions (Supported (dimsOf splines) m))
    fun p hp => requested_valid env m hdm p (mem_requested hp)
  refine ⟨out, hpk, fun c hc => ?_⟩
  have hcf : convertFile env (new input output) positions scattering =
      ⟨{ new input output with written := Requested positions (Supported (dimsOf splines) m) }, some (out, []),
        .ok (Requested positions (Supported (dimsOf splines) m))⟩ := by
    unfold convertFile
    rw [front_ok env (c := new input output) hr hs hdm hm]
    dsimp only
    rw [getPositions_eq]
    have e : (if positions = [] then [] else (new input output).written) ++ Requested positions (Supported (dimsOf splines) m) =
        Requested positions (Supported (dimsOf splines) m) := by
      split_ifs <;> rfl
    rw [e, ho, ok_bind, if_neg (show ¬ (new input output).output = .vtk from hv), ok_bind, pure_ok]
    dsimp only
    have e2 : env.write (new input output).output out [] = .ok () := by
      show (do let _ ← writeContent w output (fileFormat output) out []; return () : M Unit) = _
      rw [hc]; rfl
    rw [e2]
  unfold convert
  rw [← henv, hcf]
  dsimp only
  unfold written
  rw [hc]

/-- **C64** Converting a file to VTK with positions and a scattering for each of them: the output file gets the points and cells that the
writer makes of the requested splines of dimension at most three, each with its own scattering. -/
theorem C64_conversion_vtk {w : Surroundings K} {fs : Files} {input output : List Char} {positions : List ℤ} {scattering : List (List ℤ)}
    {splines : List (Spl K)} (hr : Readable (fileFormat input)) (hs : readContent w (fileFormat input) (fs input) = .ok splines)
    (hd : ∀ s ∈ splines, 1 ≤ s.ps.knots.length ∧ s.ps.knots.length ≤ 4) (hv : fileFormat output = .vtk) (hp : positions ≠ [])
    (hl : scattering.length = positions.length) :
    ∃ out, Picked splines (Requested positions (Supported (dimsOf splines) 3)) out ∧
      ∀ t, Vtk.writeText out (RequestedScat positions scattering (Supported (dimsOf splines) 3)) = .ok t →
        convert w fs input output positions scattering =
          (setFile fs output (.text t), .ok (Requested positions (Supported (dimsOf splines) 3))) := by
  set env := fileEnv w fs input output with henv
  have hdm : splines.mapM env.dim = .ok (dimsOf splines) := mapM_dim hd
  obtain ⟨out, h1, h2, h3⟩ := vtk_eq env (new input output) positions scattering splines (dimsOf splines) hr hs hdm hv hp hl
    (by simp [new])
  refine ⟨out, h1, fun f hf => ?_⟩
  have e2 : env.write .vtk out (RequestedScat positions scattering (Supported (dimsOf splines) 3)) = .ok () := by
    show (do let _ ← writeContent w output .vtk out _; return () : M Unit) = _
    simp only [writeContent, hf, ok_bind, pure_ok]
  rw [e2, ok_bind] at h3
  unfold convert
  rw [← henv]
  dsimp only
  rw [h2, h3]
  dsimp only
  unfold written
  rw [hv]
  simp only [writeContent, hf, ok_bind, pure_ok]
  rfl

theorem supported_all {ss : List (Spl K)} {m : ℤ} (h : ∀ s ∈ ss, (s.ps.knots.length : ℤ) ≤ m) :
    Supported (dimsOf ss) m = (List.range ss.length).map fun i : ℕ => (i : ℤ) := by
  unfold Supported
  congr 1
  have : (dimsOf ss).length = ss.length := by simp [dimsOf]
  rw [this, List.filter_eq_self]
  intro i hi
  rw [List.mem_range] at hi
  simp only [decide_eq_true_eq, dimsOf, List.getD_eq_getElem?_getD, List.getElem?_map, List.getElem?_eq_getElem hi, Option.map_some,
    Option.getD_some]
  exact h _ (List.getElem_mem hi)

theorem picked_all {α : Type} {l out : List α} (h : Picked l ((List.range l.length).map fun i : ℕ => (i : ℤ)) out) : out = l := by
  obtain ⟨h1, h2⟩ := h
  simp only [List.length_map, List.length_range] at h1 h2
  refine List.ext_getElem? fun k => ?_
  by_cases hk : k < l.length
  · obtain ⟨p, hp, _, h3⟩ := h2 k hk
    simp [hk] at hp
    rw [h3, ← hp]
  · rw [List.getElem?_eq_none (by omega), List.getElem?_eq_none (by omega)]

/-- **C64** Nothing happens to any file if the input cannot be read. -/
theorem C64_unreadable (w : Surroundings K) (fs : Files) {input : List Char} (output : List Char) (positions : List ℤ)
    (scattering : List (List ℤ)) {e : Err} (hr : ¬ Readable (fileFormat input) ∨ readContent w (fileFormat input) (fs input) = .error e) :
    ∃ e', convert w fs input output positions scattering = (fs, .error e') := by
  by_cases hf : Readable (fileFormat input)
  · have hs := hr.resolve_left (not_not.2 hf)
    refine ⟨e, ?_⟩
    unfold convert convertFile
    have : (fileEnv w fs input output).read (fileFormat input) = .error e := hs
    rw [show (new input output).input = fileFormat input from rfl, reader_ok hf, ok_bind, this]
    rfl
  · refine ⟨.thrown .runtimeError, ?_⟩
    unfold convert
    rw [C40_unknown_format_refused _ _ _ _ (Or.inl hf)]

/-- **C64** A missing input file is refused with `std::runtime_error`, whatever its name. -/
theorem C64_missing_input (w : Surroundings K) {fs : Files} {input : List Char} (output : List Char) (positions : List ℤ)
    (scattering : List (List ℤ)) (h : fs input = none) : convert w fs input output positions scattering = (fs, .error (.thrown .runtimeError)) := by
  by_cases hf : Readable (fileFormat input)
  · unfold convert convertFile
    have : (fileEnv w fs input output).read (fileFormat input) = .error (.thrown .runtimeError) := by
      show readContent w (fileFormat input) (fs input) = _
      rw [h, readContent]
    rw [show (new input output).input = fileFormat input from rfl, reader_ok hf, ok_bind, this]
    rfl
  · unfold convert
    rw [C40_unknown_format_refused _ _ _ _ (Or.inl hf)]

/-- The outcome of a conversion is the one of the writer. -/
theorem convert_failed {w : Surroundings K} {fs : Files} {input output : List Char} {positions : List ℤ} {scattering : List (List ℤ)}
    {ss : List (Spl K)} {scat : List (List ℤ)} {e : Err}
    (ho : (convertFile (fileEnv w fs input output) (new input output) positions scattering).output = some (ss, scat))
    (hw : writeContent w output (fileFormat output) ss scat = .error e) :
    convert w fs input output positions scattering =
      (written w fs output ss scat, .error e) := by
  have hr : (convertFile (fileEnv w fs input output) (new input output) positions scattering).result = .error e := by
    revert ho
    unfold convertFile
    split
    · intro h; cases h
    · dsimp only
      split
      · intro h; cases h
      · rename_i out scat' _
        intro h
        have hwr : ∀ a b, writeContent w output (fileFormat output) a b = .error e →
            (fileEnv w fs input output).write (new input output).output a b = .error e := by
          intro a b hab
          show (do let _ ← writeContent w output (fileFormat output) a b; return () : M Unit) = _
          rw [hab]
          rfl
        split at h
        · rename_i e' he
          simp only [Option.some.injEq, Prod.mk.injEq] at h
          obtain ⟨rfl, rfl⟩ := h
          rw [hwr _ _ hw] at he
          exact congrArg Except.error (Except.error.inj he).symm
        · rename_i u hu
          simp only [Option.some.injEq, Prod.mk.injEq] at h
          obtain ⟨rfl, rfl⟩ := h
          rw [hwr _ _ hw] at hu
          cases hu
  unfold convert
  dsimp only
  rw [ho, hr]

/-- **C64** If the writer throws an exception, then the converter does, too. The XML file is as it was before; any other output file is overwritten
with what the writer had written until then, which is nothing for IGES files. -/
theorem C64_failed_writer {w : Surroundings K} {fs : Files} {input output : List Char} {positions : List ℤ} {scattering : List (List ℤ)}
    {ss : List (Spl K)} {scat : List (List ℤ)} {x : Exc}
    (ho : (convertFile (fileEnv w fs input output) (new input output) positions scattering).output = some (ss, scat))
    (hw : writeContent w output (fileFormat output) ss scat = .error (.thrown x)) :
    ∃ fs', convert w fs input output positions scattering = (fs', .error (.thrown x)) ∧ (fileFormat output = .xml → fs' = fs) ∧
      (fileFormat output = .iges → fs' = setFile fs output (.text [])) ∧
      (fileFormat output = .irit → fs' = setFile fs output (.text (Irit.writeE ss).1)) ∧
      (fileFormat output = .vtk → fs' = setFile fs output (.text (Vtk.writeE ss scat).1)) := by
  refine ⟨_, convert_failed ho hw, ?_, ?_, ?_, ?_⟩ <;> intro hf <;> unfold written <;> rw [hw, hf]
  · rfl
  · rw [hf] at hw
    have : (Iges.writeE output w.time1 w.time2 ss).1 = [] := by
      unfold Iges.writeE
      cases h : Iges.writeFile output w.time1 w.time2 ss with
      | error e => rfl
      | ok t =>
        rw [writeContent, h] at hw
        cases hw
    simp only [leftover, this]
  · rfl
  · rfl

/-- **C64** A conversion to an XML file leaves all files as they are, or it replaces the output file by a complete one. -/
theorem C64_xml_complete_or_unchanged (w : Surroundings K) (fs : Files) (input : List Char) {output : List Char} (positions : List ℤ)
    (scattering : List (List ℤ)) (hx : fileFormat output = .xml) :
    (convert w fs input output positions scattering).1 = fs ∨
      ∃ (ss : List (Spl K)) (text : List Char), Xml.writeText ss = .ok text ∧ (convert w fs input output positions scattering).1 = setFile fs output (.text text) := by
  unfold convert
  dsimp only
  rcases (convertFile (fileEnv w fs input output) (new input output) positions scattering).output with _ | ⟨ss, scat⟩
  · exact .inl rfl
  · dsimp only
    unfold written
    rw [hx]
    cases ht : Xml.writeText ss with
    | error e =>
      left
      simp only [writeContent, ht]
      cases e <;> rfl
    | ok t =>
      right
      refine ⟨ss, t, ht, ?_⟩
      simp only [writeContent, ht]
      rfl

/-- **C64** Whatever the outcome, no file but the output file changes. -/
theorem C64_other_files (w : Surroundings K) (fs : Files) (input output : List Char) (positions : List ℤ) (scattering : List (List ℤ))
    {name : List Char} (h : name ≠ output) : (convert w fs input output positions scattering).1 name = fs name := by
  unfold convert
  dsimp only
  rcases (convertFile (fileEnv w fs input output) (new input output) positions scattering).output with _ | ⟨ss, scat⟩
  · rfl
  · show written w fs output ss scat name = _
    unfold written
    cases writeContent w output (fileFormat output) ss scat with
    | ok c => simp [setFile, h]
    | error e =>
      have h1 : (if fileFormat output = .xml then fs else setFile fs output .unfinished) name = fs name := by
        split_ifs
        · rfl
        · simp [setFile, h]
      cases e with
      | thrown x =>
        dsimp only
        cases leftover w output (fileFormat output) ss scat with
        | some c => simp [setFile, h]
        | none => rfl
      | _ => exact h1
end

/-! ## Chains of conversions -/

/-- At most six decimals in all knots, coordinates and weights. -/
structure SixDecimalSpline (s : Spl K) : Prop where
  knots : ∀ U ∈ s.ps.knots, ∀ x ∈ U, SixDecimals x
  cps : ∀ x ∈ s.ph.cps, SixDecimals x
  weights : ∀ w, s.ph.weights = some w → ∀ x ∈ w, SixDecimals x

/-- The splines that a file in the format of its name stores exactly: numbers with six decimals in an XML file, also the products of weights
and coordinates in an IRIT file, and curves in three dimensions with numbers with 18 digits in an IGES file. -/
def Suits [DecPrinter K] [LawfulGen K] (w : Surroundings K) (ss : List (Spl K)) (name : List Char) : Prop :=
  match fileFormat name with
  | .irit => (∀ s ∈ ss, (1 ≤ s.ps.knots.length ∧ s.ps.knots.length ≤ 3) ∧ (npts s).prod < 2 ^ 64 ∧ SixDecimalSpline s ∧
      ∀ i < s.ph.cps.length, SixDecimals (homCoord s i)) ∧ ∀ t, Irit.writeFile ss = .ok t → t.length < 2 ^ 31
  | .xml => ∀ s ∈ ss, (1 ≤ s.ps.knots.length ∧ s.ps.knots.length ≤ 4) ∧ ((npts s).prod < 2 ^ 31 ∧ s.ph.dim < 2 ^ 31) ∧
      InDoubleRange s ∧ SixDecimalSpline s
  | .iges => IgesWritable name w.time1 w.time2 ss ∧ ('\n' ∉ name ∧ '\n' ∉ w.time1 ∧ '\n' ∉ w.time2) ∧
      (∀ s ∈ ss, s.ps.knots.length = 1 ∧ s.ph.dim = 3) ∧ ∀ s ∈ ss, ∀ x ∈ allNumbers s, IgesReadable x ∧ Digits18 x
  | _ => False

section
variable [FloorRing K] [LawfulPrinter K] [LawfulGen K] [SigPrinter 5 K]

/-- The file that is written for these splines is read as these splines. -/
theorem suits_round_trip {w : Surroundings K} {ss : List (Spl K)} {name : List Char} (hwf : ∀ s ∈ ss, WFSpl s) (h : Suits w ss name) :
    ∃ c, writeContent w name (fileFormat name) ss [] = .ok c ∧ readContent w (fileFormat name) (some c) = .ok ss := by
  unfold Suits at h
  cases hf : fileFormat name with
  | irit =>
    rw [hf] at h
    obtain ⟨h1, h2⟩ := h
    obtain ⟨t, h3, h4⟩ := C36_exact (ss := ss) (fun s hs => ⟨hwf s hs, (h1 s hs).2.1⟩) (fun s hs => (h1 s hs).1)
      fun s hs => ⟨(h1 s hs).2.2.1.knots, (h1 s hs).2.2.2, (h1 s hs).2.2.1.weights⟩
    exact ⟨.text t, by simp only [writeContent, h3, ok_bind, pure_ok], h4 (h2 t h3)⟩
  | xml =>
    rw [hf] at h
    obtain ⟨t, h3, h4⟩ := C71_exact (ss := ss) (fun s hs => ⟨hwf s hs, (h s hs).2.2.1⟩) (fun s hs => (h s hs).1)
      (fun s hs => (h s hs).2.1) fun s hs => ⟨(h s hs).2.2.2.knots, (h s hs).2.2.2.cps, (h s hs).2.2.2.weights⟩
    exact ⟨.text t, by simp only [writeContent, h3, ok_bind, pure_ok], h4⟩
  | iges =>
    rw [hf] at h
    obtain ⟨t, h3, h4⟩ := C38_curve_exact h.1 h.2.1 h.2.2.1 h.2.2.2
    exact ⟨.text t, by simp only [writeContent, h3, ok_bind, pure_ok], h4⟩
  | vtk => rw [hf] at h; exact h.elim
  | error => rw [hf] at h; exact h.elim

theorem suits_dims {w : Surroundings K} {ss : List (Spl K)} {name : List Char} (h : Suits w ss name) :
    Readable (fileFormat name) ∧ fileFormat name ≠ .vtk ∧ (∀ s ∈ ss, 1 ≤ s.ps.knots.length ∧ s.ps.knots.length ≤ 4) ∧
      ∃ m, Holds (fileFormat name) m ∧ ∀ s ∈ ss, (s.ps.knots.length : ℤ) ≤ m := by
  unfold Suits at h
  cases hf : fileFormat name with
  | irit =>
    rw [hf] at h
    refine ⟨Or.inr (Or.inl rfl), by decide, fun s hs => ?_, 3, rfl, fun s hs => ?_⟩ <;> have := (h.1 s hs).1 <;> omega
  | xml =>
    rw [hf] at h
    refine ⟨Or.inr (Or.inr rfl), by decide, fun s hs => (h s hs).1, 4, rfl, fun s hs => ?_⟩
    have := (h s hs).1
    omega
  | iges =>
    rw [hf] at h
    refine ⟨Or.inl rfl, by decide, fun s hs => ?_, 2, rfl, fun s hs => ?_⟩ <;> have := (h.2.2.1 s hs).1 <;> omega
  | vtk => rw [hf] at h; exact h.elim
  | error => rw [hf] at h; exact h.elim

/-- **C64** Any chain of conversions between files that can store the splines exactly succeeds, every file of the chain contains what the
writer of its format makes of the original splines and is read as the original splines, and no other file changes. -/
theorem C64_chain_exact {w : Surroundings K} {ss : List (Spl K)} (hwf : ∀ s ∈ ss, WFSpl s) {names : List (List Char)}
    (hn : ∀ n ∈ names, Suits w ss n) {fs : Files} {input : List Char} (hr : Readable (fileFormat input))
    (hs : readContent w (fileFormat input) (fs input) = .ok ss) :
    ∃ fs', convertChain w fs input names = (fs', .ok ()) ∧ (∀ n, n ∉ names → fs' n = fs n) ∧
      ∀ n ∈ names, ∃ c, fs' n = some c ∧ writeContent w n (fileFormat n) ss [] = .ok c ∧
        readContent w (fileFormat n) (fs' n) = .ok ss := by
  induction names generalizing fs input with
  | nil => exact ⟨fs, rfl, fun _ _ => rfl, by simp⟩
  | cons output names ih =>
    have hsu := hn output (by simp)
    obtain ⟨c, hc, hrc⟩ := suits_round_trip hwf hsu
    obtain ⟨hro, hv, hd, m, hm, hdm⟩ := suits_dims hsu
    obtain ⟨out, hpk, hcv⟩ := C64_conversion (positions := []) [] hr hs hd hm hv
    have e : Requested [] (Supported (dimsOf ss) m) = (List.range ss.length).map fun i : ℕ => (i : ℤ) := by
      rw [Requested, if_pos rfl, supported_all hdm]
    rw [e] at hpk hcv
    obtain rfl := picked_all hpk
    have h1 := hcv c hc
    obtain ⟨fs', h2, h3, h4⟩ := ih (fun n hn' => hn n (by simp [hn'])) (fs := setFile fs output c) (input := output) hro
      (by simpa [setFile] using hrc)
    refine ⟨fs', ?_, ?_, ?_⟩
    · rw [convertChain, h1]; exact h2
    · intro n hnn
      rw [List.mem_cons, not_or] at hnn
      rw [h3 n hnn.2]
      simp [setFile, hnn.1]
    · intro n hnn
      by_cases hin : n ∈ names
      · exact h4 n hin
      · obtain rfl : n = output := by simpa [hin] using hnn
        have e1 : fs' n = some c := by rw [h3 n hin]; simp [setFile]
        exact ⟨c, e1, hc, by rw [e1]; exact hrc⟩


/-! ## No accumulation of rounding errors -/

theorem sixDecimals_rd (x : K) : SixDecimals (rd x) := by
  unfold rd SixDecimals
  split
  · exact ⟨-(DecPrinter.mag x : ℤ), by push_cast; ring⟩
  · exact ⟨(DecPrinter.mag x : ℤ), by push_cast; ring⟩

theorem abs_rd_le' {x : K} {B : ℤ} (h : |x| ≤ B) : |rd x| ≤ B := by
  by_contra hc
  rw [not_le] at hc
  obtain ⟨z, hz⟩ := sixDecimals_rd x
  have hn := rd_near x
  have h1 : |rd x| ≤ |x| + 1 / (2 * 10 ^ 6) := by
    calc |rd x| = |x + (rd x - x)| := by congr 1; ring
      _ ≤ |x| + |rd x - x| := abs_add_le _ _
      _ ≤ _ := by linarith
  have h10 : (0 : K) < 10 ^ 6 := by positivity
  rw [hz, abs_div, abs_of_pos h10, lt_div_iff₀ h10] at hc
  rw [hz, abs_div, abs_of_pos h10, div_le_iff₀ h10] at h1
  have h2 : ((B * 10 ^ 6 : ℤ) : K) < ((|z| : ℤ) : K) := by push_cast; linarith
  have h3 : ((B * 10 ^ 6 + 1 : ℤ) : K) ≤ ((|z| : ℤ) : K) := by exact_mod_cast Int.add_one_le_of_lt (by exact_mod_cast h2)
  have h4 : (|x| + 1 / (2 * 10 ^ 6)) * 10 ^ 6 ≤ B * 10 ^ 6 + 1 / 2 := by
    have : (|x| + 1 / (2 * 10 ^ 6)) * 10 ^ 6 = |x| * 10 ^ 6 + 1 / 2 := by field_simp
    rw [this]
    have := mul_le_mul_of_nonneg_right h h10.le
    linarith
  push_cast at h3 h1
  linarith

theorem abs_rd_le {x : K} (h : |x| ≤ 2 ^ 1024) : |rd x| ≤ 2 ^ 1024 := by
  have e : ((2 ^ 1024 : ℤ) : K) = 2 ^ 1024 := by rw [Int.cast_pow, Int.cast_ofNat]
  rw [← e] at h ⊢
  exact abs_rd_le' h

/-- Knots that the printed digits keep apart, and weights that are not printed as zero. -/
structure Printable (s : Spl K) : Prop where
  knots : ∀ U ∈ s.ps.knots, ∀ a ∈ U, ∀ b ∈ U, a < b → 1 / 10 ^ 5 ≤ b - a
  weights : ∀ w, s.ph.weights = some w → ∀ a ∈ w, 1 / 10 ^ 6 ≤ a

/-- What is known about a spline `r` that was rounded to six decimals. -/
structure Rounded (s r : Spl K) : Prop where
  same : SameUpToDecimals s r
  wf : WFSpl r
  six : SixDecimalSpline r
  range : InDoubleRange r

theorem built_rounded {s r : Spl K} (h : WFSpl s) (hr : InDoubleRange s) (hp : Printable s)
    (hb : Built r (s.ps.knots.map fun U => U.map rd) s.ps.degree ((cpRows s).map fun q => q.map rd)
      (s.ph.weights.map fun w => w.map rd)) : Rounded s r := by
  have hcps : r.ph.cps = s.ph.cps.map rd := by
    rw [hb.cps, ← cpRows_flatten h, List.map_flatten]
  refine ⟨built_same h hb, ?_, ⟨?_, ?_, ?_⟩, ⟨?_, ?_, ?_⟩⟩
  · have hk : List.Forall₂ WFKnots (s.ps.knots.map fun U => U.map rd) s.ps.degree := by
      have hk := h.knots
      have hs' := hp.knots
      generalize s.ps.knots = Us, s.ps.degree = ps at hk hs'
      induction hk with
      | nil => exact .nil
      | cons h1 _ ih => exact .cons (wfKnots_rd h1 (hs' _ (by simp))) (ih fun U hU => hs' U (by simp [hU]))
    have hlen : ((cpRows s).map fun q => q.map rd).length = (npts s).prod := by rw [List.length_map, cpRows_length]
    refine hb.wf hk ?_ ?_ h.dim ?_ ?_
    · have e2 := npts_prod_pos h
      intro h0; rw [h0, List.length_nil] at hlen; omega
    · rw [nptsOf_rd, hlen]; rfl
    · intro q hq
      obtain ⟨q', hq', rfl⟩ := List.mem_map.1 hq
      rw [List.length_map]; exact cpRows_dims s q' hq'
    · intro w hw1
      obtain ⟨v, hv, rfl⟩ := Option.map_eq_some_iff.1 hw1
      obtain ⟨hvl, _⟩ := h.weights v hv
      refine ⟨by rw [hlen, List.length_map, hvl], fun a ha => ?_⟩
      obtain ⟨b, hb', rfl⟩ := List.mem_map.1 ha
      exact rd_pos (hp.weights v hv b hb')
  · intro U hU x hx
    rw [hb.knots] at hU
    obtain ⟨V, _, rfl⟩ := List.mem_map.1 hU
    obtain ⟨y, _, rfl⟩ := List.mem_map.1 hx
    exact sixDecimals_rd y
  · intro x hx
    rw [hcps] at hx
    obtain ⟨y, _, rfl⟩ := List.mem_map.1 hx
    exact sixDecimals_rd y
  · intro w hw x hx
    rw [hb.weights] at hw
    obtain ⟨v, hv, rfl⟩ := Option.map_eq_some_iff.1 hw
    obtain ⟨y, _, rfl⟩ := List.mem_map.1 hx
    exact sixDecimals_rd y
  · intro U hU x hx
    rw [hb.knots] at hU
    obtain ⟨V, hV, rfl⟩ := List.mem_map.1 hU
    obtain ⟨y, hy, rfl⟩ := List.mem_map.1 hx
    exact abs_rd_le (hr.knots V hV y hy)
  · intro x hx
    rw [hcps] at hx
    obtain ⟨y, hy, rfl⟩ := List.mem_map.1 hx
    exact abs_rd_le (hr.cps y hy)
  · intro w hw x hx
    rw [hb.weights] at hw
    obtain ⟨v, hv, rfl⟩ := Option.map_eq_some_iff.1 hw
    obtain ⟨y, hy, rfl⟩ := List.mem_map.1 hx
    exact abs_rd_le (hr.weights v hv y hy)

/-- Reading an XML file gives splines with six decimals. -/
theorem rounded_xml {ss : List (Spl K)} (h : ∀ s ∈ ss, WFSpl s ∧ InDoubleRange s ∧ Printable s)
    (hd : ∀ s ∈ ss, 1 ≤ s.ps.knots.length ∧ s.ps.knots.length ≤ 4) (hi : ∀ s ∈ ss, (npts s).prod < 2 ^ 31 ∧ s.ph.dim < 2 ^ 31) :
    ∃ text, Xml.writeText ss = .ok text ∧ ∃ rs, Xml.readText K text = .ok rs ∧ List.Forall₂ Rounded ss rs := by
  have key := readAll_xml (ss := ss) (R := Rounded) fun s hs => by
    obtain ⟨h1, h2, hp⟩ := h s hs
    obtain ⟨r, h3, h4⟩ := backXml_ok h1 (by have := (hi s hs).1; omega)
    exact ⟨h1, fitsSpl_of_double h2 (hi s hs).1 (hi s hs).2, hd s hs, r, h3, built_rounded h1 h2 hp h4⟩
  obtain ⟨doc, h1, rs, h2, h3⟩ := key
  obtain ⟨doc', text, h4, h5, -, -, h6⟩ := C71_written_text (fun s hs => (h s hs).1) hd
  obtain rfl : doc = doc' := Except.ok.inj (h1.symm.trans h4)
  exact ⟨text, h5, rs, h6.trans h2, h3⟩

/-- Reading an IRIT file with B-splines gives splines with six decimals. -/
theorem rounded_irit {ss : List (Spl K)} (h : ∀ s ∈ ss, WFSpl s ∧ InDoubleRange s ∧ Printable s)
    (hd : ∀ s ∈ ss, 1 ≤ s.ps.knots.length ∧ s.ps.knots.length ≤ 3) (hi : ∀ s ∈ ss, (npts s).prod < 2 ^ 31 ∧ s.ph.dim < 2 ^ 31)
    (hb : ∀ s ∈ ss, IsBSpline s) :
    ∃ t, Irit.writeFile ss = .ok t ∧ (t.length < 2 ^ 31 → ∃ rs, Irit.readFile K t = .ok rs ∧ List.Forall₂ Rounded ss rs) := by
  obtain ⟨rs, hrs⟩ := forall₂_choose (R := fun s r => (Writable s ∧ backSpline s = .ok r) ∧ Rounded s r) ss fun s hs => by
    obtain ⟨h1, h2, hp⟩ := h s hs
    have hbs : s.ph.weights = none := hb s hs
    obtain ⟨r, h3, h4⟩ := backSpline_ok h1 (by have := (hi s hs).1; omega)
    have e : backPoints s = (cpRows s).map fun q => q.map rd := by
      simp only [backPoints, cpRows, hbs, List.map_map, Function.comp_def]
    have e2 : (s.ph.weights.map fun w => backWeights w (npts s).prod) = s.ph.weights.map fun w => w.map rd := by rw [hbs]; rfl
    rw [e, e2] at h4
    exact ⟨r, ⟨⟨h1, hd s hs, fun w hw => by rw [hbs] at hw; cases hw⟩, h3⟩, built_rounded h1 h2 hp h4⟩
  obtain ⟨t, h1, h2⟩ := readFile_eq (hrs.imp fun _ _ h => h.1)
  exact ⟨t, h1, fun hl => ⟨rs, h2 (by omega), hrs.imp fun _ _ h => h.2⟩⟩

theorem forall₂_right {α β : Type} {R : α → β → Prop} {P : α → Prop} {Q : β → Prop} {l : List α} {l' : List β}
    (h : List.Forall₂ R l l') (hp : ∀ a ∈ l, P a) (hq : ∀ a b, P a → R a b → Q b) : ∀ b ∈ l', Q b := by
  induction h with
  | nil => simp
  | cons h1 _ ih =>
    intro b hb
    rcases List.mem_cons.1 hb with rfl | hb
    · exact hq _ _ (hp _ (by simp)) h1
    · exact ih (fun a ha => hp a (by simp [ha])) b hb

/-- **C64** Rounding errors do not accumulate. B-splines with arbitrary numbers are written to an IRIT or XML file. The first reading rounds
the numbers to six decimals; every chain of further conversions between IRIT and XML files gives exactly the splines of this first
reading. -/
theorem C64_no_drift {w : Surroundings K} {ss : List (Spl K)} (h : ∀ s ∈ ss, WFSpl s ∧ InDoubleRange s ∧ Printable s)
    (hd : ∀ s ∈ ss, 1 ≤ s.ps.knots.length ∧ s.ps.knots.length ≤ 3) (hi : ∀ s ∈ ss, (npts s).prod < 2 ^ 31 ∧ s.ph.dim < 2 ^ 31)
    (hb : ∀ s ∈ ss, IsBSpline s) (ht : ∀ t, Irit.writeFile ss = .ok t → t.length < 2 ^ 31) {input : List Char}
    (hf : fileFormat input = .irit ∨ fileFormat input = .xml) {fs : Files} {c : Content} (hfs : fs input = some c)
    (hc : writeContent w input (fileFormat input) ss [] = .ok c) :
    ∃ rs, readContent w (fileFormat input) (fs input) = .ok rs ∧ List.Forall₂ SameUpToDecimals ss rs ∧
      ((∀ t, Irit.writeFile rs = .ok t → t.length < 2 ^ 31) → ∀ names : List (List Char),
        (∀ n ∈ names, fileFormat n = .irit ∨ fileFormat n = .xml) →
        ∃ fs', convertChain w fs input names = (fs', .ok ()) ∧ ∀ n ∈ names, readContent w (fileFormat n) (fs' n) = .ok rs) := by
  have key : ∃ rs, readContent w (fileFormat input) (fs input) = .ok rs ∧ List.Forall₂ Rounded ss rs := by
    rcases hf with hf | hf
    · obtain ⟨t, h1, h2⟩ := rounded_irit h hd hi hb
      rw [hf] at hc ⊢
      simp only [writeContent, h1, ok_bind, pure_ok] at hc
      obtain rfl := Except.ok.inj hc
      rw [hfs]
      exact h2 (ht t h1)
    · obtain ⟨d, h1, h2⟩ := rounded_xml h (fun s hs => ⟨(hd s hs).1, by have := (hd s hs).2; omega⟩) hi
      rw [hf] at hc ⊢
      simp only [writeContent, h1, ok_bind, pure_ok] at hc
      obtain rfl := Except.ok.inj hc
      rw [hfs]
      exact h2
  obtain ⟨rs, hrd, hrs⟩ := key
  refine ⟨rs, hrd, hrs.imp fun _ _ h => h.same, fun hl names hn => ?_⟩
  have hall : ∀ r ∈ rs, WFSpl r ∧ SixDecimalSpline r ∧ InDoubleRange r ∧ IsBSpline r ∧
      (1 ≤ r.ps.knots.length ∧ r.ps.knots.length ≤ 3) ∧ (npts r).prod < 2 ^ 31 ∧ r.ph.dim < 2 ^ 31 := by
    refine forall₂_right hrs (P := fun s => s ∈ ss) (fun a ha => ha) fun s r hs hsr => ?_
    have e1 : r.ps.knots.length = s.ps.knots.length := hsr.same.knots.length_eq.symm
    have e2 : (npts r).prod = (npts s).prod := by
      have a1 := hsr.wf.num
      have a2 := (h s hs).1.num
      rw [hsr.same.num, a2] at a1
      have a3 : npts s = npts r := List.map_injective_iff.2 (fun a b hab => by exact_mod_cast hab) a1
      rw [a3]
    refine ⟨hsr.wf, hsr.six, hsr.range, ?_, by rw [e1]; exact hd s hs, by rw [e2]; exact (hi s hs).1, by rw [hsr.same.dim]; exact (hi s hs).2⟩
    have hw := hsr.same.weights
    have hbs : s.ph.weights = none := hb s hs
    rw [hbs] at hw
    show r.ph.weights = none
    cases hrw : r.ph.weights with
    | none => rfl
    | some v => rw [hrw] at hw; cases hw
  have hsuit : ∀ n ∈ names, Suits w rs n := by
    intro n hnn
    unfold Suits
    rcases hn n hnn with e | e
    · rw [e]
      refine ⟨fun r hr => ?_, hl⟩
      obtain ⟨a1, a2, a3, a4, a5, a6, a7⟩ := hall r hr
      refine ⟨a5, by omega, a2, fun i hi => ?_⟩
      have hrw : r.ph.weights = none := a4
      simp only [homCoord, hrw, one_mul, List.getD_eq_getElem?_getD, List.getElem?_eq_getElem hi, Option.getD_some]
      exact a2.cps _ (List.getElem_mem hi)
    · rw [e]
      intro r hr
      obtain ⟨a1, a2, a3, a4, a5, a6, a7⟩ := hall r hr
      exact ⟨⟨a5.1, by omega⟩, ⟨a6, a7⟩, a3, a2⟩
  have hr : Readable (fileFormat input) := by
    rcases hf with e | e <;> rw [e]
    · exact Or.inr (Or.inl rfl)
    · exact Or.inr (Or.inr rfl)
  obtain ⟨fs', h1, _, h3⟩ := C64_chain_exact (fun r hr => (hall r hr).1) hsuit hr hrd
  exact ⟨fs', h1, fun n hnn => by obtain ⟨c, _, _, h4⟩ := h3 n hnn; exact h4⟩

end
/-! ## VTK files -/

section
variable [FloorRing K] [DecPrinter K] [GenPrinter K] [LawfulSig 5 K]
open VtkFormat

theorem scattered {sup : List ℤ} {splines : List (Spl K)} {positions : List ℤ} {scattering : List (List ℤ)} {out : List (Spl K)}
    (hl : scattering.length = positions.length) (hwf : ∀ s ∈ splines, WFSpl s)
    (hsup : ∀ (p : ℕ) (s : Spl K), (p : ℤ) ∈ sup → splines[p]? = some s → Vtk.Dim123 s.ps.knots.length)
    (hsc : ∀ (i p : ℕ) (c : List ℤ) (s : Spl K), positions[i]? = some (p : ℤ) → scattering[i]? = some c → splines[p]? = some s →
      c.length = s.ps.knots.length ∧ ∀ n ∈ c, 0 < n)
    (h : Picked splines (positions.filter fun p => decide (p ∈ sup)) out) :
    ∃ nss : List (List ℕ), RequestedScat positions scattering sup = nss.map zl ∧
      List.Forall₂ (fun s ns => WFSpl s ∧ ns.length = s.ps.knots.length ∧ (∀ n ∈ ns, 0 < n) ∧ Vtk.Dim123 ns.length) out nss := by
  induction positions generalizing scattering out with
  | nil =>
    obtain ⟨h1, -⟩ := h
    obtain rfl := List.length_eq_zero_iff.1 h1
    exact ⟨[], by simp [RequestedScat], .nil⟩
  | cons p ps ih =>
    cases scattering with
    | nil => simp at hl
    | cons c cs =>
      have hsc' := fun (i q : ℕ) (d : List ℤ) (s : Spl K) (e1 : ps[i]? = some (q : ℤ)) (e2 : cs[i]? = some d) =>
        hsc (i + 1) q d s (by simpa using e1) (by simpa using e2)
      by_cases hp : p ∈ sup
      · rw [List.filter_cons_of_pos (by simpa using hp)] at h
        obtain ⟨h1, h2⟩ := h
        cases out with
        | nil => simp at h1
        | cons s out =>
          obtain ⟨q, e1, e2, e3⟩ := h2 0 (by simp)
          simp only [List.getElem?_cons_zero, Option.some.injEq] at e1 e3
          subst e1
          obtain ⟨nss, e4, e5⟩ := ih (scattering := cs) (out := out) (by simpa using hl) hsc' ⟨by simpa using h1, fun k hk => by
            obtain ⟨q', g1, g2, g3⟩ := h2 (k + 1) (by simpa using hk)
            exact ⟨q', by simpa using g1, g2, by simpa using g3⟩⟩
          obtain ⟨g1, g2⟩ := hsc 0 q c s (by simp) (by simp) e3.symm
          have hc : zl (c.map Int.toNat) = c := by
            rw [zl, List.map_map]
            conv_rhs => rw [← List.map_id c]
            apply List.map_congr_left
            intro n hn
            have := g2 n hn
            simp only [Function.comp, id]
            omega
          refine ⟨c.map Int.toNat :: nss, ?_, .cons ⟨hwf s (List.mem_of_getElem? e3.symm), by rw [List.length_map]; exact g1, ?_, ?_⟩ e5⟩
          · rw [List.map_cons, hc, ← e4]
            unfold RequestedScat
            rw [List.zip_cons_cons, List.filter_cons_of_pos (by simpa using hp), List.map_cons]
          · intro n hn
            obtain ⟨m, hm, rfl⟩ := List.mem_map.1 hn
            have := g2 m hm
            omega
          · rw [List.length_map, g1]; exact hsup q s hp e3.symm
      · rw [List.filter_cons_of_neg (by simpa using hp)] at h
        obtain ⟨nss, e4, e5⟩ := ih (scattering := cs) (by simpa using hl) hsc' h
        refine ⟨nss, ?_, e5⟩
        rw [← e4]
        unfold RequestedScat
        rw [List.zip_cons_cons, List.filter_cons_of_neg (by simpa using hp)]

/-- **C64** Converting a file with well-formed splines to VTK, with positions and a positive scattering of the right size for each of
them: afterwards the output file is a file of the legacy format with the sampling grids of the requested splines of dimension at most
three; the coordinates are six-digit decimal numbers nearest to the geometry at the points of the grids. -/
theorem C64_vtk_grid {w : Surroundings K} {fs : Files} {input output : List Char} {positions : List ℤ} {scattering : List (List ℤ)}
    {splines : List (Spl K)} (hr : Readable (fileFormat input)) (hs : readContent w (fileFormat input) (fs input) = .ok splines)
    (hwf : ∀ s ∈ splines, WFSpl s) (hd : ∀ s ∈ splines, 1 ≤ s.ps.knots.length ∧ s.ps.knots.length ≤ 4) (hv : fileFormat output = .vtk)
    (hp : positions ≠ []) (hl : scattering.length = positions.length)
    (hsc : ∀ (i p : ℕ) (c : List ℤ) (s : Spl K), positions[i]? = some (p : ℤ) → scattering[i]? = some c → splines[p]? = some s →
      c.length = s.ps.knots.length ∧ ∀ n ∈ c, 0 < n) :
    ∃ out nss text points cells types, Picked splines (positions.filter fun p => decide (p ∈ Supported (dimsOf splines) 3)) out ∧
      RequestedScat positions scattering (Supported (dimsOf splines) 3) = nss.map zl ∧
      (convert w fs input output positions scattering).1 = setFile fs output (.text text) ∧
      (convert w fs input output positions scattering).2.isOk = true ∧ IsGrid text points cells types [] ∧
      List.Forall₂ (List.Forall₂ (NearestDecimal 6)) (List.zipWith Vtk.gridValues out nss).flatten points ∧
      Vtk.ListsAllCells nss 0 (Vtk.cellLines cells) ∧
      zl types = (nss.map fun ns => List.replicate ns.prod (Vtk.cellType ns.length)).flatten := by
  obtain ⟨out, h1, h2⟩ := C64_conversion_vtk hr hs hd hv hp hl
  have e : Requested positions (Supported (dimsOf splines) 3) = positions.filter fun p => decide (p ∈ Supported (dimsOf splines) 3) :=
    if_neg hp
  rw [e] at h1
  obtain ⟨nss, h3, h4⟩ := scattered (sup := Supported (dimsOf splines) 3) hl hwf (by
    intro p s hm he
    obtain ⟨i, e1, e2, e3⟩ := mem_supported.1 hm
    obtain rfl : p = i := by exact_mod_cast e1
    have a1 := hd s (List.mem_of_getElem? he)
    simp only [dimsOf, List.getD_eq_getElem?_getD, List.getElem?_map, he, Option.map_some, Option.getD_some] at e3
    unfold Vtk.Dim123
    omega) hsc h1
  obtain ⟨text, points, cells, types, g1, g2, g3, g4, g5⟩ := Vtk.C73_file h4
  rw [← h3] at g1
  refine ⟨out, nss, text, points, cells, types, h1, h3, ?_, ?_, g2, g3, g4, g5⟩ <;> rw [h2 text g1]
  rfl

end

/-! ### Examples -/

section
attribute [local instance] halfUp genHalfUp sigHalfUp

theorem sixDecimals_of {x : ℚ} (h : (x * 10 ^ 6).den = 1) : SixDecimals x :=
  ⟨(x * 10 ^ 6).num, by rw [(Rat.den_eq_one_iff _).1 h]; field_simp⟩

theorem digits18_of {x : ℚ} (h : (x * 10 ^ 6).den = 1) (hb : |(x * 10 ^ 6).num| < 10 ^ 18) : Digits18 x :=
  ⟨(x * 10 ^ 6).num, -6, hb, by rw [(Rat.den_eq_one_iff _).1 h, zpow_neg]; norm_num; ring⟩

/-- A polygon in three dimensions. -/
def exPolygon : Spl ℚ :=
  ⟨⟨[[0, 0, 1 / 2, 1, 1]], [1], mkTable [[0, 0, 1 / 2, 1, 1]] [1]⟩, ⟨3, [3], [0, 1 / 8, 3, -5 / 4, 1, 2, 100, 3 / 1000, 7], none⟩⟩

theorem exPolygon_wf : WFSpl exPolygon where
  knots := by simp only [exPolygon]; exact .cons (by decide +kernel) .nil
  basis := by decide +kernel
  num := by decide +kernel
  dim := by decide +kernel
  cps := by decide +kernel
  weights := by intro w h; simp [exPolygon] at h

theorem exPolygon_six : SixDecimalSpline exPolygon where
  knots U hU x hx := sixDecimals_of (by revert x; revert U; decide +kernel)
  cps x hx := sixDecimals_of (by revert x; decide +kernel)
  weights := by intro w h; simp [exPolygon] at h

theorem exNurbs_six : SixDecimalSpline exNurbs where
  knots U hU x hx := sixDecimals_of (by revert x; revert U; decide +kernel)
  cps x hx := sixDecimals_of (by revert x; decide +kernel)
  weights := by
    intro w hw
    obtain rfl : [1, 2, 1/2, 3] = w := by simpa [exNurbs] using hw
    exact fun x hx => sixDecimals_of (by revert x; decide +kernel)

def exSurroundings : Surroundings ℚ := ⟨fun _ _ => .ok [], "20201116.100000".toList, "20201116.100000".toList⟩

theorem exSuits_irit : Suits exSurroundings [exPolygon, exNurbs] "a.itd".toList := by
  unfold Suits
  rw [show fileFormat "a.itd".toList = .irit by decide +kernel]
  refine ⟨?_, fun t ht => ?_⟩
  · simp only [List.mem_cons, List.not_mem_nil, or_false, forall_eq_or_imp, forall_eq]
    exact ⟨⟨by decide +kernel, by decide +kernel, exPolygon_six, fun i hi => sixDecimals_of (by revert i; decide +kernel)⟩,
      ⟨by decide +kernel, by decide +kernel, exNurbs_six, fun i hi => sixDecimals_of (by revert i; decide +kernel)⟩⟩
  · have : (Irit.writeFile [exPolygon, exNurbs]).toOption.elim 0 List.length < 2 ^ 31 := by decide +kernel
    rw [ht] at this
    exact this

theorem exSuits_xml : Suits exSurroundings [exPolygon, exNurbs] "b.xml".toList := by
  unfold Suits
  rw [show fileFormat "b.xml".toList = .xml by decide +kernel]
  show ∀ s ∈ _, _
  simp only [List.mem_cons, List.not_mem_nil, or_false, forall_eq_or_imp, forall_eq]
  exact ⟨⟨by decide +kernel, by decide +kernel, ⟨by decide +kernel, by decide +kernel, by intro w h; simp [exPolygon] at h⟩, exPolygon_six⟩,
    ⟨by decide +kernel, by decide +kernel, exXml_range exNurbs (by simp), exNurbs_six⟩⟩

/-- A B-spline and a NURBS are converted from IRIT to XML and back as often as wanted. -/
example {fs : Files} (hs : readContent exSurroundings .irit (fs "a.itd".toList) = .ok [exPolygon, exNurbs]) (n : ℕ) :
    ∃ fs', convertChain exSurroundings fs "a.itd".toList (List.replicate n ["b.xml".toList, "a.itd".toList]).flatten = (fs', .ok ()) ∧
      (n ≠ 0 → readContent exSurroundings .irit (fs' "a.itd".toList) = .ok [exPolygon, exNurbs]) := by
  have e : fileFormat "a.itd".toList = .irit := by decide +kernel
  obtain ⟨fs', h1, _, h3⟩ := C64_chain_exact (w := exSurroundings) (ss := [exPolygon, exNurbs])
    (names := (List.replicate n ["b.xml".toList, "a.itd".toList]).flatten) (fs := fs) (input := "a.itd".toList)
    (by simp only [List.mem_cons, List.not_mem_nil, or_false, forall_eq_or_imp, forall_eq]; exact ⟨exPolygon_wf, exNurbs_wf⟩)
    (by
      intro m hm
      obtain ⟨l, hl, hm⟩ := List.mem_flatten.1 hm
      obtain rfl := List.eq_of_mem_replicate hl
      simp only [List.mem_cons, List.not_mem_nil, or_false] at hm
      rcases hm with rfl | rfl
      · exact exSuits_xml
      · exact exSuits_irit)
    (by rw [e]; exact Or.inr (Or.inl rfl)) (by rw [e]; exact hs)
  refine ⟨fs', h1, fun hn => ?_⟩
  obtain ⟨c, _, _, h4⟩ := h3 "a.itd".toList (List.mem_flatten.2 ⟨_, List.mem_replicate.2 ⟨hn, rfl⟩, by simp⟩)
  rw [e] at h4
  exact h4

/-- The polygon may also be stored in an IGES file. -/
example : Suits exSurroundings [exPolygon] "c.iges".toList := by
  unfold Suits
  rw [show fileFormat "c.iges".toList = .iges by decide +kernel]
  have hr : ∀ s ∈ [exPolygon], ∀ x ∈ allNumbers s, x = 0 ∨ (1 / 10 ^ 4 ≤ |x| ∧ |x| ≤ 10 ^ 17) := by decide +kernel
  refine ⟨⟨?_, fun s hs x hx => doubleRange_of_ordinary (hr s hs x hx), by decide +kernel, by decide +kernel⟩, by decide +kernel,
    by decide +kernel, fun s hs x hx => ⟨C38_ordinary_numbers (hr s hs x hx), digits18_of ?_ ?_⟩⟩
  · simp only [List.mem_cons, List.not_mem_nil, or_false, forall_eq]
    exact ⟨exPolygon_wf, by decide +kernel⟩
  · revert x; revert s; decide +kernel
  · revert x; revert s; decide +kernel

/-- The conditions of `C64_no_drift`. -/
example : Printable exPolygon :=
  ⟨by decide +kernel, by intro w h; simp [exPolygon] at h⟩

/-- The condition on the scattering in `C64_vtk_grid`: the second and the first spline are requested. -/
example : ∀ (i p : ℕ) (c : List ℤ) (s : Spl ℚ), ([1, 0] : List ℤ)[i]? = some (p : ℤ) → [[3], [2]][i]? = some c →
    [exPolygon, exNurbs][p]? = some s → c.length = s.ps.knots.length ∧ ∀ n ∈ c, 0 < n := by
  intro i p c s h1 h2 h3
  match i, h1, h2 with
  | 0, h1, h2 =>
    obtain rfl : 1 = p := by simp at h1; omega
    obtain rfl : [3] = c := by simpa using h2
    obtain rfl : exNurbs = s := by simpa using h3
    exact ⟨rfl, by simp⟩
  | 1, h1, h2 =>
    obtain rfl : 0 = p := by simp at h1; omega
    obtain rfl : [2] = c := by simpa using h2
    obtain rfl : exPolygon = s := by simpa using h3
    exact ⟨rfl, by simp⟩
  | i + 2, h1, _ => simp at h1
end
end Conv
end SplineLib
