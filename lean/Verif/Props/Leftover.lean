import Verif.Core.Emit
import Verif.Core.ConverterLog
import Verif.Props.Truncated
import Verif.Props.VtkText
import Verif.Props.Files

/-!
# C78: what is left of a file whose writer failed

The writers open the file, which discards the old contents, before they check their arguments. What is left depends on the format. The IRIT and
IGES readers do not notice it.
-/

namespace SplineLib
set_option linter.unusedSectionVars false
open Str Prn Emitted

/-! ## The writers as sequences of outputs -/

section
variable {K : Type} [LinearOrder K] [Field K]

/-- **C78** The writers return if and only if the characters written one after the other are a complete file; otherwise the exception is the
same. -/
theorem C78_complete_files [DecPrinter K] [GenPrinter K] [SigPrinter 5 K] (ss : List (Spl K)) (scat : List (List ℤ))
    (filename time1 time2 : List Char) :
    (∀ t, Irit.writeFile ss = .ok t ↔ Irit.writeE ss = (t, .ok ())) ∧ (∀ e, Irit.writeFile ss = .error e ↔ (Irit.writeE ss).2 = .error e) ∧
      (∀ t, Iges.writeFile filename time1 time2 ss = .ok t ↔ Iges.writeE filename time1 time2 ss = (t, .ok ())) ∧
      (∀ e, Iges.writeFile filename time1 time2 ss = .error e ↔ (Iges.writeE filename time1 time2 ss).2 = .error e) ∧
      (∀ t, Vtk.writeText ss scat = .ok t ↔ Vtk.writeE ss scat = (t, .ok ())) ∧
      ∀ e, Vtk.writeText ss scat = .error e ↔ (Vtk.writeE ss scat).2 = .error e := by
  rw [← Irit.run_writeE, ← Iges.run_writeE, ← Vtk.run_writeE]
  exact ⟨fun _ => run_ok, fun _ => run_error, fun _ => run_ok, fun _ => run_error, fun _ => run_ok, fun _ => run_error⟩

end

/-! ## IRIT -/

section
variable {K : Type} [LinearOrder K] [Field K] [IsStrictOrderedRing K] [FloorRing K] [LawfulPrinter K]

/-- **C78** The IRIT writer refuses a spline with a number of dimensions other than 1, 2 or 3 with a runtime error. The splines in front of it stay in
the file, and the reader returns exactly these: nobody notices that the file is not complete. -/
theorem C78_irit {ss : List (Spl K)} (h : ∀ s ∈ ss, WFSpl s ∧ (npts s).prod < 2 ^ 64)
    (hd : ∀ s ∈ ss, 1 ≤ s.ps.knots.length ∧ s.ps.knots.length ≤ 3)
    (hw : ∀ s ∈ ss, ∀ w, s.ph.weights = some w → ∀ a ∈ w, 1 / 10 ^ 6 ≤ a)
    {bad : Spl K} (hb : ¬ (1 ≤ bad.ps.knots.length ∧ bad.ps.knots.length ≤ 3)) (rest : List (Spl K)) :
    ∃ t, Irit.writeE (ss ++ bad :: rest) = (t, .error (.thrown .runtimeError)) ∧
      (t.length < 2 ^ 31 → ∃ rs, Irit.readFile K t = .ok rs ∧ List.Forall₂ ReadBack ss rs) := by
  obtain ⟨rs, hrs⟩ := irit_backs h hd hw
  obtain ⟨t, h1, h2⟩ := readFile_left hb rest (hrs.imp fun _ _ h => h.1)
  exact ⟨t, h1, fun hl => ⟨rs, h2 (by omega), hrs.imp fun _ _ h => h.2⟩⟩

end

/-! ## IGES -/

section
variable {K : Type} [LinearOrder K] [Field K] [FloorRing K] [GenPrinter K]

/-- **C78** If the IGES writer throws an exception, then the file is empty, and the reader returns no splines for it. -/
theorem C78_iges {filename time1 time2 : List Char} {ss : List (Spl K)} {x : Exc} (h : Iges.writeFile filename time1 time2 ss = .error (.thrown x)) :
    Iges.writeE filename time1 time2 ss = ([], .error (.thrown x)) ∧ Iges.readFile K [] = .ok [] := by
  refine ⟨?_, rfl⟩
  unfold Iges.writeE
  rw [h]
  rfl

end

/-! ## VTK -/

section
open VtkFormat

theorem tokens_mem {p : Char → Prop} {s : List Char} {ts : List (List Char)} (h : Tokens p s ts) : ∀ t ∈ ts, ∀ c ∈ t, c ∈ s := by
  induction h with
  | nil => simp
  | sep _ _ ih => intro t ht c hc; exact List.mem_cons_of_mem _ (ih t ht c hc)
  | last => intro t ht c hc; simp at ht; rwa [← ht]
  | tok _ _ _ _ ih =>
    intro t ht c hc
    rcases List.mem_cons.1 ht with rfl | ht
    · simp [hc]
    · simp [ih t ht c hc]

/-- The letter of the key word `CELLS`. -/
theorem isGrid_letter {K : Type} [Field K] {text : List Char} {points : List (List K)} {cells : List (List ℕ)} {types : List ℕ}
    {rest : List (List Char)} (h : IsGrid text points cells types rest) : 'L' ∈ text := by
  obtain ⟨ps, cs, ts, ⟨v, t, body, rfl, -, -, -, hb⟩, -, ⟨n, m, xs, rfl, -⟩, -⟩ := h
  have := tokens_mem hb "CELLS".toList (by simp) 'L' (by decide)
  simp [this]

theorem digit_not_letter (d : Fin 10) : digitChar d ≠ 'L' := by
  revert d; decide

theorem digits_no_letter (ds : List (Fin 10)) : 'L' ∉ ds.map digitChar := by
  intro h
  obtain ⟨d, -, hd⟩ := List.mem_map.1 h
  exact digit_not_letter d hd

theorem lit_no_letter (l : DecLit) : 'L' ∉ l.text := by
  have h1 := digits_no_letter l.int
  have h2 : 'L' ∉ l.mantissa := by
    unfold DecLit.mantissa
    cases l.frac with
    | none => simpa using h1
    | some fs =>
      have := digits_no_letter fs
      simp only [List.mem_append, List.mem_cons, not_or]
      exact ⟨h1, by decide, this⟩
  have h3 : 'L' ∉ l.expText := by
    unfold DecLit.expText
    cases l.exp with
    | none => simp
    | some e =>
      have := digits_no_letter e.digits
      simp only [ExpPart.text, List.mem_append, List.mem_cons, not_or]
      refine ⟨by split <;> decide, ?_, this⟩
      rcases e.sign with _ | _ | _ <;> decide
  unfold DecLit.text
  simp only [List.mem_append, not_or]
  exact ⟨by split <;> decide, h2, h3⟩

theorem intText_no_letter (z : ℤ) : 'L' ∉ intText z := by
  intro h
  rcases Log.intText_chars z _ h with h | ⟨d, h⟩
  · exact absurd h (by decide)
  · exact digit_not_letter d h.symm

variable {K : Type} [LinearOrder K] [Field K] [IsStrictOrderedRing K] [LawfulSig 5 K]

theorem pointText_no_letter : ∀ xs : List K, 'L' ∉ Vtk.pointText xs
  | [] => by simp [Vtk.pointText]
  | [x] => by
    have := lit_no_letter (sigLit 5 x)
    rw [sigLit_text] at this
    simp only [Vtk.pointText, List.mem_append, not_or]
    exact ⟨this, by decide⟩
  | x :: y :: xs => by
    have := lit_no_letter (sigLit 5 x)
    rw [sigLit_text] at this
    simp only [Vtk.pointText, List.mem_append, List.mem_cons, not_or]
    exact ⟨this, by decide, pointText_no_letter (y :: xs)⟩

theorem andThen_no_letter {a b : Emitted} (ha : 'L' ∉ a.1) (hb : 'L' ∉ b.1) : 'L' ∉ (a.andThen b).1 := by
  obtain ⟨t, r⟩ := a
  cases r with
  | ok u =>
    simp only [Emitted.andThen, List.mem_append, not_or]
    exact ⟨ha, hb⟩
  | error e => exact ha

theorem pointsE_no_letter (s : Spl K) (scat : List ℤ) (n : ℕ) : ∀ h : MIH, 'L' ∉ (Vtk.pointsE s scat n h).1 := by
  induction n with
  | zero => intro h; simp [Vtk.pointsE, emit]
  | succ n ih =>
    intro h
    rw [Vtk.pointsE]
    refine andThen_no_letter ?_ (ih _)
    cases Vtk.gridCoord s.ps.knots h.cur scat with
    | error e => simp [emitM]
    | ok x =>
      rw [ok_bind]
      cases Vtk.pointLine s x with
      | error e => simp [emitM]
      | ok l => exact pointText_no_letter l

theorem allPointsE_no_letter : ∀ (ss : List (Spl K)) (cs : List (List ℤ)), 'L' ∉ (Vtk.allPointsE ss cs).1
  | [], _ => by simp [Vtk.allPointsE, emit]
  | _ :: _, [] => by simp [Vtk.allPointsE, emit]
  | s :: ss, c :: cs => by
    rw [Vtk.allPointsE]
    refine andThen_no_letter ?_ (allPointsE_no_letter ss cs)
    unfold Vtk.addPointsE
    split
    · exact pointsE_no_letter _ _ _ _
    · simp

/-- No exception of the library. -/
def NotThrown {α : Type} (x : M α) : Prop := ∀ e, x ≠ .error (.thrown e)

theorem notThrown_bind {α β : Type} {x : M α} {f : α → M β} (h : NotThrown x) (hf : ∀ a, NotThrown (f a)) : NotThrown (x >>= f) := by
  cases x with
  | error e =>
    intro e' he
    exact h e' (by rw [show e = .thrown e' from Except.error.inj he])
  | ok a => exact hf a

theorem notThrown_ok {α : Type} (a : α) : NotThrown (.ok a : M α) := fun _ h => by cases h

theorem notThrown_getN {α : Type} (l : List α) (i : ℕ) : NotThrown (getN l i) := by
  unfold getN
  intro e h
  split at h <;> cases h

theorem notThrown_times {σ : Type} {body : σ → M σ} (h : ∀ a, NotThrown (body a)) : ∀ (n : ℕ) (st : σ), NotThrown (Vtk.times body n st)
  | 0, _ => notThrown_ok _
  | n + 1, st => notThrown_bind (h st) fun a => notThrown_times h n a

theorem notThrown_step2 (s0 s1 off : ℤ) (st : MIH × List (List ℤ)) : NotThrown (Vtk.step2 s0 s1 off st) := by
  unfold Vtk.step2
  refine notThrown_bind (notThrown_getN _ _) fun a => notThrown_bind (notThrown_getN _ _) fun b => ?_
  dsimp only
  split <;> exact notThrown_ok _

theorem notThrown_step3 (s0 s1 s2 off : ℤ) (st : MIH × List (List ℤ)) : NotThrown (Vtk.step3 s0 s1 s2 off st) := by
  unfold Vtk.step3
  refine notThrown_bind (notThrown_getN _ _) fun a => notThrown_bind (notThrown_getN _ _) fun b => notThrown_bind (notThrown_getN _ _) fun c => ?_
  dsimp only
  split <;> exact notThrown_ok _

theorem notThrown_loop3 (s0 s1 s2 off : ℤ) : ∀ (n : ℕ) (st : MIH × List (List ℤ)), NotThrown (Vtk.loop3 s0 s1 s2 off n st)
  | 0, _ => fun _ h => by cases h
  | n + 1, st => by
    rw [Vtk.loop3]
    split
    · exact notThrown_bind (notThrown_step3 _ _ _ _ _) fun a => notThrown_loop3 s0 s1 s2 off n a
    · exact notThrown_ok _

theorem notThrown_addCells (c : List ℤ) (off : ℤ) (d : ℕ) : NotThrown (Vtk.addCells c off d) := by
  unfold Vtk.addCells
  split
  · exact notThrown_bind (notThrown_getN _ _) fun _ => notThrown_ok _
  · split
    · refine notThrown_bind (notThrown_getN _ _) fun a => notThrown_bind (notThrown_getN _ _) fun b => ?_
      exact notThrown_bind (notThrown_times (notThrown_times (notThrown_step2 _ _ _) _) _ _) fun _ => notThrown_ok _
    · split
      · refine notThrown_bind (notThrown_getN _ _) fun a => notThrown_bind (notThrown_getN _ _) fun b =>
          notThrown_bind (notThrown_getN _ _) fun c => ?_
        exact notThrown_loop3 _ _ _ _ _ _
      · exact notThrown_ok _

theorem notThrown_allCells : ∀ (ds : List ℕ) (cs : List (List ℤ)) (off : ℤ), NotThrown (Vtk.allCells ds cs off)
  | [], _, _ => notThrown_ok _
  | _ :: _, [], _ => notThrown_ok _
  | d :: ds, c :: cs, off => by
    rw [Vtk.allCells]
    exact notThrown_bind (notThrown_addCells _ _ _) fun _ => notThrown_bind (notThrown_allCells ds cs _) fun _ => notThrown_ok _

theorem andThen_thrown {a b : Emitted} {x : Exc} (h : (a.andThen b).2 = .error (.thrown x)) :
    a.2 = .error (.thrown x) ∧ (a.andThen b).1 = a.1 ∨ a.2 = .ok () ∧ b.2 = .error (.thrown x) ∧ (a.andThen b).1 = a.1 ++ b.1 := by
  obtain ⟨t, r⟩ := a
  cases r with
  | ok u => exact Or.inr ⟨rfl, h, rfl⟩
  | error e => exact Or.inl ⟨h, rfl⟩

/-- **C78** If the VTK writer throws an exception, then what is left is not a file with a grid, whatever the splines and scatterings. -/
theorem C78_vtk_no_grid {ss : List (Spl K)} {scat : List (List ℤ)} {x : Exc} (h : (Vtk.writeE ss scat).2 = .error (.thrown x))
    (points : List (List K)) (cells : List (List ℕ)) (types : List ℕ) (rest : List (List Char)) :
    ¬ IsGrid (Vtk.writeE ss scat).1 points cells types rest := by
  intro hg
  have hL := isGrid_letter hg
  revert hL
  have h0 : 'L' ∉ Vtk.header := by unfold Vtk.header; decide
  unfold Vtk.writeE at h ⊢
  dsimp only at h ⊢
  rcases andThen_thrown h with ⟨h1, -⟩ | ⟨-, h1, e1⟩
  · cases h1
  rw [e1]
  show _ ∉ _
  rw [List.mem_append, not_or]
  refine ⟨h0, ?_⟩
  rcases andThen_thrown h1 with ⟨h2, e2⟩ | ⟨-, h2, e2⟩ <;> rw [e2]
  · cases hc : Vtk.checkScattering scat (ss.map fun s => s.ps.knots.length) with
    | error e => simp [emitM]
    | ok t => rw [hc] at h2; cases h2
  have hc : 'L' ∉ (emitM (Vtk.checkScattering scat (ss.map fun s => s.ps.knots.length))).1 := by
    cases hc : Vtk.checkScattering scat (ss.map fun s => s.ps.knots.length) with
    | error e => simp [emitM]
    | ok t =>
      unfold Vtk.checkScattering at hc
      split at hc
      · cases hc
      · obtain ⟨u, -, hc⟩ := bind_eq_ok.1 hc
        cases hc
        simp [emitM]
  simp only [List.mem_append, not_or]
  refine ⟨hc, ?_⟩
  rcases andThen_thrown h2 with ⟨h3, -⟩ | ⟨-, h3, e3⟩
  · cases h3
  rw [e3]
  simp only [List.mem_append, not_or]
  refine ⟨?_, ?_⟩
  · simp only [emit, List.mem_append, not_or]
    exact ⟨⟨by decide, intText_no_letter _⟩, by decide⟩
  rcases andThen_thrown h3 with ⟨h4, e4⟩ | ⟨-, h4, e4⟩ <;> rw [e4]
  · exact allPointsE_no_letter _ _
  exfalso
  rcases andThen_thrown h4 with ⟨h5, -⟩ | ⟨-, h5, -⟩
  · cases h5
  rcases andThen_thrown h5 with ⟨h6, -⟩ | ⟨-, h6, -⟩
  · rw [← run_error, Vtk.run_allCellsE] at h6
    exact notThrown_bind (notThrown_allCells _ _ _) (fun _ => notThrown_ok _) _ h6
  · cases h6

/-- **C78** Scatterings of wrong sizes are only noticed when the first lines are written: these are what is left of the file. -/
theorem C78_vtk_wrong_sizes (ss : List (Spl K)) (scat : List (List ℤ))
    (h : scat.length ≠ ss.length ∨ ∃ i : ℕ, ∃ s c, ss[i]? = some s ∧ scat[i]? = some c ∧ c.length ≠ s.ps.knots.length) :
    Vtk.writeE ss scat = (Vtk.header, .error (.thrown .runtimeError)) := by
  have hc : Vtk.checkScattering scat (ss.map fun s => s.ps.knots.length) = .error (.thrown .runtimeError) := by
    unfold Vtk.checkScattering
    by_cases hl : scat.length ≠ (ss.map fun s => s.ps.knots.length).length
    · rw [if_pos hl]
    · rw [if_neg hl]
      rcases h with h | ⟨i, s, c, h1, h2, h3⟩
      · exact absurd (by simpa using h) hl
      · have : Vtk.checkSizes scat (ss.map fun s => s.ps.knots.length) = .error (.thrown .runtimeError) := by
          clear hl
          induction ss generalizing scat i with
          | nil => simp at h1
          | cons a l ih =>
            cases scat with
            | nil => simp at h2
            | cons b m =>
              simp only [List.map_cons, Vtk.checkSizes]
              by_cases hb : b.length ≠ a.ps.knots.length
              · rw [if_pos hb]
              · rw [if_neg hb]
                cases i with
                | zero =>
                  simp at h1 h2
                  subst h1 h2
                  exact absurd h3 hb
                | succ i => exact ih m i (by simpa using h1) (by simpa using h2)
        rw [this]
        rfl
  unfold Vtk.writeE
  dsimp only
  rw [hc]
  simp [emit, emitM, andThen]

theorem allPointsE_append : ∀ (a : List (Spl K)) (c : List (List ℤ)) (b : List (Spl K)) (d : List (List ℤ)), a.length = c.length →
    Vtk.allPointsE (a ++ b) (c ++ d) = (Vtk.allPointsE a c).andThen (Vtk.allPointsE b d)
  | [], [], b, d, _ => by simp [Vtk.allPointsE, emit, andThen]
  | [], _ :: _, _, _, h => by simp at h
  | _ :: _, [], _, _, h => by simp at h
  | s :: a, x :: c, b, d, h => by
    rw [List.cons_append, List.cons_append, Vtk.allPointsE, Vtk.allPointsE, allPointsE_append a c b d (by simpa using h), andThen_assoc]

theorem checkSizes_same : ∀ (ss : List (Spl K)) (scat : List (List ℤ)),
    List.Forall₂ (fun s (c : List ℤ) => c.length = s.ps.knots.length) ss scat →
    Vtk.checkSizes scat (ss.map fun s => s.ps.knots.length) = .ok () := by
  intro ss scat h
  induction h with
  | nil => rfl
  | cons h1 _ ih =>
    rw [List.map_cons, Vtk.checkSizes, if_neg (not_not.2 h1)]
    exact ih

/-- **C78** A spline of four dimensions is only noticed when the points of the splines in front of it are written: these points are what is left of the
file, behind a number of points that counts all splines. -/
theorem C78_vtk_dimension {ss : List (Spl K)} {nss : List (List ℕ)}
    (h : List.Forall₂ (fun s ns => WFSpl s ∧ ns.length = s.ps.knots.length ∧ (∀ n ∈ ns, 0 < n) ∧ Vtk.Dim123 ns.length) ss nss)
    {bad : Spl K} (hb : bad.ps.knots.length = 4) {rest : List (Spl K)} {c : List ℤ} {scat : List (List ℤ)}
    (hs : List.Forall₂ (fun s (c : List ℤ) => c.length = s.ps.knots.length) (ss ++ bad :: rest) (nss.map zl ++ c :: scat)) :
    Vtk.writeE (ss ++ bad :: rest) (nss.map zl ++ c :: scat) = (Vtk.header ++ ("POINTS ".toList ++
      intText (List.zipWith (fun s c => Vtk.numPoints s.ps.knots.length c) (ss ++ bad :: rest) (nss.map zl ++ c :: scat)).sum ++ " double\n".toList) ++
      (List.zipWith Vtk.gridValues ss nss).flatten.flatMap Vtk.pointText, .error (.thrown .runtimeError)) := by
  have hc : Vtk.checkScattering (nss.map zl ++ c :: scat) ((ss ++ bad :: rest).map fun s => s.ps.knots.length) = .ok [] := by
    unfold Vtk.checkScattering
    rw [if_neg (by rw [List.length_map, hs.length_eq]; simp), checkSizes_same _ _ hs]
    rfl
  have hp : Vtk.allPointsE (ss ++ bad :: rest) (nss.map zl ++ c :: scat) =
      ((List.zipWith Vtk.gridValues ss nss).flatten.flatMap Vtk.pointText, .error (.thrown .runtimeError)) := by
    rw [allPointsE_append _ _ _ _ (by rw [List.length_map, h.length_eq])]
    have e1 : Vtk.allPointsE ss (nss.map zl) = ((List.zipWith Vtk.gridValues ss nss).flatten.flatMap Vtk.pointText, .ok ()) := by
      rw [← run_ok, Vtk.run_allPointsE, Vtk.allPoints_eq h]
      rfl
    have e2 : Vtk.allPointsE (bad :: rest) (c :: scat) = ([], .error (.thrown .runtimeError)) := by
      rw [Vtk.allPointsE, Vtk.addPointsE, if_neg (by omega)]
      rfl
    rw [e1, e2, andThen_ok, List.append_nil]
  unfold Vtk.writeE
  dsimp only
  rw [hc, hp, andThen_error, Vtk.foldl_add, zero_add, List.zipWith_map_left]
  simp only [emit, emitM, andThen, List.nil_append, List.append_assoc]

end

/-! ## Conversions -/

section
open Conv
variable {K : Type} [LinearOrder K] [Field K] [IsStrictOrderedRing K] [FloorRing K] [LawfulPrinter K] [GenPrinter K] [LawfulSig 5 K]

/-- **C78** A conversion to VTK with a scattering of a wrong size for one of the splines that are written destroys the contents of the output file:
it throws a runtime error, and only the first lines of a VTK file are left. -/
theorem C78_conversion {w : Surroundings K} {fs : Files} {input output : List Char} {positions : List ℤ} {scattering : List (List ℤ)}
    {splines : List (Spl K)} (hr : Readable (fileFormat input)) (hs : readContent w (fileFormat input) (fs input) = .ok splines)
    (hd : ∀ s ∈ splines, 1 ≤ s.ps.knots.length ∧ s.ps.knots.length ≤ 4) (hv : fileFormat output = .vtk) (hp : positions ≠ [])
    (hl : scattering.length = positions.length)
    (hbad : ∃ (i : ℕ) (p : ℤ) (s : Spl K) (c : List ℤ), positions[i]? = some p ∧ scattering[i]? = some c ∧ 0 ≤ p ∧ splines[p.toNat]? = some s ∧
      s.ps.knots.length ≤ 3 ∧ c.length ≠ s.ps.knots.length) :
    convert w fs input output positions scattering = (setFile fs output (.text Vtk.header), .error (.thrown .runtimeError)) := by
  set env := fileEnv w fs input output with henv
  have hdm : splines.mapM env.dim = .ok (dimsOf splines) := mapM_dim hd
  obtain ⟨out, h1, h2, h3⟩ := vtk_eq env (new input output) positions scattering splines (dimsOf splines) hr hs hdm hv hp hl
    (by simp [new])
  obtain ⟨i, p, s, c, i1, i2, i3, i4, i5, i6⟩ := hbad
  set sup := Supported (dimsOf splines) 3 with hsup
  have hlt : p.toNat < splines.length := (List.getElem?_eq_some_iff.1 i4).1
  have hp3 : p ∈ sup := by
    rw [hsup]
    unfold Supported
    refine List.mem_map.2 ⟨p.toNat, List.mem_filter.2 ⟨List.mem_range.2 (by simpa [dimsOf] using hlt), ?_⟩, by omega⟩
    simp only [decide_eq_true_eq, dimsOf, List.getD_eq_getElem?_getD, List.getElem?_map, i4, Option.map_some, Option.getD_some]
    omega
  have hmem : (p, c) ∈ (positions.zip scattering).filter fun x => decide (x.1 ∈ sup) := by
    refine List.mem_filter.2 ⟨List.mem_of_getElem? (i := i) ?_, by simpa using hp3⟩
    rw [List.getElem?_zip_eq_some]
    exact ⟨i1, i2⟩
  obtain ⟨j, hj⟩ := List.mem_iff_getElem?.1 hmem
  have hreq : Requested positions sup = ((positions.zip scattering).filter fun x => decide (x.1 ∈ sup)).map Prod.fst := by
    unfold Requested
    rw [if_neg hp]
    conv_lhs => rw [← List.map_fst_zip (l₁ := positions) (l₂ := scattering) hl.ge]
    rw [List.filter_map]
    rfl
  have j1 : (Requested positions sup)[j]? = some p := by rw [hreq, List.getElem?_map, hj]; rfl
  have j2 : (RequestedScat positions scattering sup)[j]? = some c := by
    unfold RequestedScat
    rw [List.getElem?_map, hj]; rfl
  have j3 : out[j]? = some s := by
    obtain ⟨q, hq, -, ho⟩ := h1.2 j (by
      have := (List.getElem?_eq_some_iff.1 j1).1
      simpa [new] using this)
    have hq' : (Requested positions sup)[j]? = some (q : ℤ) := by simpa [new] using hq
    rw [j1] at hq'
    have e : p = q := Option.some.inj hq'
    rw [ho, ← i4, e]
    rfl
  have hwe := C78_vtk_wrong_sizes out (RequestedScat positions scattering sup) (Or.inr ⟨j, s, c, j3, j2, i6⟩)
  have hwt : Vtk.writeText out (RequestedScat positions scattering sup) = .error (.thrown .runtimeError) := by
    rw [← Vtk.run_writeE, hwe]; rfl
  have hwc : writeContent w output (fileFormat output) out (RequestedScat positions scattering sup) = .error (.thrown .runtimeError) := by
    rw [hv]
    simp only [writeContent, hwt]
    rfl
  obtain ⟨fs', e1, -, -, -, e2⟩ := C64_failed_writer h2 hwc
  rw [e1, e2 hv, hwe]

end

/-! ## Cases that meet the hypotheses -/

section
attribute [local instance] halfUp genHalfUp sigHalfUp

/-- A spline of four dimensions with one cell in every direction. -/
def fourDim : Spl ℚ :=
  ⟨⟨List.replicate 4 [0, 0, 1, 1], [1, 1, 1, 1], mkTable (List.replicate 4 [0, 0, 1, 1]) [1, 1, 1, 1]⟩,
    ⟨1, [2, 2, 2, 2], (List.range 16).map fun i : ℕ => (i : ℚ), none⟩⟩

/-- A B-spline curve and a NURBS curve are left. -/
example : ∃ t, Irit.writeE [exCurve, exNurbs, fourDim, exNurbsSurface] = (t, .error (.thrown .runtimeError)) ∧
    (t.length < 2 ^ 31 → ∃ rs, Irit.readFile ℚ t = .ok rs ∧ List.Forall₂ ReadBack [exCurve, exNurbs] rs) := by
  have hall : ∀ s ∈ [exCurve, exNurbs] ++ [exNurbsSurface], WFSpl s := exIges_wf
  exact C78_irit (ss := [exCurve, exNurbs]) (bad := fourDim) (fun s hs => ⟨hall s (List.mem_append_left _ hs), by revert s; decide +kernel⟩)
    (by decide +kernel) (by decide +kernel) (by decide +kernel) [exNurbsSurface]

/-- The IGES writer throws an exception for a spline of four dimensions. -/
example : Iges.writeFile "a.iges".toList "t".toList "t".toList [fourDim] = .error (.thrown .runtimeError) := by decide +kernel

example : (Vtk.writeE [exCurve, fourDim] [[1], [1, 1, 1, 1]]).2 = .error (.thrown .runtimeError) := by decide +kernel

/-- The text that is left: 10 points are announced, two are there. -/
example : (Vtk.writeE [exCurve, fourDim] [[1], [1, 1, 1, 1]]).1 =
    "# vtk DataFile Version 3.0\nSpline from Splinelib\nASCII\n\nDATASET UNSTRUCTURED_GRID\nPOINTS 10 double\n0 0 0\n4 0 0\n".toList := by
  decide +kernel

/-- The conditions of `C78_conversion`: two numbers for a curve. -/
example : ∃ (i : ℕ) (p : ℤ) (s : Spl ℚ) (c : List ℤ), ([1, 0] : List ℤ)[i]? = some p ∧ ([[3], [2, 2]] : List (List ℤ))[i]? = some c ∧ 0 ≤ p ∧
    [Conv.exPolygon, exNurbs][p.toNat]? = some s ∧ s.ps.knots.length ≤ 3 ∧ c.length ≠ s.ps.knots.length :=
  ⟨1, 0, Conv.exPolygon, [2, 2], rfl, rfl, le_refl _, rfl, by decide, by decide⟩

end
end SplineLib
