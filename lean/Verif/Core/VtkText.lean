import Verif.Model.VtkText
import Verif.Spec.VtkFormat
import Verif.Core.Significant
import Verif.Props.Vtk

/-!
# VTK files as texts (helper lemmas)
-/

namespace SplineLib
set_option linter.unusedSectionVars false
open Str Prn VtkFormat

/-! ### Words -/

section
variable {p : Char → Prop} [DecidablePred p]

/-- The word at the start of a text and the words behind it. -/
def wordsFrom (p : Char → Prop) [DecidablePred p] : List Char → List Char × List (List Char)
  | [] => ([], [])
  | c :: s =>
    let r := wordsFrom p s
    if p c then ([], if r.1 = [] then r.2 else r.1 :: r.2) else (c :: r.1, r.2)

/-- The words of a text. -/
def wordsOf (p : Char → Prop) [DecidablePred p] (s : List Char) : List (List Char) :=
  if (wordsFrom p s).1 = [] then (wordsFrom p s).2 else (wordsFrom p s).1 :: (wordsFrom p s).2

theorem wordsFrom_word {t : List Char} (h : ∀ c ∈ t, ¬ p c) (s : List Char) :
    wordsFrom p (t ++ s) = (t ++ (wordsFrom p s).1, (wordsFrom p s).2) := by
  induction t with
  | nil => rfl
  | cons c t ih =>
    rw [List.cons_append, wordsFrom, if_neg (h c (by simp)), ih fun x hx => h x (by simp [hx])]
    rfl

theorem wordsOf_eq {s : List Char} {ts : List (List Char)} (h : Tokens p s ts) : wordsOf p s = ts := by
  induction h with
  | nil => rfl
  | @sep c s ts hc _ ih =>
    rw [wordsOf, wordsFrom, if_pos hc, if_pos rfl]
    exact ih
  | @last t ht hn =>
    have := wordsFrom_word hn []
    rw [List.append_nil] at this
    rw [wordsOf, this]
    simp [wordsFrom, ht]
  | @tok t c s ts ht hn hc _ ih =>
    rw [wordsOf, wordsFrom_word hn, wordsFrom, if_pos hc]
    simp only [List.append_nil]
    rw [if_neg ht]
    exact congrArg _ ih

/-- A text has only one list of words. -/
theorem tokens_unique {s : List Char} {a b : List (List Char)} (h1 : Tokens p s a) (h2 : Tokens p s b) : a = b :=
  (wordsOf_eq h1).symm.trans (wordsOf_eq h2)

end

/-- A text that ends with a separator, as a part of a longer text. -/
def Part (t : List Char) (ts : List (List Char)) : Prop := ∀ r tr, Tokens White r tr → Tokens White (t ++ r) (ts ++ tr)

theorem Part.nil : Part [] [] := fun _ _ h => h

theorem Part.append {a b : List Char} {as bs : List (List Char)} (h1 : Part a as) (h2 : Part b bs) : Part (a ++ b) (as ++ bs) := by
  intro r tr h
  rw [List.append_assoc, List.append_assoc]
  exact h1 _ _ (h2 _ _ h)

theorem Part.white {c : Char} (h : White c) : Part [c] [] := fun _ _ hr => Tokens.sep h hr

theorem Part.word {w : List Char} {c : Char} (h0 : w ≠ []) (h : ∀ x ∈ w, ¬ White x) (hc : White c) : Part (w ++ [c]) [w] := by
  intro r tr hr
  rw [List.append_assoc]
  exact Tokens.tok h0 h hc hr

theorem Part.flatMap {α : Type} {f : α → List Char} {g : α → List (List Char)} {l : List α} (h : ∀ x ∈ l, Part (f x) (g x)) :
    Part (l.flatMap f) (l.flatMap g) := by
  induction l with
  | nil => exact Part.nil
  | cons x l ih =>
    rw [List.flatMap_cons, List.flatMap_cons]
    exact (h x (by simp)).append (ih fun y hy => h y (by simp [hy]))

theorem Part.tokens {t : List Char} {ts : List (List Char)} (h : Part t ts) : Tokens White t ts := by
  have := h [] [] Tokens.nil
  rwa [List.append_nil, List.append_nil] at this

theorem white_blank : White ' ' := Or.inl rfl
theorem white_newline : White '\n' := Or.inr (Or.inl rfl)

theorem white_isSpace {c : Char} (h : isSpace c = false) : ¬ White c := by
  rintro (rfl | rfl | rfl | rfl | rfl | rfl) <;> revert h <;> decide

instance : DecidablePred White := fun c => by unfold White; infer_instance

/-! ### Numbers -/

theorem natText_isNat (n : ℕ) : IsNat (natText n) n := ⟨natDigs n, natDigs_ne n, natText_eq n, natDigs_num n⟩

theorem intText_cast (n : ℕ) : intText (n : ℤ) = natText n := by
  unfold intText
  rw [if_neg (by omega), Int.natAbs_natCast]

theorem natText_part (n : ℕ) {c : Char} (hc : White c) : Part (natText n ++ [c]) [natText n] :=
  Part.word (natText_ne n) (fun x hx => white_isSpace (natText_chars n x hx).2.1) hc

section
variable {K : Type} [Field K] [LinearOrder K] [IsStrictOrderedRing K] [LawfulSig 5 K]

theorem sigLit_int {p : ℕ} [LawfulSig p K] (x : K) : (sigLit p x).int ≠ [] := by
  unfold sigLit
  by_cases h : SigPrinter.mant p x = 0
  · rw [if_pos h]; simp
  · rw [if_neg h]
    have hl := natDigs_sigMant (p := p) h
    unfold sigDigitsLit
    split
    · intro h0; simp only [List.take_eq_nil_iff] at h0; simp [natDigs_ne] at h0
    · split
      · simp
      · intro h0; simp only [List.take_eq_nil_iff] at h0; simp [natDigs_ne] at h0

theorem sigLit_exp {p : ℕ} [LawfulSig p K] (x : K) : ∀ e, (sigLit p x).exp = some e → e.digits ≠ [] := by
  intro e
  unfold sigLit
  by_cases h : SigPrinter.mant p x = 0
  · rw [if_pos h]; simp
  · rw [if_neg h]
    unfold sigDigitsLit
    split
    · simp
    · split
      · simp
      · simp only [Option.some.injEq]
        rintro rfl
        unfold genExp
        simp [natDigs_ne]

theorem numberText_isNumber (x : K) : IsNumber (Vtk.numberText x) (sgd 5 x) :=
  ⟨sigLit 5 x, sigLit_int x, sigLit_exp x, sigLit_text x, sigLit_value x⟩

theorem numberText_part (x : K) {c : Char} (hc : White c) : Part (Vtk.numberText x ++ [c]) [Vtk.numberText x] := by
  have e : Vtk.numberText x = (sigLit 5 x).text := (sigLit_text x).symm
  rw [e]
  exact Part.word (lit_ne (sigLit_int x)) (fun y hy => white_isSpace (lit_chars y hy).2.1) hc

theorem sgd_nearestDecimal {p : ℕ} [LawfulSig p K] (x : K) : NearestDecimal (p + 1) x (sgd p x) := by
  refine ⟨?_, fun m k h => sgd_nearest x h⟩
  refine ⟨(if SigPrinter.neg p x then -1 else 1) * (SigPrinter.mant p x : ℤ), SigPrinter.expo p x - p, ?_, ?_⟩
  · have h : SigPrinter.mant p x < 10 ^ (p + 1) := by
      rcases LawfulSig.digits (p := p) x with h | h
      · rw [h]; exact Nat.pow_pos (by norm_num)
      · exact h.2
    have h' : ((SigPrinter.mant p x : ℕ) : ℤ) < 10 ^ (p + 1) := by exact_mod_cast h
    split
    · rw [neg_one_mul, abs_neg, abs_of_nonneg (by omega)]; exact h'
    · rw [one_mul, abs_of_nonneg (by omega)]; exact h'
  · unfold sgd
    split <;> push_cast <;> rfl

/-- The nearest decimal number is close. -/
theorem nearestDecimal_near {p : ℕ} [LawfulSig p K] {x y : K} (h : NearestDecimal (p + 1) x y) : |y - x| ≤ |x| / 10 ^ p := by
  obtain ⟨⟨m, k, hm, e⟩, -⟩ := sgd_nearestDecimal (p := p) x
  have := h.2 m k hm
  rw [← e] at this
  exact this.trans (sgd_near x)

/-! ### Lines -/

theorem pointText_part (xs : List K) : Part (Vtk.pointText xs) (xs.map Vtk.numberText) := by
  induction xs with
  | nil => exact Part.nil
  | cons x xs ih =>
    cases xs with
    | nil => exact numberText_part x white_newline
    | cons y ys =>
      rw [Vtk.pointText, List.map_cons]
      have := (numberText_part x white_blank).append ih
      rwa [List.append_assoc] at this

theorem cellText_part (ns : List ℕ) : Part (Vtk.cellText (zl ns)) (ns.map natText) := by
  induction ns with
  | nil => exact Part.nil
  | cons x xs ih =>
    cases xs with
    | nil =>
      show Part (intText (x : ℤ) ++ ['\n']) _
      rw [intText_cast]
      exact natText_part x white_newline
    | cons y ys =>
      show Part (intText (x : ℤ) ++ ' ' :: Vtk.cellText (zl (y :: ys))) _
      rw [intText_cast, List.map_cons]
      have := (natText_part x white_blank).append ih
      rwa [List.append_assoc] at this

theorem forall₂_isNat (ns : List ℕ) : List.Forall₂ IsNat (ns.map natText) ns := by
  rw [List.forall₂_map_left_iff]
  exact List.forall₂_same.2 fun n _ => natText_isNat n

theorem forall₂_isNumber (xs : List K) : List.Forall₂ IsNumber (xs.map Vtk.numberText) (xs.map (sgd 5)) := by
  rw [List.forall₂_map_left_iff, List.forall₂_map_right_iff]
  exact List.forall₂_same.2 fun x _ => numberText_isNumber x

theorem word_part {w : List Char} (hw : w ≠ []) (h : (w.all fun c => ! isSpace c) = true) {c : Char} (hc : White c) : Part (w ++ [c]) [w] :=
  Part.word hw (fun x hx => white_isSpace (by have := List.all_eq_true.1 h x hx; simpa using this)) hc

/-- The words of a file. -/
def fileWords (f : Vtk.File K) (cells : List (List ℕ)) (types : List ℕ) : List (List Char) :=
  "DATASET".toList :: "UNSTRUCTURED_GRID".toList ::
    (("POINTS".toList :: natText f.points.length :: "double".toList :: f.points.flatten.map Vtk.numberText) ++
      ("CELLS".toList :: natText cells.length :: natText (cells.map fun c => c.length + 1).sum ::
        (cells.flatMap fun c => c.length :: c).map natText) ++
      ("CELL_TYPES".toList :: natText types.length :: types.map natText))

/-- The text behind the first three lines. -/
def fileBody (f : Vtk.File K) : List Char :=
  "\nDATASET UNSTRUCTURED_GRID\n".toList ++ ("POINTS ".toList ++ intText f.pointCount ++ " double\n".toList ++ f.points.flatMap Vtk.pointText) ++
    ("\nCELLS ".toList ++ intText f.cellCount ++ " ".toList ++ intText f.entryCount ++ "\n".toList ++ f.cells.flatMap Vtk.cellText) ++
    ("\nCELL_TYPES ".toList ++ intText f.typeCount ++ "\n".toList ++ f.types.flatMap fun t => intText t ++ ['\n'])

theorem header_eq : Vtk.header = "# vtk DataFile Version ".toList ++ "3.0".toList ++ '\n' :: "Spline from Splinelib".toList ++ '\n' ::
    "ASCII\n".toList ++ "\nDATASET UNSTRUCTURED_GRID\n".toList := by
  decide

theorem fileText_eq (f : Vtk.File K) (rest : List Char) :
    Vtk.fileText f ++ rest = "# vtk DataFile Version ".toList ++ "3.0".toList ++ '\n' :: "Spline from Splinelib".toList ++ '\n' ::
      "ASCII\n".toList ++ (fileBody f ++ rest) := by
  unfold Vtk.fileText fileBody
  rw [header_eq]
  simp only [List.append_assoc, List.cons_append]

theorem fileBody_part {f : Vtk.File K} {cells : List (List ℕ)} {types : List ℕ} (h1 : f.pointCount = f.points.length)
    (h2 : f.cells = cells.map fun c => ((c.length : ℕ) : ℤ) :: zl c) (h3 : f.cellCount = cells.length)
    (h4 : f.entryCount = ((cells.map fun c => c.length + 1).sum : ℕ)) (h5 : f.types = zl types) (h6 : f.typeCount = types.length) :
    Part (fileBody f) (fileWords f cells types) := by
  have e1 : "\nDATASET UNSTRUCTURED_GRID\n".toList = ['\n'] ++ (("DATASET".toList ++ [' ']) ++ ("UNSTRUCTURED_GRID".toList ++ ['\n'])) := by decide
  have e2 : "POINTS ".toList = "POINTS".toList ++ [' '] := by decide
  have e3 : " double\n".toList = [' '] ++ ("double".toList ++ ['\n']) := by decide
  have e4 : "\nCELLS ".toList = ['\n'] ++ ("CELLS".toList ++ [' ']) := by decide
  have e5 : "\nCELL_TYPES ".toList = ['\n'] ++ ("CELL_TYPES".toList ++ [' ']) := by decide
  have e6 : " ".toList = [' '] := by decide
  have e7 : "\n".toList = ['\n'] := by decide
  have hp : Part (f.points.flatMap Vtk.pointText) (f.points.flatten.map Vtk.numberText) := by
    have := Part.flatMap (f := Vtk.pointText) (l := f.points) fun x _ => pointText_part x
    rwa [show f.points.flatMap (fun xs => xs.map Vtk.numberText) = f.points.flatten.map Vtk.numberText by
      rw [List.flatMap_def, List.map_flatten]] at this
  have hc : Part (f.cells.flatMap Vtk.cellText) ((cells.flatMap fun c => c.length :: c).map natText) := by
    rw [h2, List.flatMap_map]
    have := Part.flatMap (f := fun c : List ℕ => Vtk.cellText (((c.length : ℕ) : ℤ) :: zl c)) (l := cells)
      fun c _ => cellText_part (c.length :: c)
    rwa [show cells.flatMap (fun c => (c.length :: c).map natText) = (cells.flatMap fun c => c.length :: c).map natText by
      rw [List.map_flatMap]] at this
  have ht : Part (f.types.flatMap fun t => intText t ++ ['\n']) (types.map natText) := by
    rw [h5]
    show Part ((types.map Nat.cast).flatMap _) _
    rw [List.flatMap_map]
    have := Part.flatMap (f := fun t : ℕ => natText t ++ ['\n']) (l := types) fun t _ => natText_part t white_newline
    rw [show types.flatMap (fun t => [natText t]) = types.map natText by clear * -; induction types <;> simp_all [List.flatMap_cons]] at this
    simpa only [intText_cast] using this
  unfold fileBody fileWords
  rw [e1, e2, e3, e4, e5, e6, e7, h1, h3, h4, h6]
  simp only [intText_cast]
  have a1 := (Part.white white_newline).append ((word_part (w := "DATASET".toList) (by decide) (by decide) white_blank).append
    (word_part (w := "UNSTRUCTURED_GRID".toList) (by decide) (by decide) white_newline))
  have a2 := (word_part (w := "POINTS".toList) (by decide) (by decide) white_blank).append
    ((natText_part f.points.length white_blank).append ((word_part (w := "double".toList) (by decide) (by decide) white_newline).append hp))
  have a3 := ((Part.white white_newline).append (word_part (w := "CELLS".toList) (by decide) (by decide) white_blank)).append
    ((natText_part cells.length white_blank).append ((natText_part (cells.map fun c => c.length + 1).sum white_newline).append hc))
  have a4 := ((Part.white white_newline).append (word_part (w := "CELL_TYPES".toList) (by decide) (by decide) white_blank)).append
    ((natText_part types.length white_newline).append ht)
  have := (a1.append a2).append (a3.append a4)
  simpa only [List.append_assoc, List.cons_append, List.nil_append] using this

theorem pointData_part (data : List K) : Part (Vtk.pointDataText data)
    ("POINT_DATA".toList :: natText data.length :: "SCALARS".toList :: "solution".toList :: "float".toList :: "1".toList :: "LOOKUP_TABLE".toList ::
      "default".toList :: data.map Vtk.numberText) := by
  have e1 : "\nPOINT_DATA ".toList = ['\n'] ++ ("POINT_DATA".toList ++ [' ']) := by decide
  have e2 : "\nSCALARS solution float 1\nLOOKUP_TABLE default\n".toList = ['\n'] ++ (("SCALARS".toList ++ [' ']) ++ (("solution".toList ++ [' ']) ++
    (("float".toList ++ [' ']) ++ (("1".toList ++ ['\n']) ++ (("LOOKUP_TABLE".toList ++ [' ']) ++ ("default".toList ++ ['\n'])))))) := by decide
  have hd : Part (data.flatMap fun x => Vtk.numberText x ++ ['\n']) (data.map Vtk.numberText) := by
    have := Part.flatMap (f := fun x : K => Vtk.numberText x ++ ['\n']) (l := data) fun x _ => numberText_part x white_newline
    rwa [show data.flatMap (fun x => [Vtk.numberText x]) = data.map Vtk.numberText by clear * -; induction data <;> simp_all [List.flatMap_cons]] at this
  unfold Vtk.pointDataText
  rw [e1, e2]
  have a1 := ((Part.white white_newline).append (word_part (w := "POINT_DATA".toList) (by decide) (by decide) white_blank)).append
    (natText_part data.length white_newline)
  have a2 := (word_part (w := "SCALARS".toList) (by decide) (by decide) white_blank).append
    ((word_part (w := "solution".toList) (by decide) (by decide) white_blank).append
      ((word_part (w := "float".toList) (by decide) (by decide) white_blank).append
        ((word_part (w := "1".toList) (by decide) (by decide) white_newline).append
          ((word_part (w := "LOOKUP_TABLE".toList) (by decide) (by decide) white_blank).append
            ((word_part (w := "default".toList) (by decide) (by decide) white_newline).append hd)))))
  have := a1.append a2
  simpa only [List.append_assoc, List.cons_append, List.nil_append] using this
end
end SplineLib
