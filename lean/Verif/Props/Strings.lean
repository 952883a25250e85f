import Verif.Core.Text
import Mathlib.Algebra.Order.Field.Basic
import Mathlib.Algebra.Field.Rat
import Mathlib.Algebra.Order.Ring.Rat
import Mathlib.Tactic.IntervalCases

/-!
# String operations: numbers, suffixes, lists

C33: what `StringToDouble` computes for decimal literals. C34: what `EndsWith` computes and which file format is chosen.
C35: `DelimitedStringToVector`, `split` and `trim`.
-/

namespace SplineLib
set_option linter.unusedSectionVars false
open Str

variable {K : Type} [Field K] [LinearOrder K] [IsStrictOrderedRing K]

/-! ### C33 -/

/-- `StringToDouble` of a literal with a decimal point, or without an exponent, is its value. Missing: literals with an exponent
but without a decimal point, for which the claim is false, see `C33_integer_with_exponent`. -/
theorem C33_decimal_partial {l : DecLit} (hv : l.Valid) (h : l.frac.isSome ∨ l.exp = none) :
    stringToDouble K l.text = .ok (l.value K) := by
  rw [stringToDouble_literal hv]
  congr 1
  unfold readFactor
  rcases h with h | h
  · cases hf : l.frac with
    | none => rw [hf] at h; cases h
    | some fs => simp
  · have : l.expText = [] := by unfold DecLit.expText; rw [h]
    simp [this]

/-- A literal with an exponent but without a decimal point is read too large by a power of ten: one for each character of the
exponent part. -/
theorem C33_integer_with_exponent {l : DecLit} (hv : l.Valid) (hf : l.frac = none) {e : ExpPart} (he : l.exp = some e) :
    stringToDouble K l.text = .ok (l.value K * 10 ^ e.text.length) := by
  rw [stringToDouble_literal hv]
  congr 2
  unfold readFactor
  have : l.expText = e.text := by unfold DecLit.expText; rw [he]
  simp [hf, this]

/-- So such a literal is never read correctly, unless it is zero. -/
theorem C33_integer_with_exponent_wrong {l : DecLit} (hv : l.Valid) (hf : l.frac = none) (he : l.exp.isSome)
    (h0 : digitsNum l.int ≠ 0) : stringToDouble K l.text ≠ .ok (l.value K) := by
  obtain ⟨e, he⟩ := Option.isSome_iff_exists.1 he
  rw [C33_integer_with_exponent hv hf he]
  intro h
  injection h with h
  have hval : l.value K ≠ 0 := by
    unfold DecLit.value
    rw [hf, he]
    refine mul_ne_zero (mul_ne_zero ?_ ?_) (zpow_ne_zero _ (by norm_num))
    · split <;> norm_num
    · simpa using h0
  have hpow : (1 : K) < 10 ^ e.text.length := one_lt_pow₀ (by norm_num) (by unfold ExpPart.text; simp)
  have : l.value K * (10 ^ e.text.length - 1) = 0 := by rw [mul_sub, h, mul_one, sub_self]
  rcases mul_eq_zero.1 this with h | h
  · exact hval h
  · rw [sub_eq_zero] at h; rw [h] at hpow; exact lt_irrefl _ hpow

/-- `StringToDouble` terminates on every string. -/
theorem C33_terminates (s : List Char) (hs : s.length < 2 ^ 64 - 1) : stringToDouble K s ≠ .error .diverges :=
  stringToDouble_not_diverges hs

/-- "-12.50e-3" is a valid literal with a decimal point. -/
def exLit : DecLit := ⟨true, [1, 2], some [5, 0], some ⟨false, some true, [3]⟩⟩

example : exLit.text = "-12.50e-3".toList ∧ exLit.Valid ∧ exLit.value ℚ = -125 / 10000 := by
  refine ⟨by decide, ⟨by simp [exLit], ?_, by decide⟩, ?_⟩
  · intro e he
    have : e = ⟨false, some true, [3]⟩ := by simpa [exLit] using he.symm
    subst this; decide
  · simp [exLit, DecLit.value, digitsNum, ExpPart.value]; norm_num

/-- "1E5" is a valid literal without a decimal point; it is read as 10^7. -/
def exBadLit : DecLit := ⟨false, [1], none, some ⟨true, none, [5]⟩⟩

example : exBadLit.text = "1E5".toList ∧ exBadLit.Valid ∧ stringToDouble ℚ "1E5".toList = .ok (10 ^ 7) := by
  have hv : exBadLit.Valid := by
    refine ⟨by simp [exBadLit], ?_, by decide⟩
    intro e he
    have : e = ⟨true, none, [5]⟩ := by simpa [exBadLit] using he.symm
    subst this; decide
  have ht : exBadLit.text = "1E5".toList := by decide
  refine ⟨ht, hv, ?_⟩
  rw [← ht, C33_integer_with_exponent hv rfl rfl]
  simp [exBadLit, DecLit.value, digitsNum, ExpPart.value, ExpPart.text]; norm_num

/-! ### C34 -/

/-- `EndsWith(s, t)` is true exactly if `t` is a suffix of `s` that does not occur at an earlier position, or `t` is one character
longer than `s`. -/
theorem C34_endsWith_exact {s t : List Char} (hs : s.length < 2 ^ 63) (ht : t.length < 2 ^ 63) :
    endsWith s t = true ↔ (t <:+ s ∧ ∀ j < s.length - t.length, ¬ t <+: s.drop j) ∨ t.length = s.length + 1 := endsWith_iff hs ht

/-- `EndsWith(s, t)` is true iff `t` is a suffix of `s`. Missing: strings one character shorter than the suffix and strings in which
the suffix also occurs earlier; for these the claim is false. -/
theorem C34_endsWith_partial {s t : List Char} (hs : s.length < 2 ^ 63) (ht : t.length < 2 ^ 63) (hlen : t.length ≠ s.length + 1)
    (honce : ∀ j < s.length - t.length, ¬ t <+: s.drop j) : endsWith s t = true ↔ t <:+ s := by
  rw [endsWith_iff hs ht]
  exact ⟨fun h => h.elim And.left fun h => absurd h hlen, fun h => Or.inl ⟨h, honce⟩⟩

/-- Every string one character shorter than `t` is reported to end with `t`. -/
theorem C34_endsWith_shorter {s t : List Char} (hs : s.length < 2 ^ 62) (h : t.length = s.length + 1) :
    endsWith s t = true ∧ ¬ t <:+ s :=
  ⟨(endsWith_iff (by omega) (by omega)).2 (Or.inr h), fun hx => by have := hx.length_le; omega⟩

/-- A suffix that occurs twice is not recognised. -/
theorem C34_endsWith_twice {a b t : List Char} (hb : b ≠ []) (hl : (a ++ t ++ b ++ t).length < 2 ^ 62) :
    endsWith (a ++ t ++ b ++ t) t = false ∧ t <:+ a ++ t ++ b ++ t := by
  refine ⟨?_, ⟨a ++ t ++ b, rfl⟩⟩
  rw [← Bool.not_eq_true, endsWith_iff (by omega) (by simp only [List.length_append] at hl; omega)]
  have hb1 := List.length_pos_iff.2 hb
  rintro (⟨_, h⟩ | h)
  · refine h a.length (by simp only [List.length_append]; omega) ?_
    rw [List.append_assoc, List.append_assoc, List.drop_left]
    exact List.prefix_append _ _
  · simp only [List.length_append] at h; omega

/-- The extension of a file format. -/
def extension : FileFormat → List Char
  | .iges => ".iges".toList
  | .irit => ".itd".toList
  | .vtk => ".vtk".toList
  | .xml => ".xml".toList
  | .error => []

theorem extension_not_suffix {f g : FileFormat} (hg : g ≠ .error) (hf : f ≠ .error) (hfg : f ≠ g) (base : List Char) :
    ¬ extension f <:+ base ++ extension g := by
  intro h
  have hlast : ∀ {t : List Char} {c : Char}, t ≠ [] → t <:+ base ++ extension g → t.getLast? = some c →
      (extension g).getLast? = some c := by
    intro t c ht h hc
    obtain ⟨a, ha⟩ := h
    have h1 : (a ++ t).getLast? = some c := by rw [List.getLast?_append]; simp [hc]
    have hne : extension g ≠ [] := by cases g <;> simp_all [extension]
    obtain ⟨x, hx⟩ := Option.isSome_iff_exists.1 (List.getLast?_isSome.2 hne)
    rw [ha, List.getLast?_append, hx] at h1
    rw [hx]; simpa using h1
  cases f <;> cases g <;> first
    | exact absurd rfl hf
    | exact absurd rfl hg
    | exact absurd rfl hfg
    | (have := hlast (c := _) (by decide) h (by rfl); revert this; decide)

/-- The file format is the one of the extension, for every file name with at least one character before its last '.' and no other '.'.
Missing: names with further points in which the extension occurs twice, and names of three or four characters; for these the claim is
false. -/
theorem C34_file_format_partial {base : List Char} (hb : base ≠ []) (hl : base.length < 2 ^ 62) (hp : '.' ∉ base) {f : FileFormat}
    (hf : f ≠ .error) : fileFormat (base ++ extension f) = f := by
  have hb1 := List.length_pos_iff.2 hb
  have hel : ∀ g : FileFormat, g ≠ .error → 4 ≤ (extension g).length ∧ (extension g).length ≤ 5 := by
    intro g hg; cases g <;> first | exact absurd rfl hg | decide
  have hdot : ∀ g : FileFormat, g ≠ .error → (extension g).head? = some '.' := by
    intro g hg; cases g <;> first | exact absurd rfl hg | rfl
  have hlen : (base ++ extension f).length = base.length + (extension f).length := List.length_append
  have hyes : endsWith (base ++ extension f) (extension f) = true := by
    have := hel f hf
    rw [endsWith_iff (by omega) (by omega)]
    refine Or.inl ⟨⟨base, rfl⟩, fun j hj hpre => ?_⟩
    have hjb : j < base.length := by omega
    obtain ⟨r, hr⟩ := hpre
    have h1 : ((base ++ extension f).drop j).head? = some '.' := by
      rw [← hr]
      obtain ⟨x, xs, hx⟩ := List.exists_cons_of_ne_nil (l := extension f) (by intro h; rw [h] at this; simp at this)
      have := hdot f hf
      rw [hx] at this ⊢; simpa using this
    rw [List.head?_drop, List.getElem?_append_left hjb, List.getElem?_eq_getElem hjb, Option.some_inj] at h1
    exact hp (h1 ▸ List.getElem_mem hjb)
  have hno : ∀ g : FileFormat, g ≠ .error → g ≠ f → endsWith (base ++ extension f) (extension g) = false := by
    intro g hg hgf
    have h1 := hel f hf
    have h2 := hel g hg
    rw [← Bool.not_eq_true, endsWith_iff (by omega) (by omega)]
    rintro (⟨h, _⟩ | h)
    · exact extension_not_suffix hf hg hgf base h
    · omega
  have hff : ∀ s, fileFormat s = if endsWith s (extension .iges) then .iges else if endsWith s (extension .irit) then .irit
      else if endsWith s (extension .vtk) then .vtk else if endsWith s (extension .xml) then .xml else .error := fun _ => rfl
  have e1 := hno .iges (by simp)
  have e2 := hno .irit (by simp)
  have e3 := hno .vtk (by simp)
  rw [hff]
  cases f with
  | error => exact absurd rfl hf
  | iges => rw [if_pos hyes]
  | irit => rw [e1 (by simp), if_neg (by simp), if_pos hyes]
  | vtk => rw [e1 (by simp), if_neg (by simp), e2 (by simp), if_neg (by simp), if_pos hyes]
  | xml => rw [e1 (by simp), if_neg (by simp), e2 (by simp), if_neg (by simp), e3 (by simp), if_neg (by simp), if_pos hyes]

/-- A file name of at least five characters that ends with no known extension is rejected. -/
theorem C34_unknown_rejected {s : List Char} (hs : 5 ≤ s.length) (hl : s.length < 2 ^ 63)
    (h : ∀ f : FileFormat, f ≠ .error → ¬ extension f <:+ s) : fileFormat s = .error := by
  have hno : ∀ f : FileFormat, f ≠ .error → endsWith s (extension f) = false := by
    intro f hf
    have hel : (extension f).length ≤ 5 := by cases f <;> decide
    rw [← Bool.not_eq_true, endsWith_iff hl (by omega)]
    rintro (⟨h1, _⟩ | h1)
    · exact h f hf h1
    · omega
  unfold fileFormat
  rw [if_neg (by rw [show ".iges".toList = extension .iges from rfl, hno _ (by simp)]; simp),
    if_neg (by rw [show ".itd".toList = extension .irit from rfl, hno _ (by simp)]; simp),
    if_neg (by rw [show ".vtk".toList = extension .vtk from rfl, hno _ (by simp)]; simp),
    if_neg (by rw [show ".xml".toList = extension .xml from rfl, hno _ (by simp)]; simp)]

/-- Every name of four characters is taken for an IGES file, every name of three for an IRIT file. -/
theorem C34_short_names {s : List Char} : (s.length = 4 → fileFormat s = .iges) ∧ (s.length = 3 → fileFormat s = .irit) := by
  constructor
  · intro h
    unfold fileFormat
    rw [if_pos ((endsWith_iff (by omega) (by decide)).2 (Or.inr (by rw [h]; decide)))]
  · intro h
    unfold fileFormat
    rw [if_neg, if_pos ((endsWith_iff (by omega) (by decide)).2 (Or.inr (by rw [h]; decide)))]
    rw [endsWith_iff (by omega) (by decide)]
    rintro (⟨hx, _⟩ | hx)
    · have h1 := hx.length_le
      rw [h] at h1
      exact absurd h1 (by decide)
    · rw [h] at hx
      exact absurd hx (by decide)

/-- So the format is not always that of the extension. -/
theorem C34_file_format_counterexample :
    ¬ ∀ (base : List Char) (f : FileFormat), f ≠ .error → fileFormat (base ++ extension f) = f := fun h => by
  have := h "a.xml".toList .xml (by simp)
  revert this
  decide

example : fileFormat "file.vtk".toList = .vtk := C34_file_format_partial (base := "file".toList) (f := .vtk) (by decide) (by decide) (by decide) (by simp)
example : fileFormat "a.txt".toList = .error := by decide
example : fileFormat "abcd".toList = .iges := C34_short_names.1 (by decide)

/-! ### C35 -/

/-- `DelimitedStringToVector` on any text: the fields that are ended by ',' or ';' and not empty, stripped and converted, in order;
a last field without a separator behind it is dropped. Every text has exactly this form, see `C35_every_text_has_fields`. -/
theorem C35_delimited_fields {fs : List (List Char × Char)} {tail : List Char}
    (hf : ∀ f ∈ fs, (∀ c ∈ f.1, c ≠ ',' ∧ c ≠ ';') ∧ (f.2 = ',' ∨ f.2 = ';')) (ht : ∀ c ∈ tail, c ≠ ',' ∧ c ≠ ';')
    (hl : (fieldsText fs ++ tail).length < 2 ^ 64 - 1) :
    delimitedStringToVector K (fieldsText fs ++ tail) =
      ((fs.map Prod.fst).filter fun f => !f.isEmpty).mapM fun f => stringToDouble K (trim f) := by
  have hns : ∀ c : Char, c ≠ ',' ∧ c ≠ ';' → ¬ listSep c := fun c h hs => hs.elim h.1 h.2
  exact delimitedLoop_fields fs _ tail (fun f h => ⟨fun c hc => hns c ((hf f h).1 c hc), (hf f h).2⟩) (fun c hc => hns c (ht c hc))
    (le_refl _) hl

theorem C35_every_text_has_fields (s : List Char) : ∃ fs tail, s = fieldsText fs ++ tail ∧
    (∀ f ∈ fs, (∀ c ∈ f.1, c ≠ ',' ∧ c ≠ ';') ∧ (f.2 = ',' ∨ f.2 = ';')) ∧ ∀ c ∈ tail, c ≠ ',' ∧ c ≠ ';' := by
  obtain ⟨fs, tail, h1, h2, h3⟩ := fields_exist s.length s (le_refl _)
  have hns : ∀ c : Char, ¬ listSep c → c ≠ ',' ∧ c ≠ ';' := fun c h => ⟨fun e => h (Or.inl e), fun e => h (Or.inr e)⟩
  exact ⟨fs, tail, h1, fun f hf => ⟨fun c hc => hns c ((h2 f hf).1 c hc), (h2 f hf).2⟩, fun c hc => hns c (h3 c hc)⟩

/-- `DelimitedStringToVector` terminates on every string. -/
theorem C35_delimited_terminates (s : List Char) (hl : s.length < 2 ^ 64 - 1) : delimitedStringToVector K s ≠ .error .diverges := by
  obtain ⟨fs, tail, rfl, hf, ht⟩ := C35_every_text_has_fields s
  rw [C35_delimited_fields hf ht hl]
  refine mapM_not_diverges _ fun f hm => stringToDouble_not_diverges ?_
  have h1 := trim_length f
  have h2 : f.length ≤ (fieldsText fs).length := by
    obtain ⟨g, hg, rfl⟩ := List.mem_map.1 (List.mem_filter.1 hm).1
    have := (List.sublist_flatten_of_mem (List.mem_map_of_mem (f := fun f : List Char × Char => f.1 ++ [f.2]) hg)).length_le
    rw [← List.flatMap_def] at this
    unfold fieldsText
    rw [List.length_append] at this
    omega
  rw [List.length_append] at hl
  unfold npos
  omega

/-- A list of numbers: literals with white space and brackets around, separated by ',' or ';'. -/
structure NumField where
  left : List Char
  lit : DecLit
  right : List Char
  sep : Char

def NumField.field (f : NumField) : List Char × Char := (f.left ++ f.lit.text ++ f.right, f.sep)

structure NumField.OK (f : NumField) : Prop where
  left : ∀ c ∈ f.left, c = ' ' ∨ c = '\n' ∨ c = '\t' ∨ c = '['
  right : ∀ c ∈ f.right, c = ' ' ∨ c = '\n' ∨ c = '\t' ∨ c = ']'
  sep : f.sep = ',' ∨ f.sep = ';'
  valid : f.lit.Valid
  plain : f.lit.frac.isSome ∨ f.lit.exp = none

theorem DecLit.text_chars {l : DecLit} : ∀ c ∈ l.text, (∃ d, c = digitChar d) ∨ c = '-' ∨ c = '+' ∨ c = '.' ∨ c = 'E' ∨ c = 'e' := by
  intro c hc
  have hdig : ∀ {ds : List (Fin 10)}, c ∈ ds.map digitChar → ∃ d, c = digitChar d := fun h => by
    obtain ⟨d, _, rfl⟩ := List.mem_map.1 h; exact ⟨d, rfl⟩
  unfold DecLit.text at hc
  rcases List.mem_append.1 hc with h | h
  · split at h <;> simp at h
    subst h; simp
  · rcases List.mem_append.1 h with h | h
    · unfold DecLit.mantissa at h
      rcases List.mem_append.1 h with h | h
      · exact Or.inl (hdig h)
      · split at h
        · simp at h
        · rcases List.mem_cons.1 h with rfl | h
          · simp
          · exact Or.inl (hdig h)
    · unfold DecLit.expText at h
      split at h
      · simp at h
      · rename_i e _
        unfold ExpPart.text at h
        rcases List.mem_cons.1 h with rfl | h
        · split <;> simp
        · rcases List.mem_append.1 h with h | h
          · split at h <;> simp at h <;> subst h <;> simp
          · exact Or.inl (hdig h)

/-- `DelimitedStringToVector` returns the numbers of a list, in order. -/
theorem C35_delimited_numbers {fs : List NumField} (hf : ∀ f ∈ fs, f.OK)
    (hl : (fieldsText (fs.map NumField.field)).length < 2 ^ 64 - 1) :
    delimitedStringToVector K (fieldsText (fs.map NumField.field)) = .ok (fs.map fun f => f.lit.value K) := by
  have hbad : ∀ {l : DecLit}, ∀ c ∈ l.text, c ≠ ',' ∧ c ≠ ';' ∧ isSpace c = false ∧ c ≠ '[' ∧ c ≠ ']' := by
    intro l c hc
    rcases DecLit.text_chars c hc with ⟨d, rfl⟩ | rfl | rfl | rfl | rfl | rfl
    · clear hc; revert d; decide
    all_goals (clear hc; decide)
  have htrim : ∀ f ∈ fs, trim (f.left ++ f.lit.text ++ f.right) = f.lit.text := by
    intro f hm
    refine stripped_trim ⟨f.left, f.right, rfl, ?_, ?_, ?_, ?_⟩
    · intro c hc
      rcases (hf f hm).left c hc with rfl | rfl | rfl | rfl <;> (unfold stripL; decide)
    · intro c hc
      rcases (hf f hm).right c hc with rfl | rfl | rfl | rfl <;> (unfold stripR; decide)
    · intro c hc hs
      have := hbad c (List.mem_of_head? hc)
      rcases hs with hs | hs
      · rw [this.2.2.1] at hs; cases hs
      · exact this.2.2.2.1 hs
    · intro c hc hs
      have := hbad c (List.mem_of_getLast? hc)
      rcases hs with hs | hs
      · rw [this.2.2.1] at hs; cases hs
      · exact this.2.2.2.2 hs
  have hne : ∀ f ∈ fs, f.lit.text ≠ [] := fun f h hx => by
    have := (hf f h).valid.int
    unfold DecLit.text DecLit.mantissa at hx
    simp at hx
    exact this hx.2.1
  have h1 := C35_delimited_fields (K := K) (fs := fs.map NumField.field) (tail := []) ?_ (by simp) (by simpa using hl)
  · rw [List.append_nil] at h1
    rw [h1]
    have h2 : ((fs.map NumField.field).map Prod.fst).filter (fun f => !f.isEmpty) = fs.map fun f => f.left ++ f.lit.text ++ f.right := by
      rw [List.map_map]
      refine List.filter_eq_self.2 fun x hx => ?_
      obtain ⟨f, hm, rfl⟩ := List.mem_map.1 hx
      have := hne f hm
      simp [NumField.field, this]
    rw [h2]
    rw [show (fs.map fun f => f.lit.value K) = (fs.map fun f => f.left ++ f.lit.text ++ f.right).map
        fun s => ((stringToDouble K (trim s)).toOption.getD 0) from ?_]
    · refine mapM_ok _ fun x hx => ?_
      obtain ⟨f, hm, rfl⟩ := List.mem_map.1 hx
      rw [htrim f hm, C33_decimal_partial (hf f hm).valid (hf f hm).plain]; rfl
    · rw [List.map_map]
      refine List.map_congr_left fun f hm => ?_
      simp only [Function.comp]
      rw [htrim f hm, C33_decimal_partial (hf f hm).valid (hf f hm).plain]; rfl
  · intro g hg
    obtain ⟨f, hm, rfl⟩ := List.mem_map.1 hg
    refine ⟨fun c hc => ?_, (hf f hm).sep⟩
    rcases List.mem_append.1 hc with hc | hc
    · rcases List.mem_append.1 hc with hc | hc
      · rcases (hf f hm).left c hc with rfl | rfl | rfl | rfl <;> decide
      · exact ⟨(hbad c hc).1, (hbad c hc).2.1⟩
    · rcases (hf f hm).right c hc with rfl | rfl | rfl | rfl <;> decide

/-- `split(s, delimiter)` returns the non-empty runs of characters other than the delimiter and the line end, in order. -/
theorem C35_split {s : List Char} {delim : Char} {ts : List (List Char)} :
    split s delim = ts ↔ Tokens (fun c => c = '\n' ∨ c = delim) s ts := split_iff

/-- `trim(s)` removes exactly the leading white space and '[' and the trailing white space and ']'. -/
theorem C35_trim {s m : List Char} :
    trim s = m ↔ Stripped (fun c => isSpace c = true ∨ c = '[') (fun c => isSpace c = true ∨ c = ']') s m :=
  ⟨by rintro rfl; exact trim_stripped s, stripped_trim⟩

example : delimitedStringToVector ℚ "[-12.50e-3, 7;".toList = .ok [-125 / 10000, 7] := by
  have h := C35_delimited_numbers (K := ℚ) (fs := [⟨['['], exLit, [], ','⟩, ⟨[' '], ⟨false, [7], none, none⟩, [], ';'⟩]) ?_ (by decide)
  · have e : fieldsText ([⟨['['], exLit, [], ','⟩, ⟨[' '], ⟨false, [7], none, none⟩, [], ';'⟩].map NumField.field) =
      "[-12.50e-3, 7;".toList := by decide
    rw [e] at h
    rw [h]
    simp [exLit, DecLit.value, digitsNum, ExpPart.value]; norm_num
  · intro f hf
    have : f = ⟨['['], exLit, [], ','⟩ ∨ f = ⟨[' '], ⟨false, [7], none, none⟩, [], ';'⟩ := by simpa using hf
    rcases this with rfl | rfl
    · refine ⟨by simp, by simp, by simp, ⟨by simp [exLit], ?_, by decide⟩, by simp [exLit]⟩
      intro e he
      have : e = ⟨false, some true, [3]⟩ := by simpa [exLit] using he.symm
      subst this; decide
    · exact ⟨by simp, by simp, by simp, ⟨by simp, by simp, by decide⟩, by simp⟩

example : split " a  bc\n d ".toList ' ' = ["a".toList, "bc".toList, "d".toList] := by decide
example : trim " [x y ] ".toList = "x y".toList := by decide

end SplineLib
