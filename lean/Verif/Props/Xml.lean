import Verif.Core.Xml

/-!
# C37: writing and reading XML documents
-/

namespace SplineLib
set_option linter.unusedSectionVars false
open Str Prn
variable {K : Type} [LinearOrder K] [Field K] [IsStrictOrderedRing K]

/-- All numbers of the spline are in the range of `double`. -/
structure InDoubleRange (s : Spl K) : Prop where
  knots : ∀ U ∈ s.ps.knots, ∀ x ∈ U, |x| ≤ 2 ^ 1024
  cps : ∀ x ∈ s.ph.cps, |x| ≤ 2 ^ 1024
  weights : ∀ w, s.ph.weights = some w → ∀ x ∈ w, |x| ≤ 2 ^ 1024

/-- `r` is `s` up to the six printed decimals: the same kind, degrees, numbers of points and dimension, and all knots, coordinates and
weights agree. -/
structure SameUpToDecimals (s r : Spl K) : Prop where
  degree : r.ps.degree = s.ps.degree
  knots : List.Forall₂ (List.Forall₂ Near) s.ps.knots r.ps.knots
  basis : PS.basisTable r.ps.knots r.ps.degree = .ok r.ps.basis
  dim : r.ph.dim = s.ph.dim
  num : r.ph.num = s.ph.num
  cps : List.Forall₂ Near s.ph.cps r.ph.cps
  weights : Option.Rel (List.Forall₂ Near) s.ph.weights r.ph.weights

/-- A decimal number with at most six decimals. -/
def SixDecimals (x : K) : Prop := ∃ z : ℤ, x = z / 10 ^ 6

section
variable [LawfulPrinter K]

theorem natText_length {n : ℕ} : ∀ {k : ℕ}, n < 10 ^ (k + 1) → (natText n).length ≤ k + 1 := by
  induction n using Nat.strong_induction_on with
  | _ n ih =>
    intro k hk
    rw [natText]
    split
    · simp
    · obtain ⟨k, rfl⟩ : ∃ j, k = j + 1 := by
        cases k with
        | zero => omega
        | succ k => exact ⟨k, rfl⟩
      have h1 : n / 10 < 10 ^ (k + 1) := by
        rw [Nat.div_lt_iff_lt_mul (by norm_num)]
        calc n < 10 ^ (k + 1 + 1) := hk
          _ = 10 ^ (k + 1) * 10 := pow_succ _ _
      have := ih (n / 10) (by omega) h1
      simp only [List.length_append, List.length_singleton]
      omega

theorem abs_rd (x : K) : |rd x| = (DecPrinter.mag x : K) / 10 ^ 6 := by
  unfold rd
  rw [abs_mul, abs_of_nonneg (a := (DecPrinter.mag x : K) / 10 ^ 6) (by positivity)]
  split <;> simp

theorem fits_of_double {x : K} (hx : |x| ≤ 2 ^ 1024) : Fits x := by
  have h1 := rd_near x
  have h2 := abs_sub_abs_le_abs_sub (rd x) x
  rw [abs_rd] at h2
  have h3 : (1 : K) / (2 * 10 ^ 6) ≤ 1 := by
    rw [div_le_one (by positivity)]; norm_num
  have h4 : (DecPrinter.mag x : K) / 10 ^ 6 ≤ 2 ^ 1024 + 1 := by linarith
  rw [div_le_iff₀ (by positivity)] at h4
  have h5 : ((DecPrinter.mag x : ℕ) : K) ≤ (((2 ^ 1024 + 1) * 10 ^ 6 : ℕ) : K) := by
    rw [Nat.cast_mul, Nat.cast_add, Nat.cast_pow, Nat.cast_pow, Nat.cast_one, Nat.cast_ofNat, Nat.cast_ofNat]; exact h4
  have h6 := Nat.cast_le.1 h5
  have h7 : DecPrinter.mag x / 1000000 < 10 ^ (341 + 1) := by
    have : DecPrinter.mag x / 1000000 ≤ 2 ^ 1024 + 1 := by
      rw [show (10 : ℕ) ^ 6 = 1000000 by norm_num] at h6
      exact Nat.div_le_of_le_mul (by rw [Nat.mul_comm]; exact h6)
    calc DecPrinter.mag x / 1000000 ≤ 2 ^ 1024 + 1 := this
      _ < 2 ^ 1024 + 2 ^ 1024 := Nat.add_lt_add_left (Nat.one_lt_two_pow (by norm_num)) _
      _ = 2 ^ 1025 := by rw [pow_succ 2 1024, Nat.mul_two]
      _ ≤ 2 ^ (3 * (341 + 1)) := Nat.pow_le_pow_right (by norm_num) (by norm_num)
      _ = (2 ^ 3) ^ (341 + 1) := by rw [pow_mul]
      _ ≤ 10 ^ (341 + 1) := Nat.pow_le_pow_left (by norm_num) _
  have h8 := natText_length h7
  unfold Fits doubleText
  rw [fixedText_eq]
  simp only [List.length_append, List.length_cons, List.length_map, fixedDigs_length]
  split <;> simp <;> omega

theorem fitsSpl_of_double {s : Spl K} (h : InDoubleRange s) (h1 : (npts s).prod < 2 ^ 31) (h2 : s.ph.dim < 2 ^ 31) : FitsSpl s :=
  ⟨h1, h2, fun U hU x hx => fits_of_double (h.knots U hU x hx), fun x hx => fits_of_double (h.cps x hx),
    fun w hw x hx => fits_of_double (h.weights w hw x hx)⟩

theorem rd_eq_of_sixDecimals {x : K} (h : SixDecimals x) : rd x = x := by
  obtain ⟨z, rfl⟩ := h
  have h1 := rd_near ((z : K) / 10 ^ 6)
  obtain ⟨y, hy⟩ : ∃ y : ℤ, rd ((z : K) / 10 ^ 6) = (y : K) / 10 ^ 6 := by
    unfold rd
    split
    · exact ⟨-(DecPrinter.mag ((z : K) / 10 ^ 6) : ℤ), by push_cast; ring⟩
    · exact ⟨(DecPrinter.mag ((z : K) / 10 ^ 6) : ℤ), by push_cast; ring⟩
  rw [hy] at h1 ⊢
  rw [← sub_div, abs_div, abs_of_pos (a := (10 : K) ^ 6) (by positivity), div_le_div_iff₀ (by positivity) (by positivity)] at h1
  have h2 : |((y - z : ℤ) : K)| < 1 := by
    push_cast
    have : (0 : K) < 10 ^ 6 := by positivity
    nlinarith
  rw [← Int.cast_abs] at h2
  have h3 : |y - z| < 1 := by exact_mod_cast h2
  have : y = z := by
    have := Int.abs_lt_one_iff.1 h3
    omega
  rw [this]

theorem backXml_ok {s : Spl K} (h : WFSpl s) (hsz : (npts s).prod < 2 ^ 64) :
    ∃ r, backXml s = .ok r ∧ Built r (s.ps.knots.map fun U => U.map rd) s.ps.degree ((cpRows s).map fun q => q.map rd)
      (s.ph.weights.map fun w => w.map rd) := by
  have hc := clampedAll_rd (h.knots.imp fun U p h => h.clamped)
  have hn := nptsOf_rd s.ps.knots s.ps.degree
  have hne : ((cpRows s).map fun q => q.map rd) ≠ [] := by
    have h1 := cpRows_length s
    have h2 := npts_prod_pos h
    intro h0
    rw [List.map_eq_nil_iff] at h0
    rw [h0, List.length_nil] at h1; omega
  have hsz' : (nptsOf (s.ps.knots.map fun U => U.map rd) s.ps.degree).prod < 2 ^ 64 := by rw [hn]; exact hsz
  have hl : ((cpRows s).map fun q => q.map rd).length = (nptsOf (s.ps.knots.map fun U => U.map rd) s.ps.degree).prod := by
    rw [hn, List.length_map]; exact cpRows_length s
  have hdims : ∀ q ∈ (cpRows s).map fun q => q.map rd, q.length = s.ph.dim := by
    intro q hq
    obtain ⟨k, hk, rfl⟩ := List.mem_map.1 hq
    rw [List.length_map]; exact cpRows_dims s k hk
  unfold backXml
  cases hw : s.ph.weights with
  | none => exact newBSpline_ok hne hc hsz' hl ⟨_, hdims⟩
  | some w => exact newNurbs_ok hne hc hsz' hl ⟨_, hdims⟩ (by rw [List.length_map, List.length_map, cpRows_length, (h.weights w hw).1])

theorem built_same {s r : Spl K} (h : WFSpl s)
    (hb : Built r (s.ps.knots.map fun U => U.map rd) s.ps.degree ((cpRows s).map fun q => q.map rd)
      (s.ph.weights.map fun w => w.map rd)) : SameUpToDecimals s r := by
  have hc := clampedAll_rd (h.knots.imp fun U p h => h.clamped)
  have hnear : ∀ l : List K, List.Forall₂ Near l (l.map rd) := fun l => by
    rw [List.forall₂_map_right_iff]
    exact List.forall₂_same.2 fun x _ => near_rd x
  refine ⟨hb.degree, ?_, ?_, ?_, ?_, ?_, ?_⟩
  · rw [hb.knots, List.forall₂_map_right_iff]
    exact List.forall₂_same.2 fun U _ => hnear U
  · rw [hb.knots, hb.degree, hb.basis]; exact basisTable_eq (clamped_sizes hc)
  · have h1 := cpRows_length s
    have h2 := npts_prod_pos h
    obtain ⟨q, qs, hq⟩ := List.exists_cons_of_length_pos (l := cpRows s) (by omega)
    rw [hb.dim (q.map rd) (by rw [hq]; simp), List.length_map, cpRows_dims s q (by rw [hq]; simp)]
  · rw [hb.num, h.num, nptsOf_rd]; rfl
  · rw [hb.cps, ← List.map_flatten, cpRows_flatten h]
    exact hnear _
  · rw [hb.weights]
    cases s.ph.weights with
    | none => exact .none
    | some w => exact .some (hnear w)

theorem readAll_xml {R : Spl K → Spl K → Prop} {ss : List (Spl K)} (h : ∀ s ∈ ss, WFSpl s ∧ FitsSpl s ∧
    (1 ≤ s.ps.knots.length ∧ s.ps.knots.length ≤ 4) ∧ ∃ r, backXml s = .ok r ∧ R s r) :
    ∃ doc, Xml.writeFile ss = .ok doc ∧ ∃ rs, Xml.readFile K doc = .ok rs ∧ List.Forall₂ R ss rs := by
  obtain ⟨rs, hrs⟩ := forall₂_choose (R := fun s r => (WFSpl s ∧ FitsSpl s ∧
    (1 ≤ s.ps.knots.length ∧ s.ps.knots.length ≤ 4)) ∧ backXml s = .ok r ∧ R s r) ss fun s hs => by
      obtain ⟨h1, h2, h3, r, h4, h5⟩ := h s hs
      exact ⟨r, ⟨h1, h2, h3⟩, h4, h5⟩
  have e1 : ss.mapM Xml.addSpline = .ok (ss.map entry) := mapM_ok ss fun s hs => addSpline_xml (h s hs).1 (h s hs).2.2.1
  refine ⟨_, by unfold Xml.writeFile; rw [e1, ok_bind]; rfl, rs, ?_, hrs.imp fun _ _ h => h.2.2⟩
  have e2 : (ss.map entry).mapM (Xml.readEntry K) = .ok (rs.map fun r => [r]) := by
    clear h e1
    induction hrs with
    | nil => rfl
    | @cons s r ss rs hsr _ ih =>
      obtain ⟨⟨h1, h2, h3⟩, h4, _⟩ := hsr
      rw [List.map_cons, List.mapM_cons, readEntry_eq h1 h2 h3, h4]
      have : (Except.ok r : M (Spl K)).bind (fun r => (.ok [r] : M (List (Spl K)))) = .ok [r] := rfl
      rw [this, ok_bind, ih, ok_bind]; rfl
  have e3 : Xml.readFile K [.elem "SplineList".toList [("NumberOfSplines".toList, natText ss.length)] (ss.map entry)] =
      ((ss.map entry).mapM (Xml.readEntry K)).bind fun l => .ok l.flatten := rfl
  refine e3.trans ?_
  rw [e2]
  have : ((rs.map fun r => [r]).flatten) = rs := by
    clear hrs e2
    induction rs with
    | nil => rfl
    | cons r rs ih => rw [List.map_cons, List.flatten_cons, ih]; rfl
  exact congrArg Except.ok this

/-- **C37** The writer accepts every list of well-formed splines of dimension 1 to 4, and reading the document gives back the same
number of splines, in the same order, each one of the same kind and equal to the written one up to the six printed decimals. -/
theorem C37_round_trip {ss : List (Spl K)} (h : ∀ s ∈ ss, WFSpl s ∧ InDoubleRange s)
    (hd : ∀ s ∈ ss, 1 ≤ s.ps.knots.length ∧ s.ps.knots.length ≤ 4) (hi : ∀ s ∈ ss, (npts s).prod < 2 ^ 31 ∧ s.ph.dim < 2 ^ 31) :
    ∃ doc, Xml.writeFile ss = .ok doc ∧ ∃ rs, Xml.readFile K doc = .ok rs ∧ List.Forall₂ SameUpToDecimals ss rs := by
  refine readAll_xml fun s hs => ?_
  obtain ⟨h1, h2⟩ := h s hs
  obtain ⟨r, h3, h4⟩ := backXml_ok h1 (by have := (hi s hs).1; omega)
  exact ⟨h1, fitsSpl_of_double h2 (hi s hs).1 (hi s hs).2, hd s hs, r, h3, built_same h1 h4⟩

/-- **C37** Splines whose numbers have at most six decimals are read back exactly. -/
theorem C37_exact {ss : List (Spl K)} (h : ∀ s ∈ ss, WFSpl s ∧ InDoubleRange s)
    (hd : ∀ s ∈ ss, 1 ≤ s.ps.knots.length ∧ s.ps.knots.length ≤ 4) (hi : ∀ s ∈ ss, (npts s).prod < 2 ^ 31 ∧ s.ph.dim < 2 ^ 31)
    (h6 : ∀ s ∈ ss, (∀ U ∈ s.ps.knots, ∀ x ∈ U, SixDecimals x) ∧ (∀ x ∈ s.ph.cps, SixDecimals x) ∧
      ∀ w, s.ph.weights = some w → ∀ x ∈ w, SixDecimals x) :
    ∃ doc, Xml.writeFile ss = .ok doc ∧ Xml.readFile K doc = .ok ss := by
  have key := readAll_xml (ss := ss) (R := fun s r => s = r) fun s hs => by
    obtain ⟨h1, h2⟩ := h s hs
    obtain ⟨k1, k2, k3⟩ := h6 s hs
    obtain ⟨r, h3, h4⟩ := backXml_ok h1 (by have := (hi s hs).1; omega)
    refine ⟨h1, fitsSpl_of_double h2 (hi s hs).1 (hi s hs).2, hd s hs, r, h3, ?_⟩
    have hid : ∀ {l : List K}, (∀ x ∈ l, SixDecimals x) → l.map rd = l := fun {l} hl => by
      conv_rhs => rw [← List.map_id l]
      exact List.map_congr_left fun x hx => rd_eq_of_sixDecimals (hl x hx)
    have e1 : (s.ps.knots.map fun U => U.map rd) = s.ps.knots := by
      conv_rhs => rw [← List.map_id s.ps.knots]
      exact List.map_congr_left fun U hU => hid (k1 U hU)
    have e2 : ((cpRows s).map fun q => q.map rd) = cpRows s := by
      conv_rhs => rw [← List.map_id (cpRows s)]
      exact List.map_congr_left fun q hq => hid fun x hx =>
        k2 x (by rw [← cpRows_flatten h1]; exact List.mem_flatten.2 ⟨q, hq, hx⟩)
    have e3 : (s.ph.weights.map fun w => w.map rd) = s.ph.weights := by
      cases hw : s.ph.weights with
      | none => rfl
      | some w => rw [Option.map_some, hid (k3 w hw)]
    rw [e1, e2, e3] at h4
    have hne : cpRows s ≠ [] := by
      have a1 := cpRows_length s
      have a2 := npts_prod_pos h1
      intro h0; rw [h0, List.length_nil] at a1; omega
    refine Built.ext hne ⟨rfl, rfl, ?_, fun q hq => (cpRows_dims s q hq).symm, ?_, (cpRows_flatten h1).symm, rfl⟩ h4
    · have e := h1.basis
      rw [basisTable_eq (clamped_sizes (h1.knots.imp fun U p h => h.clamped))] at e
      exact (Except.ok.inj e).symm
    · rw [h1.num]; rfl
  obtain ⟨doc, h1, rs, h2, h3⟩ := key
  rw [List.forall₂_eq_eq_eq] at h3
  exact ⟨doc, h1, h3 ▸ h2⟩

/-- Splines of other dimensions are rejected with `std::runtime_error`. -/
theorem C37_other_dimensions_rejected {ss : List (Spl K)} (h : ∀ s ∈ ss, WFSpl s)
    (hd : ∃ s ∈ ss, s.ps.knots.length = 0 ∨ 4 < s.ps.knots.length) : Xml.writeFile ss = .error (.thrown .runtimeError) := by
  have : ss.mapM Xml.addSpline = .error (.thrown .runtimeError) := by
    induction ss with
    | nil => obtain ⟨s, hs, _⟩ := hd; cases hs
    | cons s ss ih =>
      rw [List.mapM_cons]
      by_cases hs : s.ps.knots.length = 0 ∨ 4 < s.ps.knots.length
      · have : Xml.addSpline s = .error (.thrown .runtimeError) := by
          unfold Xml.addSpline
          rw [if_neg (by omega)]
        rw [this]; rfl
      · obtain ⟨t, ht, ht'⟩ := hd
        rcases List.mem_cons.1 ht with rfl | ht
        · exact absurd ht' hs
        · rw [addSpline_xml (h s (by simp)) (by omega), ok_bind, ih (fun y hy => h y (by simp [hy])) ⟨t, ht, ht'⟩]
          rfl
  unfold Xml.writeFile
  rw [this]; rfl

end

/-! ### What is written: only plain characters, so saving and parsing the document cannot change it -/

/-- Digits, signs, points, blanks, line ends and the names of the variables: no character that XML would have to escape. -/
def PlainText (v : List Char) : Prop :=
  ∀ c ∈ v, c.isDigit = true ∨ c = '-' ∨ c = '.' ∨ c = ' ' ∨ c = '\n' ∨ c = 'x' ∨ c = 'y' ∨ c = 'z' ∨ c = 't'

/-- A name that consists of letters. -/
def LetterName (n : List Char) : Prop := n ≠ [] ∧ ∀ c ∈ n, c.isAlpha = true

/-- All names consist of letters, all attributes and texts are plain, no text consists of white space only (pugixml drops such texts), and an
element contains either one text or only elements. -/
inductive Plain : Xml.Node → Prop
  | pcdata {v : List Char} : PlainText v → (∃ c ∈ v, isSpace c = false) → Plain (.pcdata v)
  | elem {n : List Char} {as : List (List Char × List Char)} {cs : List Xml.Node} : LetterName n → (∀ a ∈ as, LetterName a.1 ∧ PlainText a.2) →
    (∀ c ∈ cs, Plain c) → ((∃ v, cs = [.pcdata v]) ∨ ∀ c ∈ cs, ∃ m bs ks, c = .elem m bs ks) → Plain (.elem n as cs)

theorem letterName_literal {n : List Char} (h : (!n.isEmpty && n.all Char.isAlpha) = true) : LetterName n := by
  simp only [Bool.and_eq_true, Bool.not_eq_true', List.isEmpty_eq_false_iff] at h
  exact ⟨h.1, List.all_eq_true.1 h.2⟩

section
variable [DecPrinter K]

theorem plain_natText (n : ℕ) : PlainText (natText n) := by
  rw [natText_eq]
  intro c hc
  obtain ⟨d, _, rfl⟩ := List.mem_map.1 hc
  exact Or.inl (digitChar_isDigit d)

theorem plain_append {a b : List Char} (ha : PlainText a) (hb : PlainText b) : PlainText (a ++ b) := by
  intro c hc
  rcases List.mem_append.1 hc with h | h
  · exact ha c h
  · exact hb c h

theorem plain_flatMap {α : Type} {l : List α} {f : α → List Char} (h : ∀ a ∈ l, PlainText (f a)) : PlainText (l.flatMap f) := by
  intro c hc
  obtain ⟨a, ha, hc⟩ := List.mem_flatMap.1 hc
  exact h a ha c hc

theorem plain_doubleText (x : K) : PlainText (doubleText x) := by
  unfold doubleText
  refine plain_append ?_ (plain_append (plain_natText _) ?_)
  · split
    · intro c hc; simp only [List.mem_singleton] at hc; exact Or.inr (Or.inl hc)
    · simp [PlainText]
  · rw [fixedText_eq]
    intro c hc
    rcases List.mem_cons.1 hc with rfl | hc
    · exact Or.inr (Or.inr (Or.inl rfl))
    · obtain ⟨d, _, rfl⟩ := List.mem_map.1 hc
      exact Or.inl (digitChar_isDigit d)

theorem plain_literal {v : List Char} (h : v.all (fun c => c.isDigit || c == '-' || c == '.' || c == ' ' || c == '\n' || c == 'x' || c == 'y' ||
    c == 'z' || c == 't') = true) : PlainText v := by
  intro c hc
  have := List.all_eq_true.1 h c hc
  simp only [Bool.or_eq_true, beq_iff_eq] at this
  tauto

theorem exists_visible {a w b : List Char} (hne : w ≠ []) (hw : ∀ c ∈ w, isSpace c = false) : ∃ c ∈ a ++ (w ++ b), isSpace c = false := by
  obtain ⟨c, w', rfl⟩ := List.exists_cons_of_ne_nil hne
  exact ⟨c, by simp, hw c (by simp)⟩

theorem visible_double (x : K) : ∀ c ∈ doubleText x, isSpace c = false := fun c hc => (doubleText_chars x c hc).2.1

/-- A list of numbers, each one between white space. -/
theorem plain_list {α : Type} {pre post e : List Char} {f : α → List Char} (h1 : PlainText pre) (h2 : PlainText post) (h3 : PlainText e) {l : List α}
    (hne : l ≠ []) (hf : ∀ a, PlainText (f a) ∧ f a ≠ [] ∧ ∀ c ∈ f a, isSpace c = false) :
    Plain (.pcdata ((l.flatMap fun a => pre ++ (f a ++ post)) ++ e)) := by
  refine .pcdata (plain_append (plain_flatMap fun a _ => plain_append h1 (plain_append (hf a).1 h2)) h3) ?_
  obtain ⟨a, l', rfl⟩ := List.exists_cons_of_ne_nil hne
  obtain ⟨c, hc, hs⟩ := exists_visible (a := pre) (b := post) (hf a).2.1 (hf a).2.2
  exact ⟨c, by simp only [List.flatMap_cons, List.mem_append] at *; tauto, hs⟩

theorem plain_text_elem {n v : List Char} (h : Plain (.pcdata v)) (hn : LetterName n) : Plain (.elem n [] [.pcdata v]) :=
  .elem hn (by simp) (by simpa using h) (.inl ⟨v, rfl⟩)

/-- **C37** The document that is written for well-formed splines contains only plain characters, and no blank texts. -/
theorem C37_document_plain {ss : List (Spl K)} (h : ∀ s ∈ ss, WFSpl s) (hd : ∀ s ∈ ss, 1 ≤ s.ps.knots.length ∧ s.ps.knots.length ≤ 4) :
    ∃ doc, Xml.writeFile ss = .ok doc ∧ ∀ n ∈ doc, Plain n := by
  have e1 : ss.mapM Xml.addSpline = .ok (ss.map entry) := mapM_ok ss fun s hs => addSpline_xml (h s hs) (hd s hs)
  refine ⟨_, by unfold Xml.writeFile; rw [e1, ok_bind]; rfl, ?_⟩
  have hdbl : ∀ x : K, PlainText (doubleText x) ∧ doubleText x ≠ [] ∧ ∀ c ∈ doubleText x, isSpace c = false :=
    fun x => ⟨plain_doubleText x, doubleText_ne x, visible_double x⟩
  intro n hn
  rw [List.mem_singleton] at hn
  subst hn
  refine .elem (letterName_literal rfl) (by intro a ha; rw [List.mem_singleton] at ha; subst ha; exact ⟨letterName_literal rfl, plain_natText _⟩) ?_
    (.inr fun c hc => by obtain ⟨s, _, rfl⟩ := List.mem_map.1 hc; exact ⟨_, _, _, rfl⟩)
  intro c hc
  obtain ⟨s, hs, rfl⟩ := List.mem_map.1 hc
  have hw := h s hs
  have hk := (hd s hs).1
  have hp := npts_prod_pos hw
  have p1 : PlainText "\n      ".toList := plain_literal rfl
  have p2 : PlainText "\n    ".toList := plain_literal rfl
  have p3 : PlainText "  ".toList := plain_literal rfl
  have p4 : PlainText "\n        ".toList := plain_literal rfl
  have p5 : PlainText ([] : List Char) := by simp [PlainText]
  refine .elem (letterName_literal rfl) ?_ ?_ ?_
  · intro a ha
    simp only [Xml.splineAttributes, List.mem_cons, List.not_mem_nil, or_false] at ha
    rcases ha with rfl | rfl | rfl | rfl <;> (refine ⟨letterName_literal rfl, ?_⟩; dsimp only; rw [intText_nat]; exact plain_natText _)
  · intro c hc
    unfold entryChildren at hc
    simp only [List.mem_cons, List.mem_append, List.not_mem_nil, or_false] at hc
    rcases hc with rfl | rfl | hc | rfl | rfl
    · unfold Xml.varNames
      split_ifs
      · exact plain_text_elem (.pcdata (plain_literal rfl) ⟨'x', by decide, by decide⟩) (letterName_literal rfl)
      · exact plain_text_elem (.pcdata (plain_literal rfl) ⟨'x', by decide, by decide⟩) (letterName_literal rfl)
      · exact plain_text_elem (.pcdata (plain_literal rfl) ⟨'x', by decide, by decide⟩) (letterName_literal rfl)
      · exact plain_text_elem (.pcdata (plain_literal rfl) ⟨'x', by decide, by decide⟩) (letterName_literal rfl)
      · exact .elem (letterName_literal rfl) (by simp) (by simp) (.inr (by simp))
    · refine plain_text_elem (.pcdata (plain_append (plain_flatMap fun q _ => plain_append p1 (plain_flatMap fun x _ =>
        plain_append (plain_doubleText x) p3)) p2) ?_) (letterName_literal rfl)
      obtain ⟨q, qs, hq⟩ := List.exists_cons_of_length_pos (l := cpRows s) (by rw [cpRows_length]; exact hp)
      have hql := cpRows_dims s q (by rw [hq]; simp)
      obtain ⟨x, xs, rfl⟩ := List.exists_cons_of_length_pos (l := q) (by rw [hql]; exact hw.dim)
      obtain ⟨c, hc, hcs⟩ := exists_visible (a := []) (b := []) (doubleText_ne x) (visible_double x)
      refine ⟨c, ?_, hcs⟩
      rw [hq]
      simp only [rowsText, List.flatMap_cons, List.mem_append, List.nil_append, List.append_nil] at *
      tauto
    · cases hwe : s.ph.weights with
      | none => rw [hwe] at hc; cases hc
      | some w =>
        rw [hwe] at hc
        rw [List.mem_singleton] at hc
        subst hc
        refine plain_text_elem (plain_list p1 p3 p2 ?_ hdbl) (letterName_literal rfl)
        have := (hw.weights w hwe).1
        intro h0; rw [h0, List.length_nil] at this; omega
    · have : (s.ps.degree.flatMap fun p => "\n      ".toList ++ natText p) = s.ps.degree.flatMap fun p => "\n      ".toList ++ (natText p ++ []) := by
        simp
      unfold Xml.degreesNode
      rw [this]
      refine plain_text_elem (plain_list p1 p5 p2 ?_ fun p => ⟨plain_natText p, natText_ne p, fun c hc => (natText_chars p c hc).2.1⟩)
        (letterName_literal rfl)
      have := hw.knots.length_eq
      intro h0; rw [h0, List.length_nil] at this; omega
    · refine .elem (letterName_literal rfl) (by simp) (fun c hc => ?_) (.inr fun c hc => by
        obtain ⟨U, _, rfl⟩ := List.mem_map.1 hc; exact ⟨_, _, _, rfl⟩)
      obtain ⟨U, hU, rfl⟩ := List.mem_map.1 hc
      have : (U.flatMap fun x => "\n        ".toList ++ doubleText x) = U.flatMap fun x => "\n        ".toList ++ (doubleText x ++ []) := by
        simp
      unfold Xml.knotsNode
      rw [this]
      refine plain_text_elem (plain_list p4 p5 p1 ?_ hdbl) (letterName_literal rfl)
      obtain ⟨i, hi, rfl⟩ := List.getElem_of_mem hU
      have hsz := (hw.knots.get hi (by rw [← hw.knots.length_eq]; exact hi)).size
      intro h0
      have e : s.ps.knots.get ⟨i, hi⟩ = [] := h0
      rw [e, List.length_nil] at hsz
      omega
  · right
    intro c hc
    unfold entryChildren at hc
    simp only [List.mem_cons, List.mem_append, List.not_mem_nil, or_false] at hc
    rcases hc with rfl | rfl | hc | rfl | rfl
    · unfold Xml.varNames
      split_ifs <;> exact ⟨_, _, _, rfl⟩
    · exact ⟨_, _, _, rfl⟩
    · cases hwe : s.ph.weights with
      | none => rw [hwe] at hc; cases hc
      | some w =>
        rw [hwe] at hc
        rw [List.mem_singleton] at hc
        exact ⟨_, _, _, hc⟩
    · exact ⟨_, _, _, rfl⟩
    · exact ⟨_, _, _, rfl⟩

/-- **C37** The header of the document: one root element that states the number of splines, one entry for each spline, in order; an entry
states the dimensions and the number of control points, and lists the names of the coordinates (none for more than four). -/
theorem C37_header {ss : List (Spl K)} (h : ∀ s ∈ ss, WFSpl s) (hd : ∀ s ∈ ss, 1 ≤ s.ps.knots.length ∧ s.ps.knots.length ≤ 4) :
    ∃ entries, Xml.writeFile ss = .ok [.elem "SplineList".toList [("NumberOfSplines".toList, natText ss.length)] entries] ∧
      List.Forall₂ (fun s n => Xml.Node.name n = "SplineEntry".toList ∧
        Xml.Node.attr (some n) "splDim".toList = natText s.ps.knots.length ∧
        Xml.Node.attr (some n) "spaceDim".toList = natText s.ph.dim ∧
        Xml.Node.attr (some n) "numOfCntrlPntVars".toList = natText s.ph.dim ∧
        Xml.Node.attr (some n) "numCntrlPnts".toList = natText (npts s).prod ∧
        Tokens (splitSep ' ') (Xml.Node.value (Xml.Node.firstChild (Xml.Node.child (some n) "cntrlPntVarNames".toList)))
          (if s.ph.dim ≤ 4 then [['x'], ['y'], ['z'], ['t']].take s.ph.dim else [])) ss entries := by
  have e1 : ss.mapM Xml.addSpline = .ok (ss.map entry) := mapM_ok ss fun s hs => addSpline_xml (h s hs) (hd s hs)
  refine ⟨ss.map entry, by unfold Xml.writeFile; rw [e1, ok_bind]; rfl, ?_⟩
  rw [List.forall₂_map_right_iff]
  refine List.forall₂_same.2 fun s hs => ⟨rfl, intText_nat _, intText_nat _, intText_nat _, intText_nat _, ?_⟩
  rw [child_names]
  have hdim := (h s hs).dim
  unfold Xml.varNames
  refine split_iff.1 ?_
  generalize s.ph.dim = d at hdim
  by_cases h4 : d ≤ 4
  · rcases (show d = 1 ∨ d = 2 ∨ d = 3 ∨ d = 4 by omega) with rfl | rfl | rfl | rfl <;> rfl
  · rw [if_neg (by omega), if_neg (by omega), if_neg (by omega), if_neg (by omega), if_neg h4]
    rfl

end

/-! ### What is read: any document -/

/-- The literals that `StringToDouble` reads correctly (C33). -/
def ReadableLiteral (l : DecLit) : Prop := l.Valid ∧ (l.frac.isSome ∨ l.exp = none)

/-- An entry of a document: names and values of the variables, and the three sizes. -/
structure VarsEntry (n : Xml.Node) (names : List (List Char)) (values : List DecLit) (spaceDim vars points : ℕ) : Prop where
  namesText : Tokens (splitSep ' ') (Xml.Node.value (Xml.Node.firstChild (Xml.Node.child (some n) "cntrlPntVarNames".toList))) names
  valuesText : Tokens (splitSep ' ') (Xml.Node.value (Xml.Node.firstChild (Xml.Node.child (some n) "cntrlPntVars".toList)))
    (values.map DecLit.text)
  readable : ∀ l ∈ values, ReadableLiteral l
  spaceDimText : Xml.Node.attr (some n) "spaceDim".toList = natText spaceDim
  varsText : Xml.Node.attr (some n) "numOfCntrlPntVars".toList = natText vars
  pointsText : Xml.Node.attr (some n) "numCntrlPnts".toList = natText points
  sizes : spaceDim < 2 ^ 31 ∧ vars < 2 ^ 31 ∧ points < 2 ^ 31

theorem readPoints_entry {n : Xml.Node} {names : List (List Char)} {values : List DecLit} {d v m : ℕ} (h : VarsEntry n names values d v m) :
    Xml.readPoints K (some n) = buildList (fun i => buildList (fun j => getI (values.map (DecLit.value K))
      ((i : ℤ) * v + ((if names.findIdx (fun w => w = ['x']) < names.length then names.findIdx (fun w => w = ['x']) else 0) + j : ℕ))) d) m := by
  unfold Xml.readPoints Xml.coordinatePosition Xml.numbers
  rw [tokens_split h.namesText, tokens_split h.valuesText, h.spaceDimText, h.varsText, h.pointsText, stoi_natText h.sizes.1, stoi_natText h.sizes.2.1,
    stoi_natText h.sizes.2.2, mapM_map_ok (g := DecLit.value K) values fun l hl => C33_decimal_partial (h.readable l hl).1 (h.readable l hl).2]
  rfl

theorem findIdx_x {a b : List (List Char)} (ha : ['x'] ∉ a) : (a ++ ['x'] :: b).findIdx (fun w => w = ['x']) = a.length := by
  rw [List.findIdx_append, List.findIdx_eq_length_of_false (xs := a)]
  · simp [List.findIdx_cons]
  · intro w hw
    simp only [decide_eq_false_iff_not]
    rintro rfl
    exact ha hw

/-- **C37** The coordinates are found by the name `x`: when `x` is the name number `a.length`, coordinate `j` of point `i` is value
number `i · vars + a.length + j`. -/
theorem C37_coordinates_selected {n : Xml.Node} {a b : List (List Char)} {values : List DecLit} {d v m : ℕ}
    (h : VarsEntry n (a ++ ['x'] :: b) values d v m) (ha : ['x'] ∉ a) (hall : ∀ i < m, ∀ j < d, i * v + a.length + j < values.length) :
    ∃ pts : List (List K), Xml.readPoints K (some n) = .ok pts ∧ pts.length = m ∧ ∀ i < m, ∃ q, pts[i]? = some q ∧ q.length = d ∧
      ∀ j < d, q[j]? = (values[i * v + a.length + j]?).map (DecLit.value K) := by
  rw [readPoints_entry h, findIdx_x ha, if_pos (by simp)]
  refine ⟨_, buildList_eq (g := fun i => (List.range d).map fun j => ((values.map (DecLit.value K)).getD (i * v + a.length + j) 0))
    fun i hi => buildList_eq fun j hj => ?_, by simp,
    fun i hi => ⟨(List.range d).map fun j => ((values.map (DecLit.value K)).getD (i * v + a.length + j) 0), by simp [hi], by simp, fun j hj => ?_⟩⟩
  · have := hall i hi j hj
    rw [show (i : ℤ) * v + ((a.length + j : ℕ) : ℤ) = ((i * v + a.length + j : ℕ) : ℤ) by push_cast; ring, getI_nat,
      getN_of_lt (by simpa using this)]
    simp [List.getD_eq_getElem?_getD, this]
  · have := hall i hi j hj
    simp [hj, List.getD_eq_getElem?_getD, this]

/-- **C37** The number of values is not checked: if the last coordinate of the last point is missing, the reader reads past the end. -/
theorem C37_missing_values_undefined {n : Xml.Node} {names : List (List Char)} {values : List DecLit} {d v m : ℕ}
    (h : VarsEntry n names values d v m) (hd : 0 < d) (hm : 0 < m) (hlen : values.length ≤ (m - 1) * v + (d - 1)) :
    Xml.readPoints K (some n) = .error .ub := by
  rw [readPoints_entry h]
  set st := (if names.findIdx (fun w => w = ['x']) < names.length then names.findIdx (fun w => w = ['x']) else 0) with hst
  have hub : ∀ (i j : ℕ), getI (values.map (DecLit.value K)) ((i : ℤ) * v + ((st + j : ℕ) : ℤ)) =
      getN (values.map (DecLit.value K)) (i * v + (st + j)) := by
    intro i j
    rw [show (i : ℤ) * v + ((st + j : ℕ) : ℤ) = ((i * v + (st + j) : ℕ) : ℤ) by push_cast; ring, getI_nat]
  haveI : Inhabited K := ⟨0⟩
  have herr : ∀ {α : Type} [Inhabited α] {f : ℕ → M α} {k : ℕ}, (∀ i < k, f i = .error .ub ∨ ∃ a, f i = .ok a) → (∃ i < k, f i = .error .ub) →
      buildList f k = .error .ub := by
    intro α _ f k
    induction k with
    | zero => rintro _ ⟨i, hi, _⟩; omega
    | succ k ih =>
      intro h1 h2
      rw [buildList]
      by_cases hk : ∃ i < k, f i = .error .ub
      · rw [ih (fun i hi => h1 i (by omega)) hk]; rfl
      · have h3 : ∀ i < k, ∃ a, f i = .ok a := fun i hi => (h1 i (by omega)).resolve_left fun h => hk ⟨i, hi, h⟩
        choose! g hg using h3
        rw [buildList_eq hg, ok_bind]
        obtain ⟨i, hi, he⟩ := h2
        have : i = k := by
          by_contra hne
          exact hk ⟨i, by omega, he⟩
        rw [← this, he]; rfl
  have hgn : ∀ k, getN (values.map (DecLit.value K)) k = .error .ub ∨ ∃ a, getN (values.map (DecLit.value K)) k = .ok a := by
    intro k
    by_cases hk : k < (values.map (DecLit.value K)).length
    · exact Or.inr ⟨_, getN_of_lt hk⟩
    · exact Or.inl (by unfold getN; rw [List.getElem?_eq_none (by omega)])
  refine herr (fun i hi => ?_) ⟨m - 1, by omega, ?_⟩
  · by_cases hi2 : ∃ j < d, getI (values.map (DecLit.value K)) ((i : ℤ) * v + ((st + j : ℕ) : ℤ)) = .error .ub
    · exact Or.inl (herr (fun j hj => by rw [hub]; exact hgn _) hi2)
    · right
      have h3 : ∀ j < d, ∃ a, getI (values.map (DecLit.value K)) ((i : ℤ) * v + ((st + j : ℕ) : ℤ)) = .ok a := fun j hj => by
        have := hgn (i * v + (st + j))
        rw [← hub] at this
        exact this.resolve_left fun h => hi2 ⟨j, hj, h⟩
      choose! g hg using h3
      exact ⟨_, buildList_eq hg⟩
  · refine herr (fun j hj => by rw [hub]; exact hgn _) ⟨d - 1, by omega, ?_⟩
    rw [hub]
    unfold getN
    rw [List.getElem?_eq_none (by rw [List.length_map]; omega)]

/-! ### Examples -/

section
attribute [local instance] halfUp

theorem exXml_range : ∀ s ∈ [exCurve, exNurbs, exNurbsSurface], InDoubleRange s := by
  simp only [List.mem_cons, List.not_mem_nil, or_false, forall_eq_or_imp, forall_eq]
  refine ⟨⟨by decide +kernel, by decide +kernel, fun w hw => ?_⟩, ⟨by decide +kernel, by decide +kernel, fun w hw => ?_⟩,
    ⟨by decide +kernel, by decide +kernel, fun w hw => ?_⟩⟩
  · simp [exCurve] at hw
  · obtain rfl : [1, 2, 1/2, 3] = w := by simpa [exNurbs] using hw
    decide +kernel
  · obtain rfl : [1, 2, 3, 1, 1/2, 1, 1, 4] = w := by simpa [exNurbsSurface] using hw
    decide +kernel

example : ∃ doc, Xml.writeFile [exCurve, exNurbs, exNurbsSurface] = .ok doc ∧ ∃ rs,
    Xml.readFile ℚ doc = .ok rs ∧ List.Forall₂ SameUpToDecimals [exCurve, exNurbs, exNurbsSurface] rs := by
  refine C37_round_trip (fun s hs => ⟨?_, exXml_range s hs⟩) (by decide +kernel) (by decide +kernel)
  revert s
  simp only [List.mem_cons, List.not_mem_nil, or_false, forall_eq_or_imp, forall_eq]
  exact ⟨exCurve_wf, exNurbs_wf, exNurbsSurface_wf⟩

/-- An entry whose variables are a temperature and two coordinates, for two points. -/
def exEntry : Xml.Node :=
  .elem "SplineEntry".toList
    [("spaceDim".toList, "2".toList), ("numOfCntrlPntVars".toList, "3".toList), ("numCntrlPnts".toList, "2".toList)]
    [.elem "cntrlPntVarNames".toList [] [.pcdata "T x y".toList], .elem "cntrlPntVars".toList [] [.pcdata "9 1 2\n8 3 4".toList]]

example : VarsEntry exEntry [['T'], ['x'], ['y']] ([9, 1, 2, 8, 3, 4].map fun k => ⟨false, [k], none, none⟩) 2 3 2 where
  namesText := split_iff.1 (by decide +kernel)
  valuesText := split_iff.1 (by decide +kernel)
  readable := by
    intro l hl
    simp only [List.map_cons, List.map_nil, List.mem_cons, List.not_mem_nil, or_false] at hl
    rcases hl with rfl | rfl | rfl | rfl | rfl | rfl <;>
      exact ⟨⟨by simp, by simp, by decide⟩, Or.inr rfl⟩
  spaceDimText := by decide +kernel
  varsText := by decide +kernel
  pointsText := by decide +kernel
  sizes := by decide

example : (Xml.readPoints ℚ (some exEntry)).toOption = some [[1, 2], [3, 4]] := by decide +kernel

end
end SplineLib
