import Verif.Core.IritBack

/-!
# Reading IRIT files that were cut off (helper lemmas)
-/

namespace SplineLib
set_option linter.unusedSectionVars false
open Str Prn

/-! ### Entries of a text that was cut off -/

theorem prefix_split {α : Type} {p a b : List α} (h : p <+: a ++ b) : p <+: a ∨ ∃ u, p = a ++ u ∧ u <+: b := by
  obtain ⟨q, hq⟩ := h
  rcases List.append_eq_append_iff.1 hq with ⟨c, h1, _⟩ | ⟨c, h1, h2⟩
  · exact Or.inl ⟨c, h1.symm⟩
  · exact Or.inr ⟨c, h1, q, h2.symm⟩

/-- The entries of a beginning of a text: some of its entries, the last one possibly cut itself. -/
inductive CutEntries : List (List Char) → List (List Char) → Prop
  | stop (ts : List (List Char)) : CutEntries [] ts
  | inside {q t : List Char} (r : List (List Char)) : q ≠ [] → q <+: t → q ≠ t → CutEntries [q] (t :: r)
  | cons (t : List Char) {a b : List (List Char)} : CutEntries a b → CutEntries (t :: a) (t :: b)

theorem tokens_cut {p : Char → Prop} {s : List Char} {ts : List (List Char)} (h : Tokens p s ts) :
    ∀ s', s' <+: s → ∃ ts', Tokens p s' ts' ∧ CutEntries ts' ts := by
  induction h with
  | nil =>
    intro s' hs
    rw [List.prefix_nil.1 hs]
    exact ⟨_, .nil, .stop _⟩
  | @sep c s ts hc _ ih =>
    intro s' hs
    cases s' with
    | nil => exact ⟨_, .nil, .stop _⟩
    | cons d s' =>
      obtain ⟨rfl, h2⟩ := List.cons_prefix_cons.1 hs
      obtain ⟨ts', h3, h4⟩ := ih s' h2
      exact ⟨ts', .sep hc h3, h4⟩
  | @last t ht hc =>
    intro s' hs
    by_cases h0 : s' = []
    · subst h0; exact ⟨_, .nil, .stop _⟩
    · have hc' : ∀ c ∈ s', ¬ p c := fun c h => hc c (hs.subset h)
      by_cases he : s' = t
      · subst he; exact ⟨_, .last ht hc, .cons _ (.stop _)⟩
      · exact ⟨_, .last h0 hc', .inside _ h0 hs he⟩
  | @tok t c s ts ht hc hsep _ ih =>
    intro s' hs
    rcases prefix_split hs with h1 | ⟨u, rfl, h2⟩
    · by_cases h0 : s' = []
      · subst h0; exact ⟨_, .nil, .stop _⟩
      · have hc' : ∀ c ∈ s', ¬ p c := fun c h => hc c (h1.subset h)
        by_cases he : s' = t
        · subst he; exact ⟨_, .last ht hc, .cons _ (.stop _)⟩
        · exact ⟨_, .last h0 hc', .inside _ h0 h1 he⟩
    · cases u with
      | nil => rw [List.append_nil]; exact ⟨_, .last ht hc, .cons _ (.stop _)⟩
      | cons d u =>
        obtain ⟨rfl, h3⟩ := List.cons_prefix_cons.1 h2
        obtain ⟨ts', h4, h5⟩ := ih u h3
        exact ⟨_, .tok ht hc hsep h4, .cons _ h5⟩

theorem cut_append {x : List (List Char)} : ∀ {a y : List (List Char)}, CutEntries a (x ++ y) →
    (∃ a', a = x ++ a' ∧ CutEntries a' y) ∨ (CutEntries a x ∧ a ≠ x) := by
  induction x with
  | nil => intro a y h; exact Or.inl ⟨a, rfl, h⟩
  | cons t x ih =>
    intro a y h
    rw [List.cons_append] at h
    cases h with
    | stop => exact Or.inr ⟨.stop _, by simp⟩
    | inside r h1 h2 h3 => exact Or.inr ⟨.inside _ h1 h2 h3, by simp [h3]⟩
    | cons _ h =>
      rcases ih h with ⟨a', rfl, h2⟩ | ⟨h2, h3⟩
      · exact Or.inl ⟨a', rfl, h2⟩
      · exact Or.inr ⟨.cons _ h2, by simpa using h3⟩

/-- Every entry is the beginning of an entry of the whole text. -/
theorem cut_mem {a b : List (List Char)} (h : CutEntries a b) : ∀ t ∈ a, ∃ u ∈ b, t <+: u := by
  induction h with
  | stop => simp
  | inside r h1 h2 h3 => intro t ht; simp at ht; subst ht; exact ⟨_, by simp, h2⟩
  | cons t _ ih =>
    intro v hv
    rcases List.mem_cons.1 hv with rfl | hv
    · exact ⟨v, by simp, List.prefix_rfl⟩
    · obtain ⟨u, h1, h2⟩ := ih v hv
      exact ⟨u, by simp [h1], h2⟩

/-- Entries are counted by a property that an entry has if its beginnings have it. -/
theorem cut_count {p : List Char → Bool} {a b : List (List Char)} (h : CutEntries a b)
    (hp : ∀ t ∈ b, ∀ q, q <+: t → p q = true → p t = true) : a.countP p ≤ b.countP p := by
  induction h with
  | stop => simp
  | @inside q t r h1 h2 h3 =>
    rw [List.countP_cons, List.countP_cons]
    by_cases hq : p q = true
    · rw [hq, hp t (by simp) q h2 hq]; simp
    · simp [hq]
  | cons t _ ih =>
    rw [List.countP_cons, List.countP_cons]
    have := ih fun t ht => hp t (by simp [ht])
    omega

/-- If the last entry has the property and no cut entry has it, then the beginning contains fewer of them. -/
theorem cut_count_lt {p : List Char → Bool} {a b : List (List Char)} (h : CutEntries a b) (hne : a ≠ b)
    (hp : ∀ t ∈ b, ∀ q, q <+: t → q ≠ t → q ≠ [] → p q = false) (hl : ∀ t, b.getLast? = some t → p t = true) (h0 : b ≠ []) :
    a.countP p < b.countP p := by
  have pos : ∀ l : List (List Char), l ≠ [] → (∀ t, l.getLast? = some t → p t = true) → 0 < l.countP p := by
    intro l h1 h2
    refine List.countP_pos_iff.2 ⟨l.getLast h1, List.getLast_mem h1, h2 _ (List.getLast?_eq_some_getLast h1)⟩
  induction h with
  | stop => simpa using pos _ h0 hl
  | @inside q t r h1 h2 h3 =>
    have := pos _ h0 hl
    have e : List.countP p [q] = 0 := by simp [hp t (by simp) q h2 h3 h1]
    rw [e]; exact this
  | @cons t a b _ ih =>
    rw [List.countP_cons, List.countP_cons]
    have hb : b ≠ [] := by
      rintro rfl
      cases a with
      | nil => exact hne rfl
      | cons x a => rename_i h; cases h
    have := ih (by simpa using hne) (fun t ht => hp t (by simp [ht])) (fun u hu => hl u (by
      rw [List.getLast?_cons, hu]; simp)) hb
    omega

section
variable {K : Type} [LinearOrder K] [Field K] [IsStrictOrderedRing K]

/-! ### What a successful reader has seen -/

/-- The entry starts with a bracket. -/
def opens (e : List Char) : Bool := startsWith e ['[']

/-- The entry ends with a bracket. -/
def closes (e : List Char) : Bool := endsWith e [']']

theorem skipBehind_count {p stop : List Char → Bool} (hp : ∀ e, stop e = true → p e = true) :
    ∀ {es r : List (List Char)}, Irit.skipBehind stop es = .ok r → r.countP p + 1 ≤ es.countP p := by
  intro es
  induction es with
  | nil => intro r h; simp [Irit.skipBehind] at h
  | cons e es ih =>
    intro r h
    rw [Irit.skipBehind] at h
    rw [List.countP_cons]
    split at h
    · rename_i he
      cases h
      rw [hp e he]; simp
    · have := ih h; omega

theorem readKnots_count : ∀ {es r : List (List Char)} {U : List K}, Irit.readKnots K es = .ok (U, r) →
    r.countP opens ≤ es.countP opens ∧ 1 ≤ r.countP opens := by
  intro es
  induction es with
  | nil => intro r U h; simp [Irit.readKnots] at h
  | cons e es ih =>
    intro r U h
    rw [Irit.readKnots] at h
    split at h
    · rename_i he
      cases h
      refine ⟨le_refl _, ?_⟩
      rw [List.countP_cons]
      simp [opens, he]
    · obtain ⟨v, _, h⟩ := bind_eq_ok.1 h
      obtain ⟨⟨U', r'⟩, h1, h⟩ := bind_eq_ok.1 h
      cases h
      have := ih h1
      rw [List.countP_cons]
      omega

theorem readKnotVectors_count : ∀ {n : ℕ} {es : List (List Char)} {Us : List (List K)},
    Irit.readKnotVectors K (n + 1) es = .ok Us → n + 2 ≤ es.countP opens := by
  intro n
  induction n with
  | zero =>
    intro es Us h
    rw [Irit.readKnotVectors] at h
    obtain ⟨es1, h1, h⟩ := bind_eq_ok.1 h
    obtain ⟨⟨U, r⟩, h2, h⟩ := bind_eq_ok.1 h
    have a := skipBehind_count (p := opens) (fun e he => startsWith_iff.2 ((show ['['] <+: "[KV".toList by decide).trans (startsWith_iff.1 he))) h1
    have b := readKnots_count h2
    omega
  | succ n ih =>
    intro es Us h
    rw [Irit.readKnotVectors] at h
    obtain ⟨es1, h1, h⟩ := bind_eq_ok.1 h
    obtain ⟨⟨U, r⟩, h2, h⟩ := bind_eq_ok.1 h
    obtain ⟨r2, h3, h⟩ := bind_eq_ok.1 h
    have a := skipBehind_count (p := opens) (fun e he => startsWith_iff.2 ((show ['['] <+: "[KV".toList by decide).trans (startsWith_iff.1 he))) h1
    have b := readKnots_count h2
    have c := ih h3
    omega

theorem readCoords_count {w : K} : ∀ {es r : List (List Char)} {c : List K}, Irit.readCoords w es = .ok (c, r) →
    r.countP closes + 1 ≤ es.countP closes := by
  intro es
  induction es with
  | nil => intro r c h; simp [Irit.readCoords] at h
  | cons e es ih =>
    intro r c h
    rw [Irit.readCoords] at h
    rw [List.countP_cons]
    split at h
    · rename_i he
      obtain ⟨v, _, h⟩ := bind_eq_ok.1 h
      obtain ⟨q, _, h⟩ := bind_eq_ok.1 h
      cases h
      simp [closes, he]
    · obtain ⟨v, _, h⟩ := bind_eq_ok.1 h
      obtain ⟨q, _, h⟩ := bind_eq_ok.1 h
      obtain ⟨⟨c', r'⟩, h1, h⟩ := bind_eq_ok.1 h
      cases h
      have := ih h1
      omega

theorem readPoints_count {rational : Bool} : ∀ {ws : List K} {es : List (List Char)} {ps : List (List K)},
    Irit.readPoints rational ws es = .ok ps → ws.length ≤ es.countP closes := by
  intro ws
  induction ws with
  | nil => intro es ps _; simp
  | cons w ws ih =>
    intro es ps h
    rw [Irit.readPoints] at h
    obtain ⟨⟨c, r⟩, h1, h⟩ := bind_eq_ok.1 h
    obtain ⟨r2, h2, h⟩ := bind_eq_ok.1 h
    have a := readCoords_count h1
    have b := ih h2
    rw [List.length_cons]
    omega

theorem readWeights_length : ∀ {n : ℕ} {es : List (List Char)} {ws : List K}, Irit.readWeights K n es = .ok ws → ws.length = n := by
  intro n
  induction n with
  | zero => intro es ws h; rw [Irit.readWeights] at h; cases h; rfl
  | succ n ih =>
    intro es ws h
    rw [Irit.readWeights] at h
    obtain ⟨e, _, h⟩ := bind_eq_ok.1 h
    obtain ⟨v, _, h⟩ := bind_eq_ok.1 h
    obtain ⟨es1, _, h⟩ := bind_eq_ok.1 h
    obtain ⟨r, h1, h⟩ := bind_eq_ok.1 h
    cases h
    rw [List.length_cons, ih h1]

end

section
variable {K : Type} [LinearOrder K] [Field K] [IsStrictOrderedRing K] [FloorRing K] [DecPrinter K]

/-! ### The written entries -/

theorem listToks_closes {a : List Char} (ha : ∀ d ∈ a, d = '[') : ∀ (xs : List K), xs ≠ [] → Short (listToks a xs) →
    (listToks a xs).countP closes = 1 ∧ (∀ t, (listToks a xs).getLast? = some t → closes t = true) ∧
      ∀ t ∈ listToks a xs, ∀ q, q <+: t → q ≠ t → q ≠ [] → closes q = false := by
  intro xs
  induction xs generalizing a with
  | nil => intro h; exact absurd rfl h
  | cons x xs ih =>
    intro _ hs
    have key : ∀ b : List Char, (∀ d ∈ b, d = ']') → b.length ≤ 1 → (a ++ doubleText x ++ b).length < 2 ^ 32 →
        ∀ q, q <+: a ++ doubleText x ++ b → q ≠ a ++ doubleText x ++ b → q ≠ [] → closes q = false := by
      intro b hb hb1 hl q h1 h2 h3
      have h4 : q <+: a ++ doubleText x := by
        rcases prefix_split h1 with h | ⟨u, rfl, h⟩
        · exact h
        · cases b with
          | nil => rw [List.prefix_nil.1 h, List.append_nil]
          | cons d b =>
            have : b = [] := List.eq_nil_of_length_eq_zero (by simp at hb1; simp [hb1])
            subst this
            cases u with
            | nil => rw [List.append_nil]
            | cons e u =>
              obtain ⟨rfl, h5⟩ := List.cons_prefix_cons.1 h
              rw [List.prefix_nil.1 h5] at h2
              exact absurd rfl h2
      have hle := h1.length_le
      exact endsWith_no_bracket (fun hc => num_mem ha (Or.inl rfl) (h4.subset hc)) h3 (by omega)
    cases xs with
    | nil =>
      have hl := hs (a ++ doubleText x ++ [']']) (by simp [listToks])
      have hc : closes (a ++ doubleText x ++ [']']) = true := by
        refine endsWith_bracket (num_mem ha (Or.inl rfl)) ?_
        simp at hl ⊢; omega
      refine ⟨by simp only [listToks, List.countP_cons, List.countP_nil, hc, if_true], ?_, ?_⟩
      · intro t ht; simp only [listToks, List.getLast?_singleton, Option.some.injEq] at ht; rw [← ht]; exact hc
      · intro t ht
        simp only [listToks, List.mem_singleton] at ht
        subst ht
        exact key [']'] (by simp) (by simp) hl
    | cons y ys =>
      have hl := hs (a ++ doubleText x ++ []) (by simp [listToks])
      have hs' : Short (listToks [] (y :: ys)) := fun t ht => hs t (by rw [listToks]; simp [ht])
      obtain ⟨h1, h2, h3⟩ := ih (a := []) (by simp) (by simp) hs'
      have hc : closes (a ++ doubleText x ++ []) = false := by
        refine endsWith_no_bracket ?_ (by simp [doubleText_ne]) hl
        rw [List.append_nil]; exact num_mem ha (Or.inl rfl)
      have hn : listToks ([] : List Char) (y :: ys) ≠ [] := by
        cases ys <;> simp [listToks]
      rw [listToks]
      refine ⟨by rw [List.countP_cons, h1, hc]; simp, ?_, ?_⟩
      · intro t ht
        refine h2 t ?_
        rw [List.getLast?_cons, List.getLast?_eq_some_getLast hn] at ht
        rw [List.getLast?_eq_some_getLast hn]
        simpa using ht
      · intro t ht
        rcases List.mem_cons.1 ht with rfl | ht
        · exact key [] (by simp) (by simp) hl
        · exact h3 t ht

theorem listToks_ne {a : List Char} {xs : List K} (h : xs ≠ []) : listToks a xs ≠ [] := by
  cases xs with
  | nil => exact absurd rfl h
  | cons x xs => cases xs <;> simp [listToks]

theorem rowToks_closes : ∀ (rows : List (List K)), (∀ r ∈ rows, r ≠ []) → Short (rowToks rows) →
    (rowToks rows).countP closes = rows.length ∧ (∀ t, (rowToks rows).getLast? = some t → closes t = true) ∧
      ∀ t ∈ rowToks rows, ∀ q, q <+: t → q ≠ t → q ≠ [] → closes q = false := by
  intro rows
  induction rows with
  | nil => intro _ _; simp [rowToks]
  | cons r rows ih =>
    intro hne hs
    have e1 : rowToks (r :: rows) = listToks ['['] r ++ rowToks rows := rfl
    rw [e1] at hs ⊢
    obtain ⟨a1, a2, a3⟩ := listToks_closes (a := ['[']) (by simp) r (hne r (by simp)) hs.left
    obtain ⟨b1, b2, b3⟩ := ih (fun r hr => hne r (by simp [hr])) hs.right
    refine ⟨by rw [List.countP_append, a1, b1, List.length_cons]; omega, ?_, ?_⟩
    · intro t ht
      rw [List.getLast?_append] at ht
      cases hr : (rowToks rows).getLast? with
      | none => rw [hr] at ht; exact a2 t (by simpa using ht)
      | some v => rw [hr] at ht; exact b2 t (by rw [hr]; simpa using ht)
    · intro t ht
      rcases List.mem_append.1 ht with ht | ht
      · exact a3 t ht
      · exact b3 t ht

theorem kvToks_opens : ∀ (Us : List (List K)), Short (kvToks Us) → (kvToks Us).countP opens = Us.length := by
  intro Us
  induction Us with
  | nil => intro _; rfl
  | cons U Us ih =>
    intro hs
    have e1 : kvToks (U :: Us) = "[KV".toList :: (listToks [] U ++ kvToks Us) := by simp [kvToks]
    rw [e1] at hs ⊢
    have hs1 : Short (listToks [] U ++ kvToks Us) := fun t ht => hs t (by simp [ht])
    have h0 : (listToks ([] : List Char) U).countP opens = 0 := by
      rw [List.countP_eq_zero]
      intro t ht
      have := (listToks_nil_numbers U hs1.left t ht).1
      simp [opens, startsWith_false (c := '[') (t := ['[']) (by simp) this]
    rw [List.countP_cons, List.countP_append, h0, ih hs1.right, List.length_cons]
    have : opens "[KV".toList = true := startsWith_iff.2 (by decide)
    rw [this]; simp

theorem opens_prefix {q t : List Char} (h : q <+: t) (hq : opens q = true) : opens t = true :=
  startsWith_iff.2 ((startsWith_iff.1 hq).trans h)

theorem headToks_opens (s : Spl K) : (headToks s).tail.countP opens = 0 := by
  rw [List.countP_eq_zero]
  intro t ht
  have : '[' ∉ t := by
    unfold headToks at ht
    simp only [List.tail_cons, List.mem_cons, List.mem_append, List.mem_map, List.not_mem_nil, or_false] at ht
    rcases ht with rfl | ⟨n, _, rfl⟩ | ⟨n, _, rfl⟩ | rfl
    · decide
    · exact fun hc => (natText_chars n _ hc).2.2.1 rfl
    · exact fun hc => (natText_chars _ _ hc).2.2.1 rfl
    · unfold Irit.pointType
      intro hc
      rcases List.mem_cons.1 hc with hc | hc
      · split at hc <;> simp at hc
      · exact (natText_chars _ _ hc).2.2.1 rfl
  simp [opens, startsWith_false (c := '[') (t := ['[']) (by simp) this]

/-- A spline whose entries end too early is not read. -/
theorem readSpline_cut {s : Spl K} (h : WFSpl s) (hD : 1 ≤ s.ps.knots.length ∧ s.ps.knots.length ≤ 3) (hs : Short (splToks s))
    {b : List (List Char)} (hb : CutEntries b (bodyToks s)) (hne : b ≠ bodyToks s) (r : Spl K) :
    Irit.readSpline K s.ps.knots.length (kindWord s.ps.knots.length :: "BSPLINE".toList :: b) ≠ .ok r := by
  intro hok
  have hp := npts_prod_pos h
  set rows := (List.range (npts s).prod).map (homRow s.ph) with hrows
  have hrl : rows.length = (npts s).prod := by rw [hrows]; simp
  have hrne : ∀ U ∈ rows, U ≠ [] := by
    intro U hU
    obtain ⟨k, _, rfl⟩ := List.mem_map.1 hU
    exact homRow_ne h.dim k
  have hsk : Short (kvToks s.ps.knots) := by unfold splToks at hs; exact hs.right.left
  have hsr : Short (rowToks rows) := by unfold splToks at hs; exact hs.right.right
  have hsh : Short (headToks s ++ kvToks s.ps.knots) := by
    unfold splToks at hs
    intro t ht
    rcases List.mem_append.1 ht with ht | ht
    · exact hs.left t ht
    · exact hsk t ht
  obtain ⟨n, hn⟩ : ∃ n, s.ps.knots.length = n + 1 := ⟨s.ps.knots.length - 1, by omega⟩
  -- too few knot vectors
  have few : ∀ c, CutEntries c ((headToks s).tail ++ kvToks s.ps.knots) →
      Irit.readSpline K s.ps.knots.length (kindWord s.ps.knots.length :: c) ≠ .ok r := by
    intro c hc hok
    unfold Irit.readSpline at hok
    obtain ⟨Us, h1, _⟩ := bind_eq_ok.1 hok
    have hk : startsWith (kindWord s.ps.knots.length) "[KV".toList = false := by
      rcases (show s.ps.knots.length = 1 ∨ s.ps.knots.length = 2 ∨ s.ps.knots.length = 3 by omega) with e | e | e <;> rw [e] <;> decide
    have h2 : Irit.readKnotVectors K (n + 1) c = .ok Us := by
      rw [hn] at h1 hk
      rw [Irit.readKnotVectors] at h1 ⊢
      rw [Irit.skipBehind, if_neg (by rw [hk]; decide)] at h1
      exact h1
    have h3 := readKnotVectors_count h2
    have h4 := cut_count (p := opens) hc fun t _ q h1 h2 => opens_prefix h1 h2
    rw [List.countP_append, headToks_opens, kvToks_opens _ hsk] at h4
    omega
  have e1 : "BSPLINE".toList :: bodyToks s = ((headToks s).tail ++ kvToks s.ps.knots) ++ rowToks rows := by
    unfold bodyToks headToks; simp [hrows]
  have hc : CutEntries ("BSPLINE".toList :: b) (((headToks s).tail ++ kvToks s.ps.knots) ++ rowToks rows) := by
    rw [← e1]; exact .cons _ hb
  rcases cut_append hc with ⟨a', h1, h2⟩ | ⟨h1, _⟩
  · -- the cut is inside of the control points
    cases a' with
    | nil =>
      rw [h1, List.append_nil] at hok
      refine few _ ?_ hok
      have : ∀ l : List (List Char), CutEntries l l := fun l => by
        induction l with
        | nil => exact .stop _
        | cons t l ih => exact .cons t ih
      exact this _
    | cons e r' =>
      have hes : startsWith e ['['] = true ∧ startsWith e "[KV".toList = false := by
        obtain ⟨m, hm⟩ : ∃ m, (npts s).prod = m + 1 := ⟨(npts s).prod - 1, by omega⟩
        have hr0 : rows = homRow s.ph 0 :: (List.range m).map (fun k => homRow s.ph (k + 1)) := by
          rw [hrows, hm, List.range_succ_eq_map, List.map_cons, List.map_map]; rfl
        obtain ⟨x, xs, hx⟩ := List.exists_cons_of_ne_nil (homRow_ne h.dim 0 (ph := s.ph))
        have e0 : rowToks rows = listToks ['['] (x :: xs) ++ rowToks ((List.range m).map (fun k => homRow s.ph (k + 1))) := by
          rw [hr0, ← hx]; rfl
        have fact : ∀ u : List Char, 'K' ∉ u → ∀ q, q ≠ [] → q <+: ['['] ++ u → startsWith q ['['] = true ∧ startsWith q "[KV".toList = false := by
          intro u hu q hq hpre
          cases q with
          | nil => exact absurd rfl hq
          | cons c q =>
            obtain ⟨rfl, h3⟩ := List.cons_prefix_cons.1 hpre
            refine ⟨startsWith_iff.2 ⟨q, rfl⟩, startsWith_false (c := 'K') (by decide) ?_⟩
            intro hk
            rcases List.mem_cons.1 hk with hk | hk
            · revert hk; decide
            · exact hu (h3.subset hk)
        have hsr' := hsr
        rw [e0] at h2 hsr'
        rcases listToks_cases (a := ['[']) (by simp) x xs hsr'.left with ⟨_, t, h1, _, _, u, rfl, _, h3, _⟩ | ⟨_, t, h1, _, _, u, rfl, _, h3, _⟩ <;>
        · rw [h1] at h2
          simp only [List.cons_append] at h2
          cases h2 with
          | inside _ i1 i2 i3 => exact fact u h3 e i1 i2
          | cons _ _ => exact fact u h3 _ (by simp) List.prefix_rfl
      have e2 : kindWord s.ps.knots.length :: "BSPLINE".toList :: b = headToks s ++ (kvToks s.ps.knots ++ e :: r') := by
        rw [h1]; unfold headToks; simp
      rw [e2, readSpline_head h hD hsh hes.1 hes.2] at hok
      obtain ⟨ws, ps, h5, h4⟩ : ∃ ws ps, ws.length = (npts s).prod ∧ Irit.readPoints s.ph.weights.isSome ws (e :: r') = .ok ps := by
        dsimp only at hok
        split at hok
        · obtain ⟨ws, h3, hok⟩ := bind_eq_ok.1 hok
          obtain ⟨ps, h4, _⟩ := bind_eq_ok.1 hok
          exact ⟨ws, ps, readWeights_length h3, h4⟩
        · obtain ⟨ws, h3, hok⟩ := bind_eq_ok.1 hok
          obtain ⟨ps, h4, _⟩ := bind_eq_ok.1 hok
          cases h3
          exact ⟨_, ps, by simp, h4⟩
      have h6 := readPoints_count h4
      obtain ⟨k1, k2, k3⟩ := rowToks_closes rows hrne hsr
      have hne2 : e :: r' ≠ rowToks rows := by
        intro hh
        rw [hh, ← e1] at h1
        exact hne (List.cons.inj h1).2
      have h7 : (e :: r').countP closes < (rowToks rows).countP closes := by
        refine cut_count_lt h2 hne2 ?_ k2 ?_
        · exact k3
        · intro hh; rw [hh] at h2; cases h2
      omega
  · exact few _ h1 hok

/-! ### The whole file -/

theorem cut_noSpline {q t : List Char} (h : q <+: t) (hb : t.head? ≠ some 'B') : q ≠ "BSPLINE".toList := by
  rintro rfl
  obtain ⟨u, rfl⟩ := h
  exact hb rfl

theorem bodyToks_cut_noB {s : Spl K} (hs : Short (splToks s)) {b : List (List Char)} (hb : CutEntries b (bodyToks s)) :
    ∀ t ∈ b, 'B' ∉ t := by
  intro t ht hc
  obtain ⟨u, h1, h2⟩ := cut_mem hb t ht
  exact bodyToks_noB hs u h1 (h2.subset hc)

/-- A file that was cut off is read as some of its first splines, or not at all. -/
theorem readAll_cut : ∀ (ss rs : List (Spl K)), List.Forall₂ (fun s r => Writable s ∧ backSpline s = .ok r) ss rs →
    ∀ (n : ℕ) (pre ts : List (List Char)), Short (fileToks ss n) → CutEntries ts (fileToks ss n) →
      ∀ rs', Irit.readAll K (pre ++ ts) (Irit.splinePositions ts pre.length) = .ok rs' → rs' <+: rs := by
  intro ss rs h
  induction h with
  | nil =>
    intro n pre ts _ hc rs' hok
    cases hc
    cases hok
    exact List.nil_prefix
  | @cons s r ss rs h1 h2 ih =>
    intro n pre ts hs hc rs' hok
    obtain ⟨h1, hr⟩ := h1
    -- the entries of the spline and those behind it
    obtain ⟨tail, etail, hs1, hs2, htail⟩ : ∃ tail, fileToks (s :: ss) n = "[OBJECT".toList :: ("SPLINE".toList ++ natText (n + 1)) :: (splToks s ++ tail) ∧
        Short (splToks s) ∧ Short tail ∧ ((ss = [] ∧ tail = ["]".toList, "]]".toList]) ∨ tail = "]".toList :: "]".toList :: fileToks ss (n + 1)) := by
      cases ss with
      | nil =>
        rw [fileToks] at hs
        exact ⟨_, by rw [fileToks], fun t ht => hs t (by simp [ht]), fun t ht => hs t (by simp at ht ⊢; rcases ht with rfl | rfl <;> simp), Or.inl ⟨rfl, rfl⟩⟩
      | cons t ss =>
        rw [fileToks] at hs
        exact ⟨_, by rw [fileToks], fun t ht => hs t (by simp [ht]), fun t ht => hs t (by simp at ht ⊢; tauto), Or.inr rfl⟩
    rw [etail] at hc
    have none : ∀ l : List (List Char), (∀ t ∈ l, t ≠ "BSPLINE".toList) → ∀ i, Irit.splinePositions l i = [] := by
      intro l
      induction l with
      | nil => intro _ i; rfl
      | cons e l ih =>
        intro h i
        rw [Irit.splinePositions, if_neg (h e (by simp)), ih fun t ht => h t (by simp [ht])]
    have hn : ∀ m, ("SPLINE".toList ++ natText m).head? ≠ some 'B' := fun m => by simp
    have hn' : ("[OBJECT".toList).head? ≠ some 'B' := by decide
    have hk : (kindWord s.ps.knots.length).head? ≠ some 'B' := by
      unfold kindWord; split
      · decide
      · split <;> decide
    have lost : (∀ t ∈ ts, t ≠ "BSPLINE".toList) → rs' <+: r :: rs := by
      intro h
      rw [none ts h] at hok
      cases hok
      exact List.nil_prefix
    cases hc with
    | stop => exact lost (by simp)
    | inside _ i1 i2 i3 => exact lost (List.forall_mem_cons.2 ⟨cut_noSpline i2 hn', List.forall_mem_nil _⟩)
    | cons _ hc =>
      cases hc with
      | stop => exact lost (List.forall_mem_cons.2 ⟨cut_noSpline List.prefix_rfl hn', List.forall_mem_nil _⟩)
      | inside _ i1 i2 i3 => exact lost (List.forall_mem_cons.2 ⟨cut_noSpline List.prefix_rfl hn', List.forall_mem_cons.2 ⟨cut_noSpline i2 (hn _), List.forall_mem_nil _⟩⟩)
      | cons _ hc =>
        rcases cut_append hc with ⟨a', rfl, hcA⟩ | ⟨hcB, hne⟩
        · -- the spline is complete
          obtain ⟨a, b⟩ := readAll_block h1 hs1 hr (n + 1) pre a'
          rw [a, b] at hok
          obtain ⟨l, hl, hok⟩ := bind_eq_ok.1 hok
          cases hok
          refine List.cons_prefix_cons.2 ⟨rfl, ?_⟩
          have lost2 : (∀ t ∈ a', t ≠ "BSPLINE".toList) → l <+: rs := by
            intro h
            rw [none a' h] at hl
            cases hl
            exact List.nil_prefix
          rcases htail with ⟨rfl, rfl⟩ | rfl
          · refine lost2 fun t ht => ?_
            obtain ⟨u, hu1, hu2⟩ := cut_mem hcA t ht
            exact cut_noSpline hu2 (by simp at hu1; rcases hu1 with rfl | rfl <;> decide)
          · have hb : ("]".toList).head? ≠ some 'B' := by decide
            cases hcA with
            | stop => exact lost2 (by simp)
            | inside _ i1 i2 i3 => exact lost2 (List.forall_mem_cons.2 ⟨cut_noSpline i2 hb, List.forall_mem_nil _⟩)
            | cons _ hc =>
              cases hc with
              | stop => exact lost2 (by simp)
              | inside _ i1 i2 i3 =>
                exact lost2 (List.forall_mem_cons.2 ⟨cut_noSpline List.prefix_rfl hb, List.forall_mem_cons.2 ⟨cut_noSpline i2 hb, List.forall_mem_nil _⟩⟩)
              | @cons _ c _ hc =>
                have := ih (n + 1) (pre ++ ("[OBJECT".toList :: ("SPLINE".toList ++ natText (n + 1)) :: (splToks s ++ ["]".toList, "]".toList]))) c
                  (fun t ht => hs2 t (by simp [ht])) hc l
                refine this ?_
                have e : Irit.splinePositions ("]".toList :: "]".toList :: c) (pre.length + 2 + (splToks s).length) =
                    Irit.splinePositions c (pre.length + 2 + (splToks s).length + 1 + 1) := by
                  rw [Irit.splinePositions, if_neg (by decide), Irit.splinePositions, if_neg (by decide)]
                have e1 : (pre ++ ("[OBJECT".toList :: ("SPLINE".toList ++ natText (n + 1)) :: (splToks s ++ ["]".toList, "]".toList]))) ++ c =
                    pre ++ ("[OBJECT".toList :: ("SPLINE".toList ++ natText (n + 1)) :: (splToks s ++ "]".toList :: "]".toList :: c)) := by simp
                have e2 : (pre ++ ("[OBJECT".toList :: ("SPLINE".toList ++ natText (n + 1)) :: (splToks s ++ ["]".toList, "]".toList]))).length =
                    pre.length + 2 + (splToks s).length + 1 + 1 := by
                  simp only [List.length_append, List.length_cons, List.length_nil]; omega
                rw [e1, e2, ← e]
                exact hl
        · -- the spline is cut
          rw [splToks_eq] at hcB hne
          cases hcB with
          | stop => exact lost (List.forall_mem_cons.2 ⟨cut_noSpline List.prefix_rfl hn', List.forall_mem_cons.2 ⟨cut_noSpline List.prefix_rfl (hn _), List.forall_mem_nil _⟩⟩)
          | inside _ i1 i2 i3 =>
            exact lost (List.forall_mem_cons.2 ⟨cut_noSpline List.prefix_rfl hn', List.forall_mem_cons.2 ⟨cut_noSpline List.prefix_rfl (hn _), List.forall_mem_cons.2 ⟨cut_noSpline i2 hk, List.forall_mem_nil _⟩⟩⟩)
          | cons _ hc =>
            cases hc with
            | stop =>
              exact lost (List.forall_mem_cons.2 ⟨cut_noSpline List.prefix_rfl hn', List.forall_mem_cons.2 ⟨cut_noSpline List.prefix_rfl (hn _), List.forall_mem_cons.2 ⟨cut_noSpline List.prefix_rfl hk, List.forall_mem_nil _⟩⟩⟩)
            | inside _ i1 i2 i3 =>
              exact lost (List.forall_mem_cons.2 ⟨cut_noSpline List.prefix_rfl hn', List.forall_mem_cons.2 ⟨cut_noSpline List.prefix_rfl (hn _), List.forall_mem_cons.2 ⟨cut_noSpline List.prefix_rfl hk, List.forall_mem_cons.2 ⟨i3, List.forall_mem_nil _⟩⟩⟩⟩)
            | @cons _ b _ hc =>
              exfalso
              have e : Irit.splinePositions ("[OBJECT".toList :: ("SPLINE".toList ++ natText (n + 1)) ::
                  kindWord s.ps.knots.length :: "BSPLINE".toList :: b) pre.length = [pre.length + 3] := by
                rw [Irit.splinePositions, if_neg (cut_noSpline List.prefix_rfl hn'), Irit.splinePositions,
                  if_neg (cut_noSpline List.prefix_rfl (hn _)), Irit.splinePositions, if_neg (cut_noSpline List.prefix_rfl hk),
                  Irit.splinePositions, if_pos rfl, splinePositions_none (bodyToks_cut_noB hs1 hc)]
              have hdrop : (pre ++ ("[OBJECT".toList :: ("SPLINE".toList ++ natText (n + 1)) ::
                  kindWord s.ps.knots.length :: "BSPLINE".toList :: b)).drop (pre.length + 3 - 1) =
                  kindWord s.ps.knots.length :: "BSPLINE".toList :: b := by
                rw [show pre.length + 3 - 1 = pre.length + 2 by omega, List.drop_append, List.drop_eq_nil_of_le (by omega),
                  Nat.add_sub_cancel_left]; rfl
              rw [e, Irit.readAll, if_neg (by omega)] at hok
              dsimp only at hok
              rw [hdrop, getN_some (a := kindWord s.ps.knots.length) rfl] at hok
              simp only [ok_bind] at hok
              rw [dimensionOf_kind h1.dims, if_neg (by have := h1.dims; omega)] at hok
              obtain ⟨x, hx, _⟩ := bind_eq_ok.1 hok
              exact readSpline_cut h1.wf h1.dims hs1 hc (by simpa using hne) x hx

/-- The text of the file. -/
theorem readFile_cut {ss rs : List (Spl K)} (h : List.Forall₂ (fun s r => Writable s ∧ backSpline s = .ok r) ss rs) {t : List Char}
    (ht : Irit.writeFile ss = .ok t) (hl : t.length < 2 ^ 32) {t' : List Char} (hp : t' <+: t) {rs' : List (Spl K)}
    (hok : Irit.readFile K t' = .ok rs') : rs' <+: rs := by
  have hw : ∀ s ∈ ss, WFSpl s ∧ 1 ≤ s.ps.knots.length ∧ s.ps.knots.length ≤ 3 := by
    intro s hs
    obtain ⟨i, hi, rfl⟩ := List.getElem_of_mem hs
    have := ((List.forall₂_iff_get.1 h).2 i hi (by rw [← h.length_eq]; exact hi)).1
    exact ⟨this.wf, this.dims⟩
  obtain ⟨t2, h1, h2⟩ := writeFile_ok hw
  rw [ht] at h1
  cases h1
  have hp' : strip t' <+: strip t := by
    obtain ⟨u, rfl⟩ := hp
    rw [strip_append]; exact List.prefix_append _ _
  obtain ⟨ts', h3, h4⟩ := tokens_cut h2 _ hp'
  unfold Irit.readFile at hok
  rw [getlines_flatten] at hok
  dsimp only at hok
  rw [tokens_split h3] at hok
  have none : ∀ l : List (List Char), (∀ t ∈ l, t ≠ "BSPLINE".toList) → ∀ i, Irit.splinePositions l i = [] := by
    intro l
    induction l with
    | nil => intro _ i; rfl
    | cons e l ih =>
      intro h i
      rw [Irit.splinePositions, if_neg (h e (by simp)), ih fun t ht => h t (by simp [ht])]
  have lost : (∀ t ∈ ts', t ≠ "BSPLINE".toList) → rs' <+: rs := by
    intro h
    rw [none ts' h] at hok
    cases hok
    exact List.nil_prefix
  by_cases hne : ss = []
  · subst hne
    rw [if_pos rfl] at h4
    refine lost fun t ht => ?_
    obtain ⟨u, hu1, hu2⟩ := cut_mem h4 t ht
    exact cut_noSpline hu2 (by simp at hu1; rcases hu1 with rfl | rfl <;> decide)
  · rw [if_neg hne] at h2 h4
    have hs : Short (fileToks ss 0) := fun u hu => by
      have a := tokens_short h2 u (by simp [hu])
      have b := strip_length t
      omega
    have c1 : ("[OBJECT".toList).head? ≠ some 'B' := by decide
    have c2 : ("SPLINES".toList).head? ≠ some 'B' := by decide
    cases h4 with
    | stop => exact lost (by simp)
    | inside _ i1 i2 i3 => exact lost (List.forall_mem_cons.2 ⟨cut_noSpline i2 c1, List.forall_mem_nil _⟩)
    | cons _ hc =>
      cases hc with
      | stop => exact lost (List.forall_mem_cons.2 ⟨cut_noSpline List.prefix_rfl c1, List.forall_mem_nil _⟩)
      | inside _ i1 i2 i3 => exact lost (List.forall_mem_cons.2 ⟨cut_noSpline List.prefix_rfl c1, List.forall_mem_cons.2 ⟨cut_noSpline i2 c2, List.forall_mem_nil _⟩⟩)
      | @cons _ c _ hc =>
        have e : Irit.splinePositions ("[OBJECT".toList :: "SPLINES".toList :: c) 0 = Irit.splinePositions c 2 := by
          rw [Irit.splinePositions, if_neg (by decide), Irit.splinePositions, if_neg (by decide)]
        rw [e] at hok
        exact readAll_cut ss rs h 0 ["[OBJECT".toList, "SPLINES".toList] c hs hc rs' hok

/-! ### Cuts between the splines, and behind the first key word -/

/-- The entries of the splines from number `n` on, without the end of the file. -/
def blockToks : List (Spl K) → ℕ → List (List Char)
  | [], _ => []
  | s :: rest, n =>
    "[OBJECT".toList :: ("SPLINE".toList ++ natText (n + 1)) :: (splToks s ++ "]".toList :: "]".toList :: blockToks rest (n + 1))

theorem splinesText_blocks {ss : List (Spl K)} (hne : ss ≠ [])
    (h : ∀ s ∈ ss, WFSpl s ∧ 1 ≤ s.ps.knots.length ∧ s.ps.knots.length ≤ 3) (n : ℕ) :
    ∃ t, Irit.splinesText ss n = .ok t ∧ Tokens (splitSep ' ') (strip t) (blockToks ss n) ∧ ∃ u, strip t = ' ' :: u := by
  induction ss generalizing n with
  | nil => exact absurd rfl hne
  | cons s ss ih =>
    obtain ⟨h1, h2⟩ := h s (by simp)
    have e := addSpline_eq h1 h2 n
    have hlead : ∀ l, ∃ u, strip ("  [OBJECT SPLINE".toList ++ l) = ' ' :: u := fun l => by
      rw [strip_append]; exact ⟨_, rfl⟩
    cases ss with
    | nil =>
      refine ⟨_, e, ?_, hlead _⟩
      have := tokens_block h1 n (e := []) (r := []) ⟨by decide, by decide⟩ (Or.inl rfl) .nil
      rw [List.append_nil, List.append_nil] at this
      exact this
    | cons t ss =>
      obtain ⟨b, e1, e2, u, e3⟩ := ih (by simp) (fun x hx => h x (by simp [hx])) (n + 1)
      rw [Irit.splinesText, e, e1]
      refine ⟨_, rfl, ?_, ?_⟩
      · have hb : strip ('\n' :: b) = strip b := by simp [strip]
        have := tokens_block h1 n (e := []) (r := strip b) ⟨by decide, by decide⟩ (Or.inr ⟨u, e3⟩) e2
        rw [strip_append, hb]
        exact this
      · rw [List.append_assoc]; exact hlead _

theorem splinesText_append : ∀ {ss1 ss2 : List (Spl K)} {n : ℕ} {t : List Char}, ss1 ≠ [] → Irit.splinesText (ss1 ++ ss2) n = .ok t →
    ∃ t1, Irit.splinesText ss1 n = .ok t1 ∧ t1 <+: t := by
  intro ss1
  induction ss1 with
  | nil => intro _ _ _ h; exact absurd rfl h
  | cons s ss1 ih =>
    intro ss2 n t _ ht
    cases ss1 with
    | nil =>
      cases ss2 with
      | nil => exact ⟨t, ht, List.prefix_rfl⟩
      | cons s2 ss2 =>
        rw [List.singleton_append, Irit.splinesText] at ht
        obtain ⟨a, h1, ht⟩ := bind_eq_ok.1 ht
        obtain ⟨b, h2, ht⟩ := bind_eq_ok.1 ht
        cases ht
        exact ⟨a, h1, List.prefix_append _ _⟩
    | cons s1 ss1 =>
      rw [List.cons_append, List.cons_append, Irit.splinesText] at ht
      obtain ⟨a, h1, ht⟩ := bind_eq_ok.1 ht
      obtain ⟨b, h2, ht⟩ := bind_eq_ok.1 ht
      cases ht
      obtain ⟨t1, h3, u, rfl⟩ := ih (by simp) h2
      refine ⟨a ++ ('\n' :: t1), ?_, u, by simp⟩
      rw [Irit.splinesText, h1, h3]; rfl

theorem readAll_blocks : ∀ (ss rs : List (Spl K)), List.Forall₂ (fun s r => Writable s ∧ backSpline s = .ok r) ss rs →
    ∀ (n : ℕ) (pre : List (List Char)), Short (blockToks ss n) →
      Irit.readAll K (pre ++ blockToks ss n) (Irit.splinePositions (blockToks ss n) pre.length) = .ok rs := by
  intro ss rs h
  induction h with
  | nil => intro n pre _; rfl
  | @cons s r ss rs h1 h2 ih =>
    intro n pre hs
    obtain ⟨h1, hr⟩ := h1
    rw [blockToks] at hs ⊢
    have hs1 : Short (splToks s) := fun t ht => hs t (by simp [ht])
    have hs2 : Short (blockToks ss (n + 1)) := fun t ht => hs t (by simp [ht])
    obtain ⟨a, b⟩ := readAll_block h1 hs1 hr (n + 1) pre ("]".toList :: "]".toList :: blockToks ss (n + 1))
    rw [a, b]
    have := ih (n + 1) (pre ++ ("[OBJECT".toList :: ("SPLINE".toList ++ natText (n + 1)) :: (splToks s ++ ["]".toList, "]".toList]))) hs2
    have e : Irit.splinePositions ("]".toList :: "]".toList :: blockToks ss (n + 1)) (pre.length + 2 + (splToks s).length) =
        Irit.splinePositions (blockToks ss (n + 1)) (pre.length + 2 + (splToks s).length + 1 + 1) := by
      rw [Irit.splinePositions, if_neg (by decide), Irit.splinePositions, if_neg (by decide)]
    rw [e]
    have e1 : (pre ++ ("[OBJECT".toList :: ("SPLINE".toList ++ natText (n + 1)) :: (splToks s ++ ["]".toList, "]".toList]))) ++
        blockToks ss (n + 1) = pre ++ ("[OBJECT".toList :: ("SPLINE".toList ++ natText (n + 1)) ::
          (splToks s ++ "]".toList :: "]".toList :: blockToks ss (n + 1))) := by simp
    have e2 : (pre ++ ("[OBJECT".toList :: ("SPLINE".toList ++ natText (n + 1)) :: (splToks s ++ ["]".toList, "]".toList]))).length =
        pre.length + 2 + (splToks s).length + 1 + 1 := by
      simp only [List.length_append, List.length_cons, List.length_nil]; omega
    rw [e1, e2] at this
    rw [this]
    rfl

theorem writable_mem {ss rs : List (Spl K)} (h : List.Forall₂ (fun s r => Writable s ∧ backSpline s = .ok r) ss rs) :
    ∀ s ∈ ss, WFSpl s ∧ 1 ≤ s.ps.knots.length ∧ s.ps.knots.length ≤ 3 := by
  intro s hs
  obtain ⟨i, hi, rfl⟩ := List.getElem_of_mem hs
  have := ((List.forall₂_iff_get.1 h).2 i hi (by rw [← h.length_eq]; exact hi)).1
  exact ⟨this.wf, this.dims⟩

/-- A cut between the splines is not noticed. -/
theorem readFile_between {ss1 ss2 rs1 : List (Spl K)} (h : List.Forall₂ (fun s r => Writable s ∧ backSpline s = .ok r) ss1 rs1)
    {t : List Char} (ht : Irit.writeFile (ss1 ++ ss2) = .ok t) (hl : t.length < 2 ^ 32) :
    ∃ t', t' <+: t ∧ t' ≠ t ∧ Irit.readFile K t' = .ok rs1 := by
  unfold Irit.writeFile at ht
  obtain ⟨b, h1, ht⟩ := bind_eq_ok.1 ht
  cases ht
  by_cases hne : ss1 = []
  · subst hne
    cases h
    exact ⟨"[OBJECT SPLINES\n".toList, ⟨b ++ [']'], by simp⟩, by intro hh; simpa using congrArg List.length hh, rfl⟩
  · obtain ⟨t1, h2, u, rfl⟩ := splinesText_append hne h1
    obtain ⟨t2, h3, h4, v, h5⟩ := splinesText_blocks hne (writable_mem h) 0
    rw [h2] at h3
    cases h3
    refine ⟨"[OBJECT SPLINES\n".toList ++ t1, ⟨u ++ [']'], by simp⟩, ?_, ?_⟩
    · intro hh
      have := congrArg List.length hh
      simp only [List.length_append, List.length_cons, List.length_nil] at this
      omega
    · have n1 : strip "[OBJECT SPLINES\n".toList = "[OBJECT".toList ++ (' ' :: "SPLINES".toList) := by decide
      have a1 := Word.tokens (t := "SPLINES".toList) ⟨by decide, by decide⟩ (Or.inr ⟨v, h5⟩) h4
      have a2 := Word.tokens (t := "[OBJECT".toList) ⟨by decide, by decide⟩ (Or.inr ⟨_, rfl⟩) (tokens_blank a1)
      unfold Irit.readFile
      rw [getlines_flatten]
      dsimp only
      have a3 : Tokens (splitSep ' ') (strip ("[OBJECT SPLINES\n".toList ++ t1)) ("[OBJECT".toList :: "SPLINES".toList :: blockToks ss1 0) := by
        rw [strip_append, n1]
        simpa using a2
      rw [tokens_split a3]
      have hs : Short (blockToks ss1 0) := fun w hw => by
        have a := tokens_short h4 w hw
        have b := strip_length t1
        simp only [List.length_append] at hl
        omega
      have := readAll_blocks ss1 rs1 h 0 ["[OBJECT".toList, "SPLINES".toList] hs
      have e : Irit.splinePositions ("[OBJECT".toList :: "SPLINES".toList :: blockToks ss1 0) 0 =
          Irit.splinePositions (blockToks ss1 0) 2 := by
        rw [Irit.splinePositions, if_neg (by decide), Irit.splinePositions, if_neg (by decide)]
      rw [e]
      exact this

/-- A cut behind the first key word makes the reader run out of the entries. -/
theorem readFile_keyword {s : Spl K} {ss : List (Spl K)} (h : WFSpl s) (hd : 1 ≤ s.ps.knots.length ∧ s.ps.knots.length ≤ 3)
    {t : List Char} (ht : Irit.writeFile (s :: ss) = .ok t) : ∃ t', t' <+: t ∧ Irit.readFile K t' = .error .ub := by
  unfold Irit.writeFile at ht
  obtain ⟨b, h1, ht⟩ := bind_eq_ok.1 ht
  cases ht
  have e := addSpline_eq h hd 0
  obtain ⟨u, hu⟩ : ∃ u, b = "  [OBJECT SPLINE".toList ++ (natText 1 ++ ("\n    ".toList ++ (kindWord s.ps.knots.length ++ (" BSPLINE ".toList ++ u)))) := by
    have : ∃ r, b = "  [OBJECT SPLINE".toList ++ (natText (0 + 1) ++ ("\n    ".toList ++ (splText s ++ "    ]\n  ]\n".toList))) ++ r := by
      cases ss with
      | nil => rw [Irit.splinesText, e] at h1; cases h1; exact ⟨[], by simp⟩
      | cons s2 ss =>
        rw [Irit.splinesText, e] at h1
        obtain ⟨a, h0, h1⟩ := bind_eq_ok.1 h1
        obtain ⟨c, _, h1⟩ := bind_eq_ok.1 h1
        cases h0
        cases h1
        exact ⟨_, rfl⟩
    obtain ⟨r, rfl⟩ := this
    unfold splText
    simp only [List.append_assoc]
    exact ⟨_, rfl⟩
  subst hu
  refine ⟨"[OBJECT SPLINES\n  [OBJECT SPLINE1\n    ".toList ++ (kindWord s.ps.knots.length ++ " BSPLINE".toList), ⟨' ' :: (u ++ [']']), ?_⟩, ?_⟩
  · have : natText 1 = ['1'] := by decide +kernel
    rw [this]; simp
  · rcases (show s.ps.knots.length = 1 ∨ s.ps.knots.length = 2 ∨ s.ps.knots.length = 3 by omega) with e | e | e <;> rw [e] <;> rfl

end
end SplineLib
