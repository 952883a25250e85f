import Verif.Core.Adjust
import Verif.Model.KnotRemoval

/-!
# The temporary points of knot removal (helper lemmas)
-/

namespace SplineLib
set_option linter.unusedSectionVars false
open Finset

/-! ### Lines of control points -/

/-- Index of the line in direction `d` through `I`. -/
def row (ns : List ℕ) (d : ℕ) (I : List ℕ) : ℕ := lin (ns.set d 1) (I.set d 0)

/-- Entry `k` of line `e`. -/
def lineIx (ns : List ℕ) (d e k : ℕ) : List ℕ := (unlin (ns.set d 1) e).set d k

theorem lin_append_zero : ∀ (ns I : List ℕ), lin (ns ++ [0]) (I ++ [0]) = lin ns I ∨ ns.length ≠ I.length
  | [], [] => Or.inl rfl
  | [], _ :: _ => Or.inr (by simp)
  | _ :: _, [] => Or.inr (by simp)
  | n :: ns, i :: I => by
    rcases lin_append_zero ns I with h | h
    · left; simp only [List.cons_append, lin, h]
    · right; simpa using h

theorem lin_eraseIdx : ∀ (ns I : List ℕ) (d : ℕ), d < ns.length → ns.length = I.length →
    lin (ns.eraseIdx d) (I.eraseIdx d) = row ns d I
  | [], _, _, h, _ => by simp at h
  | n :: ns, [], d, _, h => by simp at h
  | n :: ns, i :: I, 0, _, _ => by simp [row, lin]
  | n :: ns, i :: I, d + 1, h, hl => by
    have := lin_eraseIdx ns I d (by simpa using h) (by simpa using hl)
    simp only [row] at this
    simp only [row, List.eraseIdx_cons_succ, List.set_cons_succ, lin, this]

theorem extractDimension_zl {ns I : List ℕ} {d : ℕ} (hd : d < ns.length) (hI : InBox ns I) :
    (MIH.mk (zl ns) (zl I)).extractDimension d = (row ns d I : ℤ) := by
  have hl := hI.length
  unfold MIH.extractDimension
  simp only
  rw [show (zl ns).eraseIdx d ++ [0] = zl (ns.eraseIdx d ++ [0]) by simp [zl, List.eraseIdx_map],
    show (zl I).eraseIdx d ++ [0] = zl (I.eraseIdx d ++ [0]) by simp [zl, List.eraseIdx_map], oneD_zl]
  rcases lin_append_zero (ns.eraseIdx d) (I.eraseIdx d) with h | h
  · rw [h, lin_eraseIdx ns I d hd hl.symm]
  · rw [List.length_eraseIdx_of_lt hd, List.length_eraseIdx_of_lt (by omega), hl] at h
    exact absurd rfl h

theorem row_lt {ns I : List ℕ} {d : ℕ} (hI : InBox ns I) : row ns d I < (ns.set d 1).prod :=
  lin_lt (inBox_set hI (by omega))

theorem lineIx_inBox {ns : List ℕ} {d e k : ℕ} (hpos : ∀ n ∈ ns, 0 < n) (hk : k < ixd ns d) :
    InBox ns (lineIx ns d e k) := inBox_set_of (unlin_inBox (set_pos hpos (by omega)) e) hk

theorem lineIx_ixd {ns : List ℕ} {d e k : ℕ} (hd : d < ns.length) : ixd (lineIx ns d e k) d = k := by
  apply ixd_set_self; rw [unlin_length]; simpa using hd

theorem row_lineIx {ns : List ℕ} {d e k : ℕ} (hd : d < ns.length) (he : e < (ns.set d 1).prod) :
    row ns d (lineIx ns d e k) = e := by
  have hb := unlin_inBox (prod_pos_iff.1 (by omega : 0 < (ns.set d 1).prod)) e
  have h0 : ixd (unlin (ns.set d 1) e) d = 0 := by
    have : ixd (unlin (ns.set d 1) e) d < ixd (ns.set d 1) d := hb.getD_lt (by simpa using hd)
    rw [ixd_set_self hd] at this; omega
  unfold row lineIx
  rw [List.set_set]
  conv_lhs => rw [show (0 : ℕ) = ixd (unlin (ns.set d 1) e) d from h0.symm]
  rw [set_ixd (by rw [unlin_length]; simpa using hd), lin_unlin he]

theorem lineIx_row {ns I : List ℕ} {d : ℕ} (hd : d < ns.length) (hI : InBox ns I) (k : ℕ) :
    lineIx ns d (row ns d I) k = I.set d k := by
  unfold lineIx row
  rw [unlin_lin (inBox_set hI (by omega)), List.set_set]

theorem lineIx_row_self {ns I : List ℕ} {d : ℕ} (hd : d < ns.length) (hI : InBox ns I) :
    lineIx ns d (row ns d I) (ixd I d) = I := by
  rw [lineIx_row hd hI, set_ixd (by rw [hI.length]; exact hd)]

theorem row_set {ns I : List ℕ} {d k : ℕ} : row ns d (I.set d k) = row ns d I := by
  unfold row; rw [List.set_set]

theorem lineIx_lin_eq {ns I : List ℕ} {d e k : ℕ} (hpos : ∀ n ∈ ns, 0 < n) (hd : d < ns.length) (hI : InBox ns I)
    (he : e < (ns.set d 1).prod) (hk : k < ixd ns d) : lin ns (lineIx ns d e k) = lin ns I ↔ e = row ns d I ∧ k = ixd I d := by
  constructor
  · intro h
    have := lin_inj (lineIx_inBox hpos hk) hI h
    rw [← this]
    exact ⟨(row_lineIx hd he).symm, (lineIx_ixd hd).symm⟩
  · rintro ⟨rfl, rfl⟩
    rw [lineIx_row_self hd hI]

section
variable {K : Type} [Field K] [LinearOrder K] [IsStrictOrderedRing K]

/-! ### Flat arrays of blocks -/

/-- Coordinate `c` of entry `x` of line `e` in a flat array with `len` entries of `b` coordinates per line. -/
def cell (T : List K) (len b e x c : ℕ) : K := T.getD ((e * len + x) * b + c) 0

theorem flat_inj {m a a' b b' : ℕ} (h1 : b < m) (h2 : b' < m) (h : a * m + b = a' * m + b') : a = a' ∧ b = b' := by
  have hm : 0 < m := by omega
  have e1 : (a * m + b) / m = a := by
    rw [mul_comm, Nat.mul_add_div hm, Nat.div_eq_of_lt h1]; omega
  have e2 : (a' * m + b') / m = a' := by
    rw [mul_comm, Nat.mul_add_div hm, Nat.div_eq_of_lt h2]; omega
  have : a = a' := by rw [← e1, ← e2, h]
  subst this
  exact ⟨rfl, by omega⟩

theorem flat_lt {R len b e x c : ℕ} (he : e < R) (hx : x < len) (hc : c < b) : (e * len + x) * b + c < R * len * b := by
  have h1 : e * len + x + 1 ≤ R * len := by
    have := Nat.mul_le_mul_right len he
    rw [Nat.succ_mul] at this; omega
  have h2 := Nat.mul_le_mul_right b h1
  rw [Nat.succ_mul] at h2; omega

theorem cell_set {T : List K} {R len b e x c e' x' c' : ℕ} {v : K} (hT : T.length = R * len * b) (he : e < R) (hx : x < len)
    (hc : c < b) (hx' : x' < len) (hc' : c' < b) :
    cell (T.set ((e * len + x) * b + c) v) len b e' x' c' = if e' = e ∧ x' = x ∧ c' = c then v else cell T len b e' x' c' := by
  have hlt := flat_lt he hx hc
  unfold cell
  simp only [List.getD_eq_getElem?_getD, List.getElem?_set]
  by_cases h : e' = e ∧ x' = x ∧ c' = c
  · obtain ⟨rfl, rfl, rfl⟩ := h
    rw [if_pos rfl, if_pos (by omega), if_pos ⟨rfl, rfl, rfl⟩]; rfl
  · rw [if_neg h, if_neg]
    intro heq
    obtain ⟨h1, h2⟩ := flat_inj hc hc' heq
    obtain ⟨h3, h4⟩ := flat_inj hx hx' h1
    exact h ⟨h3.symm, h4.symm, h2.symm⟩

/-- `T'` is `T` with the block of entry `x` of line `e` replaced by `v`. -/
structure Upd (R len b : ℕ) (T T' : List K) (e x : ℕ) (v : ℕ → K) : Prop where
  size : T'.length = T.length
  val : ∀ e' x' c, e' < R → x' < len → c < b →
    cell T' len b e' x' c = if e' = e ∧ x' = x then v c else cell T len b e' x' c

/-- The loop over the coordinates. -/
theorem coordLoop_eq {R len b e x : ℕ} {f : ℕ → List K → M (List K)} {T : List K} {v : ℕ → K} (hT : T.length = R * len * b)
    (he : e < R) (hx : x < len)
    (hf : ∀ k < b, ∀ t : List K, t.length = T.length →
      (∀ x' c, x' < len → c < b → (x' ≠ x) → cell t len b e x' c = cell T len b e x' c) →
      f k t = .ok (t.set ((e * len + x) * b + k) (v k))) :
    ∃ T', Spl.coordLoop f b T = .ok T' ∧ Upd R len b T T' e x v := by
  have key : ∀ n ≤ b, ∃ T', Spl.coordLoop f n T = .ok T' ∧ T'.length = T.length ∧
      ∀ e' x' c, e' < R → x' < len → c < b →
        cell T' len b e' x' c = if e' = e ∧ x' = x ∧ c < n then v c else cell T len b e' x' c := by
    intro n
    induction n with
    | zero => intro _; exact ⟨T, rfl, rfl, fun e' x' c _ _ _ => by simp⟩
    | succ n ih =>
      intro hn
      obtain ⟨T1, h1, h2, h3⟩ := ih (by omega)
      refine ⟨T1.set ((e * len + x) * b + n) (v n), ?_, by simpa using h2, ?_⟩
      · simp only [Spl.coordLoop, h1, ok_bind]
        apply hf n (by omega) T1 h2
        intro x' c hx' hc hne
        rw [h3 e x' c he hx' hc, if_neg (by tauto)]
      · intro e' x' c he' hx' hc
        rw [cell_set (by rw [h2, hT]) he hx (by omega) hx' hc, h3 e' x' c he' hx' hc]
        by_cases hh : e' = e ∧ x' = x
        · obtain ⟨rfl, rfl⟩ := hh
          by_cases hcn : c = n
          · subst hcn; simp
          · rw [if_neg (by tauto)]
            by_cases hlt : c < n
            · rw [if_pos ⟨rfl, rfl, hlt⟩, if_pos ⟨rfl, rfl, by omega⟩]
            · rw [if_neg (by tauto), if_neg (by omega)]
        · rw [if_neg (by tauto), if_neg (by tauto), if_neg (by tauto)]
  obtain ⟨T', h1, h2, h3⟩ := key b (le_refl _)
  refine ⟨T', h1, h2, ?_⟩
  intro e' x' c he' hx' hc
  rw [h3 e' x' c he' hx' hc]
  by_cases hh : e' = e ∧ x' = x
  · rw [if_pos ⟨hh.1, hh.2, hc⟩, if_pos hh]
  · rw [if_neg (by tauto), if_neg hh]

/-! ### Partial correctness of loops -/

theorem upLoop_ok {σ : Type} {ns : List ℕ} {body : MIH → σ → M σ} (Inv : ℕ → σ → Prop) {s s' : σ} (h0 : Inv 0 s)
    (hstep : ∀ k < ns.prod, ∀ s, Inv k s → ∀ s', body ⟨zl ns, zl (unlin ns k)⟩ s = .ok s' → Inv (k + 1) s')
    (h : upLoop body (MIH.mk' (zl ns)).length1D.toNat (MIH.mk' (zl ns)) s = .ok s') : Inv ns.prod s' := by
  rw [mk'_zl, length1D_zl] at h
  simp only [Int.toNat_natCast] at h
  have aux : ∀ (m k : ℕ) (s : σ), Inv k s → k + m ≤ ns.prod →
      upLoop body m ⟨zl ns, zl (unlin ns k)⟩ s = .ok s' → Inv (k + m) s' := by
    intro m
    induction m with
    | zero => intro k s hi _ he; simp only [upLoop, Except.ok.injEq] at he; rw [← he]; exact hi
    | succ m ih =>
      intro k s hi hk he
      simp only [upLoop] at he
      cases hb : body ⟨zl ns, zl (unlin ns k)⟩ s with
      | error e => rw [hb] at he; simp at he
      | ok s1 =>
        rw [hb, ok_bind, incr_zl (prod_pos_iff.1 (by omega))] at he
        have := ih (k + 1) s1 (hstep k (by omega) s hi s1 hb) (by omega) he
        rwa [show k + (m + 1) = k + 1 + m by omega]
  simpa using aux ns.prod 0 s h0 (by omega) h

/-- One pass over all control points that replaces entry `xa` of every line (when it meets the control points with index `a`) and entry
`xb` (at index `b'`). `Good I` describes when the loop body succeeds. -/
theorem pass_spec {ns : List ℕ} {d a b' xa xb len b : ℕ} {va vb : ℕ → ℕ → K} {body : MIH → List K → M (List K)} {T0 : List K}
    {Good : List ℕ → Prop} (hpos : ∀ n ∈ ns, 0 < n) (hd : d < ns.length) (hab : a ≠ b') (hxab : xa ≠ xb)
    (ha : a < ixd ns d) (hb : b' < ixd ns d)
    (hbody : ∀ I, InBox ns I → ∀ T : List K, T.length = T0.length →
      (∀ e x c, e < (ns.set d 1).prod → x < len → c < b → x ≠ xa → x ≠ xb → cell T len b e x c = cell T0 len b e x c) →
      (∀ T', body ⟨zl ns, zl I⟩ T = .ok T' → Good I ∧
        (ixd I d = a → Upd (ns.set d 1).prod len b T T' (row ns d I) xa (va (row ns d I))) ∧
        (ixd I d = b' → Upd (ns.set d 1).prod len b T T' (row ns d I) xb (vb (row ns d I))) ∧
        (ixd I d ≠ a → ixd I d ≠ b' → T' = T)) ∧
      (Good I → ∃ T', body ⟨zl ns, zl I⟩ T = .ok T')) :
    (∀ T', upLoop body (MIH.mk' (zl ns)).length1D.toNat (MIH.mk' (zl ns)) T0 = .ok T' → (∀ I, InBox ns I → Good I) ∧
      T'.length = T0.length ∧ ∀ e x c, e < (ns.set d 1).prod → x < len → c < b →
        cell T' len b e x c = if x = xa then va e c else if x = xb then vb e c else cell T0 len b e x c) ∧
    ((∀ I, InBox ns I → Good I) → ∃ T', upLoop body (MIH.mk' (zl ns)).length1D.toNat (MIH.mk' (zl ns)) T0 = .ok T') := by
  let Inv : ℕ → List K → Prop := fun k T => (∀ I, InBox ns I → lin ns I < k → Good I) ∧ T.length = T0.length ∧
    ∀ e x c, e < (ns.set d 1).prod → x < len → c < b → cell T len b e x c =
      if x = xa ∧ lin ns (lineIx ns d e a) < k then va e c
      else if x = xb ∧ lin ns (lineIx ns d e b') < k then vb e c else cell T0 len b e x c
  have hinit : Inv 0 T0 := ⟨fun I _ h => absurd h (by omega), rfl, fun e x c _ _ _ => by simp⟩
  have hframe : ∀ k T, Inv k T → ∀ e x c, e < (ns.set d 1).prod → x < len → c < b → x ≠ xa → x ≠ xb →
      cell T len b e x c = cell T0 len b e x c := by
    intro k T hi e x c he hx hc h1 h2
    rw [hi.2.2 e x c he hx hc, if_neg (by tauto), if_neg (by tauto)]
  have hstep : ∀ k < ns.prod, ∀ T, Inv k T → ∀ T', body ⟨zl ns, zl (unlin ns k)⟩ T = .ok T' → Inv (k + 1) T' := by
    intro k hk T hi T' hT'
    have hI := unlin_inBox hpos k
    have hlin := lin_unlin hk
    generalize unlin ns k = I at hI hlin hT'
    obtain ⟨g, ua, ub, un⟩ := (hbody I hI T hi.2.1 (hframe k T hi)).1 T' hT'
    have hva : ∀ e, e < (ns.set d 1).prod → (lin ns (lineIx ns d e a) < k + 1 ↔
        lin ns (lineIx ns d e a) < k ∨ (e = row ns d I ∧ a = ixd I d)) := by
      intro e he
      rw [← lineIx_lin_eq hpos hd hI he ha, hlin]; omega
    have hvb : ∀ e, e < (ns.set d 1).prod → (lin ns (lineIx ns d e b') < k + 1 ↔
        lin ns (lineIx ns d e b') < k ∨ (e = row ns d I ∧ b' = ixd I d)) := by
      intro e he
      rw [← lineIx_lin_eq hpos hd hI he hb, hlin]; omega
    have hlen : T'.length = T0.length := by
      by_cases h1 : ixd I d = a
      · rw [(ua h1).size, hi.2.1]
      · by_cases h2 : ixd I d = b'
        · rw [(ub h2).size, hi.2.1]
        · rw [un h1 h2, hi.2.1]
    refine ⟨?_, hlen, ?_⟩
    · intro J hJ hJk
      by_cases h : lin ns J < k
      · exact hi.1 J hJ h
      · rw [lin_inj hJ hI (by omega)]; exact g
    · intro e x c he hx hc
      by_cases h1 : ixd I d = a
      · rw [(ua h1).val e x c he hx hc, hi.2.2 e x c he hx hc]
        have nb : ¬ (b' = ixd I d) := by omega
        simp only [hva e he, hvb e he, eq_true h1.symm, nb, and_false, or_false, and_true]
        by_cases hc1 : e = row ns d I ∧ x = xa
        · obtain ⟨rfl, rfl⟩ := hc1
          rw [if_pos ⟨rfl, rfl⟩, if_pos ⟨rfl, Or.inr rfl⟩]
        · rw [if_neg hc1]
          by_cases hc2 : x = xa
          · have : ¬ e = row ns d I := by tauto
            simp only [this, or_false]
          · simp only [hc2, false_and, if_false]
      · by_cases h2 : ixd I d = b'
        · rw [(ub h2).val e x c he hx hc, hi.2.2 e x c he hx hc]
          have na : ¬ (a = ixd I d) := by omega
          simp only [hva e he, hvb e he, eq_true h2.symm, na, and_false, or_false, and_true]
          by_cases hc1 : e = row ns d I ∧ x = xb
          · obtain ⟨rfl, rfl⟩ := hc1
            rw [if_pos ⟨rfl, rfl⟩, if_neg (by tauto), if_pos ⟨rfl, Or.inr rfl⟩]
          · rw [if_neg hc1]
            by_cases hc2 : x = xb
            · have : ¬ e = row ns d I := by tauto
              simp only [this, or_false]
            · simp only [hc2, false_and, if_false]
        · rw [un h1 h2, hi.2.2 e x c he hx hc]
          have na : ¬ (a = ixd I d) := by omega
          have nb : ¬ (b' = ixd I d) := by omega
          simp only [hva e he, hvb e he, na, nb, and_false, or_false]
  constructor
  · intro T' h
    obtain ⟨g, l, v⟩ := upLoop_ok Inv hinit hstep h
    refine ⟨fun I hI => g I hI (lin_lt hI), l, ?_⟩
    intro e x c he hx hc
    rw [v e x c he hx hc]
    simp only [lin_lt (lineIx_inBox hpos ha), lin_lt (lineIx_inBox hpos hb), and_true]
  · intro hg
    obtain ⟨T', h1, _⟩ := upLoop_inv (ns := ns) (body := body) Inv hinit (by
      intro k hk T hi
      have hI := unlin_inBox hpos k
      obtain ⟨T', hT'⟩ := (hbody _ hI T hi.2.1 (hframe k T hi)).2 (hg _ hI)
      exact ⟨T', hT', hstep k hk T hi T' hT'⟩)
    exact ⟨T', h1⟩

end
end SplineLib
