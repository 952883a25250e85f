import Verif.Core.IgesBack
import Verif.Core.IritCut

/-!
# Reading IGES files that were cut off (helper lemmas)
-/

namespace SplineLib
set_option linter.unusedSectionVars false
open Str Prn

theorem readLines_single (q : List Char) : Iges.readLines [q] =
    (Iges.column73 q).map fun c => (if c = 'D' then [q.take 72] else [], if c = 'P' then [q.take 64] else []) := by
  rw [Iges.readLines]
  cases Iges.column73 q <;> rfl

/-- A text that ends inside of a line is read like some complete lines, or not at all. -/
theorem readLines_cut : ∀ (L : List (List Char)), (∀ l ∈ L, '\n' ∉ l) → ∀ t, t <+: (L.flatMap fun l => l ++ ['\n']) →
    (∃ k, Iges.readLines (getlines '\n' t) = Iges.readLines (L.take k)) ∨ Iges.readLines (getlines '\n' t) = .error .ub
  | [], _, t, ht => by
    rw [List.flatMap_nil] at ht
    rw [List.prefix_nil.1 ht]
    exact Or.inl ⟨0, rfl⟩
  | l :: L, h, t, ht => by
    have hl : ∀ c ∈ l, c ≠ '\n' := fun c hc e => h l (by simp) (e ▸ hc)
    have one : ∀ q, q <+: l → q ≠ [] → getlines '\n' q = [q] := by
      intro q hq h0
      have h1 : ∀ c ∈ q, c ≠ '\n' := fun c hc => hl c (hq.subset hc)
      have := getlinesFrom_run q [] [] h1
      rw [List.append_nil, List.nil_append] at this
      unfold getlines
      rw [this, getlinesFrom]
      simp [h0]
    have part : ∀ q, q <+: l → (∃ k, Iges.readLines (getlines '\n' q) = Iges.readLines ((l :: L).take k)) ∨
        Iges.readLines (getlines '\n' q) = .error .ub := by
      intro q hq
      by_cases h0 : q = []
      · subst h0; exact Or.inl ⟨0, rfl⟩
      · rw [one q hq h0, readLines_single]
        by_cases h1 : q.length < 72
        · exact Or.inr (by unfold Iges.column73; rw [if_pos h1]; rfl)
        · left
          by_cases h2 : q.length = 72
          · refine ⟨0, ?_⟩
            unfold Iges.column73
            rw [if_neg h1, List.getD_eq_getElem?_getD, List.getElem?_eq_none (by omega)]
            rfl
          · refine ⟨1, ?_⟩
            obtain ⟨u, rfl⟩ := hq
            rw [List.take_succ_cons, List.take_zero, readLines_single]
            have e : Iges.column73 (q ++ u) = Iges.column73 q := by
              unfold Iges.column73
              rw [if_neg h1, if_neg (by simp; omega), List.getD_eq_getElem?_getD, List.getD_eq_getElem?_getD,
                List.getElem?_append_left (by omega)]
            rw [e, List.take_append_of_le_length (by omega), List.take_append_of_le_length (by omega)]
    rw [List.flatMap_cons, List.append_assoc] at ht
    rcases prefix_split ht with h1 | ⟨u, rfl, h2⟩
    · exact part t h1
    · cases u with
      | nil => rw [List.append_nil]; exact part l List.prefix_rfl
      | cons d u =>
        obtain ⟨rfl, h3⟩ := List.cons_prefix_cons.1 (show d :: u <+: '\n' :: _ from h2)
        have e : getlines '\n' (l ++ '\n' :: u) = l :: getlines '\n' u := by
          unfold getlines
          rw [getlinesFrom_run l [] _ hl, List.nil_append, getlinesFrom]
          simp
        rw [e, Iges.readLines]
        rcases readLines_cut L (fun l hl => h l (by simp [hl])) u h3 with ⟨k, hk⟩ | hk
        · refine Or.inl ⟨k + 1, ?_⟩
          rw [List.take_succ_cons, Iges.readLines, hk]
        · right
          rw [hk]
          unfold Iges.column73
          split <;> rfl

theorem Numbered.take {letter : Char} {line : ℕ} {a : List (List Char)} (h : Numbered letter line a) (k : ℕ) : Numbered letter line (a.take k) := by
  intro i hi
  obtain ⟨t, h1, h2⟩ := h i (by simp at hi; omega)
  exact ⟨t, h1, by rw [List.getElem_take]; exact h2⟩

section
variable {K : Type} [LinearOrder K] [Field K] [IsStrictOrderedRing K] [GenPrinter K]

/-- The sections of the first lines of a file. -/
theorem readLines_take {c : List Char} {ss : List (Spl K)} (hc : pieces 72 c < 10 ^ 7) (hn : 2 * ss.length + 1 < 10 ^ 7)
    (hp : pTotal ss + 1 < 10 ^ 7) (k : ℕ) : ∃ i j, (0 < j → 2 * ss.length ≤ i) ∧
      Iges.readLines ((igesLines c ss).take k) = .ok (((secD ss 0 0).take i).map fun l => l.take 72, ((secP ss 0 0).take j).map fun l => l.take 64) := by
  have hT := readLines_section _ _ ((numbered_terminate (s := 1) (g := pieces 72 c) (d := 2 * ss.length) (p := pTotal ss) (by norm_num) hc
    (by omega) (by omega)).take (k - (startLines ++ globalLines c ++ secD ss 0 0 ++ secP ss 0 0).length))
  have hS := readLines_section _ _ (numbered_start.take k)
  have hG := readLines_section _ _ ((numbered_72 'G' c 0 (pieces 72 c)).take (k - startLines.length))
  have hD := readLines_section _ _ ((numbered_secD ss 0 0 (by omega)).take (k - (startLines ++ globalLines c).length))
  have hP := readLines_section _ _ ((numbered_secP ss 0 0 (by omega)).take (k - (startLines ++ globalLines c ++ secD ss 0 0).length))
  have := readLines_append hT _ _ _ (readLines_append hP _ _ _ (readLines_append hD _ _ _ (readLines_append hG _ _ _ hS)))
  refine ⟨k - (startLines ++ globalLines c).length, k - (startLines ++ globalLines c ++ secD ss 0 0).length, ?_, ?_⟩
  · intro h
    have h1 := secD_length ss 0 0
    rw [List.length_append] at h
    omega
  · unfold igesLines
    rw [List.take_append, List.take_append, List.take_append, List.take_append]
    unfold globalLines at this ⊢
    rw [this]
    simp

/-- An entity whose lines are missing is not read. -/
theorem readEntity_missing [FloorRing K] {a : List (Spl K)} {s : Spl K} {b : List (Spl K)} (ht : pTotal (a ++ s :: b) + 1 < 10 ^ 7)
    {D P : List (List Char)}
    (h0 : getN D (a.length * 2) = getN ((secD (a ++ s :: b) 0 0).map fun l => l.take 72) (a.length * 2))
    (h1 : getN D (a.length * 2 + 1) = getN ((secD (a ++ s :: b) 0 0).map fun l => l.take 72) (a.length * 2 + 1) ∨
      getN D (a.length * 2 + 1) = .error .ub)
    (h2 : P.length < pTotal a + pCount s) (v : List (Spl K)) : Iges.readEntity K D P a.length ≠ .ok v := by
  intro hok
  obtain ⟨l, t, k1, k2, k3⟩ := read_kind ht
  have hpos : 0 < pCount s := by unfold pCount pieces; omega
  have hptr : ∀ ptr data, Iges.pointers D a.length = .ok ptr → Iges.parameterVector K P ptr = .ok data → False := by
    intro ptr data hp hv
    rcases h1 with h1 | h1
    · have e : Iges.pointers D a.length = Iges.pointers ((secD (a ++ s :: b) 0 0).map fun l => l.take 72) a.length := by
        unfold Iges.pointers
        rw [h0, h1]
      rw [e, read_pointers ht] at hp
      cases hp
      unfold Iges.parameterVector at hv
      obtain ⟨x, hx, _⟩ := bind_eq_ok.1 hv
      obtain ⟨_, hx⟩ := buildList_eq_ok hx
      obtain ⟨y, _, hy⟩ := hx (pCount s - 1) (by
        show pCount s - 1 < (((pTotal a + 1 : ℕ) : ℤ) + (pCount s : ℕ) - 1 - ((pTotal a + 1 : ℕ) : ℤ) + 1).toNat
        omega)
      have hi : ((pTotal a + 1 : ℕ) : ℤ) - 1 + ((pCount s - 1 : ℕ) : ℤ) = ((pTotal a + pCount s - 1 : ℕ) : ℤ) := by omega
      have hy' : getI P (((pTotal a + 1 : ℕ) : ℤ) - 1 + ((pCount s - 1 : ℕ) : ℤ)) = .ok y := hy
      rw [hi, getI_nat] at hy'
      unfold getN at hy'
      rw [List.getElem?_eq_none (by omega)] at hy'
      cases hy'
    · unfold Iges.pointers at hp
      obtain ⟨_, _, hp⟩ := bind_eq_ok.1 hp
      obtain ⟨_, _, hp⟩ := bind_eq_ok.1 hp
      obtain ⟨_, hp, _⟩ := bind_eq_ok.1 hp
      rw [h1] at hp
      cases hp
  unfold Iges.readEntity at hok
  rw [h0, k1, ok_bind, k2, ok_bind, k3, ok_bind] at hok
  split at hok
  · obtain ⟨ptr, hp, hok⟩ := bind_eq_ok.1 hok
    obtain ⟨data, hd, _⟩ := bind_eq_ok.1 hok
    exact hptr ptr data hp hd
  · split at hok
    · obtain ⟨ptr, hp, hok⟩ := bind_eq_ok.1 hok
      obtain ⟨data, hd, _⟩ := bind_eq_ok.1 hok
      exact hptr ptr data hp hd
    · rename_i e1 e2
      unfold entityNo at e1 e2
      split at e1 <;> simp_all

/-- The entities of the first lines of a file. -/
theorem readEntities_cut [FloorRing K] {ss : List (Spl K)} (ht : pTotal ss + 1 < 10 ^ 7) {i j : ℕ} (hij : 0 < j → 2 * ss.length ≤ i)
    {l : List (List (Spl K))}
    (hok : buildList (Iges.readEntity K (((secD ss 0 0).take i).map fun l => l.take 72) (((secP ss 0 0).take j).map fun l => l.take 64))
      ((((secD ss 0 0).take i).length + 1) / 2) = .ok l) :
    l = [] ∨ (2 * ss.length ≤ i ∧ pTotal ss ≤ j) := by
  have hD := secD_length ss 0 0
  have hP := secP_length ss 0 0
  obtain ⟨hl, hok⟩ := buildList_eq_ok hok
  rw [List.length_take, hD] at hl hok
  have hget : ∀ m, m < i → getN (((secD ss 0 0).take i).map fun l => l.take 72) m = getN ((secD ss 0 0).map fun l => l.take 72) m := by
    intro m hm
    unfold getN
    rw [List.getElem?_map, List.getElem?_map, List.getElem?_take, if_pos hm]
  have hnone : ∀ m, i ≤ m → getN (((secD ss 0 0).take i).map fun l => l.take 72) m = .error .ub := by
    intro m hm
    unfold getN
    rw [List.getElem?_eq_none (by simp; omega)]
  by_cases hi0 : i = 0
  · left
    rw [hi0] at hl
    exact List.length_eq_zero_iff.1 (by simpa using hl)
  cases ss with
  | nil =>
    left
    exact List.length_eq_zero_iff.1 (by simpa using hl)
  | cons s ss =>
    by_cases hj : 0 < j
    · refine Or.inr ⟨hij hj, ?_⟩
      by_contra hlt
      have hi := hij hj
      obtain ⟨a, b, hab⟩ : ∃ a b, s :: ss = a ++ [b] := ⟨(s :: ss).dropLast, (s :: ss).getLast (by simp), (List.dropLast_append_getLast (by simp)).symm⟩
      have hlen : (s :: ss).length = a.length + 1 := by rw [hab]; simp
      obtain ⟨v, _, hv⟩ := hok a.length (by omega)
      rw [hab] at hv hget hlt ht hP
      refine readEntity_missing ht (hget _ (by omega)) (Or.inl (hget _ (by omega))) ?_ v hv
      rw [pTotal_append, pTotal_cons] at hlt
      have : pTotal ([] : List (Spl K)) = 0 := rfl
      simp only [List.length_map, List.length_take]
      omega
    · exfalso
      have hj0 : j = 0 := by omega
      obtain ⟨v, _, hv⟩ := hok 0 (by simp only [List.length_cons]; omega)
      have hpos : 0 < pCount s := by unfold pCount pieces; omega
      refine readEntity_missing (a := []) ht (hget _ (by simp; omega)) ?_ ?_ v hv
      · by_cases h1 : 1 < i
        · exact Or.inl (hget _ (by simpa using h1))
        · exact Or.inr (hnone _ (by simp; omega))
      · rw [hj0]; simp; exact Or.inr hpos

end
end SplineLib
