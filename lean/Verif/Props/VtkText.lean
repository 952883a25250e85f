import Verif.Core.VtkText
import Verif.Core.LiteralUnique
import Verif.Props.Iga

/-!
# Property C73: the characters of VTK files
-/

namespace SplineLib
set_option linter.unusedSectionVars false
open Str Prn VtkFormat

/-! ### The format is unambiguous -/

theorem isNat_unique {t : List Char} {a b : ℕ} (h1 : IsNat t a) (h2 : IsNat t b) : a = b := by
  obtain ⟨ds, -, e1, rfl⟩ := h1
  obtain ⟨ds', -, e2, rfl⟩ := h2
  rw [(List.map_injective_iff.2 fun _ _ => digitChar_inj) (e1.symm.trans e2)]

theorem forall₂_unique {α β : Type} {R : α → β → Prop} (hR : ∀ a b c, R a b → R a c → b = c) {l : List α} {x y : List β}
    (h1 : List.Forall₂ R l x) (h2 : List.Forall₂ R l y) : x = y := by
  induction h1 generalizing y with
  | nil => cases h2; rfl
  | cons h _ ih =>
    cases h2 with
    | cons h' h'' => rw [hR _ _ _ h h', ih h'']

theorem flatten3_unique {α : Type} {a b : List (List α)} (ha : ∀ x ∈ a, x.length = 3) (hb : ∀ x ∈ b, x.length = 3)
    (h : a.flatten = b.flatten) : a = b := by
  induction a generalizing b with
  | nil =>
    cases b with
    | nil => rfl
    | cons y b =>
      have := hb y (by simp)
      rw [List.flatten_nil, List.flatten_cons] at h
      have h' := congrArg List.length h
      rw [List.length_append, this] at h'
      simp at h'
      omega
  | cons x a ih =>
    cases b with
    | nil =>
      have := ha x (by simp)
      rw [List.flatten_nil, List.flatten_cons] at h
      have h' := congrArg List.length h
      rw [List.length_append, this] at h'
      simp at h' 
    | cons y b =>
      rw [List.flatten_cons, List.flatten_cons] at h
      obtain ⟨h1, h2⟩ := List.append_inj h (by rw [ha x (by simp), hb y (by simp)])
      rw [h1, ih (fun z hz => ha z (by simp [hz])) (fun z hz => hb z (by simp [hz])) h2]

theorem cells_unique {a b : List (List ℕ)} (h : (a.flatMap fun c => c.length :: c) = b.flatMap fun c => c.length :: c) : a = b := by
  induction a generalizing b with
  | nil =>
    cases b with
    | nil => rfl
    | cons y b => simp at h
  | cons x a ih =>
    cases b with
    | nil => simp at h
    | cons y b =>
      rw [List.flatMap_cons, List.flatMap_cons, List.cons_append, List.cons_append] at h
      simp only [List.cons.injEq] at h
      obtain ⟨h1, h2⟩ := List.append_inj h.2 h.1
      rw [h1, ih h2]

theorem cells_length (a : List (List ℕ)) : (a.flatMap fun c => c.length :: c).length = (a.map fun c => c.length + 1).sum := by
  induction a with
  | nil => rfl
  | cons x a ih => rw [List.flatMap_cons, List.length_append, ih]; simp

theorem flatten3_length {α : Type} {a : List (List α)} (ha : ∀ x ∈ a, x.length = 3) : a.flatten.length = 3 * a.length := by
  induction a with
  | nil => rfl
  | cons x a ih =>
    rw [List.flatten_cons, List.length_append, ih fun z hz => ha z (by simp [hz]), ha x (by simp), List.length_cons]; ring

theorem line_unique {a b : List Char} {x y : List Char} (ha : '\n' ∉ a) (hb : '\n' ∉ b) (h : a ++ '\n' :: x = b ++ '\n' :: y) :
    a = b ∧ x = y := by
  induction a generalizing b with
  | nil =>
    cases b with
    | nil => simpa using h
    | cons c b =>
      simp only [List.nil_append, List.cons_append, List.cons.injEq] at h
      exact absurd (by rw [h.1]; simp) hb
  | cons d a ih =>
    cases b with
    | nil =>
      simp only [List.nil_append, List.cons_append, List.cons.injEq] at h
      exact absurd (by rw [h.1]; simp) ha
    | cons c b =>
      simp only [List.cons_append, List.cons.injEq] at h
      obtain ⟨h1, h2⟩ := ih (fun hh => ha (by simp [hh])) (fun hh => hb (by simp [hh])) h.2
      exact ⟨by rw [h.1, h1], h2⟩

theorem hasWords_unique {text : List Char} {a b : List (List Char)} (h1 : HasWords text a) (h2 : HasWords text b) : a = b := by
  obtain ⟨v, t, s, e1, hv, ht, -, h1⟩ := h1
  obtain ⟨v', t', s', e2, hv', ht', -, h2⟩ := h2
  have e := e1.symm.trans e2
  simp only [List.append_assoc, List.cons_append] at e
  have e3 := List.append_cancel_left e
  obtain ⟨-, e4⟩ := line_unique hv hv' e3
  obtain ⟨-, e5⟩ := line_unique ht ht' e4
  have e6 := List.append_cancel_left e5
  rw [e6] at h1
  exact tokens_unique h1 h2

section
variable {K : Type} [Field K]

theorem isNumber_unique {t : List Char} {x y : K} (h1 : IsNumber t x) (h2 : IsNumber t y) : x = y := by
  obtain ⟨l, -, -, e1, rfl⟩ := h1
  obtain ⟨l', -, -, e2, rfl⟩ := h2
  rw [lit_unique (e1.trans e2.symm)]

/-- **C73.** A text is at most one grid: points, cells, types and the words behind them are determined by the characters. -/
theorem C73_format_unique {text : List Char} {points points' : List (List K)} {cells cells' : List (List ℕ)} {types types' : List ℕ}
    {rest rest' : List (List Char)} (h : IsGrid text points cells types rest) (h' : IsGrid text points' cells' types' rest') :
    points = points' ∧ cells = cells' ∧ types = types' ∧ rest = rest' := by
  obtain ⟨_, _, _, hw, ⟨n, xs, rfl, hn, h3, hx⟩, ⟨cn, cm, cx, rfl, hcn, hcm, hcx⟩, ⟨tn, tx, rfl, htn, htx⟩, -, -⟩ := h
  obtain ⟨_, _, _, hw', ⟨n', xs', rfl, hn', h3', hx'⟩, ⟨cn', cm', cx', rfl, hcn', hcm', hcx'⟩, ⟨tn', tx', rfl, htn', htx'⟩, -, -⟩ := h'
  have e := hasWords_unique hw hw'
  simp only [List.append_assoc, List.cons_append, List.cons.injEq, true_and] at e
  obtain ⟨rfl, e⟩ := e
  obtain ⟨e1, e2⟩ := List.append_inj e (by
    rw [hx.length_eq, hx'.length_eq, flatten3_length h3, flatten3_length h3', isNat_unique hn hn'])
  clear e
  subst e1
  simp only [List.cons.injEq, true_and] at e2
  obtain ⟨rfl, rfl, e2⟩ := e2
  obtain ⟨e3, e4⟩ := List.append_inj e2 (by
    rw [hcx.length_eq, hcx'.length_eq, cells_length, cells_length, isNat_unique hcm hcm'])
  clear e2
  subst e3
  simp only [List.cons.injEq, true_and] at e4
  obtain ⟨rfl, e4⟩ := e4
  obtain ⟨e5, e6⟩ := List.append_inj e4 (by rw [htx.length_eq, htx'.length_eq, isNat_unique htn htn'])
  clear e4
  subst e5
  exact ⟨flatten3_unique h3 h3' (forall₂_unique (R := IsNumber) (fun _ _ _ => isNumber_unique) hx hx'),
    cells_unique (forall₂_unique (R := IsNat) (fun _ _ _ => isNat_unique) hcx hcx'), forall₂_unique (R := IsNat) (fun _ _ _ => isNat_unique) htx htx', e6⟩

/-- The same for the values of the points. -/
theorem C73_data_unique {ts : List (List Char)} {name name' : List Char} {values values' : List K} (h : DataWords ts name values)
    (h' : DataWords ts name' values') : name = name' ∧ values = values' := by
  obtain ⟨n, xs, rfl, -, hx⟩ := h
  obtain ⟨n', xs', e, -, hx'⟩ := h'
  simp only [List.cons.injEq, true_and] at e
  obtain ⟨rfl, rfl, rfl⟩ := e
  exact ⟨rfl, forall₂_unique (R := IsNumber) (fun _ _ _ => isNumber_unique) hx hx'⟩

end

/-! ### The written texts -/

namespace Vtk
variable {K : Type} [Field K] [LinearOrder K] [IsStrictOrderedRing K]

theorem listsAll_nat {nss : List (List ℕ)} (hd : ∀ ns ∈ nss, Dim123 ns.length) {off : ℕ} {cells : List (List ℤ)}
    (h : ListsAllCells nss off cells) : ∃ cs : List (List ℕ), cells = cs.map fun c => ((c.length : ℕ) : ℤ) :: zl c := by
  induction nss generalizing off cells with
  | nil => exact ⟨[], h⟩
  | cons ns nss ih =>
    obtain ⟨a, b, rfl, ⟨cs, -, -, rfl⟩, h2⟩ := h
    obtain ⟨ds, rfl⟩ := ih (fun m hm => hd m (by simp [hm])) h2
    refine ⟨(cs.map fun c => (corners ns.length).map fun e => off + pointNumber ns (List.zipWith (· + ·) c e)) ++ ds, ?_⟩
    rw [List.map_append, List.map_map]
    congr 1
    apply List.map_congr_left
    intro c _
    have hl : (corners ns.length).length = 2 ^ ns.length := by
      rcases hd ns (by simp) with h | h | h <;> rw [h] <;> rfl
    simp only [Function.comp, cellLine, List.length_map, hl]
    rw [zl, List.map_map]
    rfl

/-- The cells of a file as the model writes them: the number of points and their indices. -/
def cellLines (cells : List (List ℕ)) : List (List ℤ) := cells.map fun c => ((c.length : ℕ) : ℤ) :: zl c

section
variable [LawfulSig 5 K]

theorem fileText_isGrid {f : File K} {cells : List (List ℕ)} {types : List ℕ} (h0 : ∀ p ∈ f.points, p.length = 3)
    (h1 : f.pointCount = f.points.length) (h2 : f.cells = cellLines cells) (h3 : f.cellCount = cells.length)
    (h4 : f.entryCount = ((cells.map fun c => c.length + 1).sum : ℕ)) (h5 : f.types = zl types) (h6 : f.typeCount = types.length)
    (h7 : types.length = cells.length) (h8 : ∀ c ∈ cells, ∀ i ∈ c, i < f.points.length) {r : List Char} {tr : List (List Char)}
    (hr : Tokens White r tr) : IsGrid (fileText f ++ r) (f.points.map fun p => p.map (sgd 5)) cells types tr := by
  refine ⟨_, _, _, ⟨_, _, _, fileText_eq f r, by decide, by decide, by decide, fileBody_part h1 h2 h3 h4 h5 h6 _ _ hr⟩,
    ⟨_, _, rfl, ?_, ?_, ?_⟩, ⟨_, _, _, rfl, natText_isNat _, natText_isNat _, forall₂_isNat _⟩, ⟨_, _, rfl, natText_isNat _, forall₂_isNat _⟩,
    h7, ?_⟩
  · rw [List.length_map]; exact natText_isNat _
  · intro p hp
    obtain ⟨q, hq, rfl⟩ := List.mem_map.1 hp
    rw [List.length_map]; exact h0 q hq
  · rw [← List.map_flatten]; exact forall₂_isNumber _
  · rw [List.length_map]; exact h8

theorem gridValues_length {splines : List (Spl K)} {nss : List (List ℕ)} : ∀ p ∈ (List.zipWith gridValues splines nss).flatten, p.length = 3 := by
  intro p hp
  obtain ⟨l, hl, hp⟩ := List.mem_flatten.1 hp
  obtain ⟨i, hi, rfl⟩ := List.mem_iff_getElem.1 hl
  rw [List.getElem_zipWith] at hp
  obtain ⟨k, -, rfl⟩ := List.mem_map.1 hp
  simp [padded]

theorem writeText_isGrid {splines : List (Spl K)} {nss : List (List ℕ)}
    (h : List.Forall₂ (fun s ns => WFSpl s ∧ ns.length = s.ps.knots.length ∧ (∀ n ∈ ns, 0 < n) ∧ Dim123 ns.length) splines nss) :
    ∃ text cells types, writeText splines (nss.map zl) = .ok text ∧
      ListsAllCells nss 0 (cellLines cells) ∧
      zl types = (nss.map fun ns => List.replicate ns.prod (cellType ns.length)).flatten ∧
      ∀ r tr, Tokens White r tr →
        IsGrid (text ++ r) ((List.zipWith gridValues splines nss).flatten.map fun p => p.map (sgd 5)) cells types tr := by
  obtain ⟨f, hf, h1, h2, h3, h4, h5, h6, h7, h8, h9⟩ := C39_file h
  have hd : ∀ ns ∈ nss, Dim123 ns.length := by
    intro ns hns
    clear * - h hns
    induction h with
    | nil => simp at hns
    | cons h1 _ ih =>
      rcases List.mem_cons.1 hns with rfl | hns
      · exact h1.2.2.2
      · exact ih hns
  obtain ⟨cells, hc⟩ := listsAll_nat hd h3
  have ht : ∃ types : List ℕ, zl types = (nss.map fun ns => List.replicate ns.prod (cellType ns.length)).flatten := by
    clear * - hd
    induction nss with
    | nil => exact ⟨[], rfl⟩
    | cons ns nss ih =>
      obtain ⟨ts, hts⟩ := ih fun m hm => hd m (by simp [hm])
      rw [List.map_cons, List.flatten_cons, ← hts]
      refine ⟨List.replicate ns.prod (cellType ns.length).toNat ++ ts, ?_⟩
      rw [zl, List.map_append, List.map_replicate]
      congr 2
      rcases hd ns (by simp) with h | h | h <;> rw [h] <;> rfl
  obtain ⟨types, ht⟩ := ht
  refine ⟨fileText f, cells, types, by rw [writeText, hf]; rfl, by rw [← show f.cells = cellLines cells from hc]; exact h3, ht, ?_⟩
  intro r tr hr
  have hlen : types.length = f.types.length := by rw [h7, ← ht, List.length_map]
  rw [← h1]
  refine fileText_isGrid ?_ h2 hc ?_ ?_ (by rw [h7, ht]) (by rw [h8, hlen]) ?_ ?_ hr
  · rw [h1]; exact gridValues_length
  · rw [h4, hc, List.length_map]
  · rw [h5, hc, List.map_map]
    congr 2
    apply List.map_congr_left
    intro c _
    simp
  · rw [hlen, h9, hc, List.length_map]
  · intro c hc2 i hi
    have := h6 (((c.length : ℕ) : ℤ) :: zl c) (by rw [hc]; exact List.mem_map_of_mem hc2) (i : ℤ) (List.mem_map_of_mem hi)
    omega

/-- **C73.** For all well-formed splines of dimensions 1 to 3 and positive scatterings of matching sizes, the characters written by the
VTK writer are a file of the legacy format. Its coordinates are six-digit decimal numbers nearest to the geometry at the points of the
sampling grids. Its cells are the cells of the grids, each once, with the corners in the order of the format and the matching types. -/
theorem C73_file {splines : List (Spl K)} {nss : List (List ℕ)}
    (h : List.Forall₂ (fun s ns => WFSpl s ∧ ns.length = s.ps.knots.length ∧ (∀ n ∈ ns, 0 < n) ∧ Dim123 ns.length) splines nss) :
    ∃ text points cells types, writeText splines (nss.map zl) = .ok text ∧ IsGrid text points cells types [] ∧
      List.Forall₂ (List.Forall₂ (NearestDecimal 6)) (List.zipWith gridValues splines nss).flatten points ∧
      ListsAllCells nss 0 (cellLines cells) ∧
      zl types = (nss.map fun ns => List.replicate ns.prod (cellType ns.length)).flatten := by
  obtain ⟨text, cells, types, h1, h2, h3, h4⟩ := writeText_isGrid h
  have h5 := h4 [] [] Tokens.nil
  rw [List.append_nil] at h5
  refine ⟨text, _, cells, types, h1, h5, ?_, h2, h3⟩
  rw [List.forall₂_map_right_iff]
  refine List.forall₂_same.2 fun p _ => ?_
  rw [List.forall₂_map_right_iff]
  exact List.forall₂_same.2 fun x _ => sgd_nearestDecimal (p := 5) x

/-- Numbers with at most six significant digits are written exactly, ... -/
theorem C73_exact {x y : K} (h : NearestDecimal 6 x y) {m k : ℤ} (hm : |m| < 10 ^ 6) (hx : x = (m : K) * (10 : K) ^ k) : y = x := by
  have := h.2 m k hm
  rw [← hx, sub_self, abs_zero] at this
  exact sub_eq_zero.1 (abs_eq_zero.1 (le_antisymm this (abs_nonneg _)))

/-- ... and all others with a relative error of at most `10⁻⁵`. -/
theorem C73_error {x y : K} (h : NearestDecimal 6 x y) : |y - x| ≤ |x| / 10 ^ 5 := nearestDecimal_near h

end
end Vtk

/-! ### The solution of the example -/

namespace Iga
open Vtk
variable {K : Type} [Field K] [LinearOrder K] [IsStrictOrderedRing K] [LawfulSig 5 K]

/-- **C73.** `WriteSolutionToVTK` writes the grid of the geometry and, for every point of the grid, a six-digit decimal number nearest to
the value of the field with the given coefficients. -/
theorem C73_solution {s : Spl K} (h : WFSpl s) (hn : IsNurbs s) (hsz : (npts s).prod < 2 ^ 64) (hl : ∀ U ∈ s.ps.knots, U.length < 2 ^ 64)
    (u : ℕ → K) {ns : List ℕ} (hns : ns.length = s.ps.knots.length) (hpos : ∀ n ∈ ns, 0 < n) (hd : Dim123 ns.length) :
    ∃ text points cells types rest values, solutionText s (vecOf (npts s).prod u) [zl ns] = .ok text ∧
      IsGrid text points cells types rest ∧ DataWords rest "solution".toList values ∧ values.length = points.length ∧
      List.Forall₂ (List.Forall₂ (NearestDecimal 6)) (gridValues s ns) points ∧
      List.Forall₂ (NearestDecimal 6) ((List.range (gridPoints ns)).map fun k =>
        field s u (gridParam s.ps.knots ns (unlin (ns.map (· + 1)) k))) values ∧
      ListsCells ns 0 (cellLines cells) ∧ zl types = List.replicate ns.prod (cellType ns.length) := by
  obtain ⟨text, cells, types, h1, h2, h3, h4⟩ := writeText_isGrid (splines := [s]) (nss := [ns]) (.cons ⟨h, hns, hpos, hd⟩ .nil)
  have h5 := C58_vtk_data h hn hsz hl u hns hpos
  set data := (List.range (ns.map (· + 1)).prod).map fun k => field s u (Vtk.gridParam s.ps.knots ns (unlin (ns.map (· + 1)) k)) with hdata
  have h6 := h4 _ _ (pointData_part data).tokens
  refine ⟨_, _, cells, types, _, data.map (sgd 5), ?_, h6, ⟨_, _, rfl, ?_, forall₂_isNumber _⟩, ?_, ?_, ?_, ?_, ?_⟩
  · have e : writeText [s] [zl ns] = .ok text := h1
    show (do let c ← getN [zl ns] 0; _ : M (List Char)) = _
    rw [show getN [zl ns] 0 = .ok (zl ns) from rfl, ok_bind, h5, ok_bind, e, ok_bind, pure_ok]
  · rw [List.length_map (f := sgd 5)]; exact natText_isNat _
  · simp [hdata, gridValues, gridPoints]
  · rw [List.zipWith_cons_cons, List.zipWith_nil_left, List.flatten_cons, List.flatten_nil, List.append_nil, List.forall₂_map_right_iff]
    refine List.forall₂_same.2 fun p _ => ?_
    rw [List.forall₂_map_right_iff]
    exact List.forall₂_same.2 fun x _ => sgd_nearestDecimal (p := 5) x
  · rw [List.forall₂_map_right_iff]
    exact List.forall₂_same.2 fun x _ => sgd_nearestDecimal (p := 5) x
  · obtain ⟨a, b, e, ha, hb⟩ := h2
    rw [show b = [] from hb, List.append_nil] at e
    rw [e]; exact ha
  · simpa using h3

end Iga

/-! ### Six digits are few -/

namespace Vtk

/-- A straight line from 100000 to 100000.4. -/
def farLine : Spl ℚ := ⟨⟨[[0, 0, 1, 1]], [1], mkTable [[0, 0, 1, 1]] [1]⟩, ⟨1, [2], [100000, 100000 + 2 / 5], none⟩⟩

theorem farLine_wf : WFSpl farLine where
  knots := by simp only [farLine]; exact .cons (by decide +kernel) .nil
  basis := by decide +kernel
  num := by decide +kernel
  dim := by decide +kernel
  cps := by decide +kernel
  weights := by intro w h; exact absurd h (by simp [farLine])

theorem farLine_values : gridValues farLine [4] =
    [[100000, 0, 0], [100000 + 1 / 10, 0, 0], [100000 + 1 / 5, 0, 0], [100000 + 3 / 10, 0, 0], [100000 + 2 / 5, 0, 0]] := by
  decide +kernel

theorem nearest_far {x y : ℚ} (h1 : 100000 ≤ x) (h2 : x ≤ 100000 + 2 / 5) (h : NearestDecimal 6 x y) : y = 100000 := by
  obtain ⟨⟨m, k, hm, e⟩, hmin⟩ := h
  have h3 := hmin 1 5 (by norm_num)
  rw [show ((1 : ℤ) : ℚ) * (10 : ℚ) ^ (5 : ℤ) = 100000 by norm_num, abs_of_nonpos (show 100000 - x ≤ 0 by linarith)] at h3
  obtain ⟨h4, h5⟩ := abs_le.1 h3
  have hm' : (m : ℚ) < 10 ^ 6 := by exact_mod_cast (abs_lt.1 hm).2
  rcases lt_or_ge k 0 with hk | hk
  · have h10 : (10 : ℚ) ^ k ≤ 10 ^ (-1 : ℤ) := zpow_le_zpow_right₀ (by norm_num) (by omega)
    have hp : (0 : ℚ) < (10 : ℚ) ^ k := zpow_pos (by norm_num) _
    have : y < 100000 := by
      rw [e]
      calc (m : ℚ) * (10 : ℚ) ^ k < 10 ^ 6 * (10 : ℚ) ^ k := mul_lt_mul_of_pos_right hm' hp
        _ ≤ 10 ^ 6 * 10 ^ (-1 : ℤ) := mul_le_mul_of_nonneg_left h10 (by norm_num)
        _ = 100000 := by norm_num
    linarith
  · obtain ⟨n, rfl⟩ := Int.eq_ofNat_of_zero_le hk
    have e2 : y = ((m * 10 ^ n : ℤ) : ℚ) := by rw [e]; push_cast; norm_cast
    rw [e2] at h4 h5 ⊢
    have a1 : (100000 : ℤ) ≤ m * 10 ^ n := by
      have : ((100000 : ℤ) : ℚ) ≤ ((m * 10 ^ n : ℤ) : ℚ) := by push_cast at h4 ⊢; linarith
      exact_mod_cast this
    have a2 : m * 10 ^ n < (100001 : ℤ) := by
      have : ((m * 10 ^ n : ℤ) : ℚ) < ((100001 : ℤ) : ℚ) := by push_cast at h5 ⊢; linarith
      exact_mod_cast this
    have a3 : m * 10 ^ n = 100000 := by omega
    rw [a3]; norm_num

/-- Six digits do not always tell the points of a grid apart: the five points of this line differ, and the file shows one point five
times. -/
theorem C73_points_collapse_counterexample [LawfulSig 5 ℚ] : ∃ text cells types, writeText [farLine] [[4]] = .ok text ∧
    IsGrid text (List.replicate 5 [(100000 : ℚ), 0, 0]) cells types [] ∧ (gridValues farLine [4]).Nodup := by
  obtain ⟨text, points, cells, types, h1, h2, h3, -, -⟩ := C73_file (splines := [farLine]) (nss := [[4]])
    (.cons ⟨farLine_wf, rfl, by simp, Or.inl rfl⟩ .nil)
  refine ⟨text, cells, types, h1, ?_, by rw [farLine_values]; decide +kernel⟩
  have hz : ∀ y : ℚ, NearestDecimal 6 0 y → y = 0 := fun y hy => C73_exact hy (m := 0) (k := 0) (by norm_num) (by norm_num)
  have hp : ∀ (x : ℚ) (p : List ℚ), 100000 ≤ x → x ≤ 100000 + 2 / 5 → List.Forall₂ (NearestDecimal 6) [x, 0, 0] p → p = [100000, 0, 0] := by
    intro x p a b hh
    cases hh with
    | cons g1 hh => cases hh with
      | cons g2 hh => cases hh with
        | cons g3 hh =>
          cases hh
          rw [nearest_far a b g1, hz _ g2, hz _ g3]
  rw [List.zipWith_cons_cons, List.zipWith_nil_left, List.flatten_cons, List.flatten_nil, List.append_nil, farLine_values] at h3
  have e : points = List.replicate 5 [(100000 : ℚ), 0, 0] := by
    cases h3 with
    | cons g1 h3 => cases h3 with
      | cons g2 h3 => cases h3 with
        | cons g3 h3 => cases h3 with
          | cons g4 h3 => cases h3 with
            | cons g5 h3 =>
              cases h3
              rw [hp _ _ (by norm_num) (by norm_num) g1, hp _ _ (by norm_num) (by norm_num) g2, hp _ _ (by norm_num) (by norm_num) g3,
                hp _ _ (by norm_num) (by norm_num) g4, hp _ _ (by norm_num) (by norm_num) g5]
              rfl
  rwa [e] at h2

/-! ### Cases that meet the hypotheses -/

example : List.Forall₂ (fun s ns => WFSpl s ∧ ns.length = s.ps.knots.length ∧ (∀ n ∈ ns, 0 < n) ∧ Dim123 ns.length)
    [exNurbsSurface, farLine] [[1, 3], [2]] :=
  .cons ⟨exNurbsSurface_wf, rfl, by simp, Or.inr (Or.inl rfl)⟩ (.cons ⟨farLine_wf, rfl, by simp, Or.inl rfl⟩ .nil)

example : WFSpl exNurbsSurface ∧ IsNurbs exNurbsSurface ∧ (npts exNurbsSurface).prod < 2 ^ 64 ∧
    (∀ U ∈ exNurbsSurface.ps.knots, U.length < 2 ^ 64) ∧ [2, 3].length = exNurbsSurface.ps.knots.length ∧ (∀ n ∈ [2, 3], 0 < n) ∧
    Dim123 [2, 3].length :=
  ⟨exNurbsSurface_wf, ⟨_, rfl⟩, by decide +kernel, by decide +kernel, by decide +kernel, by decide, Or.inr (Or.inl rfl)⟩

attribute [local instance] sigHalfUp

/-- The text that is written for the solution on a line. -/
example : Iga.solutionText ⟨⟨[[0, 0, 1, 1]], [1], mkTable [[0, 0, 1, 1]] [1]⟩, ⟨1, [2], [0, 2], some [1, (1 : ℚ)]⟩⟩ [3, 4] [[2]] =
    .ok ("# vtk DataFile Version 3.0\nSpline from Splinelib\nASCII\n\nDATASET UNSTRUCTURED_GRID\nPOINTS 3 double\n0 0 0\n".toList ++
      "1 0 0\n2 0 0\n\nCELLS 2 6\n2 0 1\n2 1 2\n\nCELL_TYPES 2\n3\n3\n".toList ++
      "\nPOINT_DATA 3\nSCALARS solution float 1\nLOOKUP_TABLE default\n3\n3.5\n4\n".toList) := by decide +kernel

/-- Printed numbers. -/
example : numberText (-1 / 3 : ℚ) = "-0.333333".toList ∧ numberText (1234567 : ℚ) = "1.23457e+06".toList ∧
    numberText (1 / 30000 : ℚ) = "3.33333e-05".toList ∧ numberText (0 : ℚ) = "0".toList := by decide +kernel

/-- The text of a file with four points. -/
example : writeText [exCurve] [[3]] =
    .ok ("# vtk DataFile Version 3.0\nSpline from Splinelib\nASCII\n\nDATASET UNSTRUCTURED_GRID\nPOINTS 4 double\n0 0 0\n".toList ++
      "1.33333 1.77778 0\n2.66667 1.77778 0\n4 0 0\n\nCELLS 3 9\n2 0 1\n2 1 2\n2 2 3\n\nCELL_TYPES 3\n3\n3\n3\n".toList) := by
  decide +kernel

end Vtk
end SplineLib
