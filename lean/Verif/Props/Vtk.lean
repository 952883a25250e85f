import Verif.Core.Vtk
import Verif.Spec.Examples

/-!
# C39: the VTK writer
-/

namespace SplineLib
namespace Vtk
open Finset
set_option linter.unusedSectionVars false

variable {K : Type} [Field K] [LinearOrder K] [IsStrictOrderedRing K]

/-- **C39, cells of one spline.** For every grid of dimension 1, 2 or 3 the writer lists each cell exactly once, with the numbers of its
corners in the order that VTK prescribes. -/
theorem C39_cells_of_grid (ns : List ℕ) (off : ℕ) (hd : ns.length = 1 ∨ ns.length = 2 ∨ ns.length = 3) :
    ∃ cells, addCells (zl ns) off ns.length = .ok cells ∧ ListsCells ns off cells := by
  match ns, hd with
  | [n0], _ => exact ⟨_, rfl, cells1_lists n0 off⟩
  | [n0, n1], _ =>
    obtain ⟨l, h1, h2⟩ := cells2_lists n0 n1 off
    exact ⟨l, by simpa [addCells, zl, getN] using h1, h2⟩
  | [n0, n1, n2], _ =>
    obtain ⟨l, h1, h2⟩ := cells3_lists n0 n1 n2 off
    exact ⟨l, by simpa [addCells, zl, getN] using h1, h2⟩
  | [], h => simp at h
  | _ :: _ :: _ :: _ :: _, h => simp at h

example : addCells (zl [2, 1]) 5 2 = .ok [[4, 5, 6, 9, 8], [4, 6, 7, 10, 9]] ∧
    cellLine [2, 1] 5 [1, 0] = [4, 6, 7, 10, 9] := by decide

theorem zipWith_inBox {D : ℕ} {ns c e : List ℕ} (h : InBox ns c) (he : InBox (List.replicate D 2) e) (hD : ns.length = D) :
    InBox (ns.map (· + 1)) (List.zipWith (· + ·) c e) := by
  induction ns generalizing c e D with
  | nil =>
    obtain rfl := inBox_nil_iff.1 h
    simp
  | cons n ns ih =>
    cases c with
    | nil => simp at h
    | cons x c =>
      subst hD
      rw [List.length_cons, List.replicate_succ] at he
      cases e with
      | nil => simp at he
      | cons y e =>
        obtain ⟨h1, h2⟩ := inBox_cons.1 h
        obtain ⟨h3, h4⟩ := inBox_cons.1 he
        simp only [List.map_cons, List.zipWith_cons_cons, inBox_cons]
        exact ⟨by omega, ih h2 h4 rfl⟩

theorem corners_inBox {D : ℕ} : ∀ e ∈ corners D, InBox (List.replicate D 2) e := by
  match D with
  | 0 => simp [corners]
  | 1 => simp [corners]
  | 2 => simp [corners, List.replicate_succ]
  | 3 => simp [corners, List.replicate_succ]
  | _ + 4 => simp [corners]

/-- A line of a cell refers to points of its own grid. -/
theorem cellLine_range {ns c : List ℕ} (off : ℕ) (h : InBox ns c) :
    ∀ i ∈ (cellLine ns off c).tail, (off : ℤ) ≤ i ∧ i < ((off + gridPoints ns : ℕ) : ℤ) := by
  intro i hi
  simp only [cellLine, List.tail_cons, List.mem_map] at hi
  obtain ⟨e, he, rfl⟩ := hi
  have := lin_lt (zipWith_inBox h (corners_inBox e he) rfl)
  unfold gridPoints pointNumber
  omega

theorem corners_length {D : ℕ} (h : D = 1 ∨ D = 2 ∨ D = 3) : (corners D).length = 2 ^ D := by
  rcases h with rfl | rfl | rfl <;> rfl

theorem cellLine_length {ns : List ℕ} (off : ℕ) (c : List ℕ) (h : ns.length = 1 ∨ ns.length = 2 ∨ ns.length = 3) :
    ((cellLine ns off c).length : ℤ) = entriesPerCell ns.length := by
  simp only [cellLine, List.length_cons, List.length_map, corners_length h]
  rcases h with h | h | h <;> rw [h] <;> decide

/-- A list of all cells of a grid has as many entries as the grid has cells. -/
theorem listsCells_length {ns : List ℕ} {off : ℕ} {cells : List (List ℤ)} (h : ListsCells ns off cells) :
    cells.length = ns.prod := by
  obtain ⟨cs, h1, h2, rfl⟩ := h
  rw [List.length_map]
  rcases Nat.eq_zero_or_pos ns.prod with h0 | h0
  · rw [h0, List.length_eq_zero_iff]
    by_contra hne
    obtain ⟨c, hc⟩ := List.exists_mem_of_ne_nil _ hne
    have := lin_lt ((h2 c).1 hc)
    omega
  · have hp : List.Perm cs ((List.range ns.prod).map (unlin ns)) := by
      rw [List.perm_ext_iff_of_nodup h1]
      · intro c
        rw [h2, List.mem_map]
        constructor
        · intro h; exact ⟨lin ns c, List.mem_range.2 (lin_lt h), unlin_lin h⟩
        · rintro ⟨k, -, rfl⟩; exact unlin_inBox (prod_pos_iff.1 h0) k
      · refine (List.nodup_map_iff_inj_on List.nodup_range).2 ?_
        intro a ha b hb he
        rw [← lin_unlin (ns := ns) (List.mem_range.1 ha), he, lin_unlin (List.mem_range.1 hb)]
    rw [hp.length_eq]; simp

theorem numberOfCells_zl (ns : List ℕ) : numberOfCells (zl ns) = (ns.prod : ℕ) := by
  rw [numberOfCells, foldl_mul_int, one_mul, zl_prod]

/-- Dimension 1, 2 or 3. -/
def Dim123 (n : ℕ) : Prop := n = 1 ∨ n = 2 ∨ n = 3

theorem used_eq {n : ℕ} (h : Dim123 n) : used n = n := by
  rcases h with rfl | rfl | rfl <;> rfl

theorem numCells_eq {ns : List ℕ} (h : Dim123 ns.length) : numCells ns.length (zl ns) = (ns.prod : ℕ) := by
  rw [numCells, used_eq h, List.take_of_length_le (by simp), numberOfCells_zl]

theorem numPoints_eq {ns : List ℕ} (h : Dim123 ns.length) : numPoints ns.length (zl ns) = (gridPoints ns : ℕ) := by
  rw [numPoints, used_eq h, List.take_of_length_le (by simp)]
  have : (zl ns).map (· + 1) = zl (ns.map (· + 1)) := by simp [zl]
  rw [this, numberOfCells_zl]; rfl

theorem addCellTypes_eq {ns : List ℕ} (h : Dim123 ns.length) :
    addCellTypes (zl ns) ns.length = List.replicate ns.prod (cellType ns.length) := by
  have e : ∀ k, ns.length = k → (numberOfCells ((zl ns).take k)).toNat = ns.prod := by
    intro k hk
    rw [List.take_of_length_le (by simp [hk]), numberOfCells_zl, Int.toNat_natCast]
  unfold addCellTypes
  rcases h with h | h | h <;> rw [if_congr (by rw [h]) rfl rfl] <;> simp [h, e _ h, cellType]

theorem foldl_add (l : List ℤ) (a : ℤ) : l.foldl (· + ·) a = a + l.sum := by
  induction l generalizing a with
  | nil => simp
  | cons b l ih => simp only [List.foldl_cons, List.sum_cons, ih]; ring

theorem allCells_eq (nss : List (List ℕ)) (hd : ∀ ns ∈ nss, Dim123 ns.length) (off : ℕ) :
    ∃ cells, allCells (nss.map List.length) (nss.map zl) off = .ok cells ∧ ListsAllCells nss off cells := by
  induction nss generalizing off with
  | nil => exact ⟨[], rfl, rfl⟩
  | cons ns nss ih =>
    obtain ⟨a, h1, h2⟩ := C39_cells_of_grid ns off (hd ns (by simp))
    obtain ⟨b, h3, h4⟩ := ih (fun m hm => hd m (by simp [hm])) (off + gridPoints ns)
    refine ⟨a ++ b, ?_, a, b, rfl, h2, h4⟩
    simp only [List.map_cons, allCells]
    have h1' : addCells (List.map Nat.cast ns) (off : ℤ) ns.length = .ok a := h1
    have e : numPoints ns.length (List.map Nat.cast ns) = ((gridPoints ns : ℕ) : ℤ) := numPoints_eq (hd ns (by simp))
    rw [h1', ok_bind, e]
    push_cast at h3 ⊢
    rw [h3, ok_bind, pure_ok]

theorem listsAll_length {nss : List (List ℕ)} {off : ℕ} {cells : List (List ℤ)} (h : ListsAllCells nss off cells) :
    cells.length = (nss.map List.prod).sum := by
  induction nss generalizing off cells with
  | nil => rw [show cells = [] from h]; rfl
  | cons ns nss ih =>
    obtain ⟨a, b, rfl, h1, h2⟩ := h
    rw [List.length_append, listsCells_length h1, ih h2]; simp

theorem listsAll_range {nss : List (List ℕ)} {off : ℕ} {cells : List (List ℤ)} (h : ListsAllCells nss off cells) :
    ∀ l ∈ cells, ∀ i ∈ l.tail, (off : ℤ) ≤ i ∧ i < ((off + (nss.map gridPoints).sum : ℕ) : ℤ) := by
  induction nss generalizing off cells with
  | nil => rw [show cells = [] from h]; simp
  | cons ns nss ih =>
    obtain ⟨a, b, rfl, ⟨cs, -, hcs, rfl⟩, h2⟩ := h
    intro l hl i hi
    rcases List.mem_append.1 hl with hl | hl
    · obtain ⟨c, hc, rfl⟩ := List.mem_map.1 hl
      have := cellLine_range off ((hcs c).1 hc) i hi
      simp only [List.map_cons, List.sum_cons]
      omega
    · have := ih h2 l hl i hi
      simp only [List.map_cons, List.sum_cons]
      omega

theorem listsAll_entries {nss : List (List ℕ)} (hd : ∀ ns ∈ nss, Dim123 ns.length) {off : ℕ} {cells : List (List ℤ)}
    (h : ListsAllCells nss off cells) :
    ((cells.map List.length).sum : ℤ) = (nss.map fun ns => ((ns.prod : ℕ) : ℤ) * entriesPerCell ns.length).sum := by
  induction nss generalizing off cells with
  | nil => rw [show cells = [] from h]; rfl
  | cons ns nss ih =>
    obtain ⟨a, b, rfl, h1, h2⟩ := h
    have hl := listsCells_length h1
    obtain ⟨cs, -, hcs, rfl⟩ := h1
    rw [List.map_append, List.sum_append, Nat.cast_add]
    rw [ih (fun m hm => hd m (by simp [hm])) h2, List.map_cons, List.sum_cons]
    congr 1
    rw [List.length_map] at hl
    rw [← hl]
    clear hcs hl
    induction cs with
    | nil => simp
    | cons c cs ih2 =>
      simp only [List.map_cons, List.sum_cons, List.length_cons, Nat.cast_add]
      rw [cellLine_length off c (hd ns (by simp))]
      simp only [List.map_map] at ih2 ⊢
      rw [ih2, Nat.cast_one]; ring

/-- The numbers that the points section should contain: the geometry at all grid points. -/
def gridValues (s : Spl K) (ns : List ℕ) : List (List K) :=
  (List.range (gridPoints ns)).map fun k => padded s (gridParam s.ps.knots ns (unlin (ns.map (· + 1)) k))

theorem allPoints_eq {splines : List (Spl K)} {nss : List (List ℕ)}
    (h : List.Forall₂ (fun s ns => WFSpl s ∧ ns.length = s.ps.knots.length ∧ (∀ n ∈ ns, 0 < n) ∧ Dim123 ns.length) splines nss) :
    allPoints splines (nss.map zl) = .ok ((List.zipWith gridValues splines nss).flatten) := by
  induction h with
  | nil => rfl
  | @cons s ns ss nss h1 h2 ih =>
    obtain ⟨hs, hl, hp, hd⟩ := h1
    simp only [List.map_cons, allPoints]
    have e : addPoints s (List.map Nat.cast ns) s.ps.knots.length = .ok (gridValues s ns) := by
      unfold addPoints
      rw [← hl, if_pos (show ns.length = 1 ∨ ns.length = 2 ∨ ns.length = 3 from hd), List.take_of_length_le (by simp)]
      exact writePoints_eq hs hl hp
    rw [e, ok_bind]
    have ih' : allPoints ss (List.map (fun l => List.map Nat.cast l) nss) = .ok (List.zipWith gridValues ss nss).flatten := ih
    rw [show nss.map zl = List.map (fun l => List.map Nat.cast l) nss from rfl, ih', ok_bind, pure_ok]
    simp

theorem checkSizes_ok : ∀ (nss : List (List ℕ)), checkSizes (nss.map zl) (nss.map List.length) = .ok () := by
  intro nss
  induction nss with
  | nil => rfl
  | cons ns nss ih => simp only [List.map_cons, checkSizes, List.length_map]; rw [if_neg (by simp)]; exact ih

/-- **C39.** For every list of well-formed splines of dimensions 1 to 3 and every positive scattering of matching sizes, the file
contains: the values of the geometry at all points of the sampling grids, padded with zeros to three coordinates; every cell of every
grid exactly once, with the right corners; cell types that match; header counts that equal the numbers of lines and entries; and
every cell refers to points of the file. -/
theorem C39_file {splines : List (Spl K)} {nss : List (List ℕ)}
    (h : List.Forall₂ (fun s ns => WFSpl s ∧ ns.length = s.ps.knots.length ∧ (∀ n ∈ ns, 0 < n) ∧ Dim123 ns.length) splines nss) :
    ∃ f, writeFile splines (nss.map zl) = .ok f ∧
      f.points = (List.zipWith gridValues splines nss).flatten ∧
      f.pointCount = f.points.length ∧
      ListsAllCells nss 0 f.cells ∧
      f.cellCount = f.cells.length ∧
      f.entryCount = (f.cells.map List.length).sum ∧
      (∀ l ∈ f.cells, ∀ i ∈ l.tail, 0 ≤ i ∧ i < (f.points.length : ℤ)) ∧
      f.types = (nss.map fun ns => List.replicate ns.prod (cellType ns.length)).flatten ∧
      f.typeCount = f.types.length ∧ f.types.length = f.cells.length := by
  have hd : ∀ ns ∈ nss, Dim123 ns.length := by
    intro ns hns
    clear * - h hns
    induction h with
    | nil => simp at hns
    | cons h1 _ ih =>
      rcases List.mem_cons.1 hns with rfl | hns
      · exact h1.2.2.2
      · exact ih hns
  have hlen : splines.length = nss.length := h.length_eq
  have hdims : splines.map (fun s => s.ps.knots.length) = nss.map List.length := by
    clear * - h
    induction h with
    | nil => rfl
    | cons h1 _ ih => simp only [List.map_cons, ih, h1.2.1]
  obtain ⟨cells, hc, hl⟩ := allCells_eq nss hd 0
  have hc' : allCells (nss.map List.length) (nss.map zl) 0 = .ok cells := hc
  have e1 : List.zipWith numCells (nss.map List.length) (nss.map zl) = nss.map fun ns => ((ns.prod : ℕ) : ℤ) := by
    clear * - hd
    induction nss with
    | nil => rfl
    | cons ns nss ih =>
      have := numCells_eq (hd ns (by simp))
      simp only [List.map_cons, List.zipWith_cons_cons]
      exact congrArg₂ _ this (ih fun m hm => hd m (by simp [hm]))
  have e2 : List.zipWith numPoints (nss.map List.length) (nss.map zl) = nss.map fun ns => ((gridPoints ns : ℕ) : ℤ) := by
    clear * - hd
    induction nss with
    | nil => rfl
    | cons ns nss ih =>
      have := numPoints_eq (hd ns (by simp))
      simp only [List.map_cons, List.zipWith_cons_cons]
      exact congrArg₂ _ this (ih fun m hm => hd m (by simp [hm]))
  have e3 : List.zipWith (fun d c => addCellTypes c d) (nss.map List.length) (nss.map zl)
      = nss.map fun ns => List.replicate ns.prod (cellType ns.length) := by
    clear * - hd
    induction nss with
    | nil => rfl
    | cons ns nss ih =>
      have := addCellTypes_eq (hd ns (by simp))
      simp only [List.map_cons, List.zipWith_cons_cons]
      exact congrArg₂ _ this (ih fun m hm => hd m (by simp [hm]))
  have e4 : List.zipWith (fun d n => n * entriesPerCell d) (nss.map List.length) (nss.map fun ns => ((ns.prod : ℕ) : ℤ))
      = nss.map fun ns => ((ns.prod : ℕ) : ℤ) * entriesPerCell ns.length := by
    rw [List.zipWith_map]; simp
  have hpl : ((List.zipWith gridValues splines nss).flatten.length : ℕ) = (nss.map gridPoints).sum := by
    clear * - h
    induction h with
    | nil => rfl
    | cons h1 _ ih => simp only [List.zipWith_cons_cons, List.flatten_cons, List.length_append, ih, List.map_cons, List.sum_cons, gridValues,
        List.length_map, List.length_range]
  have hcast : ∀ g : List ℕ → ℕ, (nss.map fun ns => ((g ns : ℕ) : ℤ)).sum = (((nss.map g).sum : ℕ) : ℤ) := by
    intro g
    clear * -
    induction nss with
    | nil => rfl
    | cons a l ih => simp only [List.map_cons, List.sum_cons, ih]; push_cast; rfl
  have htl : (nss.map fun ns => List.replicate ns.prod (cellType ns.length)).flatten.length = (nss.map List.prod).sum := by
    clear * -
    induction nss with
    | nil => rfl
    | cons a l ih => simp only [List.map_cons, List.flatten_cons, List.length_append, List.length_replicate, List.sum_cons, ih]
  refine ⟨⟨(nss.map fun ns => ((gridPoints ns : ℕ) : ℤ)).foldl (· + ·) 0, (List.zipWith gridValues splines nss).flatten,
    (nss.map fun ns => ((ns.prod : ℕ) : ℤ)).foldl (· + ·) 0,
    (nss.map fun ns => ((ns.prod : ℕ) : ℤ) * entriesPerCell ns.length).foldl (· + ·) 0, cells,
    (nss.map fun ns => ((ns.prod : ℕ) : ℤ)).foldl (· + ·) 0,
    (nss.map fun ns => List.replicate ns.prod (cellType ns.length)).flatten⟩, ?_, rfl, ?_, hl, ?_, ?_, ?_, rfl, ?_, ?_⟩
  · unfold writeFile
    simp only [hdims]
    rw [if_neg (by simp), checkSizes_ok, ok_bind, allPoints_eq h, ok_bind, hc', ok_bind, pure_ok, e1, e2, e3, e4]
  · dsimp only
    rw [foldl_add, zero_add, hpl, hcast gridPoints]
  · dsimp only
    rw [foldl_add, zero_add, listsAll_length hl, hcast List.prod]
  · dsimp only
    rw [foldl_add, zero_add, ← listsAll_entries hd hl]
  · intro l hl2 i hi
    have := listsAll_range hl l hl2 i hi
    dsimp only
    rw [hpl]
    simpa using this
  · dsimp only
    rw [foldl_add, zero_add, htl, hcast List.prod]
  · dsimp only
    rw [htl, listsAll_length hl]

/-- **C39, refusals.** A list of scatterings of another length than the list of splines, or a scattering with another number of entries
than its spline has dimensions, is refused with a runtime error. -/
theorem C39_wrong_sizes_refused (splines : List (Spl K)) (scat : List (List ℤ))
    (h : scat.length ≠ splines.length ∨ ∃ i : ℕ, ∃ s c, splines[i]? = some s ∧ scat[i]? = some c ∧ c.length ≠ s.ps.knots.length) :
    writeFile splines scat = .error (.thrown .runtimeError) := by
  unfold writeFile
  simp only
  by_cases hl : scat.length ≠ (splines.map fun s => s.ps.knots.length).length
  · rw [if_pos hl]
  · rw [if_neg hl]
    rcases h with h | ⟨i, s, c, h1, h2, h3⟩
    · exact absurd (by simpa using h) hl
    · have : checkSizes scat (splines.map fun s => s.ps.knots.length) = .error (.thrown .runtimeError) := by
        clear hl
        induction splines generalizing scat i with
        | nil => simp at h1
        | cons a l ih =>
          cases scat with
          | nil => simp at h2
          | cons b m =>
            simp only [List.map_cons, checkSizes]
            by_cases hb : b.length ≠ a.ps.knots.length
            · rw [if_pos hb]
            · rw [if_neg hb]
              cases i with
              | zero =>
                obtain rfl : a = s := by simpa using h1
                obtain rfl : b = c := by simpa using h2
                exact absurd h3 hb
              | succ i => exact ih m i (by simpa using h1) (by simpa using h2)
      rw [this, error_bind]

/-- A case that meets the hypotheses: a curve and a NURBS surface. -/
example : List.Forall₂ (fun s ns => WFSpl s ∧ ns.length = s.ps.knots.length ∧ (∀ n ∈ ns, 0 < n) ∧ Dim123 ns.length)
    [exCurve, exNurbsSurface] [[2], [1, 3]] :=
  .cons ⟨exCurve_wf, rfl, by simp, Or.inl rfl⟩ (.cons ⟨exNurbsSurface_wf, rfl, by simp, Or.inr (Or.inl rfl)⟩ .nil)

example : (writeFile [exCurve, exNurbsSurface] [[2], [1, 1]]).map (fun f => (f.pointCount, f.cellCount, f.entryCount, f.cells, f.types))
    = .ok (7, 3, 11, [[2, 0, 1], [2, 1, 2], [4, 3, 4, 6, 5]], [3, 3, 9]) := by decide +kernel

end Vtk
end SplineLib
