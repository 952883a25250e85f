import Verif.Model.Rounded
import Verif.Model.KnotInsertion

/-!
# Knot insertion with rounded arithmetic

`InsertKnot` and `RefineKnots` where every floating point operation is followed by a rounding, in the order of the C++ code.
-/

namespace SplineLib
set_option linter.unusedSectionVars false

namespace Fl
variable {K : Type} [LinearOrder K] [Field K] (r : Rounding K)

/-- `scaling * upper + (1 - scaling) * lower` (b_spline.h:144-145, nurbs.h:258-259, 277). -/
def mix (a u l : K) : K := r.rnd (r.rnd (a * u) + r.rnd (r.rnd (1 - a) * l))

/-- The loop over the coordinates (b_spline.h:143-146). -/
def blend (a : K) (upper lower : List K) : M (List K) :=
  buildList (fun j => do
    let u ← getN upper j
    let l ← getN lower j
    return mix r a u l) upper.length

/-- `BSpline::GetNewControlPoint` (b_spline.h:132-151). -/
def newCPBSpline (ph : Phys K) (ix : List ℤ) (d : ℕ) (scaling : List K) (cur first last : ℤ) : M (List K) :=
  if cur > last then ph.getCP (ix.modify d (· - 1))
  else if cur ≥ first then do
    let upper ← ph.getCP ix
    let lower ← ph.getCP (ix.modify d (· - 1))
    if upper.length = 0 then return []
    else
      let a ← getI scaling (cur - first)
      blend r a upper lower
  else ph.getCP ix

/-- `NURBS::GetNewWeight` (nurbs.h:267-282). -/
def newWeight (ph : Phys K) (ix : List ℤ) (d : ℕ) (scaling : List K) (cur first last : ℤ) : M K :=
  if cur > last then ph.getWeight (ix.modify d (· - 1))
  else if cur ≥ first then do
    let upper ← ph.getWeight ix
    let lower ← ph.getWeight (ix.modify d (· - 1))
    let a ← getI scaling (cur - first)
    return mix r a upper lower
  else ph.getWeight ix

/-- `NURBS::GetNewControlPoint` (nurbs.h:245-265). -/
def newCPNurbs (ph : Phys K) (ix : List ℤ) (d : ℕ) (scaling : List K) (cur first last : ℤ) : M (List K) :=
  if cur > last then ph.getCP (ix.modify d (· - 1))
  else if cur ≥ first then do
    let upper ← homCP r ph ix
    let lower ← homCP r ph (ix.modify d (· - 1))
    let w ← newWeight r ph ix d scaling cur first last
    let a ← getI scaling (cur - first)
    buildList (fun j => do
      let u ← getN upper j
      let l ← getN lower j
      div r (mix r a u l) w) upper.length
  else ph.getCP ix

/-- The loop body of `AdjustControlPoints` (b_spline.h:69-74, nurbs.h:80-86). -/
def adjustBody (scaling : List K) (first last : ℤ) (d : ℕ) (h : MIH) (ph : Phys K) : M (Phys K) := do
  let cur ← h.at' d
  match ph.weights with
  | none =>
    let cp ← newCPBSpline r ph h.cur d scaling cur first last
    ph.setCP h.cur cp (ph.num.modify d (· + 1))
  | some _ =>
    let cp ← newCPNurbs r ph h.cur d scaling cur first last
    let w ← newWeight r ph h.cur d scaling cur first last
    let ph' ← ph.setCP h.cur cp (ph.num.modify d (· + 1))
    ph'.setWeight h.cur w (ph.num.modify d (· + 1))

/-- `AdjustControlPoints(scaling, first, last, dimension)` of `BSpline` (b_spline.h:60-77) and `NURBS` (nurbs.h:70-89). -/
def adjustCPs (ph : Phys K) (scaling : List K) (first last : ℤ) (d : ℕ) : M (Phys K) := do
  let h0 := MIH.mk' (ph.num.modify d (· + 1))
  let maxIx := ph.maxIndex.modify d (· + 1)
  let h := h0.setIndices maxIx
  let m ← getN maxIx d
  let n ← ph.cpsPer m
  let ph1 := ph.addCPs n
  let ph2 ← downLoop (adjustBody r scaling first last d) h.length1D.toNat h ph1
  return { ph2 with num := ph2.num.modify d (· + 1) }

/-- The scaling factors for `j = first, first + 1, ..., last` (spline.h:171-175) as a loop with `n` remaining steps. -/
def scalingLoop (U : List K) (x : K) (shift : ℤ) : ℕ → ℕ → M (List K)
  | 0, _ => .ok []
  | n + 1, j => do
    let low ← kvGet U j
    let upper ← kvGet U (toSizeT (j + shift))
    let a ← div r (r.rnd (x - low)) (r.rnd (upper - low))
    let rest ← scalingLoop U x shift n (j + 1)
    return a :: rest

/-- The rounds `i, i+1, ...` (`n` of them) of the first loop of `InsertKnot` (spline.h:166-177). -/
def insertRounds (U : List K) (p : ℕ) (x : K) (d : ℕ) : ℕ → ℕ → ℤ → Phys K → M (Phys K)
  | 0, _, _, ph => .ok ph
  | n + 1, i, span, ph => do
    let isLast ← isLast r U x
    let span := if isLast then span + 1 else span
    let last := toSizeT (span - kvMult U x)
    let first := toSizeT (span - p + i)
    let scaling ← scalingLoop r U x ((p : ℤ) - i + 1) (Spl.stepCount first last) first
    let ph' ← adjustCPs r ph scaling (Spl.intOfSizeT first) (Spl.intOfSizeT last) d
    insertRounds U p x d n (i + 1) span ph'

/-- `KnotVector::InsertKnot` (knot_vector.cc:147-150). -/
def kvInsert (U : List K) (x : K) : M (List K) := do
  let k ← span r U x
  if 0 ≤ k + 1 ∧ k + 1 ≤ U.length then
    return U.insertIdx (k + 1).toNat x
  else .error .ub

/-- `ParameterSpace::InsertKnot(knot, dimension)` (parameter_space.h:153-156, 229-244). -/
def psInsertKnot (ps : PS K) (x : K) (d : ℕ) : M (PS K) := do
  let U ← getN ps.knots d
  let V ← kvInsert r U x
  copyPS r { ps with knots := ps.knots.set d V }

/-- The second loop of `InsertKnot` (spline.h:178-180). -/
def insertKnotsPS (x : K) (d : ℕ) : ℕ → PS K → M (PS K)
  | 0, ps => .ok ps
  | n + 1, ps => do
    let ps' ← psInsertKnot r ps x d
    insertKnotsPS x d n ps'

/-- `InsertKnot(knot, dimension, multiplicity)` (spline.h:163-181). -/
def insertKnot (s : Spl K) (x : K) (d : ℕ) (mult : ℕ := 1) : M (Spl K) := do
  let U ← getN s.ps.knots d
  let p ← getN s.ps.degree d
  let k ← span r U x
  let ph ← insertRounds r U p x d mult 1 k s.ph
  let ps ← insertKnotsPS r x d mult s.ps
  return ⟨ps, ph⟩

/-- `RefineKnots(new_knots, dimension)` (spline.h:183-187). -/
def refineKnots (s : Spl K) (xs : List K) (d : ℕ) : M (Spl K) := PS.forEach (fun s x => insertKnot r s x d) xs s

end Fl
end SplineLib
