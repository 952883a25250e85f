import Verif.Model.Spline

/-!
# Model of knot insertion, knot refinement and subdivision (src/spl/spline.h, b_spline.h, nurbs.h)
-/

namespace SplineLib
namespace Spl
variable {K : Type} [LinearOrder K] [Field K]

/-- `static_cast<int>(n)` of a `size_t`: values from the upper half of the range are negative numbers (`int` is idealised to the same
width as `size_t`). -/
def intOfSizeT (n : ℕ) : ℤ := if n < 2 ^ 63 then n else (n : ℤ) - 2 ^ 64

/-- `alpha * upper + (1 - alpha) * lower`, coordinate-wise over the coordinates of `upper` (b_spline.h:142-146). -/
def blend (alpha : K) (upper lower : List K) : M (List K) :=
  buildList (fun j => do
    let u ← getN upper j
    let l ← getN lower j
    return alpha * u + (1 - alpha) * l) upper.length

/-- `BSpline::GetNewControlPoint` (b_spline.h:132-151). -/
def newCPBSpline (ph : Phys K) (ix : List ℤ) (d : ℕ) (scaling : List K) (cur first last : ℤ) : M (List K) :=
  if cur > last then ph.getCP (ix.modify d (· - 1))
  else if cur ≥ first then do
    let upper ← ph.getCP ix
    let lower ← ph.getCP (ix.modify d (· - 1))
    if upper.length = 0 then return []
    else
      let a ← getI scaling (cur - first)
      blend a upper lower
  else ph.getCP ix

/-- `NURBS::GetNewWeight` (nurbs.h:267-282). -/
def newWeight (ph : Phys K) (ix : List ℤ) (d : ℕ) (scaling : List K) (cur first last : ℤ) : M K :=
  if cur > last then ph.getWeight (ix.modify d (· - 1))
  else if cur ≥ first then do
    let upper ← ph.getWeight ix
    let lower ← ph.getWeight (ix.modify d (· - 1))
    let a ← getI scaling (cur - first)
    return a * upper + (1 - a) * lower
  else ph.getWeight ix

/-- `NURBS::GetNewControlPoint` (nurbs.h:245-265). -/
def newCPNurbs (ph : Phys K) (ix : List ℤ) (d : ℕ) (scaling : List K) (cur first last : ℤ) : M (List K) :=
  if cur > last then ph.getCP (ix.modify d (· - 1))
  else if cur ≥ first then do
    let upper ← ph.getHomCP ix
    let lower ← ph.getHomCP (ix.modify d (· - 1))
    let w ← newWeight ph ix d scaling cur first last
    let a ← getI scaling (cur - first)
    buildList (fun j => do
      let u ← getN upper j
      let l ← getN lower j
      fdiv (a * u + (1 - a) * l) w) upper.length
  else ph.getCP ix

/-- The loop body of `AdjustControlPoints` (b_spline.h:69-74, nurbs.h:80-86). -/
def adjustBody (scaling : List K) (first last : ℤ) (d : ℕ) (h : MIH) (ph : Phys K) : M (Phys K) := do
  let cur ← h.at' d
  match ph.weights with
  | none =>
    let cp ← newCPBSpline ph h.cur d scaling cur first last
    ph.setCP h.cur cp (ph.num.modify d (· + 1))
  | some _ =>
    let cp ← newCPNurbs ph h.cur d scaling cur first last
    let w ← newWeight ph h.cur d scaling cur first last
    let ph' ← ph.setCP h.cur cp (ph.num.modify d (· + 1))
    ph'.setWeight h.cur w (ph.num.modify d (· + 1))

/-- `AdjustControlPoints(scaling, first, last, dimension)` of `BSpline` (b_spline.h:60-77) and `NURBS` (nurbs.h:70-89). -/
def adjustCPs (ph : Phys K) (scaling : List K) (first last : ℤ) (d : ℕ) : M (Phys K) := do
  let h0 := MIH.mk' (ph.num.modify d (· + 1))
  let maxIx := ph.maxIndex.modify d (· + 1)
  let h := h0.setIndices maxIx
  let m ← getN maxIx d
  let n ← ph.cpsPer m
  let ph1 := ph.addCPs n
  let ph2 ← downLoop (adjustBody scaling first last d) h.length1D.toNat h ph1
  return { ph2 with num := ph2.num.modify d (· + 1) }

/-- The scaling factors for `j = first, first + 1, ..., last` (spline.h:171-175, 197-201) as a loop with `n` remaining steps. All
indices are `size_t`; `shift` is `degree - i + 1` (insertion) resp. `degree + 1` (removal). -/
def scalingLoop (U : List K) (x : K) (shift : ℤ) : ℕ → ℕ → M (List K)
  | 0, _ => .ok []
  | n + 1, j => do
    let low ← kvGet U j
    let upper ← kvGet U (toSizeT (j + shift))
    let a ← fdiv (x - low) (upper - low)
    let r ← scalingLoop U x shift n (j + 1)
    return a :: r

/-- Number of steps of `for (j = first; j <= last; ++j)`. -/
def stepCount (first last : ℕ) : ℕ := last + 1 - first

/-- The rounds `i, i+1, ...` (`n` of them) of the first loop of `InsertKnot` (spline.h:166-177). The knot vector `U` does not
change during this loop. -/
def insertRounds (U : List K) (p : ℕ) (x : K) (d : ℕ) : ℕ → ℕ → ℤ → Phys K → M (Phys K)
  | 0, _, _, ph => .ok ph
  | n + 1, i, span, ph => do
    let isLast ← kvIsLast U x
    let span := if isLast then span + 1 else span
    let last := toSizeT (span - kvMult U x)
    let first := toSizeT (span - p + i)
    let scaling ← scalingLoop U x ((p : ℤ) - i + 1) (stepCount first last) first
    let ph' ← adjustCPs ph scaling (intOfSizeT first) (intOfSizeT last) d
    insertRounds U p x d n (i + 1) span ph'

/-- The second loop of `InsertKnot` (spline.h:178-180). -/
def insertKnotsPS (x : K) (d : ℕ) : ℕ → PS K → M (PS K)
  | 0, ps => .ok ps
  | n + 1, ps => do
    let ps' ← ps.insertKnot x d
    insertKnotsPS x d n ps'

/-- `InsertKnot(knot, dimension, multiplicity)` (spline.h:163-181). -/
def insertKnot (s : Spl K) (x : K) (d : ℕ) (mult : ℕ := 1) : M (Spl K) := do
  let U ← getN s.ps.knots d
  let p ← getN s.ps.degree d
  let span ← kvSpan U x
  let ph ← insertRounds U p x d mult 1 span s.ph
  let ps ← insertKnotsPS x d mult s.ps
  return ⟨ps, ph⟩

/-- `RefineKnots(new_knots, dimension)` (spline.h:183-187). -/
def refineKnots (s : Spl K) (xs : List K) (d : ℕ) : M (Spl K) := PS.forEach (fun s x => s.insertKnot x d) xs s

/-- One part of `SudivideSpline` (b_spline.h:104-107, nurbs.h:120-124); also returns `length`. -/
def subdividePart (s : Spl K) (knots : List (List K)) (first : ℤ) (d : ℕ) : M (Spl K × ℤ) := do
  let U ← getN knots d
  let p ← getN s.ps.degree d
  let length : ℤ := (U.length : ℤ) - p - 1
  let points ← s.ph.dividedCPs first length d
  match s.ph.weights with
  | none =>
    let r ← newBSpline knots s.ps.degree points
    let r ← r.copy
    return (r, length)
  | some _ =>
    let weights ← s.ph.dividedWeights first length d
    let r ← newNurbs knots s.ps.degree points weights
    let r ← r.copy
    return (r, length)

/-- The number of insertions `degree + 1 - multiplicity` in `size_t` (b_spline.h:94-95, nurbs.h:108-110). -/
def subdivideMult (p : ℕ) (U : List K) (x : K) : ℕ := toSizeT ((p : ℤ) + 1 - kvMult U x)

/-- `SudivideSpline(param_coord, dimension)` (b_spline.h:93-111, nurbs.h:107-128): returns the changed original and the two parts. -/
def subdivide (s : Spl K) (x : K) (d : ℕ) : M (Spl K × Spl K × Spl K) := do
  let U ← getN s.ps.knots d
  let p ← getN s.ps.degree d
  let s ← s.insertKnot x d (subdivideMult p U x)
  let (kl, kr) ← s.ps.dividedKnotVectors x d
  let (l, len) ← s.subdividePart kl 0 d
  let (r, _) ← s.subdividePart kr len d
  return (s, l, r)

end Spl
end SplineLib
