import Verif.Model.KnotInsertion

/-!
# Model of knot removal (src/spl/spline.h, b_spline.h, nurbs.h)

The temporary points are one flat array with `last - off + 2` entries for every line of control points in the given direction; the
line of a control point is `ExtractDimension(dimension)`.
-/

namespace SplineLib
namespace Spl
variable {K : Type} [LinearOrder K] [Field K]

/-- `NURBS::SetTempNewWeight` (nurbs.h:392-398). -/
def setTempWeight (ph : Phys K) (d : ℕ) (off last : ℤ) (h : MIH) (alpha : K) (x shift : ℤ) (tw : List K) : M (List K) := do
  let index := h.extractDimension d * (last - off + 2)
  let w ← ph.getWeight h.cur
  let o ← getI tw (index + x - off + shift)
  let v ← fdiv (w - (1 - alpha) * o) alpha
  setI tw (index + x - off) v

/-- The loop over the first `n` coordinates in `SetTempNewControlPoint` (b_spline.h:206-209, nurbs.h:357-362). -/
def coordLoop (f : ℕ → List K → M (List K)) : ℕ → List K → M (List K)
  | 0, t => .ok t
  | n + 1, t => do
    let t' ← coordLoop f n t
    f n t'

/-- `BSpline::SetTempNewControlPoint` (b_spline.h:202-210). -/
def setTempCPBSpline (ph : Phys K) (d : ℕ) (off last : ℤ) (h : MIH) (alpha : K) (x shift : ℤ) (temp : List K) : M (List K) :=
  let index := h.extractDimension d * (last - off + 2)
  coordLoop (fun k t => do
    let p ← ph.getCP h.cur
    let a ← getN p k
    let o ← getI t ((index + x - off + shift) * ph.dim + k)
    let v ← fdiv (a - (1 - alpha) * o) alpha
    setI t ((index + x - off) * ph.dim + k) v) ph.dim temp

/-- `NURBS::SetTempNewControlPoint` (nurbs.h:353-363). -/
def setTempCPNurbs (ph : Phys K) (tw : List K) (d : ℕ) (off last : ℤ) (h : MIH) (alpha : K) (x shift : ℤ) (temp : List K) :
    M (List K) :=
  let index := h.extractDimension d * (last - off + 2)
  coordLoop (fun k t => do
    let p ← ph.getHomCP h.cur
    let a ← getN p k
    let o ← getI t ((index + x - off + shift) * ph.dim + k)
    let ow ← getI tw (index + x - off + shift)
    let q ← fdiv (a - (1 - alpha) * o * ow) alpha
    let w ← getI tw (index + x - off)
    let v ← fdiv q w
    setI t ((index + x - off) * ph.dim + k) v) ph.dim temp

/-- The body of the first loop of `GetTempNewControlPoints` / `GetTempNewWeights` (b_spline.h:182-187, nurbs.h:333-338,
373-378): the first and the last entry of every line. `set` is one of the functions above. -/
def tempEnds (set : MIH → K → ℤ → ℤ → List K → M (List K)) (d : ℕ) (off last : ℤ) (h : MIH) (t : List K) : M (List K) := do
  let k ← h.at' d
  if k = off ∨ k = last + 1 then set h 1 (if k = off then off else last + 1) 0 t else return t

/-- The body of the inner loop of the second loop (b_spline.h:190-197, nurbs.h:341-348, 381-388). -/
def tempInner (set : MIH → K → ℤ → ℤ → List K → M (List K)) (scaling : List K) (d : ℕ) (off i j : ℤ) (h : MIH) (t : List K) :
    M (List K) := do
  let k ← h.at' d
  let t ← if k = i then do
      let a ← getI scaling (i - off - 1)
      set h a i (-1) t
    else pure t
  if k = j then do
    let a ← getI scaling (j - off - 1)
    set h (1 - a) j 1 t
  else return t

/-- The second loop `for (; j - i > 0; ++i, --j)` (b_spline.h:188-198, nurbs.h:339-349, 379-389) with `n` iterations left. -/
def tempRounds (set : MIH → K → ℤ → ℤ → List K → M (List K)) (num : List ℤ) (scaling : List K) (d : ℕ) (off : ℤ) :
    ℕ → ℤ → ℤ → List K → M (List K)
  | 0, _, _, t => .ok t
  | n + 1, i, j, t => do
    let h := MIH.mk' num
    let t' ← upLoop (tempInner set scaling d off i j) h.length1D.toNat h t
    tempRounds set num scaling d off n (i + 1) (j - 1) t'

/-- `GetTempNewControlPoints` / `GetTempNewWeights` (b_spline.h:175-200, nurbs.h:326-351, 365-393); `block` is the number of
coordinates per entry. A negative vector size throws `std::length_error`. The second loop runs `⌈(j - i) / 2⌉` times. -/
def getTemp (set : MIH → K → ℤ → ℤ → List K → M (List K)) (block : ℤ) (ph : Phys K) (scaling : List K) (off last i j : ℤ)
    (d : ℕ) : M (List K) := do
  let h := MIH.mk' ph.num
  let nd ← getN ph.num d
  let n ← ph.cpsPer nd
  if n * block * (last - off + 2) < 0 then .error (.thrown .lengthError)
  else
    let t ← upLoop (tempEnds set d off last) h.length1D.toNat h (List.replicate (n * block * (last - off + 2)).toNat 0)
    tempRounds set ph.num scaling d off ((j - i + 1) / 2).toNat i j t

/-- One iteration of the loop of `BSpline::IsKnotRemovable` (b_spline.h:219-236). -/
def removableBSpline [HasSqrt K] (ph : Phys K) (alfi : K) (temp : List K) (tol : K) (i j off : ℤ) (d : ℕ) (tl : ℤ) (h : MIH)
    (l : ℤ) : M Bool := do
  let t1 ← buildList (fun k => getI temp (l * tl + (i - off - 1) * ph.dim + k)) ph.dim
  let t2 ← buildList (fun k => getI temp (l * tl + (j - off + 1) * ph.dim + k)) ph.dim
  if Phys.distance (t1 ++ [1]) (t2 ++ [1]) > tol then do
    let u1 ← buildList (fun k => do
      let p ← ph.getCP (h.cur.set d i)
      getN p k) ph.dim
    let u2 ← buildList (fun k => do
      let a ← getI temp (l * tl + (i - off + 1) * ph.dim + k)
      let b ← getI temp (l * tl + (i - off - 1) * ph.dim + k)
      return alfi * a + (1 - alfi) * b) ph.dim
    return !decide (Phys.distance (u1 ++ [1]) (u2 ++ [1]) > tol)
  else return true

/-- One iteration of the loop of `NURBS::IsKnotRemovable` (nurbs.h:415-435); `tol` is the scaled tolerance. -/
def removableNurbs [HasSqrt K] (ph : Phys K) (alfi : K) (temp tw : List K) (tol : K) (i j off : ℤ) (d : ℕ) (tl twl : ℤ) (h : MIH)
    (l : ℤ) : M Bool := do
  let w1 ← getI tw (l * twl + i - off - 1)
  let w2 ← getI tw (l * twl + j - off + 1)
  let t1 ← buildList (fun k => do
    let a ← getI temp (l * tl + (i - off - 1) * ph.dim + k)
    return a * w1) ph.dim
  let t2 ← buildList (fun k => do
    let a ← getI temp (l * tl + (j - off + 1) * ph.dim + k)
    return a * w2) ph.dim
  if Phys.distance (t1 ++ [w1]) (t2 ++ [w2]) > tol then do
    let u1 ← buildList (fun k => do
      let p ← ph.getHomCP (h.cur.set d i)
      getN p k) ph.dim
    let wp ← getI tw (l * twl + i - off + 1)
    let u2 ← buildList (fun k => do
      let a ← getI temp (l * tl + (i - off + 1) * ph.dim + k)
      let b ← getI temp (l * tl + (i - off - 1) * ph.dim + k)
      return alfi * a * wp + (1 - alfi) * b * w1) ph.dim
    let v1 ← ph.getWeight (h.cur.set d i)
    let v2 := alfi * wp + (1 - alfi) * w1
    return !decide (Phys.distance (u1 ++ [v1]) (u2 ++ [v2]) > tol)
  else return true

/-- `for (int l = 0; l < n; ++l, ++point_handler) if (!f(l)) return false;  return true;` with `n` iterations left. -/
def allLines (f : MIH → ℤ → M Bool) : ℕ → MIH → ℤ → M Bool
  | 0, _, _ => .ok true
  | n + 1, h, l => do
    if ← f h l then allLines f n h.incr (l + 1) else return false

/-- `IsKnotRemovable` of `BSpline` (b_spline.h:212-239) and `NURBS` (nurbs.h:403-438). The handler has length 0 in the given
direction. -/
def isKnotRemovable [HasSqrt K] (ph : Phys K) (alfi : K) (temp tw : List K) (tol : K) (i j off : ℤ) (d : ℕ) : M Bool := do
  let nd ← getN ph.num d
  let n ← ph.cpsPer nd
  if n = 0 then .error .ub
  else
    let h := MIH.mk' (ph.num.set d 0)
    match ph.weights with
    | none => allLines (removableBSpline ph alfi temp tol i j off d ((temp.length : ℤ).tdiv n)) n.toNat h 0
    | some _ => do
      let maxdist ← ph.maxDistance
      let minw ← ph.minWeight
      let tol ← fdiv (tol * minw) (1 + maxdist)
      allLines (removableNurbs ph alfi temp tw tol i j off d ((temp.length : ℤ).tdiv n) ((tw.length : ℤ).tdiv n)) n.toNat h 0

/-- The loop body of `SetNewControlPoints` and `SetNewWeights` (b_spline.h:156-172, nurbs.h:287-303, 309-323). `fromTemp I k` and
`keep I` store the temporary entry / the old control point under the index `I`. -/
def setNewBody (fromTemp keep : MIH → List ℤ → Phys K → M (Phys K)) (last ii off : ℤ) (d : ℕ) (h : MIH) (ph : Phys K) :
    M (Phys K) := do
  let k ← h.at' d
  let ph ← if k - off ≥ 1 ∧ k - off ≠ ii ∧ k < last + 2 then fromTemp h (h.cur.set d (if k - off < ii then k else k - 1)) ph
    else pure ph
  let nd ← getN ph.num d
  if (k ≤ off ∧ k - off < 1) ∨ (k ≥ last + 1 ∧ k < nd) then keep h (h.cur.set d (if k ≤ off then k else k - 1)) ph
  else return ph

/-- `SetNewControlPoints` (b_spline.h:153-173, nurbs.h:284-304). -/
def setNewCPs (ph : Phys K) (temp : List K) (last ii off : ℤ) (d : ℕ) : M (Phys K) :=
  let h := MIH.mk' ph.num
  upLoop (setNewBody
    (fun h ix ph => do
      let k ← h.at' d
      let coords ← buildList (fun c => getI temp ((h.extractDimension d * (last - off + 2) + k - off) * ph.dim + c)) ph.dim
      ph.setCP ix coords (ph.num.modify d (· - 1)))
    (fun h ix ph => do
      let p ← ph.getCP h.cur
      ph.setCP ix p (ph.num.modify d (· - 1)))
    last ii off d) h.length1D.toNat h ph

/-- `SetNewWeights` (nurbs.h:306-324). -/
def setNewWeights (ph : Phys K) (tw : List K) (last ii off : ℤ) (d : ℕ) : M (Phys K) :=
  let h := MIH.mk' ph.num
  upLoop (setNewBody
    (fun h ix ph => do
      let k ← h.at' d
      let w ← getI tw (h.extractDimension d * (last - off + 2) + k - off)
      ph.setWeight ix w (ph.num.modify d (· - 1)))
    (fun h ix ph => do
      let w ← ph.getWeight h.cur
      ph.setWeight ix w (ph.num.modify d (· - 1)))
    last ii off d) h.length1D.toNat h ph

/-- `RemoveControlPoints(scaling, first, last, dimension, tolerance)` (b_spline.h:79-91, nurbs.h:91-105): `none` means "not removable".
`ceil((j - i) / 2.0)` is `(j - i + 1) / 2` rounded down. -/
def removeControlPoints [HasSqrt K] (ph : Phys K) (scaling : List K) (first last : ℤ) (d : ℕ) (tol : K) : M (Option (Phys K)) := do
  let off := first - 1
  let diff := (last - first + 1) / 2
  let i := first + diff
  let j := last - diff
  let (tw, temp) ← match ph.weights with
    | none => do
      let temp ← getTemp (setTempCPBSpline ph d off last) ph.dim ph scaling off last first last d
      pure (([] : List K), temp)
    | some _ => do
      let tw ← getTemp (setTempWeight ph d off last) 1 ph scaling off last first last d
      let temp ← getTemp (setTempCPNurbs ph tw d off last) ph.dim ph scaling off last first last d
      pure (tw, temp)
  let alfi ← getI scaling (i - off - 1)
  if ← isKnotRemovable ph alfi temp tw tol i j off d then do
    let ph1 ← setNewCPs ph temp last (i - off) off d
    let ph2 ← match ph.weights with
      | none => pure ph1
      | some _ => setNewWeights ph1 tw last (i - off) off d
    let nd ← getN ph2.num d
    let n ← ph2.cpsPer nd
    let ph3 ← ph2.removeCPs n
    return some { ph3 with num := ph3.num.modify d (· - 1) }
  else return none

/-- The loop of `RemoveKnot` (spline.h:191-206) with `n` attempts left; `count` is the number of knots removed so far. -/
def removeRounds [HasSqrt K] (x : K) (d : ℕ) (tol : K) : ℕ → ℕ → Spl K → M (Spl K × ℕ)
  | 0, count, s => .ok (s, count)
  | n + 1, count, s => do
    let U ← getN s.ps.knots d
    let p ← getN s.ps.degree d
    let span ← kvSpan U x
    let last := toSizeT (span - kvMult U x)
    let first : ℤ := span - p
    let scaling ← scalingLoop U x ((p : ℤ) + 1) (stepCount (toSizeT first) last) (toSizeT first)
    match ← removeControlPoints s.ph scaling first (intOfSizeT last) d tol with
    | none => return (s, count)
    | some ph => do
      let ps ← s.ps.removeKnot x d
      removeRounds x d tol n (count + 1) ⟨ps, ph⟩

/-- `RemoveKnot(knot, dimension, tolerance, multiplicity)` (spline.h:189-207): the changed spline and the returned count. -/
def removeKnot [HasSqrt K] (s : Spl K) (x : K) (d : ℕ) (tol : K) (mult : ℕ := 1) : M (Spl K × ℕ) := removeRounds x d tol mult 0 s

end Spl
end SplineLib
