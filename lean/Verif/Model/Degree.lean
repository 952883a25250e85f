import Verif.Model.KnotRemoval

/-!
# Model of degree elevation and reduction (src/spl/spline.h:209-253, 287-426)

The control points of a Bezier segment are homogeneous: `GetPointDim() + 1` coordinates. The entry for index `j` in the direction and
line `i` of a segment of width `w` is number `j + w * i` (`MultiIndexHandler<2>::Get1DIndex({j, i})`).
-/

namespace SplineLib
namespace Spl
variable {K : Type} [LinearOrder K] [Field K]

/-- `for (int i = start; i < start + n; ++i) body(i)`. -/
def forLoop {σ : Type} (body : ℕ → σ → M σ) : ℕ → ℕ → σ → M σ
  | 0, _, s => .ok s
  | n + 1, i, s => do
    let s' ← body i s
    forLoop body n (i + 1) s'

/-- `for (int j = start; j > start - n; --j) body(j)`. -/
def forDown {σ : Type} (body : ℤ → σ → M σ) : ℕ → ℤ → σ → M σ
  | 0, _, s => .ok s
  | n + 1, j, s => do
    let s' ← body j s
    forDown body n (j - 1) s'

/-- `ComputeBezierDegreeElevationCoefficients(dimension)` (spline.h:287-293). -/
def elevationCoefficients (K : Type) [Field K] (p : ℕ) : List K := (List.range (p + 2)).map fun (i : ℕ) => (i : K) / ((p : K) + 1)

/-- `while (GetKnot(current) == GetKnot(current + 1)) { ++current; ... }` (spline.h:300-303, 317-319): the final index. Reading
behind the end of the knot vector is undefined, so the loop ends after at most `U.length` steps (`fuel`). -/
def skipEqual (U : List K) : ℕ → ℕ → M ℕ
  | 0, _ => .error .ub
  | fuel + 1, cur => do
    let a ← kvGet U cur
    let b ← kvGet U (cur + 1)
    if a = b then skipEqual U fuel (cur + 1) else return cur

/-- The loop of `ProduceBezierSegments` (spline.h:298-307). `diff` are the finished entries, `left` is the number of entries that
follow; `cur` is `current_knot`. The loop condition is evaluated anew in every iteration; writing behind the end of `diff` is
undefined. -/
def produceLoop (d : ℕ) : ℕ → List ℤ → ℕ → Spl K → M (Spl K × List ℤ)
  | left, diff, cur, s => do
    let U ← getN s.ps.knots d
    if (diff.length : ℤ) < (kvNumDifferent U : ℤ) - 2 then
      match left with
      | 0 => .error .ub
      | left + 1 => do
        let p ← getN s.ps.degree d
        let cur' ← skipEqual U (U.length + 1) cur
        let df : ℤ := (p : ℤ) - 1 - ((cur' : ℤ) - cur)
        let x ← kvGet U cur'
        let s' ← s.insertKnot x d (toSizeT df)
        produceLoop d left (diff ++ [df]) (toSizeT (cur' + df + 1)) s'
    else return (s, diff ++ List.replicate left ((s.ps.degree.getD d 0 : ℤ) - 1))

/-- `ProduceBezierSegments(dimension)` (spline.h:295-309): the changed spline and the numbers of inserted knots. A vector of size
`-1` throws `std::length_error`. -/
def produceBezier (s : Spl K) (d : ℕ) : M (Spl K × List ℤ) := do
  let p ← getN s.ps.degree d
  let U ← getN s.ps.knots d
  if (kvNumDifferent U : ℤ) - 2 < 0 then .error (.thrown .lengthError)
  else produceLoop d (kvNumDifferent U - 2) [] (p + 1) s

/-- The loop of `RemoveBezierKnots` (spline.h:313-320) in iteration number `i`, with `left = diff.size() - i`. -/
def removeBezierLoop [HasSqrt K] (d : ℕ) (diff : List ℤ) : ℕ → ℕ → ℕ → Spl K → M (Spl K)
  | left, i, cur, s => do
    let U ← getN s.ps.knots d
    if (i : ℤ) < (kvNumDifferent U : ℤ) - 2 then
      match left with
      | 0 => .error .ub
      | left + 1 => do
        let x ← kvGet U cur
        let df ← getN diff i
        let (s', _) ← s.removeKnot x d (kEps K) (toSizeT df)
        let U' ← getN s'.ps.knots d
        let cur' ← skipEqual U' (U'.length + 1) cur
        removeBezierLoop d diff left (i + 1) (cur' + 1) s'
    else return s

/-- `RemoveBezierKnots(diff, dimension)` (spline.h:311-321). -/
def removeBezier [HasSqrt K] (s : Spl K) (diff : List ℤ) (d : ℕ) : M (Spl K) := do
  let p ← getN s.ps.degree d
  removeBezierLoop d diff diff.length 0 (p + 1) s

/-- `GetBezierSegment(dimension, segment)` (spline.h:323-341). -/
def bezierSegment (s : Spl K) (d : ℕ) (segment : ℤ) : M (List (List K)) := do
  let p ← getN s.ps.degree d
  let width : ℤ := p + 1
  let nd ← getN s.ph.num d
  let len ← s.ph.cpsPer nd
  if width * len < 0 then .error (.thrown .lengthError)
  else
    let h := MIH.mk' s.ph.num
    upLoop (fun h acc => do
      let k ← h.at' d
      if k ≥ segment * width - segment ∧ k < (segment + 1) * width - segment then do
        let index := (k + segment).tmod width + h.extractDimension d * width
        let w ← s.ph.getWeight h.cur
        let cp ← s.ph.getCP h.cur
        setI acc index (cp.map (fun a => a * w) ++ [w])
      else return acc) h.length1D.toNat h (List.replicate (width * len).toNat (List.replicate (s.ph.dim + 1) 0))

/-- `ControlPoint::operator*` (control_point.cc:57-62). -/
def scale (a : K) (p : List K) : List K := p.map fun v => v * a

/-- `ControlPoint::operator+` and `operator-` (control_point.cc:39-55): a shorter right operand is read behind its end. -/
def addPt (p q : List K) : M (List K) := if p.length ≤ q.length then .ok (List.zipWith (· + ·) p q) else .error .ub

def subPt (p q : List K) : M (List K) := if p.length ≤ q.length then .ok (List.zipWith (· - ·) p q) else .error .ub

/-- The body of the outer loop of `DegreeElevateBezierSegment` (spline.h:350-357) for line `i`. The inner loop runs over
`1 ≤ j < degree`. -/
def elevateLine (p : ℕ) (b : List (List K)) (alpha : List K) (i : ℕ) (new : List (List K)) : M (List (List K)) := do
  let width : ℤ := (p : ℤ) + 2
  let a ← getI b (0 + (width - 1) * i)
  let new ← setI new (0 + width * i) a
  let a ← getI b ((width - 2) + (width - 1) * i)
  let new ← setI new ((width - 1) + width * i) a
  forLoop (fun j new => do
    let b1 ← getI b ((j : ℤ) + (width - 1) * i)
    let a1 ← getN alpha j
    let b2 ← getI b (((j : ℤ) - 1) + (width - 1) * i)
    let v ← addPt (scale (1 - a1) b1) (scale a1 b2)
    setI new ((j : ℤ) + width * i) v) (p - 1) 1 new

/-- `DegreeElevateBezierSegment(bezier_cps, alpha, dimension)` (spline.h:343-360). -/
def elevateBezier (s : Spl K) (d : ℕ) (b : List (List K)) (alpha : List K) : M (List (List K)) := do
  let p ← getN s.ps.degree d
  let nd ← getN s.ph.num d
  let len ← s.ph.cpsPer nd
  if ((p : ℤ) + 2) * len < 0 then .error (.thrown .lengthError)
  else
    forLoop (elevateLine p b alpha) len.toNat 0 (List.replicate (((p : ℤ) + 2) * len).toNat (List.replicate (s.ph.dim + 1) 0))

/-- The body of the outer loop of `DegreeReduceBezierSegment` (spline.h:376-408) for line `i`; `q` is `new_degree = degree - 1`. The
state is the new control points and `max_error_bound`. -/
def reduceLine [HasSqrt K] (q : ℤ) (b : List (List K)) (i : ℕ) (st : List (List K) × K) : M (List (List K) × K) := do
  let old : ℤ → ℤ := fun j => j + (q + 2) * i
  let nw : ℤ → ℤ := fun j => j + (q + 1) * i
  let r : ℤ := q.tdiv 2
  let odd : Bool := decide ((q + 1).tmod 2 ≠ 0)
  let (new, err) := st
  let a ← getI b (old 0)
  let new ← setI new (nw 0) a
  let a ← getI b (old (q + 1))
  let new ← setI new (nw q) a
  let new ← forLoop (fun j new => do
    let alpha ← fdiv ((j : K)) ((q + 1 : ℤ) : K)
    let b1 ← getI b (old j)
    let c1 ← getI new (nw ((j : ℤ) - 1))
    let v ← subPt b1 (scale alpha c1)
    let f ← fdiv 1 (1 - alpha)
    setI new (nw j) (scale f v)) (if odd then r - 1 else r).toNat 1 new
  let new ← forDown (fun j new => do
    let alpha ← fdiv (((j + 1 : ℤ) : K)) ((q + 1 : ℤ) : K)
    let b1 ← getI b (old (j + 1))
    let c1 ← getI new (nw (j + 1))
    let v ← subPt b1 (scale (1 - alpha) c1)
    let f ← fdiv 1 alpha
    setI new (nw j) (scale f v)) (q - 1 - r).toNat (q - 1) new
  if odd then do
    let ar ← fdiv ((r : ℤ) : K) ((q + 1 : ℤ) : K)
    let ar1 ← fdiv ((r + 1 : ℤ) : K) ((q + 1 : ℤ) : K)
    let b1 ← getI b (old r)
    let c1 ← getI new (nw (r - 1))
    let v ← subPt b1 (scale ar c1)
    let f ← fdiv 1 (1 - ar)
    let pl := scale f v
    let b2 ← getI b (old (r + 1))
    let c2 ← getI new (nw (r + 1))
    let v2 ← subPt b2 (scale (1 - ar1) c2)
    let f2 ← fdiv 1 ar1
    let pr := scale f2 v2
    let sm ← addPt pl pr
    let new ← setI new (nw r) (scale (1 / 2) sm)
    let e ← subPt pl pr
    return (new, if Phys.twoNorm e > err then Phys.twoNorm e else err)
  else do
    let b1 ← getI b (old (r + 1))
    let c1 ← getI new (nw r)
    let c2 ← getI new (nw (r + 1))
    let sm ← addPt c1 c2
    let e ← subPt b1 (scale (1 / 2) sm)
    return (new, if Phys.twoNorm e > err then Phys.twoNorm e else err)

/-- `DegreeReduceBezierSegment(bezier_cps, tolerance, dimension, &successful)` (spline.h:362-411). The coefficients `alpha_r`,
`alpha_r_plus` divide by `new_degree + 1` (0 for degree 0); they are only used in the odd case. -/
def reduceBezier [HasSqrt K] (s : Spl K) (d : ℕ) (b : List (List K)) (tol : K) : M (List (List K) × Bool) := do
  let p ← getN s.ps.degree d
  let nd ← getN s.ph.num d
  let len ← s.ph.cpsPer nd
  if (p : ℤ) * len < 0 then .error (.thrown .lengthError)
  else
    let (new, err) ← forLoop (reduceLine ((p : ℤ) - 1) b) len.toNat 0
      (List.replicate ((p : ℤ) * len).toNat (List.replicate (s.ph.dim + 1) 0), 0)
    return (new, decide (err < tol))

/-- `SetNewControlPoint(control_point, weight, indices)` (b_spline.h:241-243, nurbs.h:440-442, weighted_physical_space.h:77-80). -/
def setNewCP (ph : Phys K) (cp : List K) (weight : K) (ix : List ℤ) : M (Phys K) := do
  let ph' ← ph.setCP ix cp ph.num
  match ph.weights with
  | none => return ph'
  | some _ => ph'.setWeight ix weight ph'.num

/-- The body of the loop of `SetNewBezierSegmentControlPoints` (spline.h:411-425). Division by `width - 1 = 0` (degree 0) is
undefined; `width` is `degree + 1`. -/
def setBezierBody (segs : List (List (List K))) (p : ℕ) (d : ℕ) (h : MIH) (ph : Phys K) : M (Phys K) := do
  let width : ℤ := (p : ℤ) + 1
  let k ← h.at' d
  if width - 1 = 0 then .error .ub
  else do
    let segment := k.tdiv (width - 1)
    let index := k.tmod (width - 1) + h.extractDimension d * width
    let big : Bool := decide (toSizeT segment > toSizeT ((segs.length : ℤ) - 1))
    let segment := if big then segment - 1 else segment
    let index := if big then (width - 1) + h.extractDimension d * width else index
    let seg ← getI segs segment
    let pt ← getI seg index
    let w ← getN pt ph.dim
    let cp ← buildList (fun j => do
      let a ← getN pt j
      fdiv a w) ph.dim
    setNewCP ph cp w h.cur

/-- `SetNewBezierSegmentControlPoints(bezier_segments, dimension)` (spline.h:407-426). -/
def setBezierCPs (s : Spl K) (segs : List (List (List K))) (d : ℕ) : M (Spl K) := do
  let p ← getN s.ps.degree d
  let h := MIH.mk' s.ph.num
  let ph ← upLoop (setBezierBody segs p d) h.length1D.toNat h s.ph
  return { s with ph := ph }

/-- `ElevateDegreeForDimension(dimension)` (spline.h:209-227). -/
def elevateDegree [HasSqrt K] (s : Spl K) (d : ℕ) : M (Spl K) := do
  let U ← getN s.ps.knots d
  let n := kvNumDifferent U - 1
  let p ← getN s.ps.degree d
  let alpha := elevationCoefficients K p
  let (s, diff) ← s.produceBezier d
  let segs ← buildList (fun i => do
    let b ← s.bezierSegment d i
    s.elevateBezier d b alpha) n
  let U ← getN s.ps.knots d
  let num := s.ph.num.modify d (· + ((kvNumDifferent U : ℤ) - 1))
  let old ← s.ph.numCPs
  let ph := { s.ph with num := num }.addCPs ((MIH.mk' num).length1D - old)
  let ps ← s.ps.elevateDegree d
  let ps ← ps.incrementMultiplicities d
  let s ← setBezierCPs ⟨ps, ph⟩ segs d
  s.removeBezier diff d

/-- The loop over the segments in `ReduceDegreeForDimension` (spline.h:233-241): `none` if a segment cannot be reduced; the later
segments are not looked at then. -/
def reduceSegments [HasSqrt K] (s : Spl K) (d : ℕ) (tol : K) : ℕ → ℕ → M (Option (List (List (List K))))
  | 0, _ => .ok (some [])
  | n + 1, i => do
    let b ← s.bezierSegment d i
    let (seg, ok) ← s.reduceBezier d b tol
    if ok then do
      match ← reduceSegments s d tol n (i + 1) with
      | none => return none
      | some r => return some (seg :: r)
    else return none

/-- `ReduceDegreeForDimension(dimension, tolerance)` (spline.h:229-253): the changed spline and the returned flag. -/
def reduceDegree [HasSqrt K] (s : Spl K) (d : ℕ) (tol : K) : M (Spl K × Bool) := do
  let (s, diff) ← s.produceBezier d
  let U ← getN s.ps.knots d
  let n := kvNumDifferent U - 1
  match ← s.reduceSegments d tol n 0 with
  | none => do
    let s ← s.removeBezier diff d
    return (s, false)
  | some segs => do
    let num := s.ph.num.modify d (· - (n : ℤ))
    let old ← s.ph.numCPs
    let ph ← { s.ph with num := num }.removeCPs (old - (MIH.mk' num).length1D)
    let ps ← s.ps.reduceDegree d
    let ps ← ps.decrementMultiplicities d
    let s ← setBezierCPs ⟨ps, ph⟩ segs d
    let s ← s.removeBezier diff d
    return (s, true)

end Spl
end SplineLib
