import Verif.Model.Spline
import Verif.Model.Strings
import Verif.Model.Printing

/-!
# The IRIT writer and reader (src/io/irit_writer.cc, irit_writer_utils.h, irit_reader.cc, irit_reader_utils.h)

A file is its list of characters. Opening the file is assumed to succeed. Splines are given with their number of directions (the
template parameter `DIM`), which is the number of knot vectors.
-/

namespace SplineLib
namespace Irit
open Str Prn
variable {K : Type} [LinearOrder K] [Field K]

/-! ## Writer -/

/-- `GetNumberOfControlPoints(spline)` (irit_writer_utils.h:28-35). -/
def numbersText (s : Spl K) : List Char := s.ph.num.flatMap fun n => intText n ++ [' ']

/-- `GetOrder(spline)` (irit_writer_utils.h:37-43). -/
def orderText (s : Spl K) : List Char := s.ps.degree.flatMap fun p => natText (p + 1) ++ [' ']

/-- The loop over the knots, or over the coordinates of a control point: numbers separated by blanks, then "]\n"
(irit_writer_utils.h:50-53, 67-72). -/
def listText [DecPrinter K] : List K → List Char
  | [] => []
  | [x] => doubleText x ++ "]\n".toList
  | x :: y :: xs => doubleText x ++ ' ' :: listText (y :: xs)

/-- `GetKnotVectors(spline)` (irit_writer_utils.h:45-56). -/
def knotsText [DecPrinter K] (s : Spl K) : List Char := s.ps.knots.flatMap fun U => "      [KV ".toList ++ listText U

/-- One iteration of the loop of `GetControlPoints` (irit_writer_utils.h:66-73). -/
def pointText [DecPrinter K] (ph : Phys K) (h : MIH) (acc : List Char) : M (List Char) := do
  let p ← ph.getCP h.cur
  match ph.weights with
  | none => return acc ++ ("      [".toList ++ listText (p.map (· * 1)))
  | some _ => do
    let w ← ph.getWeight h.cur
    return acc ++ ("      [".toList ++ (doubleText w ++ ' ' :: listText (p.map (· * w))))

/-- `GetControlPoints(rational, spline_ptr, spline)` (irit_writer_utils.h:59-75). -/
def pointsText [DecPrinter K] (ph : Phys K) : M (List Char) :=
  let h := MIH.mk' ph.num
  upLoop (pointText ph) h.length1D.toNat h []

/-- `GetPointType(rational, space_dimension)` (irit_writer.cc:82-84). -/
def pointType (ph : Phys K) : List Char := (if ph.weights.isSome then 'P' else 'E') :: natText ph.dim

/-- `Write1DSpline`, `Write2DSpline` and `Write3DSpline` (irit_writer.cc:55-80); `kind` is the word for the dimension. -/
def splineText [DecPrinter K] (kind : List Char) (s : Spl K) : M (List Char) := do
  let points ← pointsText s.ph
  return kind ++ (" BSPLINE ".toList ++ (numbersText s ++ (orderText s ++ (pointType s.ph ++ ('\n' :: (knotsText s ++ points))))))

/-- `AddSpline(file, spline, spline_number)` (irit_writer.cc:40-53). -/
def addSpline [DecPrinter K] (s : Spl K) (number : ℕ) : M (List Char) := do
  let body ← if s.ps.knots.length = 1 then splineText "[CURVE".toList s
    else if s.ps.knots.length = 2 then splineText "[SURFACE".toList s
    else if s.ps.knots.length = 3 then splineText "[TRIVAR".toList s
    else .error (.thrown .runtimeError)
  return "  [OBJECT SPLINE".toList ++ (natText (number + 1) ++ ("\n    ".toList ++ (body ++ "    ]\n  ]\n".toList)))

/-- The loop of `WriteFile` (irit_writer.cc:29-34) from spline `number` on. -/
def splinesText [DecPrinter K] : List (Spl K) → ℕ → M (List Char)
  | [], _ => .ok []
  | [s], number => addSpline s number
  | s :: t :: rest, number => do
    let a ← addSpline s number
    let b ← splinesText (t :: rest) (number + 1)
    return a ++ '\n' :: b

/-- `WriteFile(splines, filename)` (irit_writer.cc:24-38): the contents of the file. -/
def writeFile [DecPrinter K] (splines : List (Spl K)) : M (List Char) := do
  let t ← splinesText splines 0
  return "[OBJECT SPLINES\n".toList ++ (t ++ [']'])

/-! ## Reader

A position in `entries` is represented by the entries from this position on; it is never moved backwards. -/

/-- `StringToDouble(trim(entry))`. -/
def readNumber (K : Type) [Field K] (e : List Char) : M K := stringToDouble K (trim e)

/-- `GetDimension(type)` (irit_reader.cc:59-61). -/
def dimensionOf (e : List Char) : ℕ :=
  if e = "[CURVE".toList then 1 else if e = "[SURFACE".toList then 2 else if e = "[TRIVAR".toList then 3 else 0

/-- `StringVectorToNumberVector<int>({entry})[0]`. -/
def readInt (K : Type) [LinearOrder K] [Field K] [FloorRing K] (e : List Char) : M ℤ := do
  let v ← stringToDouble K e
  return truncate v

/-- `GetNumberOfControlPoints(start, entries)` (irit_reader.cc:105-111); `es` are the entries from `start` on. -/
def readTotal (K : Type) [LinearOrder K] [Field K] [FloorRing K] (es : List (List Char)) : M ℤ := do
  let e ← getN es 0
  let ns ← buildList (fun i => do
    let e ← getN es (2 + i)
    readInt K e) (dimensionOf e)
  return ns.foldl (· * ·) 1

/-- `while (!stop(entries[start++])) {}`: the position behind the first entry that satisfies `stop`. -/
def skipBehind (stop : List Char → Bool) : List (List Char) → M (List (List Char))
  | [] => .error .ub
  | e :: es => if stop e then .ok es else skipBehind stop es

/-- `GetPositionOfFirstControlPoint(start, entries)` without the initial increment (irit_reader.cc:151-158). -/
def firstPoint : List (List Char) → M (List (List Char))
  | [] => .error .ub
  | e :: es => if !startsWith e ['['] || startsWith e "[KV".toList then firstPoint es else .ok (e :: es)

/-- The knots up to the next entry that starts with '[' (irit_reader_utils.h:43-46). -/
def readKnots (K : Type) [Field K] : List (List Char) → M (List K × List (List Char))
  | [] => .error .ub
  | e :: es =>
    if startsWith e ['['] then .ok ([], e :: es)
    else do
      let v ← readNumber K e
      let (r, rest) ← readKnots K es
      return (v :: r, rest)

/-- `GetKnotVectors<DIM>(start, entries)` (irit_reader_utils.h:39-50) for `n` more directions. -/
def readKnotVectors (K : Type) [Field K] : ℕ → List (List Char) → M (List (List K))
  | 0, _ => .ok []
  | n + 1, es => do
    let es ← skipBehind (fun e => startsWith e "[KV".toList) es
    let (U, rest) ← readKnots K es
    let r ← readKnotVectors K n rest
    return U :: r

/-- `GetDegrees<DIM>(start, entries)` (irit_reader_utils.h:29-36). A negative degree is treated as undefined behaviour. -/
def readDegrees (K : Type) [LinearOrder K] [Field K] [FloorRing K] (D : ℕ) (es : List (List Char)) : M (List ℕ) :=
  buildList (fun i => do
    let e ← getN es (D + 2 + i)
    let o ← readInt K e
    if o < 1 then .error .ub else return (o - 1).toNat) D

/-- The loop of `GetWeights` (irit_reader.cc:142-147) with `n` points left. -/
def readWeights (K : Type) [Field K] : ℕ → List (List Char) → M (List K)
  | 0, _ => .ok []
  | n + 1, es => do
    let e ← getN es 0
    let w ← readNumber K e
    let es ← skipBehind (fun e => endsWith e [']']) (es.drop 1)
    let r ← readWeights K n es
    return w :: r

/-- The coordinates of one control point (irit_reader.cc:121-127). -/
def readCoords (w : K) : List (List Char) → M (List K × List (List Char))
  | [] => .error .ub
  | e :: es =>
    if endsWith e [']'] then do
      let v ← readNumber K e
      let q ← fdiv v w
      return ([q], es)
    else do
      let v ← readNumber K e
      let q ← fdiv v w
      let (r, rest) ← readCoords w es
      return (q :: r, rest)

/-- The loop of `GetControlPoints` (irit_reader.cc:120-132) over the weights. -/
def readPoints (rational : Bool) : List K → List (List Char) → M (List (List K))
  | [], _ => .ok []
  | w :: ws, es => do
    let (c, rest) ← readCoords w es
    let r ← readPoints rational ws rest
    return (if rational then c.tail else c) :: r

/-- `Get1DSpline`, `Get2DSpline` and `Get3DSpline` (irit_reader.cc:63-103). -/
def readSpline (K : Type) [LinearOrder K] [Field K] [FloorRing K] (D : ℕ) (es : List (List Char)) : M (Spl K) := do
  let knots ← readKnotVectors K D es
  let degree ← readDegrees K D es
  let type ← getN es (2 * D + 2)
  let rational := startsWith type ['P']
  let n ← readTotal K es
  if n < 0 then .error (.thrown .lengthError)
  else
    let weights ← if rational then do
        let es' ← firstPoint (es.drop 1)
        readWeights K n.toNat es'
      else pure (List.replicate n.toNat 1)
    let es' ← firstPoint (es.drop 1)
    let points ← readPoints rational weights es'
    if rational then Spl.newNurbs knots degree points weights else Spl.newBSpline knots degree points

/-- `GetSplinePositions(entries)` (irit_reader.cc:49-57), without the subtraction of one: the positions of "BSPLINE", counted from `i`. -/
def splinePositions : List (List Char) → ℕ → List ℕ
  | [], _ => []
  | e :: es, i => if e = "BSPLINE".toList then i :: splinePositions es (i + 1) else splinePositions es (i + 1)

/-- The loop of `ReadFile` over the positions (irit_reader.cc:37-45). -/
def readAll (K : Type) [LinearOrder K] [Field K] [FloorRing K] (entries : List (List Char)) : List ℕ → M (List (Spl K))
  | [] => .ok []
  | i :: is => do
    if i = 0 then .error .ub
    else
      let es := entries.drop (i - 1)
      let e ← getN es 0
      if dimensionOf e = 0 then readAll K entries is
      else do
        let s ← readSpline K (dimensionOf e) es
        let r ← readAll K entries is
        return s :: r

/-- `ReadFile(filename)` (irit_reader.cc:23-47); `file` is the contents of the file. -/
def readFile (K : Type) [LinearOrder K] [Field K] [FloorRing K] (file : List Char) : M (List (Spl K)) :=
  let entries := split (getlines '\n' file).flatten ' '
  readAll K entries (splinePositions entries 0)

end Irit
end SplineLib
