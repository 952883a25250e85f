import Verif.Model.Spline
import Verif.Model.Strings
import Verif.Model.Printing

/-!
# The XML writer and reader (src/io/xml_writer.cc, xml_writer_utils.h, xml_reader.cc, xml_reader_utils.h)

The document is modelled as the tree that pugixml builds. Saving the tree and parsing the file (pugixml's `save_file` and `load_file`)
are in `Model/Pugi.lean`. Opening the file is assumed to succeed.
-/

namespace SplineLib
namespace Xml
open Str Prn

/-- A `pugi::xml_node` of type `node_element` or `node_pcdata`. -/
inductive Node where
  | elem (name : List Char) (attrs : List (List Char × List Char)) (children : List Node)
  | pcdata (value : List Char)

namespace Node

/-- The children of a node; `none` is the empty node handle. -/
def childList : Option Node → List Node
  | some (elem _ _ cs) => cs
  | _ => []

/-- `node.first_child()`. -/
def firstChild (n : Option Node) : Option Node := (childList n).head?

/-- `node.name()`. -/
def name : Node → List Char
  | elem n _ _ => n
  | pcdata _ => []

/-- `node.child(name)`: the first child with this name. -/
def child (n : Option Node) (s : List Char) : Option Node := (childList n).find? fun c => c.name = s

/-- `node.value()`. -/
def value : Option Node → List Char
  | some (pcdata v) => v
  | _ => []

/-- `node.attribute(name).value()`: the value of the first attribute with this name, or the empty string. -/
def attr (n : Option Node) (s : List Char) : List Char :=
  match n with
  | some (elem _ as _) => ((as.find? fun a => a.1 = s).map Prod.snd).getD []
  | _ => []

end Node

variable {K : Type} [LinearOrder K] [Field K]

/-! ## Writer -/

/-- `AddSplineAttributes(spline_node, spline_dimension, space_dimension, control_points)` (xml_writer.cc:99-107). -/
def splineAttributes (splDim spaceDim points : ℤ) : List (List Char × List Char) :=
  [("splDim".toList, intText splDim), ("spaceDim".toList, intText spaceDim), ("numOfCntrlPntVars".toList, intText spaceDim),
    ("numCntrlPnts".toList, intText points)]

/-- `AddControlPointVarNames(spline_node, space_dimension)` (xml_writer.cc:109-120). -/
def varNames (spaceDim : ℕ) : Node :=
  .elem "cntrlPntVarNames".toList []
    (if spaceDim = 1 then [.pcdata "\n      x\n    ".toList]
    else if spaceDim = 2 then [.pcdata "\n      x y\n    ".toList]
    else if spaceDim = 3 then [.pcdata "\n      x y z\n    ".toList]
    else if spaceDim = 4 then [.pcdata "\n      x y z t\n    ".toList]
    else [])

/-- One iteration of the loop of `AddControlPointVars` (xml_writer_utils.h:56-62). -/
def pointText [DecPrinter K] (ph : Phys K) (h : MIH) (acc : List Char) : M (List Char) := do
  let p ← ph.getCP h.cur
  return acc ++ ("\n      ".toList ++ p.flatMap fun x => doubleText x ++ "  ".toList)

/-- `AddControlPointVars(spline_node, spline_ptr)` (xml_writer_utils.h:52-64). -/
def controlPointVars [DecPrinter K] (ph : Phys K) : M Node := do
  let h := MIH.mk' ph.num
  let t ← upLoop (pointText ph) h.length1D.toNat h []
  return .elem "cntrlPntVars".toList [] [.pcdata (t ++ "\n    ".toList)]

/-- One iteration of the loop of `AddWeights` (xml_writer_utils.h:71-74). -/
def weightText [DecPrinter K] (ph : Phys K) (h : MIH) (acc : List Char) : M (List Char) := do
  let w ← ph.getWeight h.cur
  return acc ++ ("\n      ".toList ++ (doubleText w ++ "  ".toList))

/-- `AddWeights(spline_node, spline)` (xml_writer_utils.h:66-76). -/
def weightsNode [DecPrinter K] (ph : Phys K) : M Node := do
  let h := MIH.mk' ph.num
  let t ← upLoop (weightText ph) h.length1D.toNat h []
  return .elem "wght".toList [] [.pcdata (t ++ "\n    ".toList)]

/-- `AddDegrees(spline_node, spline_ptr)` (xml_writer_utils.h:30-37). -/
def degreesNode (degree : List ℕ) : Node :=
  .elem "deg".toList [] [.pcdata ((degree.flatMap fun p => "\n      ".toList ++ natText p) ++ "\n    ".toList)]

/-- One knot vector (xml_writer_utils.h:42-48). -/
def knotsNode [DecPrinter K] (U : List K) : Node :=
  .elem "kntVec".toList [] [.pcdata ((U.flatMap fun x => "\n        ".toList ++ doubleText x) ++ "\n      ".toList)]

/-- `AddKnotVectors(spline_node, spline_ptr)` (xml_writer_utils.h:39-50). -/
def knotVectorsNode [DecPrinter K] (Us : List (List K)) : Node := .elem "kntVecs".toList [] (Us.map knotsNode)

/-- `Add1DSpline`, ..., `Add4DSpline` (xml_writer.cc:47-97). -/
def splineNode [DecPrinter K] (s : Spl K) : M Node := do
  let n ← s.ph.numCPs
  let vars ← controlPointVars s.ph
  let weights ← match s.ph.weights with
    | none => pure []
    | some _ => do
      let w ← weightsNode s.ph
      pure [w]
  return .elem "SplineEntry".toList (splineAttributes s.ps.knots.length s.ph.dim n)
    (varNames s.ph.dim :: vars :: (weights ++ [degreesNode s.ps.degree, knotVectorsNode s.ps.knots]))

/-- `AddSpline(spline_list, spline)` (xml_writer.cc:34-45); `GetSplineDimension` (any_casts.h:40-63) throws for other dimensions. -/
def addSpline [DecPrinter K] (s : Spl K) : M Node :=
  if 1 ≤ s.ps.knots.length ∧ s.ps.knots.length ≤ 4 then splineNode s else .error (.thrown .runtimeError)

/-- `WriteFile(splines, filename)` (xml_writer.cc:24-32): the children of the document. -/
def writeFile [DecPrinter K] (splines : List (Spl K)) : M (List Node) := do
  let nodes ← splines.mapM addSpline
  return [.elem "SplineList".toList [("NumberOfSplines".toList, natText splines.length)] nodes]

/-! ## Reader -/

/-- `StringVectorToNumberVector<double>(split(text, ' '))` (string_operations.h:61-68). -/
def numbers (K : Type) [Field K] (text : List Char) : M (List K) := (split text ' ').mapM (stringToDouble K)

/-- `FindCoordinatePosition(string)` (xml_reader.cc:118-126). -/
def coordinatePosition (text : List Char) : ℕ :=
  let i := (split text ' ').findIdx fun v => v = ['x']
  if i < (split text ' ').length then i else 0

/-- `GetControlPoints(spline)` (xml_reader.cc:95-111). -/
def readPoints (K : Type) [Field K] (spline : Option Node) : M (List (List K)) := do
  let vars ← numbers K (Node.value (Node.firstChild (Node.child spline "cntrlPntVars".toList)))
  let start := coordinatePosition (Node.value (Node.firstChild (Node.child spline "cntrlPntVarNames".toList)))
  let dimension ← stoi (Node.attr spline "spaceDim".toList)
  let numberOfVars ← stoi (Node.attr spline "numOfCntrlPntVars".toList)
  let numberOfPoints ← stoi (Node.attr spline "numCntrlPnts".toList)
  buildList (fun i => buildList (fun j => getI vars (i * numberOfVars + (start + j : ℕ))) dimension.toNat) numberOfPoints.toNat

/-- `GetWeights(spline)` (xml_reader.cc:113-116). -/
def readWeights (K : Type) [Field K] (spline : Option Node) : M (List K) :=
  numbers K (Node.value (Node.firstChild (Node.child spline "wght".toList)))

/-- `GetKnotVectors(spline)` (xml_reader_utils.h:35-50). -/
def readKnotVectors (K : Type) [Field K] (D : ℕ) (spline : Option Node) : M (List (List K)) :=
  buildList (fun i => numbers K (Node.value (Node.firstChild ((Node.childList (Node.child spline "kntVecs".toList))[i]?)))) D

/-- `GetDegrees(spline)` (xml_reader_utils.h:31-33, 52-59). A negative degree is treated as undefined behaviour. -/
def readDegrees (D : ℕ) (spline : Option Node) : M (List ℕ) :=
  let words := split (Node.value (Node.firstChild (Node.child spline "deg".toList))) ' '
  buildList (fun i => do
    let e ← getN words i
    let p ← stoi e
    if p < 0 then .error .ub else return p.toNat) D

/-- `Get1DSpline`, ..., `Get4DSpline` (xml_reader.cc:51-93). -/
def readSpline (K : Type) [LinearOrder K] [Field K] (D : ℕ) (spline : Option Node) (points : List (List K)) : M (Spl K) := do
  let knots ← readKnotVectors K D spline
  let degree ← readDegrees D spline
  match Node.child spline "wght".toList with
  | none => Spl.newBSpline knots degree points
  | some _ => do
    let weights ← readWeights K spline
    Spl.newNurbs knots degree points weights

/-- `AddSpline(spline, splines)` (xml_reader.cc:37-49). -/
def readEntry (K : Type) [LinearOrder K] [Field K] (spline : Node) : M (List (Spl K)) := do
  let points ← readPoints K (some spline)
  let dimension ← stoi (Node.attr (some spline) "splDim".toList)
  if 1 ≤ dimension ∧ dimension ≤ 4 then do
    let s ← readSpline K dimension.toNat (some spline) points
    return [s]
  else return []

/-- `ReadFile(filename)` (xml_reader.cc:22-35); `document` are the children of the parsed document. -/
def readFile (K : Type) [LinearOrder K] [Field K] (document : List Node) : M (List (Spl K)) := do
  let list := document.find? fun c => c.name = "SplineList".toList
  let entries ← (Node.childList list).mapM (readEntry K)
  return entries.flatten

end Xml
end SplineLib
