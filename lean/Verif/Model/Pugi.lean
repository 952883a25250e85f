import Verif.Model.Xml

/-!
# Loading and saving XML files: the part of pugixml that SplineLib uses (external/pugixml/pugixml.cpp)

`xml_document::load_file` with `parse_default` (pugixml.hpp:204: CDATA sections, escapes, white space conversion in attributes, line ends)
and `xml_document::save_file` with the indentation of two blanks and `format_indent_attributes` (xml_writer.cc:31).

A file is its list of characters; a character is a byte. The encoding is UTF-8, with or without byte order mark
(pugixml.cpp:1885-1929 recognises others, which is not modelled). The file is read into a buffer with a terminating zero
(pugixml.cpp:4411-4470), so `endch` is zero in the parser and a zero byte ends the document. The in-place conversions with `gap`
(pugixml.cpp:2310-2343) are modelled by their result. Every failure of the parser has the same effect on the reader
(xml_reader.cc:25-27), so the kinds of errors are not distinguished. A CDATA node is represented as text, which the reader cannot tell apart.
-/

namespace SplineLib
namespace Pugi
open Xml

/-! ## Characters -/

/-- `ct_space` (pugixml.cpp:1742, 1749-1770). -/
def isWs (c : Char) : Bool := c == ' ' || c == '\t' || c == '\n' || c == '\r'

/-- `ct_start_symbol` (pugixml.cpp:1746, 1749-1770). -/
def isStart (c : Char) : Bool := c.isAlpha || c == '_' || c == ':' || decide (127 < c.toNat)

/-- `ct_symbol` (pugixml.cpp:1745, 1749-1770). -/
def isSymbol (c : Char) : Bool := isStart c || c.isDigit || c == '-' || c == '.'

/-- What the caller of the parser does with a failure (xml_reader.cc:25-27). -/
def bad {α : Type} : M α := .error (.thrown .runtimeError)

/-! ## Values -/

/-- `utf8_writer::any` (pugixml.cpp:1406-1442). -/
def utf8 (n : ℕ) : List Char :=
  if n < 128 then [Char.ofNat n]
  else if n < 2048 then [Char.ofNat (192 + n / 64), Char.ofNat (128 + n % 64)]
  else if n < 65536 then [Char.ofNat (224 + n / 4096), Char.ofNat (128 + n / 64 % 64), Char.ofNat (128 + n % 64)]
  else [Char.ofNat ((240 ||| n / 2 ^ 18) % 256), Char.ofNat (128 + n / 4096 % 64), Char.ofNat (128 + n / 64 % 64), Char.ofNat (128 + n % 64)]

/-- The value of a hexadecimal digit (pugixml.cpp:2363-2366). -/
def hexVal (c : Char) : Option ℕ :=
  if c.isDigit then some (c.toNat - 48)
  else if 'a' ≤ c ∧ c ≤ 'f' then some (c.toNat - 97 + 10)
  else if 'A' ≤ c ∧ c ≤ 'F' then some (c.toNat - 65 + 10)
  else none

/-- The value of a decimal digit (pugixml.cpp:2383-2384). -/
def decVal (c : Char) : Option ℕ := if c.isDigit then some (c.toNat - 48) else none

/-- The loops over the digits of a character reference (pugixml.cpp:2359-2375, 2378-2393): the number (an `unsigned int`) and what follows the
semicolon, or nothing if another character is found. -/
def refDigits (val : Char → Option ℕ) (base : ℕ) : ℕ → List Char → Option (ℕ × List Char)
  | _, [] => none
  | n, c :: s =>
    match val c with
    | some d => refDigits val base ((base * n + d) % 2 ^ 32) s
    | none => if c = ';' then some (n, s) else none

/-- `strconv_escape` behind the ampersand (pugixml.cpp:2346-2476): the replacement and the rest. If there is no escape sequence, the code goes
on behind the characters it has looked at; these are ordinary characters, so going on directly behind the ampersand has the same
result. -/
def escape (s : List Char) : List Char × List Char :=
  match s with
  | '#' :: 'x' :: ';' :: _ => (['&'], s)
  | '#' :: 'x' :: r => match refDigits hexVal 16 0 r with
    | some (n, t) => (utf8 n, t)
    | none => (['&'], s)
  | '#' :: ';' :: _ => (['&'], s)
  | '#' :: r => match refDigits decVal 10 0 r with
    | some (n, t) => (utf8 n, t)
    | none => (['&'], s)
  | 'a' :: 'm' :: 'p' :: ';' :: r => (['&'], r)
  | 'a' :: 'p' :: 'o' :: 's' :: ';' :: r => (['\''], r)
  | 'g' :: 't' :: ';' :: r => (['>'], r)
  | 'l' :: 't' :: ';' :: r => (['<'], r)
  | 'q' :: 'u' :: 'o' :: 't' :: ';' :: r => (['"'], r)
  | _ => (['&'], s)

/-- The conversion of a text (`strconv_pcdata_impl` with line ends and escapes, without trimming, pugixml.cpp:2538-2579; the text ends before
the next `<`). Every round uses up a character, so the length is enough fuel. -/
def convText : ℕ → List Char → List Char
  | 0, _ => []
  | _ + 1, [] => []
  | n + 1, c :: s =>
    if c = '\r' then '\n' :: convText n (if s.head? = some '\n' then s.tail else s)
    else if c = '&' then (escape s).1 ++ convText n (escape s).2
    else c :: convText n s

/-- The conversion of an attribute (`strconv_attribute_impl::parse_wconv` with escapes, pugixml.cpp:2643-2664; the value ends before the
closing quote). -/
def convAttr : ℕ → List Char → List Char
  | 0, _ => []
  | _ + 1, [] => []
  | n + 1, c :: s =>
    if c = '\r' then ' ' :: convAttr n (if s.head? = some '\n' then s.tail else s)
    else if isWs c then ' ' :: convAttr n s
    else if c = '&' then (escape s).1 ++ convAttr n (escape s).2
    else c :: convAttr n s

/-- The conversion of line ends in a CDATA section (`strconv_cdata`, pugixml.cpp:2514-2533). -/
def convLines : ℕ → List Char → List Char
  | 0, _ => []
  | _ + 1, [] => []
  | n + 1, c :: s =>
    if c = '\r' then '\n' :: convLines n (if s.head? = some '\n' then s.tail else s) else c :: convLines n s

/-- A value is a string that ends at the first zero. -/
def cstr (v : List Char) : List Char := v.takeWhile (· ≠ '\x00')

/-! ## Scanning -/

/-- `PUGI__SCANFOR`: the characters before the first occurrence of `pat`, and what follows it (pugixml.cpp:2485). -/
def scanTo (pat : List Char) : List Char → Option (List Char × List Char)
  | [] => none
  | c :: s =>
    if pat.isPrefixOf (c :: s) then some ([], (c :: s).drop pat.length)
    else (scanTo pat s).map fun r => (c :: r.1, r.2)

/-- `parse_doctype_primitive` (pugixml.cpp:2758-2784): what follows the quoted string, processing instruction or comment. -/
def doctypePrimitive (s : List Char) : M (List Char) :=
  let scan (pat r : List Char) : M (List Char) :=
    match scanTo pat r with
    | some (_, t) => .ok t
    | none => bad
  match s with
  | '"' :: r => scan ['"'] r
  | '\'' :: r => scan ['\''] r
  | '<' :: '?' :: r => scan "?>".toList r
  | '<' :: '!' :: '-' :: '-' :: r => scan "-->".toList r
  | _ => bad

/-- `parse_doctype_ignore` behind `<![` (pugixml.cpp:2786-2809). -/
def doctypeIgnore : ℕ → List Char → ℕ → M (List Char)
  | 0, _, _ => .error .diverges
  | n + 1, s, depth =>
    match s with
    | [] => bad
    | '<' :: '!' :: '[' :: r => doctypeIgnore n r (depth + 1)
    | ']' :: ']' :: '>' :: r => if depth = 0 then .ok r else doctypeIgnore n r (depth - 1)
    | _ :: r => doctypeIgnore n r depth

/-- `parse_doctype_group` behind `<!` (pugixml.cpp:2811-2844): what follows the closing `>`. -/
def doctypeGroup : ℕ → List Char → ℕ → M (List Char)
  | 0, _, _ => .error .diverges
  | n + 1, s, depth =>
    match s with
    | [] => bad
    | '<' :: '!' :: r =>
      match r with
      | '-' :: _ => do
        let t ← doctypePrimitive s
        doctypeGroup n t depth
      | '[' :: t => do
        let t ← doctypeIgnore (t.length + 1) t 0
        doctypeGroup n t depth
      | _ => doctypeGroup n r (depth + 1)
    | '>' :: r => if depth = 0 then .ok r else doctypeGroup n r (depth - 1)
    | c :: r =>
      if c = '<' ∨ c = '"' ∨ c = '\'' then do
        let t ← doctypePrimitive s
        doctypeGroup n t depth
      else doctypeGroup n r depth

/-! ## The tree -/

/-- An element whose end tag has not been read: its name, attributes and children so far. -/
structure Open where
  name : List Char
  attrs : List (List Char × List Char)
  kids : List Node

/-- The state of `parse_tree`: the finished children of the document, and the elements from `cursor` to the root. -/
structure St where
  root : List Node
  stack : List Open

/-- Append a node at the cursor. -/
def St.add (st : St) (n : Node) : St :=
  match st.stack with
  | [] => { st with root := st.root ++ [n] }
  | o :: os => { st with stack := { o with kids := o.kids ++ [n] } :: os }

/-- `PUGI__PUSHNODE(node_element)`. -/
def St.push (st : St) (name : List Char) (attrs : List (List Char × List Char)) : St := { st with stack := ⟨name, attrs, []⟩ :: st.stack }

/-- One round of a loop of the parser: it ends, or it goes on behind some characters. -/
inductive Step (σ : Type)
  | stop (r : M (List Node))
  | more (s : List Char) (st : σ)

/-! ## Parsing -/

/-- One attribute (pugixml.cpp:3051-3089), beginning at its name: the attribute and the rest. -/
def oneAttr (s : List Char) : M ((List Char × List Char) × List Char) :=
  let name := s.takeWhile isSymbol
  match (s.dropWhile isSymbol).dropWhile isWs with
  | '=' :: r =>
    match r.dropWhile isWs with
    | q :: v =>
      if q = '"' ∨ q = '\'' then
        match scanTo [q] v with
        | none => bad
        | some (raw, t) =>
          match t with
          | [] => .ok ((name, cstr (convAttr raw.length raw)), t)
          | c :: _ => if isStart c then bad else .ok ((name, cstr (convAttr raw.length raw)), t)
      else bad
    | [] => bad
  | _ => bad

/-- The attributes (`LOC_ATTRIBUTES`, pugixml.cpp:3047-3111): the attributes, whether the tag ends with `/>`, and the rest. -/
def attributes : ℕ → List Char → List (List Char × List Char) → M (List (List Char × List Char) × Bool × List Char)
  | 0, _, _ => .error .diverges
  | n + 1, s, acc =>
    match s.dropWhile isWs with
    | [] => bad
    | c :: r =>
      if isStart c then do
        let (a, t) ← oneAttr (c :: r)
        attributes n t (acc ++ [a])
      else if c = '/' then
        match r with
        | '>' :: t => .ok (acc, true, t)
        | _ => bad
      else if c = '>' then .ok (acc, false, r)
      else bad

/-- A start tag behind `<` (pugixml.cpp:3035-3127). -/
def startTag (s : List Char) (st : St) : Step St :=
  let name := s.takeWhile isSymbol
  match s.dropWhile isSymbol with
  | [] => .stop bad
  | c :: r =>
    if c = '>' then .more r (st.push name [])
    else if isWs c then
      match attributes (r.length + 1) r [] with
      | .error e => .stop (.error e)
      | .ok (as, closed, t) => .more t (if closed then st.add (.elem name as []) else st.push name as)
    else if c = '/' then
      match r with
      | '>' :: t => .more t (st.add (.elem name [] []))
      | _ => .stop bad
    else .stop bad

/-- An end tag behind `</` (pugixml.cpp:3127-3156). -/
def endTag (s : List Char) (st : St) : Step St :=
  match st.stack with
  | [] => .stop bad
  | o :: os =>
    if s.takeWhile isSymbol = o.name then
      match (s.dropWhile isSymbol).dropWhile isWs with
      | '>' :: r => .more r (St.add { st with stack := os } (.elem o.name o.attrs o.kids))
      | _ => .stop bad
    else .stop bad

/-- `parse_question` behind `<?` (pugixml.cpp:2940-3020); declarations and processing instructions are skipped. -/
def question (s : List Char) (st : St) : Step St :=
  match s with
  | [] => .stop bad
  | c :: _ =>
    if isStart c then
      match scanTo "?>".toList (s.dropWhile isSymbol) with
      | some (_, r) => .more r st
      | none => .stop bad
    else .stop bad

/-- `parse_exclamation` behind `<!` (pugixml.cpp:2846-2938); comments and document types are skipped. -/
def exclamation (s : List Char) (st : St) : Step St :=
  match s with
  | '-' :: '-' :: r =>
    match scanTo "-->".toList r with
    | some (_, t) => .more t st
    | none => .stop bad
  | '[' :: 'C' :: 'D' :: 'A' :: 'T' :: 'A' :: '[' :: r =>
    match scanTo "]]>".toList r with
    | some (raw, t) => .more t (st.add (.pcdata (cstr (convLines raw.length raw))))
    | none => .stop bad
  | 'D' :: 'O' :: 'C' :: 'T' :: 'Y' :: 'P' :: 'E' :: _ =>
    if st.stack.isEmpty then
      match doctypeGroup (s.length + 1) s 0 with
      | .ok t => .more t st
      | .error e => .stop (.error e)
    else .stop bad
  | _ => .stop bad

/-- A tag behind `<` (`LOC_TAG`, pugixml.cpp:3034-3171). -/
def tag (s : List Char) (st : St) : Step St :=
  match s with
  | [] => .stop bad
  | c :: r =>
    if isStart c then startTag s st
    else if c = '/' then endTag r st
    else if c = '?' then question r st
    else if c = '!' then exclamation r st
    else .stop bad

/-- One round of the loop of `parse_tree` (pugixml.cpp:3030-3210). A text is read up to the next `<`; white space alone is skipped, as is any text
outside of the elements. -/
def step (s : List Char) (st : St) : Step St :=
  match s with
  | [] => .stop (if st.stack.isEmpty then .ok st.root else bad)
  | c :: r =>
    if c = '<' then tag r st
    else if (s.dropWhile isWs).isEmpty ∨ (s.dropWhile isWs).head? = some '<' then .more (s.dropWhile isWs) st
    else if st.stack.isEmpty then .more (s.dropWhile (· ≠ '<')) st
    else
      let raw := s.takeWhile (· ≠ '<')
      .more (s.dropWhile (· ≠ '<')) (st.add (.pcdata (cstr (convText raw.length raw))))

/-- The loop of `parse_tree` (pugixml.cpp:3022-3217). -/
def parseTree : ℕ → List Char → St → M (List Node)
  | 0, _, _ => .error .diverges
  | n + 1, s, st =>
    match step s st with
    | .stop r => r
    | .more t st' => parseTree n t st'

/-- `parse_skip_bom` (pugixml.cpp:3227-3229). -/
def skipBom (s : List Char) : List Char :=
  match s with
  | 'ï' :: '»' :: '¿' :: r => r
  | _ => s

/-- Whether a node is an element. -/
def isElem : Node → Bool
  | .elem _ _ _ => true
  | .pcdata _ => false

/-- `load_file` (pugixml.cpp:6633-6640, 4326-4362, 4437-4470) and `xml_parser::parse` (pugixml.cpp:3242-3288): the children of the document. -/
def load (text : List Char) : M (List Node) :=
  let s := skipBom (cstr text)
  match parseTree (s.length + 1) s ⟨[], []⟩ with
  | .error e => .error e
  | .ok doc => if doc.any isElem then .ok doc else bad

/-! ## Saving -/

/-- `text_output_escaped` for one character (pugixml.cpp:3640-3672), in an attribute or in a text (pugixml.cpp:1778-1802). -/
def escapeChar (attr : Bool) (c : Char) : List Char :=
  if c = '&' then "&amp;".toList
  else if c = '<' then "&lt;".toList
  else if c = '>' then "&gt;".toList
  else if attr ∧ c = '"' then "&quot;".toList
  else if c.toNat < 32 ∧ c ≠ '\t' ∧ (attr ∨ (c ≠ '\n' ∧ c ≠ '\r')) then ['&', '#', Prn.digit (c.toNat / 10), Prn.digit (c.toNat % 10), ';']
  else [c]

/-- `text_output` (pugixml.cpp:3674-3679). -/
def escapeText (attr : Bool) (v : List Char) : List Char := v.flatMap (escapeChar attr)

/-- `text_output_indent` with two blanks (pugixml.cpp:3700-3734). -/
def indent (depth : ℕ) : List Char := List.replicate (2 * depth) ' '

/-- `node_output_attributes` (pugixml.cpp:3776-3801). -/
def attrsText (depth : ℕ) (as : List (List Char × List Char)) : List Char :=
  as.flatMap fun a => '\n' :: indent (depth + 1) ++ a.1 ++ "=\"".toList ++ escapeText true a.2 ++ ['"']

/-- The line break and the indentation before a tag. At depth 0 there is nothing to indent, so the flag `indent_indent` matters only together
with `indent_newline` (pugixml.cpp:3936-3940, 3981-3985). -/
def lineBreak (newline : Bool) (depth : ℕ) : List Char := if newline then '\n' :: indent depth else []

mutual

/-- A node (pugixml.cpp:3916-3992, 3803-3864); `newline` is the flag `indent_newline` before the node. -/
def nodeText (depth : ℕ) (newline : Bool) : Node → List Char
  | .pcdata v => escapeText false v
  | .elem name as kids =>
    lineBreak newline depth ++ '<' :: name ++ attrsText depth as ++
      (if kids.isEmpty then " />".toList
       else '>' :: nodesText (depth + 1) true kids ++ lineBreak (endsElem true kids) depth ++ "</".toList ++ name ++ ['>'])

/-- Sibling nodes. -/
def nodesText (depth : ℕ) (newline : Bool) : List Node → List Char
  | [] => []
  | n :: ns => nodeText depth newline n ++ nodesText depth (isElem n) ns

/-- The flag `indent_newline` behind sibling nodes. -/
def endsElem (newline : Bool) : List Node → Bool
  | [] => newline
  | n :: ns => endsElem (isElem n) ns

end

/-- The declaration (pugixml.cpp:6718-6723). -/
def declaration : List Char := "<?xml version=\"1.0\"?>\n".toList

/-- `save_file(filename, "  ", format_indent_attributes, encoding_utf8)` (pugixml.cpp:6749-6757, 6702-6728, 3916-3996). -/
def save (doc : List Node) : List Char :=
  declaration ++ nodesText 0 false doc ++ (if endsElem false doc then ['\n'] else [])

end Pugi

namespace Xml
variable {K : Type} [LinearOrder K] [Field K]

/-- The text of the file that `WriteFile` writes (xml_writer.cc:24-32). -/
def writeText [DecPrinter K] (splines : List (Spl K)) : M (List Char) := do
  let doc ← writeFile splines
  return Pugi.save doc

/-- `ReadFile` of a file with the given text (xml_reader.cc:22-35). -/
def readText (K : Type) [LinearOrder K] [Field K] (text : List Char) : M (List (Spl K)) := do
  let doc ← Pugi.load text
  readFile K doc

end Xml
end SplineLib
