import Verif.Model.Xml

/-!
# XML texts

A grammar of XML documents (a subset of XML 1.0: no document type declarations with internal subsets) that assigns a tree of elements and texts to a
text. It does not refer to pugixml. Characters are bytes of the UTF-8 encoding.
-/

namespace SplineLib
namespace XmlText
open Xml

/-- White space. -/
def Blank (c : Char) : Prop := c = ' ' ∨ c = '\t' ∨ c = '\n' ∨ c = '\r'

/-- The first character of a name. -/
def NameStart (c : Char) : Prop := ('a' ≤ c ∧ c ≤ 'z') ∨ ('A' ≤ c ∧ c ≤ 'Z') ∨ c = '_' ∨ c = ':' ∨ 127 < c.toNat

/-- A character of a name. -/
def NameChar (c : Char) : Prop := NameStart c ∨ ('0' ≤ c ∧ c ≤ '9') ∨ c = '-' ∨ c = '.'

/-- A name of an element, an attribute or a processing instruction. -/
def IsName (n : List Char) : Prop := ∃ c r, n = c :: r ∧ NameStart c ∧ ∀ d ∈ r, NameChar d

/-- The predefined entities. -/
def entities : List (List Char × Char) :=
  [("amp".toList, '&'), ("lt".toList, '<'), ("gt".toList, '>'), ("quot".toList, '"'), ("apos".toList, '\'')]

/-- The value of a decimal digit. -/
def DecDigit (c : Char) (d : ℕ) : Prop := d < 10 ∧ c = Char.ofNat (48 + d)

/-- The value of a hexadecimal digit. -/
def HexDigit (c : Char) (d : ℕ) : Prop := (d < 10 ∧ c = Char.ofNat (48 + d)) ∨ (10 ≤ d ∧ d < 16 ∧ (c = Char.ofNat (87 + d) ∨ c = Char.ofNat (55 + d)))

/-- `cs` are digits to the given base that stand for `n` (after digits that stand for `a`). -/
inductive Numeral (digit : Char → ℕ → Prop) (base : ℕ) : ℕ → List Char → ℕ → Prop
  | nil (a : ℕ) : Numeral digit base a [] a
  | cons {a d n : ℕ} {c : Char} {cs : List Char} : digit c d → Numeral digit base (base * a + d) cs n → Numeral digit base a (c :: cs) n

/-- The bytes of a character. -/
def bytes (c : Char) : List Char := (String.utf8EncodeChar c).map fun b => Char.ofNat b.toNat

/-- The value `v` of a raw text: references are replaced, a line end is a line feed. In attributes (`attr`), white space is a blank. -/
inductive Decodes (attr : Bool) : List Char → List Char → Prop
  | nil : Decodes attr [] []
  | char {c : Char} {r v : List Char} : c ≠ '&' → c ≠ '\r' → c ≠ '\x00' → (attr = true → c ≠ '\t' ∧ c ≠ '\n') → Decodes attr r v →
      Decodes attr (c :: r) (c :: v)
  | white {c : Char} {r v : List Char} : attr = true → c = '\t' ∨ c = '\n' → Decodes attr r v → Decodes attr (c :: r) (' ' :: v)
  | crlf {r v : List Char} : Decodes attr r v → Decodes attr ('\r' :: '\n' :: r) ((if attr then ' ' else '\n') :: v)
  | cr {r v : List Char} : r.head? ≠ some '\n' → Decodes attr r v → Decodes attr ('\r' :: r) ((if attr then ' ' else '\n') :: v)
  | entity {e : List Char × Char} {r v : List Char} : e ∈ entities → Decodes attr r v → Decodes attr ('&' :: e.1 ++ ';' :: r) (e.2 :: v)
  | decimal {cs r v : List Char} {c : Char} : cs ≠ [] → c ≠ '\x00' → Numeral DecDigit 10 0 cs c.toNat → Decodes attr r v →
      Decodes attr ('&' :: '#' :: cs ++ ';' :: r) (bytes c ++ v)
  | hex {cs r v : List Char} {c : Char} : cs ≠ [] → c ≠ '\x00' → Numeral HexDigit 16 0 cs c.toNat → Decodes attr r v →
      Decodes attr ('&' :: '#' :: 'x' :: cs ++ ';' :: r) (bytes c ++ v)

/-- The value of the contents of a CDATA section: a line end is a line feed. -/
inductive Lines : List Char → List Char → Prop
  | nil : Lines [] []
  | char {c : Char} {r v : List Char} : c ≠ '\r' → c ≠ '\x00' → Lines r v → Lines (c :: r) (c :: v)
  | crlf {r v : List Char} : Lines r v → Lines ('\r' :: '\n' :: r) ('\n' :: v)
  | cr {r v : List Char} : r.head? ≠ some '\n' → Lines r v → Lines ('\r' :: r) ('\n' :: v)

/-- The attributes in a start tag. -/
inductive Attrs : List Char → List (List Char × List Char) → Prop
  | nil : Attrs [] []
  | cons {w n w₁ w₂ raw v r : List Char} {q : Char} {as : List (List Char × List Char)} : w ≠ [] → (∀ c ∈ w, Blank c) → IsName n →
      (∀ c ∈ w₁, Blank c) → (∀ c ∈ w₂, Blank c) → (q = '"' ∨ q = '\'') → q ∉ raw → Decodes true raw v → Attrs r as →
      Attrs (w ++ n ++ w₁ ++ '=' :: w₂ ++ q :: raw ++ q :: r) ((n, v) :: as)

/-- Content of an element, or (`top`) of the document: the nodes that it stands for. Comments and processing instructions, and white space alone, stand
for no nodes; outside of the elements there is no text. -/
inductive Content : Bool → List Char → List Node → Prop
  | nil {top : Bool} : Content top [] []
  | blank {top : Bool} {w s : List Char} {ns : List Node} : (∀ c ∈ w, Blank c) → (s = [] ∨ s.head? = some '<') → Content top s ns →
      Content top (w ++ s) ns
  | text {raw v s : List Char} {ns : List Node} : '<' ∉ raw → (∃ c ∈ raw, ¬ Blank c) → Decodes false raw v → (s = [] ∨ s.head? = some '<') →
      Content false s ns → Content false (raw ++ s) (.pcdata v :: ns)
  | cdata {raw v s : List Char} {ns : List Node} : ¬ "]]>".toList <:+: raw → Lines raw v → Content false s ns →
      Content false ("<![CDATA[".toList ++ raw ++ "]]>".toList ++ s) (.pcdata v :: ns)
  | comment {top : Bool} {c s : List Char} {ns : List Node} : ¬ "--".toList <:+: c → c.getLast? ≠ some '-' → Content top s ns →
      Content top ("<!--".toList ++ c ++ "-->".toList ++ s) ns
  | instruction {top : Bool} {n b s : List Char} {ns : List Node} : IsName n → (b = [] ∨ ∃ c r, b = c :: r ∧ Blank c) → ¬ "?>".toList <:+: b →
      Content top s ns → Content top ("<?".toList ++ n ++ b ++ "?>".toList ++ s) ns
  | doctype {d s : List Char} {ns : List Node} : (∀ c ∈ d, c ≠ '<' ∧ c ≠ '>' ∧ c ≠ '"' ∧ c ≠ '\'') → Content true s ns →
      Content true ("<!DOCTYPE".toList ++ d ++ ">".toList ++ s) ns
  | empty {top : Bool} {n a w s : List Char} {as : List (List Char × List Char)} {ns : List Node} : IsName n → Attrs a as → (∀ c ∈ w, Blank c) →
      Content top s ns → Content top ('<' :: n ++ a ++ w ++ "/>".toList ++ s) (.elem n as [] :: ns)
  | elem {top : Bool} {n a w b w' s : List Char} {as : List (List Char × List Char)} {kids ns : List Node} : IsName n → Attrs a as →
      (∀ c ∈ w, Blank c) → Content false b kids → (∀ c ∈ w', Blank c) → Content top s ns →
      Content top ('<' :: n ++ a ++ w ++ '>' :: b ++ "</".toList ++ n ++ w' ++ '>' :: s) (.elem n as kids :: ns)

/-- Nodes that a file can hold: names are names; attributes have no tabs and no zeros; texts have no carriage returns and no zeros and are not
blank; no two texts are adjacent. -/
inductive Storable : Node → Prop
  | text {v : List Char} : (∀ c ∈ v, c ≠ '\x00' ∧ c ≠ '\r') → (∃ c ∈ v, ¬ Blank c) → Storable (.pcdata v)
  | elem {n : List Char} {as : List (List Char × List Char)} {kids : List Node} : IsName n →
      (∀ a ∈ as, IsName a.1 ∧ ∀ c ∈ a.2, c ≠ '\x00' ∧ c ≠ '\t') → (∀ k ∈ kids, Storable k) →
      kids.IsChain (fun k l => ¬ ((∃ v, k = .pcdata v) ∧ ∃ v, l = .pcdata v)) → Storable (.elem n as kids)

end XmlText
end SplineLib
