/-!
# The XML writer

`xmlString` (ecore/xmlstring.go) builds the text of an XML document from calls that start and
end elements.
-/

namespace Verif.XMLString

/-- Text as characters. -/
abbrev Text := List Char

/-- `xmlString` (ecore/xmlstring.go 13-23).  The segments are `before` (the segment of
`firstElementMark`, present once an element was started) and `cur` (the current one).
Simplification: `lineWidth` always is `MaxInt` (it is set at line 32 only), so that the line
width of the segments stays 0 and is left out. -/
structure St where
  before : Option Text
  cur : Text
  indents : List Text
  elementNames : List Text
  depth : Int
  lastElementIsStart : Bool
deriving DecidableEq, Repr

/-- `newXmlString` (ecore/xmlstring.go 27-39) -/
def init : St := ⟨none, [], [[]], [], 0, false⟩

/-- `write` (ecore/xmlstring.go 41-48): the segments one after the other -/
def text (s : St) : Text := s.before.getD [] ++ s.cur

/-- `add` (ecore/xmlstring.go 50-55) -/
def add (s : St) (t : Text) : St := { s with cur := s.cur ++ t }

/-- `addLine` (ecore/xmlstring.go 57-60) -/
def addLine (s : St) : St := add s ['\n']

/-- the loop of `getElementIndentWithExtra` (ecore/xmlstring.go 186-188): `n` more indents -/
def grow : Nat → List Text → List Text
  | 0, l => l
  | n + 1, l => grow n (l ++ [l.getLastD [] ++ [' ', ' ']])

/-- `s.add(s.getElementIndentWithExtra(extra))` (ecore/xmlstring.go 180-190); `none` is the panic
of a negative index -/
def addIndent (s : St) (extra : Int) : Option St :=
  let nesting := s.depth + extra - 1
  if nesting < 0 then none
  else
    let indents := grow (nesting.toNat + 1 - s.indents.length) s.indents
    (indents[nesting.toNat]?).map fun t => add { s with indents := indents } t

/-- `closeStartElement` (ecore/xmlstring.go 79-83) -/
def closeStartElement (s : St) : St :=
  { addLine (add s ['>']) with lastElementIsStart := false }

/-- closing of a pending start tag (ecore/xmlstring.go 63-65, 144-146, 164-166) -/
def closePending (s : St) : St := if s.lastElementIsStart then closeStartElement s else s

/-- `mark`, when there is no mark yet (ecore/xmlstring.go 73-75, 201-206) -/
def mark (s : St) : St :=
  match s.before with
  | none => { s with before := some s.cur, cur := [] }
  | some _ => s

/-- `startElement` (ecore/xmlstring.go 62-77) -/
def startElement (s : St) (name : Text) : Option St :=
  let s := closePending s
  let s := { s with elementNames := name :: s.elementNames }
  if name ≠ [] then do
    let s ← addIndent { s with depth := s.depth + 1 } 0
    let s := add (add s ['<']) name
    some (mark { s with lastElementIsStart := true })
  else some s

/-- `removeLast` (ecore/xmlstring.go 107-115); `none` is the panic on an empty stack.  The stack
is kept in reverse order. -/
def removeLast (s : St) : Option (St × Text) :=
  match s.elementNames with
  | [] => none
  | name :: names =>
    some ({ s with elementNames := names, depth := if name ≠ [] then s.depth - 1 else s.depth }, name)

/-- `endEmptyElement` (ecore/xmlstring.go 100-105) -/
def endEmptyElement (s : St) : Option St :=
  (removeLast s).map fun p => { addLine (add p.1 ['/', '>']) with lastElementIsStart := false }

/-- `endElement` (ecore/xmlstring.go 85-98) -/
def endElement (s : St) : Option St :=
  if s.lastElementIsStart then endEmptyElement s
  else do
    let (s, name) ← removeLast s
    if name ≠ [] then
      let s ← addIndent s 1
      some (addLine (add (add (add s ['<', '/']) name) ['>']))
    else some s

/-- `addAttribute` (ecore/xmlstring.go 117-140) -/
def addAttribute (s : St) (name value : Text) : St :=
  add (add (add (add (add s [' ']) name) ['=', '"']) value) ['"']

/-- `addNil` (ecore/xmlstring.go 142-161) -/
def addNil (s : St) (name : Text) : Option St := do
  let s := closePending s
  let s ← addIndent { s with depth := s.depth + 1 } 0
  let s := add (add (add s ['<']) name) [' ']
  let s := add s ("xsi:nil=\"true\"/>").toList
  some { addLine { s with depth := s.depth - 1 } with lastElementIsStart := false }

/-- `addContent` (ecore/xmlstring.go 163-178) -/
def addContent (s : St) (name content : Text) : Option St := do
  let s := closePending s
  let s ← addIndent { s with depth := s.depth + 1 } 0
  let s := add (add (add (add (add s ['<']) name) ['>']) content) ['<', '/']
  let s := add (add { s with depth := s.depth - 1 } name) ['>']
  some { addLine s with lastElementIsStart := false }

/-- The calls. -/
inductive Call where
  | startElement (name : Text)
  | endElement
  | endEmptyElement
  | addAttribute (name value : Text)
  | addNil (name : Text)
  | addContent (name content : Text)
deriving DecidableEq, Repr

/-- one call -/
def step (s : St) : Call → Option St
  | .startElement n => startElement s n
  | .endElement => endElement s
  | .endEmptyElement => endEmptyElement s
  | .addAttribute n v => some (addAttribute s n v)
  | .addNil n => addNil s n
  | .addContent n c => addContent s n c

/-- a sequence of calls -/
def run (s : St) : List Call → Option St
  | [] => some s
  | c :: cs => (step s c).bind fun s => run s cs

/-- The text written by `encodeTopObject` (ecore/xmlencoder.go 132-155): the header, the calls,
then the namespace attributes added at the mark of the first element (`resetToFirstElementMark`,
ecore/xmlstring.go 208-216, and `saveNamespaces`, ecore/xmlencoder.go 205-218). -/
def document (header : Text) (calls : List Call) (namespaces : List (Text × Text)) : Option Text :=
  (run (addLine (add init header)) calls).map fun s =>
    match s.before with
    | none => text (namespaces.foldl (fun s a => addAttribute s a.1 a.2) s)
    | some b =>
      (namespaces.foldl (fun s a => addAttribute s a.1 a.2) { s with before := none, cur := b }).cur ++ s.cur

/-- `html.EscapeString` of golang.org/x/net, applied to attribute values by `saveDataTypeSingle`
(ecore/xmlencoder.go 364-370) -/
def escape (t : Text) : Text :=
  t.flatMap fun c =>
    if c = '&' then "&amp;".toList
    else if c = '\'' then "&#39;".toList
    else if c = '<' then "&lt;".toList
    else if c = '>' then "&gt;".toList
    else if c = '"' then "&#34;".toList
    else if c = '\r' then "&#13;".toList
    else [c]

end Verif.XMLString
