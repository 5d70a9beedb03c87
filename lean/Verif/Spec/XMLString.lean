import Verif.Model.XMLString

/-!
# Specification of the XML writer

A document is a sequence of elements, each with attributes and children.  `render` is its text,
one tag for each line, indented by two spaces for each level.
-/

namespace Verif.XMLString.Spec

open Verif.XMLString

/-- A sequence of elements: the first one and the elements that follow it. -/
inductive Forest where
  | nil
  /-- an element written with `startElement` … `endElement`, or `endEmptyElement` when it has no
  children and `short` holds -/
  | elem (name : Text) (attributes : List (Text × Text)) (short : Bool) (children : Forest) (next : Forest)
  /-- children of an element that has no name: only the children are written -/
  | group (children : Forest) (next : Forest)
  /-- an element written by `addNil` -/
  | nilElem (name : Text) (next : Forest)
  /-- an element written by `addContent` -/
  | content (name content : Text) (next : Forest)
deriving DecidableEq, Repr

def Forest.isNil : Forest → Bool
  | .nil => true
  | _ => false

/-- The calls for a sequence of elements. -/
def calls : Forest → List Call
  | .nil => []
  | .elem name attributes short children next =>
    .startElement name :: attributes.map (fun a => .addAttribute a.1 a.2) ++ calls children ++
      [if short && children.isNil then .endEmptyElement else .endElement] ++ calls next
  | .group children next => .startElement [] :: calls children ++ [.endElement] ++ calls next
  | .nilElem name next => .addNil name :: calls next
  | .content name t next => .addContent name t :: calls next

def indent (d : Nat) : Text := List.replicate (2 * d) ' '

/-- the text of an attribute: ` name="value"` -/
def attr (a : Text × Text) : Text := ' ' :: a.1 ++ '=' :: '"' :: a.2 ++ ['"']

/-- the text of a sequence of elements at nesting depth `d` -/
def render (d : Nat) : Forest → Text
  | .nil => []
  | .elem name attributes _ children next =>
    indent d ++ '<' :: name ++ attributes.flatMap attr ++
      (if children.isNil then ['/', '>', '\n']
       else '>' :: '\n' :: render (d + 1) children ++ indent d ++ '<' :: '/' :: name ++ ['>', '\n']) ++
      render d next
  | .group children next => render d children ++ render d next
  | .nilElem name next => indent d ++ '<' :: name ++ " xsi:nil=\"true\"/>\n".toList ++ render d next
  | .content name t next =>
    indent d ++ '<' :: name ++ '>' :: t ++ '<' :: '/' :: name ++ ['>', '\n'] ++ render d next

/-- Add attributes in front of those of the first element written with `startElement`. -/
def withNamespaces (ns : List (Text × Text)) : Forest → Forest × Bool
  | .nil => (.nil, false)
  | .elem name attributes short children next => (.elem name (ns ++ attributes) short children next, true)
  | .group children next =>
    match withNamespaces ns children with
    | (c, true) => (.group c next, true)
    | (_, false) => let r := withNamespaces ns next; (.group children r.1, r.2)
  | .nilElem name next => let r := withNamespaces ns next; (.nilElem name r.1, r.2)
  | .content name t next => let r := withNamespaces ns next; (.content name t r.1, r.2)

/-- every name is not empty -/
def Named : Forest → Prop
  | .nil => True
  | .elem name _ _ children next => name ≠ [] ∧ Named children ∧ Named next
  | .group children next => Named children ∧ Named next
  | .nilElem _ next => Named next
  | .content _ _ next => Named next

/-! ## Reading tags back -/

/-- The tags of a text: what stands between `<` and `>`.  `acc` is the tag being read, in reverse
order. -/
def scan : Option Text → Text → List Text
  | _, [] => []
  | none, c :: cs => if c = '<' then scan (some []) cs else scan none cs
  | some a, c :: cs => if c = '>' then a.reverse :: scan none cs else scan (some (c :: a)) cs

def tags (t : Text) : List Text := scan none t

/-- A start tag, an end tag or an empty element tag. -/
inductive Tag where
  | start (name : Text)
  | stop (name : Text)
  | empty (name : Text)
deriving DecidableEq, Repr

/-- `/name` is an end tag, `name …/` an empty element tag, `name …` a start tag. -/
def classify (t : Text) : Tag :=
  if t.head? = some '/' then .stop t.tail
  else if t.getLast? = some '/' then .empty (t.dropLast.takeWhile (· ≠ ' '))
  else .start (t.takeWhile (· ≠ ' '))

/-- Every end tag matches the last start tag that is still open, and all are closed at the end. -/
def wellNested : List Text → List Tag → Bool
  | [], [] => true
  | _ :: _, [] => false
  | st, .start n :: ts => wellNested (n :: st) ts
  | st, .empty _ :: ts => wellNested st ts
  | m :: st, .stop n :: ts => m == n && wellNested st ts
  | [], .stop _ :: _ => false

/-- The tags a sequence of elements must give. -/
def nesting : Forest → List Tag
  | .nil => []
  | .elem name _ _ children next =>
    (if children.isNil then [.empty name] else .start name :: nesting children ++ [.stop name]) ++ nesting next
  | .group children next => nesting children ++ nesting next
  | .nilElem name next => .empty name :: nesting next
  | .content name _ next => .start name :: .stop name :: nesting next

/-- a name that can stand in a tag -/
def LegalName (n : Text) : Prop := n ≠ [] ∧ ∀ c ∈ n, c ≠ '<' ∧ c ≠ '>' ∧ c ≠ ' ' ∧ c ≠ '/'

/-- text without markup -/
def Plain (t : Text) : Prop := ∀ c ∈ t, c ≠ '<' ∧ c ≠ '>'

/-- all names are legal, attributes and content are without markup -/
def Legal : Forest → Prop
  | .nil => True
  | .elem name attributes _ children next =>
    LegalName name ∧ (∀ a ∈ attributes, Plain a.1 ∧ Plain a.2) ∧ Legal children ∧ Legal next
  | .group children next => Legal children ∧ Legal next
  | .nilElem name next => LegalName name ∧ Legal next
  | .content name t next => LegalName name ∧ Plain t ∧ Legal next

end Verif.XMLString.Spec
