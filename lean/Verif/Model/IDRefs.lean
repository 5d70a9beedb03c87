/-!
# References as texts in XML documents

A reference to objects of the same document is an attribute with their fragments (`saveIDRefSingle`, `saveIDRefMany`, ecore/xmlencoder.go); the decoder
splits it and looks the fragments up in the resource (`setValueFromId`, ecore/xmldecoder.go; `GetEObject`, ecore/eresource_impl.go).

Simplifications: the reference has no opposite (C80); all fragments are looked up when the whole document is known; there is no ID manager; how a path leads
to an object is a parameter (C26); an element with `href` in place of the attribute is not here. A panic is `none`.
-/

namespace Verif.IDRefs

abbrev Text := List Char

/-- a resource: its objects in the order of `GetAllContents`, their IDs, empty if there is none, their paths, and what a path leads to -/
structure Res where
  contents : List Nat
  id : Nat → Text
  pathOf : Nat → Text
  atPath : Text → Option Nat

/-- `GetURIFragment` (ecore/eresource_impl.go 253-292): the ID, or the path -/
def fragment (r : Res) (o : Nat) : Text := if (r.id o).length > 0 then r.id o else r.pathOf o

/-- `getIDRef` (ecore/xmlencoder.go 795-801) -/
def getIDRef (r : Res) (o : Nat) : Text := '#' :: fragment r o

/-- the text of `saveIDRefMany` (ecore/xmlencoder.go 522-548), and of `saveIDRefSingle` (512-520) for one object; an ID is never empty, so it does not
fail -/
def write (r : Res) : List Nat → Text
  | [] => []
  | [o] => getIDRef r o
  | o :: os => getIDRef r o ++ ' ' :: write r os

/-- `strings.Split(ids, " ")` -/
def split : Text → List Text
  | [] => [[]]
  | c :: s => if c = ' ' then [] :: split s else match split s with
    | [] => [[c]]
    | t :: ts => (c :: t) :: ts

/-- a part of the text: a fragment of the document, a URI of another one, the name of a type -/
inductive Token where
  | loc (id : Text)
  | proxy (uri : Text)
  | qname (name : Text)
deriving DecidableEq, Repr

/-- `strings.Index` for one character -/
def index (c : Char) (t : Text) : Option Nat := t.findIdx? (· = c)

/-- what a part is (ecore/xmldecoder.go 593-618) -/
def classify (t : Text) : Token :=
  match index '#' t with
  | some i => if i = 0 then .loc (t.drop 1) else .proxy t
  | none => match index ':' t with
    | some _ => .qname t
    | none => .loc t

/-- `strings.LastIndex` for one character -/
def lastIndex (c : Char) : Text → Option Nat
  | [] => none
  | d :: s => match lastIndex c s with
    | some i => some (i + 1)
    | none => if d = c then some 0 else none

/-- `getObjectByID` without an ID manager (ecore/eresource_impl.go 311-323) -/
def byID (r : Res) (id : Text) : Option Nat := r.contents.find? fun o => id = r.id o

/-- `GetEObject` (ecore/eresource_impl.go 236-251); the slice `uriFragment[:size-2]` of a fragment of one character panics -/
def getEObject (r : Res) (f : Text) : Option (Option Nat) :=
  if f.length > 0 then
    if f.head? = some '/' then some (r.atPath f)
    else if f.getLast? = some '?' then
      if f.length < 2 then none
      else match lastIndex '?' (f.take (f.length - 2)) with
        | some i => some (byID r (f.take i))
        | none => some (byID r f)
    else some (byID r f)
  else some (byID r f)

/-- what the reference gets -/
inductive Target where
  | obj (o : Nat)
  | proxy (uri : Text)
deriving DecidableEq, Repr

/-- the values of the reference and the number of errors, for the parts of the text (ecore/xmldecoder.go 584-660, 727-735) -/
def readTokens (r : Res) : List Token → Option (List Target × Nat)
  | [] => some ([], 0)
  | .qname _ :: ts => readTokens r ts
  | .proxy u :: ts => match readTokens r ts with
    | some (l, n) => some (.proxy u :: l, n)
    | none => none
  | .loc id :: ts => match getEObject r id with
    | none => none
    | some x => match readTokens r ts with
      | none => none
      | some (l, n) => match x with
        | some o => some (.obj o :: l, n)
        | none => some (l, n + 1)

/-- `setValueFromId` -/
def read (r : Res) (ids : Text) : Option (List Target × Nat) := readTokens r ((split ids).map classify)

end Verif.IDRefs
