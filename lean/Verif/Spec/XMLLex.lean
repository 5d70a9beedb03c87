import Verif.Model.XMLLex
import Verif.Spec.XMLString
import Mathlib.Data.List.Forall2

/-!
# What a parser has to read in a document
-/

namespace Verif.XMLLex

open Verif.XMLString (Text)
open Verif.XMLString.Spec (Forest)

/-- a name with one prefix at most: letters, digits, `_`, `.`, `-`, not beginning with a digit, a dot or a dash -/
def LegalName (s : Text) : Prop :=
  (∃ c t, s = c :: t ∧ (isLetter c = true ∨ c = '_')) ∧ (∀ c ∈ s, isNameChar c = true) ∧ s.count ':' ≤ 1

/-- white space between elements -/
def IsBlank (t : Token) : Prop := ∃ s : Text, t = .text s ∧ ∀ c ∈ s, c = ' ' ∨ c = '\n'

/-- text without markup, which is read as it is -/
def Literal (t : Text) : Prop := ∀ c ∈ t, c ≠ '&' ∧ c ≠ '<' ∧ c ≠ '"' ∧ c ≠ '\r' ∧ inRange c = true

/-- The attribute is read: name and value. `name` tells how names are read. -/
def ReadsAttribute (name : Text → Name) (a : Text × Text) (r : Name × Text) : Prop :=
  r.1 = name a.1 ∧ readText a.2 = some r.2

/-- The tokens are those of the elements: a start tag with the attributes, the content, an end tag; with any white space
between them.  `el` and `at_` tell how the names of elements and attributes are read. -/
def Reads (el at_ : Text → Name) : Forest → List Token → Prop
  | .nil, ts => ts = []
  | .elem name attributes _ children next, ts => ∃ (ws cs ws' rest : List Token) (as : List (Name × Text)),
      ts = ws ++ .start (el name) as :: (cs ++ ws' ++ .stop (el name) :: rest) ∧ (∀ w ∈ ws, IsBlank w) ∧ (∀ w ∈ ws', IsBlank w) ∧
      List.Forall₂ (ReadsAttribute at_) attributes as ∧ Reads el at_ children cs ∧ Reads el at_ next rest
  | .group children next, ts => ∃ cs rest : List Token, ts = cs ++ rest ∧ Reads el at_ children cs ∧ Reads el at_ next rest
  | .nilElem name next, ts => ∃ ws rest : List Token,
      ts = ws ++ .start (el name) [(at_ "xsi:nil".toList, "true".toList)] :: .stop (el name) :: rest ∧ (∀ w ∈ ws, IsBlank w) ∧
      Reads el at_ next rest
  | .content name t next, ts => ∃ (ws rest : List Token) (x : Text), readText t = some x ∧
      ts = ws ++ .start (el name) [] :: ((if x = [] then [] else [.text x]) ++ .stop (el name) :: rest) ∧ (∀ w ∈ ws, IsBlank w) ∧
      Reads el at_ next rest

/-- all names are legal, the values of attributes and the contents can be read: no quotes in attributes, no markup, no `]]>` in
contents -/
def Readable : Forest → Prop
  | .nil => True
  | .elem name attributes _ children next =>
    LegalName name ∧ (∀ a ∈ attributes, LegalName a.1 ∧ '"' ∉ a.2 ∧ '<' ∉ a.2 ∧ (readText a.2).isSome) ∧ Readable children ∧ Readable next
  | .group children next => Readable children ∧ Readable next
  | .nilElem name next => LegalName name ∧ Readable next
  | .content name t next => LegalName name ∧ '<' ∉ t ∧ hasEnd t = false ∧ (readText t).isSome ∧ Readable next

end Verif.XMLLex
