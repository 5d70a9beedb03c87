import Verif.Model.XMLElements

/-!
# What a document means

The content of an element is a forest of elements and texts.  Each element for a feature of the
enclosing object sets that feature of that object; elements for unknown features mean nothing.
-/

namespace Verif.XMLElements

/-- Elements and texts one after the other. -/
inductive Forest where
  | nil
  | text (t : String) (next : Forest)
  | elem (name : String) (xsiType : Option String) (children : Forest) (next : Forest)
deriving DecidableEq, Repr

/-- the tokens of a forest -/
def tokens : Forest → List Token
  | .nil => []
  | .text t next => .text t :: tokens next
  | .elem name ty children next => .startElement name ty :: (tokens children ++ .endElement :: tokens next)

/-- the tokens of a document -/
def document (root : String) (content : Forest) : List Token :=
  .startElement root none :: (tokens content ++ [.endElement])

/-- no elements -/
def onlyText : Forest → Bool
  | .nil => true
  | .text _ next => onlyText next
  | .elem .. => false

/-- the text -/
def content : Forest → String
  | .nil => ""
  | .text t next => t ++ content next
  | .elem _ _ _ next => content next

/-- the class of the object of a reference element -/
def classOf (w : World) (ty : Option String) (target : Option Nat) : Option Nat :=
  match ty with
  | none => target
  | some t => match w.typeName t with
    | .found c => some c
    | _ => none

/-- all elements are known: every one is for a feature of the class of the enclosing object, with
text only for data and an object that can be created for references -/
def Known (w : World) : Nat → Forest → Bool
  | _, .nil => true
  | c, .text _ next => Known w c next
  | c, .elem name ty children next =>
    (match w.feature c name with
      | some (.data _) => onlyText children
      | some (.ref _ target) => match classOf w ty target with
        | some c' => Known w c' children
        | none => false
      | none => false) && Known w c next

/-- The effects that the content `forest` of the object `o` is meant to have, when `n` is the
number of the next object; and the number of the next object afterwards.  Unknown elements are as
if they were absent. -/
def expected (w : World) (o : Obj) (n : Nat) : Forest → Nat × List Effect
  | .nil => (n, [])
  | .text _ next => expected w o n next
  | .elem name ty children next =>
    match w.feature o.cls name with
    | some (.data f) =>
      let r := expected w o n next
      (r.1, .setText o f (content children) :: r.2)
    | some (.ref f target) =>
      match classOf w ty target with
      | some c =>
        let r := expected w ⟨n, c⟩ (n + 1) children
        let r' := expected w o r.1 next
        (r'.1, .setObject o f ⟨n, c⟩ :: (r.2 ++ r'.2))
      | none => expected w o n next
    | none => expected w o n next

/-- `AddsLast w c F F'`: `F'` is `F` with one element for an unknown feature added after
everything else, as the content of an object of class `c` or of one of its last children. -/
inductive AddsLast (w : World) : Nat → Forest → Forest → Prop where
  | here {c : Nat} {name : String} {ty : Option String} {texts : Forest} :
      w.feature c name = none → onlyText texts = true → AddsLast w c .nil (.elem name ty texts .nil)
  | text {c : Nat} {t : String} {F F' : Forest} : AddsLast w c F F' → AddsLast w c (.text t F) (.text t F')
  | after {c : Nat} {name : String} {ty : Option String} {ch F F' : Forest} :
      AddsLast w c F F' → AddsLast w c (.elem name ty ch F) (.elem name ty ch F')
  | inside {c c' f : Nat} {name : String} {ty : Option String} {target : Option Nat} {F F' texts : Forest} :
      w.feature c name = some (.ref f target) → classOf w ty target = some c' → AddsLast w c' F F' →
      onlyText texts = true → AddsLast w c (.elem name ty F texts) (.elem name ty F' texts)

end Verif.XMLElements
