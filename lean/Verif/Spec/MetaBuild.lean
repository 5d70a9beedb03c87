import Verif.Model.MetaBuild

/-!
# What a program that builds a metamodel describes

Read off the calls alone: which elements there are, where they are, and what is said
of each of them.  Of the model only the types of calls and elements are used.
-/

namespace Verif.MetaBuild

/-- What can be said of an element. -/
inductive Field where
  | name | type | lower | upper | unique | ordered | defaultLiteral | changeable
  | transient | volatile | unsettable | derived | isID | containment | resolveProxies
  | opposite | isAbstract | isInterface | instanceTypeName | serializable | default
  | literal | value | inst
  deriving DecidableEq, Repr

inductive Val where
  | str (s : String)
  | int (i : Int)
  | bool (b : Bool)
  | elem (e : Option Nat)
  | any (v : Option Nat)
  deriving DecidableEq, Repr

/-- What the getter of the field returns.  For `default`: what `GetDefaultValue` of a data
type returns if one was set. -/
def Elem.get (x : Elem) : Field → Val
  | .name => .str x.name
  | .type => .elem x.type
  | .lower => .int x.lower
  | .upper => .int x.upper
  | .unique => .bool x.unique
  | .ordered => .bool x.ordered
  | .defaultLiteral => .str x.defaultLiteral
  | .changeable => .bool x.changeable
  | .transient => .bool x.transient
  | .volatile => .bool x.volatile
  | .unsettable => .bool x.unsettable
  | .derived => .bool x.derived
  | .isID => .bool x.isID
  | .containment => .bool x.containment
  | .resolveProxies => .bool x.resolveProxies
  | .opposite => .elem x.opposite
  | .isAbstract => .bool x.isAbstract
  | .isInterface => .bool x.isInterface
  | .instanceTypeName => .str x.instanceClassName
  | .serializable => .bool x.serializable
  | .default => .any x.default
  | .literal => .str x.literal
  | .value => .int x.value
  | .inst => .any x.inst

/-- What Ecore defines for an element of which nothing is said. -/
def unsaid : Field → Val
  | .name | .defaultLiteral | .instanceTypeName | .literal => .str ""
  | .type | .opposite => .elem none
  | .default | .inst => .any none
  | .lower | .value => .int 0
  | .upper => .int 1
  | .unique | .ordered | .changeable | .resolveProxies | .serializable => .bool true
  | .transient | .volatile | .unsettable | .derived | .isID | .containment
  | .isAbstract | .isInterface => .bool false

/-- The element a call creates: its kind, its container and its ID. -/
def made : Call → Option (Kind × Option Nat × Option Int)
  | .create k c i => some (k, c, i)
  | .addParameter op _ => some (.parameter, some op, none)
  | .addLiteral en _ _ _ _ => some (.literal, some en, none)
  | _ => none

/-- The elements a program creates, in order. -/
def elements (prog : List Call) : List (Kind × Option Nat × Option Int) :=
  prog.filterMap made

/-- The element a call speaks of.  `n` is the number of elements created before: the
number of the element the call creates. -/
def subject (n : Nat) : Call → Option Nat
  | .create _ _ _ => none
  | .initClass e _ _ _ _ | .initAttribute e _ _ | .initReference e _ _ _ _
  | .initOperation e _ | .initDataType _ e _ _ _ _ | .initEnum e _ _ => some e
  | .addParameter _ _ | .addLiteral _ _ _ _ _ => some n

/-- What the arguments of typed elements say. -/
def Typed.says (a : Typed) : Field → Option Val
  | .name => some (.str a.name)
  | .type => some (.elem a.type)
  | .lower => some (.int a.lower)
  | .upper => some (.int a.upper)
  | .unique => some (.bool a.unique)
  | .ordered => some (.bool a.ordered)
  | _ => none

/-- What the arguments of features say. -/
def Feature.says (a : Feature) : Field → Option Val
  | .defaultLiteral => some (.str a.defaultLiteral)
  | .transient => some (.bool a.transient)
  | .volatile => some (.bool a.volatile)
  | .changeable => some (.bool a.changeable)
  | .unsettable => some (.bool a.unsettable)
  | .derived => some (.bool a.derived)
  | f => a.toTyped.says f

/-- What a call says of its subject.  A default value is said where the text for it
is not empty. -/
def says (conv : String → String → Option Nat) : Call → Field → Option Val
  | .create _ _ _, _ => none
  | .initClass _ n _ _ _, .name => some (.str n)
  | .initClass _ _ t _ _, .instanceTypeName => some (.str t)
  | .initClass _ _ _ a _, .isAbstract => some (.bool a)
  | .initClass _ _ _ _ i, .isInterface => some (.bool i)
  | .initAttribute _ _ d, .isID => some (.bool d)
  | .initAttribute _ a _, f => a.says f
  | .initReference _ _ o _ _, .opposite => some (.elem o)
  | .initReference _ _ _ c _, .containment => some (.bool c)
  | .initReference _ _ _ _ r, .resolveProxies => some (.bool r)
  | .initReference _ a _ _ _, f => a.says f
  | .initOperation _ a, f => a.says f
  | .addParameter _ a, f => a.says f
  | .initDataType _ _ n _ _ _, .name => some (.str n)
  | .initDataType _ _ _ t _ _, .instanceTypeName => some (.str t)
  | .initDataType _ _ _ _ _ z, .serializable => some (.bool z)
  | .initDataType _ _ _ t d _, .default => if d = "" then none else some (.any (conv t d))
  | .initEnum _ n _, .name => some (.str n)
  | .initEnum _ _ t, .instanceTypeName => some (.str t)
  | .addLiteral _ n _ _ _, .name => some (.str n)
  | .addLiteral _ _ l _ _, .literal => some (.str l)
  | .addLiteral _ _ _ v _, .value => some (.int v)
  | .addLiteral _ _ _ _ i, .inst => some (.any i)
  | _, _ => none

/-- What a program says of the element `e` last, where `n` elements were created
before and `v` is what was said before. -/
def told (conv : String → String → Option Nat) (e : Nat) (f : Field) :
    Nat → Val → List Call → Val
  | _, v, [] => v
  | n, v, c :: cs =>
    told conv e f (if (made c).isSome then n + 1 else n)
      (if subject n c = some e then (says conv c f).getD v else v) cs

/-- What a whole program says of the element `e`. -/
def described (conv : String → String → Option Nat) (prog : List Call) (e : Nat)
    (f : Field) : Val :=
  told conv e f 0 (unsaid f) prog

/-- The list of a container that holds the elements of a kind. -/
def listOf : Kind → Slot
  | .package => .subPackages
  | .class | .dataType | .enum => .classifiers
  | .attribute | .reference => .features
  | .operation => .operations
  | .parameter => .parameters
  | .literal => .literals
  | .annotation => .annotations

/-- The elements that were created in the container `c`, for its list `sl`, in the
order of their creation. -/
def placed (prog : List Call) (c : Nat) (sl : Slot) : List Nat :=
  (List.range (elements prog).length).filter fun i =>
    match (elements prog)[i]? with
    | some (k, c', _) => c' == some c && listOf k == sl
    | none => false

/-- The kinds of elements that a list can belong to. -/
def owners : Slot → List Kind
  | .subPackages | .classifiers => [.package]
  | .features | .operations => [.class]
  | .parameters => [.operation]
  | .literals => [.enum]
  | .annotations => [.package, .class, .dataType, .enum, .attribute, .reference, .operation,
      .parameter, .literal, .annotation]

/-- A call makes sense after the elements `els` were created: its arguments are of the
types it wants, and a text for a default value is one of a data type of the package
the call is made on, and can be converted. -/
def Sensible (conv : String → String → Option Nat)
    (els : List (Kind × Option Nat × Option Int)) : Call → Prop
  | .create k co i =>
    (i ≠ none → k ∈ [Kind.class, .dataType, .enum, .attribute, .reference, .operation]) ∧
    ∀ c, co = some c → ∃ kc ∈ owners (listOf k), els[c]?.map (·.1) = some kc
  | .initClass e _ _ _ _ => els[e]?.map (·.1) = some .class
  | .initAttribute e _ _ => els[e]?.map (·.1) = some .attribute
  | .initReference e _ _ _ _ => els[e]?.map (·.1) = some .reference
  | .initOperation e _ => els[e]?.map (·.1) = some .operation
  | .addParameter op _ => els[op]?.map (·.1) = some .operation
  | .initDataType p e _ t d _ =>
    els[e]?.map (·.1) = some .dataType ∧ els[p]?.map (·.1) = some .package ∧
    (d ≠ "" → els[e]?.map (·.2.1) = some (some p) ∧ conv t d ≠ none)
  | .initEnum e _ _ => els[e]?.map (·.1) = some .enum
  | .addLiteral en _ _ _ _ => els[en]?.map (·.1) = some .enum

end Verif.MetaBuild
