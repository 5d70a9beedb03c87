/-!
# Building a metamodel by program

The calls with which generated code (and user code) builds a metamodel: the
`Create…FromContainer` functions of the Ecore factory and the `Init…` and `Add…`
functions of a package.

Modelled: ecore/ecorefactory_impl.go:126-318 (without factories and the objects that
have no `…FromContainer` function), ecore/epackage_ext.go:82-158, and the setters
they call.

Simplifications:
* elements are numbered in the order of their creation;
* a call with an argument that Go's types refuse (a parameter in a class, an
  element that does not exist) has no result, as a panic has none;
* notifications and the caches of derived lists are left out (C06, C35, C67);
* the factory of a package is the one it has been given by its constructor
  (epackage_ext.go:48), and the GenGo annotation of data types
  (edatatype_ext.go:67-74) is absent;
* the conversion of texts to values is a parameter `conv`: it takes the instance
  type name and the text, and has no result where `CreateFromString` panics (C44,
  C57 model it).
-/

namespace Verif.MetaBuild

/-- The elements that can be created in a container. -/
inductive Kind where
  | package | class | dataType | enum | attribute | reference | operation
  | parameter | literal | annotation
  deriving DecidableEq, Repr

/-- The lists of an element that hold others: `GetEClassifiers`, `GetESubPackages`,
`GetEStructuralFeatures`, `GetEOperations`, `GetEParameters`, `GetELiterals`,
`GetEAnnotations`. -/
inductive Slot where
  | classifiers | subPackages | features | operations | parameters | literals
  | annotations
  deriving DecidableEq, Repr

/-- What the getters of an element tell. -/
structure Elem where
  kind : Kind
  /-- `eContainer` -/
  container : Option Nat := none
  /-- `classifierID`, `featureID` or `operationID`: eclassifier_impl.go:39,
  estructuralfeature_impl.go:41, eoperation_impl.go:36 -/
  ident : Int := -1
  kids : Slot → List Nat := fun _ => []
  name : String := ""
  /-- etypedelement_impl.go:36-43 -/
  type : Option Nat := none
  lower : Int := 0
  upper : Int := 1
  unique : Bool := true
  ordered : Bool := true
  /-- estructuralfeature_impl.go:38-48 -/
  defaultLiteral : String := ""
  changeable : Bool := true
  transient : Bool := false
  volatile : Bool := false
  unsettable : Bool := false
  derived : Bool := false
  /-- eattribute_impl.go:34 -/
  isID : Bool := false
  /-- ereference_impl.go:39-44 -/
  containment : Bool := false
  resolveProxies : Bool := true
  opposite : Option Nat := none
  /-- eclass_impl.go, `Initialize` -/
  isAbstract : Bool := false
  isInterface : Bool := false
  /-- eclassifier_impl.go:41 -/
  instanceClassName : String := ""
  /-- edatatype_impl.go:30, edatatype_ext.go:17-21; `default` is the value that was set,
  where none was `GetDefaultValue` goes by the instance type name (C67) -/
  serializable : Bool := true
  default : Option Nat := none
  /-- eenumliteral_impl.go:30-36 -/
  literal : String := ""
  value : Int := 0
  inst : Option Nat := none

/-- The elements, by number. -/
structure St where
  heap : List Elem := []

/-- The arguments that the calls for typed elements share. -/
structure Typed where
  type : Option Nat
  name : String
  lower : Int
  upper : Int
  unique : Bool
  ordered : Bool
  deriving DecidableEq, Repr

/-- The arguments that `InitEAttribute` and `InitEReference` share. -/
structure Feature extends Typed where
  defaultLiteral : String
  transient : Bool
  volatile : Bool
  changeable : Bool
  unsettable : Bool
  derived : Bool
  deriving DecidableEq, Repr

/-- The calls. -/
inductive Call where
  | create (k : Kind) (container : Option Nat) (ident : Option Int)
  | initClass (e : Nat) (name instanceTypeName : String) (isAbstract isInterface : Bool)
  | initAttribute (e : Nat) (a : Feature) (isID : Bool)
  | initReference (e : Nat) (a : Feature) (opposite : Option Nat)
      (containment resolveProxies : Bool)
  | initOperation (e : Nat) (a : Typed)
  | addParameter (op : Nat) (a : Typed)
  | initDataType (pack e : Nat) (name instanceTypeName default : String)
      (serializable : Bool)
  | initEnum (e : Nat) (name instanceTypeName : String)
  | addLiteral (enum : Nat) (name literal : String) (value : Int) (inst : Option Nat)
  deriving DecidableEq, Repr

/-- The list an element of the kind is put into by its `Create…FromContainer`:
ecorefactory_impl.go:126-318. -/
def slotOf : Kind → Slot
  | .package => .subPackages
  | .class | .dataType | .enum => .classifiers
  | .attribute | .reference => .features
  | .operation => .operations
  | .parameter => .parameters
  | .literal => .literals
  | .annotation => .annotations

/-- The type of the container argument of `Create…FromContainer`. -/
def accepts : Slot → Kind → Bool
  | .subPackages, k | .classifiers, k => k == .package
  | .features, k | .operations, k => k == .class
  | .parameters, k => k == .operation
  | .literals, k => k == .enum
  | .annotations, _ => true

/-- Kinds that have a `Create…FromContainerAndClassID`. -/
def hasID : Kind → Bool
  | .class | .dataType | .enum | .attribute | .reference | .operation => true
  | _ => false

/-- Write an element. -/
def St.set (s : St) (e : Nat) (f : Elem → Elem) : St :=
  { heap := s.heap.modify e f }

def St.kindIs (s : St) (e : Nat) (k : Kind) : Bool :=
  match s.heap[e]? with
  | some x => x.kind == k
  | none => false

/-- `Add` of a containment list: a list of unique elements
(basicenotifyinglist.go, `Add`; arraylist with `isUnique`), then the inverse, which
sets the container (C19, C74). -/
def St.add (s : St) (c : Nat) (sl : Slot) (e : Nat) : St :=
  match s.heap[c]? with
  | none => s
  | some x =>
    if e ∈ x.kids sl then s
    else
      (s.set c fun x => { x with kids := fun sl' =>
          if sl' = sl then x.kids sl ++ [e] else x.kids sl' }).set e
        fun y => { y with container := some c }

/-- `Create…`, `Create…FromContainer` and `Create…FromContainerAndClassID`:
ecorefactory_impl.go:126-318.  The ID is set before the element is added. -/
def create (s : St) (k : Kind) (c : Option Nat) (ident : Option Int) : Option St :=
  if ident.isSome && !hasID k then none
  else
    let e := s.heap.length
    let s1 : St := { heap := s.heap ++ [{ kind := k }] }
    let s2 := match ident with
      | some i => s1.set e fun x => { x with ident := i }
      | none => s1
    match c with
    | none => some s2
    | some c =>
      match s.heap[c]? with
      | none => none
      | some x => if accepts (slotOf k) x.kind then some (s2.add c (slotOf k) e) else none

/-- The setters that typed elements share: enamedelement_impl.go:52-58,
etypedelement_impl.go:81-162. -/
def setTyped (a : Typed) (x : Elem) : Elem :=
  let x := { x with name := a.name }
  let x := { x with type := a.type }
  let x := { x with lower := a.lower }
  let x := { x with upper := a.upper }
  let x := { x with unique := a.unique }
  { x with ordered := a.ordered }

/-- `initEStructuralFeature`: epackage_ext.go:89-102. -/
def setFeature (a : Feature) (x : Elem) : Elem :=
  let x := { x with name := a.name }
  let x := { x with type := a.type }
  let x := { x with defaultLiteral := a.defaultLiteral }
  let x := { x with lower := a.lower }
  let x := { x with upper := a.upper }
  let x := { x with transient := a.transient }
  let x := { x with volatile := a.volatile }
  let x := { x with changeable := a.changeable }
  let x := { x with unsettable := a.unsettable }
  let x := { x with unique := a.unique }
  let x := { x with derived := a.derived }
  { x with ordered := a.ordered }

/-- `initEClassifier`: epackage_ext.go:135-138, eclassifier_ext.go:40-42. -/
def setClassifier (name instanceTypeName : String) (x : Elem) : Elem :=
  let x := { x with name := name }
  { x with instanceClassName := instanceTypeName }

/-- One call. -/
def step (conv : String → String → Option Nat) (s : St) : Call → Option St
  | .create k c i => create s k c i
  -- epackage_ext.go:82-87
  | .initClass e n t a i =>
    if s.kindIs e .class then
      some (s.set e fun x =>
        let x := { x with name := n }
        let x := { x with isAbstract := a }
        let x := { x with isInterface := i }
        { x with instanceClassName := t })
    else none
  -- epackage_ext.go:104-107
  | .initAttribute e a d =>
    if s.kindIs e .attribute then
      some ((s.set e (setFeature a)).set e fun x => { x with isID := d })
    else none
  -- epackage_ext.go:109-114
  | .initReference e a o c r =>
    if s.kindIs e .reference then
      some ((s.set e (setFeature a)).set e fun x =>
        let x := { x with containment := c }
        let x := { x with resolveProxies := r }
        { x with opposite := o })
    else none
  -- epackage_ext.go:116-123
  | .initOperation e a =>
    if s.kindIs e .operation then some (s.set e (setTyped a)) else none
  -- epackage_ext.go:125-133
  | .addParameter op a =>
    let e := s.heap.length
    (create s .parameter (some op) none).map fun s => s.set e (setTyped a)
  -- epackage_ext.go:140-146, efactory_ext.go:47-50: the factory of the package
  -- refuses data types of other packages
  | .initDataType p e n t d z =>
    if s.kindIs e .dataType && s.kindIs p .package then
      let s1 := s.set e (setClassifier n t)
      let s2 := s1.set e fun x => { x with serializable := z }
      if d.length > 0 then
        match s2.heap[e]? with
        | none => none
        | some x =>
          if x.container = some p then
            match conv x.instanceClassName d with
            | none => none
            | some v => some (s2.set e fun x => { x with default := some v })
          else none
      else some s2
    else none
  -- epackage_ext.go:148-150
  | .initEnum e n t =>
    if s.kindIs e .enum then some (s.set e (setClassifier n t)) else none
  -- epackage_ext.go:152-158
  | .addLiteral en n l v i =>
    let e := s.heap.length
    (create s .literal (some en) none).map fun s => s.set e fun x =>
      let x := { x with name := n }
      let x := { x with literal := l }
      let x := { x with value := v }
      { x with inst := i }

/-- The calls of a program, from nothing.  No result: one of them panics, or is not
Go. -/
def run (conv : String → String → Option Nat) (s : St) : List Call → Option St
  | [] => some s
  | c :: cs => (step conv s c).bind fun s => run conv s cs

/-- `GetClassifierID`: eclassifier_impl.go:67-72, eclassifier_ext.go:24-29.  That the
index is kept when it was computed is left out: C67. -/
def classifierID (s : St) (e : Nat) : Int :=
  match s.heap[e]? with
  | none => -1
  | some x =>
    if x.ident = -1 then
      match x.container with
      | none => -1
      | some c =>
        match s.heap[c]? with
        | none => -1
        | some p =>
          if e ∈ p.kids .classifiers then ((p.kids .classifiers).idxOf e : Int) else -1
    else x.ident

/-- `GetLiteral`: eenumliteral_ext.go:23-28. -/
def getLiteral (x : Elem) : String :=
  if x.literal.length = 0 then x.name else x.literal

/-- `IsContainer`: ereference_ext.go:25-28. -/
def isContainer (s : St) (x : Elem) : Bool :=
  match x.opposite with
  | none => false
  | some o =>
    match s.heap[o]? with
    | none => false
    | some y => y.containment

end Verif.MetaBuild
