/-!
# The element stacks of the XML decoder

`XMLDecoder` (ecore/xmldecoder.go) follows the elements of a document with a stack of objects and
a stack of types.
-/

namespace Verif.XMLElements

/-- What a feature is for the decoder (`getLoadFeatureKind`, ecore/xmldecoder.go 499-515): a data
feature (`xlfkSingle`, `xlfkMany`) or a reference, with the class that `createObjectFromFeatureType`
(382-396) instantiates, `none` when it cannot be instantiated.  Features are numbers. -/
inductive Feature where
  | data (f : Nat)
  | ref (f : Nat) (target : Option Nat)
deriving DecidableEq, Repr

/-- What a type name leads to: `getFactoryForSpace`, `getType` and `createObjectWithFactory`
(ecore/xmldecoder.go 368-380, 546-559, 775-780). -/
inductive Lookup where
  | unknownPackage
  | notFound
  | found (cls : Nat)
deriving DecidableEq, Repr

/-- The metamodel as the decoder sees it.  Classes are numbers.  Simplification: the namespace
declarations in scope do not change what a name leads to. -/
structure World where
  /-- `getFeature` (ecore/xmldecoder.go 760-773) -/
  feature : Nat → String → Option Feature
  /-- the class named by `xsi:type` -/
  typeName : String → Lookup
  /-- the class of a root element; packages with a document root class are not modelled -/
  root : String → Lookup

/-- An object: its number in order of creation and its class. -/
structure Obj where
  id : Nat
  cls : Nat
deriving DecidableEq, Repr

/-- Entries of the stack of types (ecore/xmldecoder.go 38-39, 317-323). -/
inductive Ty where
  | object
  | error
  | feature (f : Nat)
deriving DecidableEq, Repr

/-- What happens to the resource.  Attributes are not modelled. -/
inductive Effect where
  /-- `attachFn` -/
  | attach (o : Obj)
  /-- `setFeatureValue` with an object -/
  | setObject (o : Obj) (f : Nat) (value : Obj)
  /-- `setFeatureValue` with a text -/
  | setText (o : Obj) (f : Nat) (value : String)
  /-- `handleProxy` -/
  | proxy (o : Option Obj) (value : String)
  /-- an error is reported -/
  | error
deriving DecidableEq, Repr

/-- The stacks (last entry first), the text builder, and the effects so far. -/
structure St where
  objects : List (Option Obj)
  types : List Ty
  builder : Option String
  next : Nat
  effects : List Effect
deriving DecidableEq, Repr

def init : St := ⟨[], [], none, 0, []⟩

/-- one more effect -/
def emit (s : St) (e : Effect) : St := { s with effects := s.effects ++ [e] }

/-- `processObject` (ecore/xmldecoder.go 316-323) -/
def processObject (s : St) : Option Obj → St
  | some o => { s with objects := some o :: s.objects, types := .object :: s.types }
  | none => { s with types := .error :: s.types }

/-- creation of an object -/
def create (s : St) (cls : Nat) : St × Obj := ({ s with next := s.next + 1 }, ⟨s.next, cls⟩)

/-- `createObjectFromFeatureType` (ecore/xmldecoder.go 382-396) -/
def createFromFeature (s : St) (o : Obj) (f : Nat) : Option Nat → St
  | some cls =>
    let (s, r) := create s cls
    processObject (emit s (.setObject o f r)) (some r)
  | none => processObject s none

/-- `createObjectFromTypeName` (ecore/xmldecoder.go 398-420) -/
def createFromTypeName (w : World) (s : St) (o : Obj) (name : String) (f : Nat) : St :=
  match w.typeName name with
  | .unknownPackage => emit s .error
  | .notFound => processObject (emit s .error) none
  | .found cls =>
    let (s, r) := create s cls
    processObject (emit s (.setObject o f r)) (some r)

/-- `handleFeature` (ecore/xmldecoder.go 422-450), for a non empty stack of objects -/
def handleFeature (w : World) (s : St) (name : String) (xsiType : Option String) : St :=
  match s.objects with
  | some o :: _ =>
    match w.feature o.cls name with
    | some (.data f) => { s with builder := some "", types := .feature f :: s.types, objects := none :: s.objects }
    | some (.ref f target) =>
      match xsiType with
      | some t => createFromTypeName w s o t f
      | none => createFromFeature s o f target
    | none => emit s .error
  | _ => emit { s with types := .error :: s.types } .error

/-- `createTopObject` (ecore/xmldecoder.go 325-366), without document root, and its result -/
def createTopObject (w : World) (s : St) (name : String) : St × Option Obj :=
  match w.root name with
  | .unknownPackage => (emit s .error, none)
  | .notFound => (processObject (emit s .error) none, none)
  | .found cls =>
    let (s, r) := create s cls
    (processObject s (some r), some r)

/-- `startElement` and `processElement` (ecore/xmldecoder.go 170-179, 295-308), without deferred
attachment -/
def startElement (w : World) (s : St) (name : String) (xsiType : Option String) : St :=
  if s.objects = [] then
    match createTopObject w s name with
    | (s, some o) => emit s (.attach o)
    | (s, none) => s
  else handleFeature w s name xsiType

/-- `endElement` (ecore/xmldecoder.go 181-215); `none` is a panic: a missing type asserted to be a
feature, or a feature set on no object.  The references to resolve at the end of the document are
not modelled. -/
def endElement (s : St) : Option St :=
  let object := s.objects.headD none
  let s' : St := St.mk s.objects.tail s.types.tail none s.next s.effects
  match s.builder with
  | none => some s'
  | some t =>
    match s.types with
    | .object :: _ => some (if t ≠ "" then emit s' (.proxy object t) else s')
    | .error :: _ => some s'
    | .feature f :: _ =>
      match (if object = none then s'.objects.headD none else object) with
      | some o => some (emit s' (.setText o f t))
      | none => none
    | [] => none

/-- `text` (ecore/xmldecoder.go 794-798) -/
def text (s : St) (t : String) : St := { s with builder := s.builder.map (· ++ t) }

/-- The tokens given by the XML parser. -/
inductive Token where
  | startElement (name : String) (xsiType : Option String)
  | endElement
  | text (t : String)
deriving DecidableEq, Repr

/-- one turn of the loop of `decodeTopObject` (ecore/xmldecoder.go 143-167) -/
def step (w : World) (s : St) : Token → Option St
  | .startElement name ty => some (startElement w s name ty)
  | .endElement => endElement s
  | .text t => some (text s t)

/-- all tokens -/
def run (w : World) (s : St) : List Token → Option St
  | [] => some s
  | t :: ts => (step w s t).bind fun s => run w s ts

end Verif.XMLElements
