/-
A package, its classifiers and its features, with everything they remember:
the lookup of a classifier by name, the classifier IDs, the reference types and
the default values.

Classifiers and features are numbers.  A package has one factory at a time;
factories are numbers too.
-/
namespace Verif.MetaLookup

/-- Values that are defaults.  `other` stands for any value made by a factory. -/
inductive Val where
  | nil
  | num (type : String) (n : Int)
  | bool (b : Bool)
  | str (s : String)
  | other (n : Nat)
  deriving DecidableEq, Repr, Inhabited

/-- What a classifier is: an instance of `EClass`, `EDataType` or `EEnum`. -/
inductive Kind where
  | cls | data | enum
  deriving DecidableEq, Repr

/-- A literal of an enumeration: eenumliteral_impl.go:18-24. -/
structure Literal where
  name : String
  literal : String
  value : Int
  deriving DecidableEq, Repr

/-- The package, its classifiers and features.

* package: `classifiers` is `GetEClassifiers()`, `factory` is
  `GetEFactoryInstance()`, `deliver` is `EDeliver()`, `cache` is
  `classifierCache` (epackage_ext.go:31-36), written as the list of the entries
  in the order of their insertion;
* classifier: `name` (enamedelement_impl.go:18), `kind` (fixed at creation),
  `inst` is `getInstanceTypeName` (edatatype_ext.go:67-74; the annotation and
  `instanceClassName` are not told apart), `serializable`
  (edatatype_impl.go:18), `literals` (eenum_impl.go:18), `cid` is
  `classifierID` (eclassifier_impl.go:21), `dflt` and `dfltSet` are
  `defaultValue` and `defaultValueIsSet` (edatatype_ext.go:17-21);
* feature: `etype`, `many` (the upper bound), `literal` is
  `defaultValueLiteral`, `refType` is `eReferenceType` (ereference_ext.go:13-16),
  `fdflt` and `fdfltFactory` are `defaultValue` and `defaultValueFactory`
  (estructuralfeature_ext.go:13-17).

Proxies are not modelled: no type is a proxy. -/
structure State where
  classifiers : List Nat
  factory : Nat
  deliver : Bool
  cache : Option (List (String × Nat))
  name : Nat → String
  kind : Nat → Kind
  inst : Nat → String
  serializable : Nat → Bool
  literals : Nat → List Literal
  cid : Nat → Int
  dflt : Nat → Val
  dfltSet : Nat → Bool
  etype : Nat → Option Nat
  many : Nat → Bool
  literal : Nat → String
  refType : Nat → Option Nat
  fdflt : Nat → Val
  fdfltFactory : Nat → Option Nat

/-- One field of one object is given a value. -/
def upd {α : Type} (f : Nat → α) (i : Nat) (v : α) : Nat → α :=
  fun j => if j = i then v else f j

/-- A package with nothing in it and objects as they are created:
epackage_ext.go:45-50, eclassifier_impl.go:37-42, estructuralfeature_ext.go:19-24. -/
def init (kind : Nat → Kind) : State where
  classifiers := []
  factory := 0
  deliver := true
  cache := none
  name := fun _ => ""
  kind := kind
  inst := fun _ => ""
  serializable := fun _ => true
  literals := fun _ => []
  cid := fun _ => -1
  dflt := fun _ => .nil
  dfltSet := fun _ => false
  etype := fun _ => none
  many := fun _ => false
  literal := fun _ => ""
  refType := fun _ => none
  fdflt := fun _ => .nil
  fdfltFactory := fun _ => none

/-- `NotifyChanged` of the adapter of the package (epackage_ext.go:19-29), called
after the classifiers changed, if the package delivers notifications
(abstractenotifier.go, `ENotificationRequired`). -/
def notifyClassifiers (s : State) : State :=
  if s.deliver then { s with cache := none } else s

/-- `GetEClassifiers().Add(c)`: a unique list, notified when it changes
(basicenotifyinglist.go, epackage_impl.go:72-77). -/
def addClassifier (s : State) (c : Nat) : State :=
  if s.classifiers.contains c then s
  else notifyClassifiers { s with classifiers := s.classifiers ++ [c] }

/-- `GetEClassifiers().Insert(i, c)`; `i` is between 0 and the size (the panic
otherwise is not modelled: nothing happens). -/
def insertClassifier (s : State) (i : Nat) (c : Nat) : State :=
  if s.classifiers.contains c || s.classifiers.length < i then s
  else notifyClassifiers
    { s with classifiers := s.classifiers.take i ++ c :: s.classifiers.drop i }

/-- `GetEClassifiers().Remove(c)`. -/
def removeClassifier (s : State) (c : Nat) : State :=
  if s.classifiers.contains c then
    notifyClassifiers { s with classifiers := s.classifiers.erase c }
  else s

/-- The loop that fills the cache: epackage_ext.go:60-63. -/
def fill (name : Nat → String) : List Nat → List (String × Nat)
  | [] => []
  | c :: cs => (name c, c) :: fill name cs

/-- Reading a map that was filled in this order: the last entry with the key. -/
def readMap : List (String × Nat) → String → Option Nat
  | [], _ => none
  | (k, c) :: es, n =>
    match readMap es n with
    | some d => some d
    | none => if k = n then some c else none

/-- `GetEClassifier`: epackage_ext.go:52-69. -/
def getEClassifier (s : State) (n : String) : State × Option Nat :=
  let m := match s.cache with
    | none => fill s.name s.classifiers
    | some m => m
  ({ s with cache := some m }, readMap m n)

/-- `IndexOf`: -1 when the element is not in the list. -/
def indexOf (l : List Nat) (c : Nat) : Int :=
  match l.idxOf? c with
  | some i => i
  | none => -1

/-- `GetClassifierID` and `initClassifierID`: eclassifier_impl.go:67-72,
eclassifier_ext.go:24-29.  A classifier that is not in the package has no
package. -/
def getClassifierID (s : State) (c : Nat) : State × Int :=
  if s.cid c = -1 then
    let i := indexOf s.classifiers c
    ({ s with cid := upd s.cid c i }, i)
  else (s, s.cid c)

/-- `GetEReferenceType`: ereference_ext.go:30-39. -/
def getEReferenceType (s : State) (f : Nat) : State × Option Nat :=
  match s.refType f with
  | some c => (s, some c)
  | none =>
    match s.etype f with
    | some c =>
      if s.kind c = .cls then ({ s with refType := upd s.refType f (some c) }, some c)
      else (s, none)
    | none => (s, none)

/-- The switch over instance type names: edatatype_ext.go:41-62. -/
def zero (inst : String) : Option Val :=
  if inst ∈ ["float64", "java.lang.Double", "double"] then some (.num "float64" 0)
  else if inst ∈ ["float32", "java.lang.Float", "float"] then some (.num "float32" 0)
  else if inst ∈ ["int", "java.lang.Integer"] then some (.num "int" 0)
  else if inst ∈ ["uint64", "com.google.common.primitives.UnsignedLong"] then
    some (.num "uint64" 0)
  else if inst ∈ ["int64", "java.lang.Long", "java.math.BigInteger", "long"] then
    some (.num "int64" 0)
  else if inst = "int32" then some (.num "int32" 0)
  else if inst ∈ ["int16", "java.lang.Short", "short"] then some (.num "int16" 0)
  else if inst = "int8" then some (.num "int8" 0)
  else if inst ∈ ["bool", "java.lang.Boolean", "boolean"] then some (.bool false)
  else if inst ∈ ["string", "java.lang.String"] then some (.str "")
  else none

/-- `SetDefaultValue` of a data type: edatatype_ext.go:30-37. -/
def setTypeDefault (s : State) (c : Nat) (v : Val) : State :=
  { s with dflt := upd s.dflt c v, dfltSet := upd s.dfltSet c true }

/-- `GetDefaultValue` of a classifier: eclassifier_ext.go:31-33 (class),
edatatype_ext.go:39-65 (data type), eenum_ext.go:23-29 (enumeration). -/
def getTypeDefault (s : State) (c : Nat) : State × Val :=
  match s.kind c with
  | .cls => (s, .nil)
  | .enum =>
    match s.literals c with
    | l :: _ => (s, .num "int" l.value)
    | [] => (s, .nil)
  | .data =>
    if s.dfltSet c then (s, s.dflt c)
    else
      match zero (s.inst c) with
      | some v => (s, v)
      | none => ({ s with dfltSet := upd s.dfltSet c true }, s.dflt c)

/-- `GetLiteral`: eenumliteral_ext.go:22-27. -/
def getLiteral (l : Literal) : String :=
  if l.literal = "" then l.name else l.literal

/-- `GetEEnumLiteralByName`: eenum_ext.go:32-40. -/
def literalByName : List Literal → String → Option Literal
  | [], _ => none
  | l :: ls, n => if l.name = n then some l else literalByName ls n

/-- `GetEEnumLiteralByValue`: eenum_ext.go:43-51. -/
def literalByValue : List Literal → Int → Option Literal
  | [], _ => none
  | l :: ls, n => if l.value = n then some l else literalByValue ls n

/-- `GetEEnumLiteralByLiteral`: eenum_ext.go:54-62. -/
def literalByLiteral : List Literal → String → Option Literal
  | [], _ => none
  | l :: ls, n => if getLiteral l = n then some l else literalByLiteral ls n

/-- `CreateFromString` (efactory_ext.go:48-95).  The conversion of data types that
are no enumerations depends on the factory, the instance type name and the text
only: it is the parameter `conv`.  `none` is a panic. -/
def createFromString (conv : Nat → String → String → Option Val) (s : State) (c : Nat)
    (text : String) : Option Val :=
  if s.kind c = .enum then (literalByLiteral (s.literals c) text).map (fun l => .num "int" l.value)
  else conv s.factory (s.inst c) text

/-- `GetDefaultValue` of a feature: estructuralfeature_ext.go:27-48.  `none` is a
panic of the factory. -/
def getDefault (conv : Nat → String → String → Option Val) (s : State) (f : Nat) :
    State × Option Val :=
  match s.etype f with
  | none => (s, some .nil)
  | some c =>
    if s.literal f = "" then
      if s.many f then (s, some .nil)
      else
        let r := getTypeDefault s c
        (r.1, some r.2)
    else if s.kind c = .cls then (s, some .nil)
    else if s.classifiers.contains c && s.fdfltFactory f != some s.factory then
      if s.serializable c then
        match createFromString conv s c (s.literal f) with
        | none => (s, none)
        | some v =>
          ({ s with fdflt := upd s.fdflt f v, fdfltFactory := upd s.fdfltFactory f (some s.factory) },
            some v)
      else ({ s with fdfltFactory := upd s.fdfltFactory f (some s.factory) }, some (s.fdflt f))
    else (s, some (s.fdflt f))

/-- `SetDefaultValueLiteral`: estructuralfeature_ext.go:64-67. -/
def setDefaultLiteral (s : State) (f : Nat) (t : String) : State :=
  { s with literal := upd s.literal f t, fdfltFactory := upd s.fdfltFactory f none }

/-- The calls that change the metamodel. -/
inductive Edit where
  | add (c : Nat)
  | insert (i : Nat) (c : Nat)
  | remove (c : Nat)
  | setName (c : Nat) (n : String)
  | setInst (c : Nat) (t : String)
  | setSerializable (c : Nat) (b : Bool)
  | setLiterals (c : Nat) (ls : List Literal)
  | setTypeDefault (c : Nat) (v : Val)
  | setFactory (n : Nat)
  | setDeliver (b : Bool)
  | setEType (f : Nat) (c : Option Nat)
  | setMany (f : Nat) (b : Bool)
  | setDefaultLiteral (f : Nat) (t : String)
  deriving DecidableEq, Repr

/-- The calls that ask. -/
inductive Query where
  | classifier (n : String)
  | classifierID (c : Nat)
  | referenceType (f : Nat)
  | typeDefault (c : Nat)
  | default (f : Nat)
  | literalByName (c : Nat) (n : String)
  | literalByValue (c : Nat) (v : Int)
  | literalByLiteral (c : Nat) (n : String)
  deriving DecidableEq, Repr

inductive Answer where
  | object (c : Option Nat)
  | index (i : Int)
  | value (v : Val)
  | literal (l : Option Literal)
  | panic
  deriving DecidableEq, Repr

/-- The edits.  `SetName` (enamedelement_impl.go:52-58), `SetEType`
(etypedelement_impl.go:81-87) and the other setters write the field and notify;
nobody listens but the package to its own features. -/
def edit (s : State) : Edit → State
  | .add c => addClassifier s c
  | .insert i c => insertClassifier s i c
  | .remove c => removeClassifier s c
  | .setName c n => { s with name := upd s.name c n }
  | .setInst c t => { s with inst := upd s.inst c t }
  | .setSerializable c b => { s with serializable := upd s.serializable c b }
  | .setLiterals c ls => { s with literals := upd s.literals c ls }
  | .setTypeDefault c v => setTypeDefault s c v
  | .setFactory n => { s with factory := n }
  | .setDeliver b => { s with deliver := b }
  | .setEType f c => { s with etype := upd s.etype f c }
  | .setMany f b => { s with many := upd s.many f b }
  | .setDefaultLiteral f t => setDefaultLiteral s f t

/-- The queries. -/
def query (conv : Nat → String → String → Option Val) (s : State) : Query → State × Answer
  | .classifier n => let r := getEClassifier s n; (r.1, .object r.2)
  | .classifierID c => let r := getClassifierID s c; (r.1, .index r.2)
  | .referenceType f => let r := getEReferenceType s f; (r.1, .object r.2)
  | .typeDefault c => let r := getTypeDefault s c; (r.1, .value r.2)
  | .default f =>
    let r := getDefault conv s f
    (r.1, match r.2 with | some v => .value v | none => .panic)
  | .literalByName c n => (s, .literal (literalByName (s.literals c) n))
  | .literalByValue c v => (s, .literal (literalByValue (s.literals c) v))
  | .literalByLiteral c n => (s, .literal (literalByLiteral (s.literals c) n))

inductive Call where
  | edit (e : Edit)
  | query (q : Query)
  deriving DecidableEq, Repr

/-- One call; an edit has no answer. -/
def step (conv : Nat → String → String → Option Val) (s : State) : Call → State × Option Answer
  | .edit e => (edit s e, none)
  | .query q => let r := query conv s q; (r.1, some r.2)

/-- A sequence of calls and the answers. -/
def run (conv : Nat → String → String → Option Val) (s : State) : List Call → List (Option Answer)
  | [] => []
  | c :: cs => let r := step conv s c; r.2 :: run conv r.1 cs

end Verif.MetaLookup
