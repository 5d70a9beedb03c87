/-!
# Reflective access to metamodel elements

The methods `EGetFromID`, `ESetFromID`, `EUnsetFromID` and `EIsSetFromID` of the generated classes of the metamodel
(ecore/*_impl.go), with the accessors they call, the overrides of ecore/*_ext.go and the fallback of
ecore/abstracteobject.go.  One element is modelled; the other elements it refers to are numbers, and what the code asks
of them is given by `Env`.  The effect of a call on the other elements (their own opposite ends) is not modelled.
-/

namespace Verif.Reflect

/-- The instantiable classes of the metamodel (ecore/ecorefactory_impl.go). -/
inductive Kind where
  | eAnnotation | eAttribute | eClass | eDataType | eEnum | eEnumLiteral | eFactory | eGenericType | eOperation
  | ePackage | eParameter | eReference | eTypeParameter | eStringToStringMapEntry
  deriving DecidableEq, Repr

/-- The `bool` fields of the generated structs. -/
inductive BoolField where
  | ordered | unique | changeable | volatile | transient | unsettable | derived | iD | containment | resolveProxies
  | abstract | interface | serializable
  deriving DecidableEq, Repr

/-- The `int` fields. -/
inductive IntField where
  | lowerBound | upperBound | featureID | operationID | classifierID | value
  deriving DecidableEq, Repr

/-- The `string` fields. -/
inductive StrField where
  | name | defaultValueLiteral | instanceClassName | literal | source | nsURI | nsPrefix | key | entryValue
  deriving DecidableEq, Repr

/-- The fields that hold another element. -/
inductive RefField where
  | eType | eOpposite | eReferenceType | eFactoryInstance | eUpperBound | eLowerBound | eRawType | eTypeParameter
  | eClassifier
  deriving DecidableEq, Repr

/-- The fields that hold a list. -/
inductive ListField where
  | eAnnotations | eKeys | eParameters | eExceptions | eStructuralFeatures | eSuperTypes | eOperations | eLiterals
  | details | contents | references | eBounds | eTypeArguments | eClassifiers | eSubPackages
  deriving DecidableEq, Repr

/-- What the reflective methods take and return.  `list (some f) l` is the list object held by the field `f` of the
element, showing `l`; `list none l` is some other list. -/
inductive Val where
  | nil
  | bool (b : Bool)
  | int (i : Int)
  | str (s : String)
  | obj (o : Nat)
  | type (t : Nat)
  | any (a : Nat)
  | list (owner : Option ListField) (l : List Nat)
  deriving DecidableEq, Repr

inductive Event where
  | set | unset | resolve
  deriving DecidableEq, Repr

/-- A notification of a change of a single-valued feature (ecore/notification.go 38-53).  The notifications of the lists
are those of C05 and C06 and are not modelled here. -/
structure Note where
  event : Event
  feature : Nat
  old : Val
  new : Val
  deriving DecidableEq, Repr

/-- An element of the metamodel.  A `nil` list field is `none`. -/
structure El where
  kind : Kind
  bools : BoolField → Bool
  ints : IntField → Int
  strs : StrField → String
  refs : RefField → Option Nat
  lists : ListField → Option (List Nat)
  /-- the computed lists of `EClassImpl`, by feature ID (ecore/eclass_impl.go 15-33) -/
  computed : Nat → Option (List Nat)
  /-- `eIDAttribute` of `EClassImpl` -/
  idAttribute : Option Nat
  /-- `instanceClass` of `EClassifierImpl` -/
  instanceClass : Option Nat
  /-- `instance` of `EEnumLiteralImpl` -/
  instance_ : Val
  /-- `defaultValue` and `defaultValueFactory` of `EStructuralFeatureExt` (ecore/estructuralfeature_ext.go 13-17) -/
  defaultValue : Val
  defaultValueFactory : Option Nat
  /-- `container` and the container feature ID (ecore/compacteobject_container.go 12-24) -/
  container : Option Nat
  containerFeatureID : Int
  /-- `ENotificationRequired()` -/
  listening : Bool
  /-- what the adapters have been told -/
  log : List Note

/-- What the code asks of the other elements. -/
structure Env where
  /-- `EResolveProxy` of a proxy, the element itself otherwise -/
  resolve : Nat → Nat
  isClass : Nat → Bool
  isDataType : Nat → Bool
  isContainment : Nat → Bool
  /-- `GetDefaultValue` of a classifier -/
  typeDefault : Nat → Val
  /-- `GetEPackage().GetEFactoryInstance()` of a data type, `none` when it has no package -/
  factory : Nat → Option Nat
  serializable : Nat → Bool
  fromString : Nat → Nat → String → Val
  toString : Nat → Nat → Val → String
  /-- the position of this element in the `eClassifiers` of a package -/
  position : Nat → Int
  /-- what the initialisation of the computed lists of a class gives (C35) -/
  classList : Nat → List Nat
  /-- what `initEIDAttribute` gives -/
  idAttribute : Option Nat
  /-- `GetDefaultValue` of this element when it is a data type -/
  dataTypeDefault : Val

/-- The result of a call: it returns, it panics, or it calls itself without end. -/
inductive Res (α : Type) where
  | ok (a : α)
  | panic
  | endless
  deriving DecidableEq, Repr

def Res.bind {α β : Type} (r : Res α) (f : α → Res β) : Res β :=
  match r with
  | .ok a => f a
  | .panic => .panic
  | .endless => .endless

/-- The `…_FEATURE_COUNT` constants (ecore/ecorepackage.go). -/
def featureCount : Kind → Nat
  | .eAnnotation => 6
  | .eAttribute => 20
  | .eClass => 25
  | .eDataType => 9
  | .eEnum => 10
  | .eEnumLiteral => 6
  | .eFactory => 2
  | .eGenericType => 6
  | .eOperation => 13
  | .ePackage => 8
  | .eParameter => 10
  | .eReference => 24
  | .eTypeParameter => 3
  | .eStringToStringMapEntry => 2

/-- `AbstractEObject.EGetFromID`, `ESetFromID`, `EUnsetFromID` and `EIsSetFromID` (ecore/abstracteobject.go 259-275,
401-417, 511-527, 549-565) for an element without dynamic features: an ID which is not the one of a feature panics, and
for the ID of a static feature the method calls `EGet`, `ESet`, `EUnset` or `EIsSet`, which call it again. -/
def fallback {α : Type} (s : El) (id : Nat) : Res α :=
  if id < featureCount s.kind then .endless else .panic

/-- `ENotify` under `ENotificationRequired`. -/
def notify (s : El) (n : Note) : El :=
  if s.listening then { s with log := s.log ++ [n] } else s

/-! ## Accessors -/

def ofRef : Option Nat → Val
  | none => .nil
  | some o => .obj o

def ofType : Option Nat → Val
  | none => .nil
  | some o => .type o

/-- `newValue, _ := value.(T)` for an interface of elements. -/
def toRef : Val → Option Nat
  | .obj o => some o
  | _ => none

/-- Getters of the form `return e.field`. -/
def getBool (s : El) (f : BoolField) : Res (Val × El) := .ok (.bool (s.bools f), s)
def getInt (s : El) (f : IntField) : Res (Val × El) := .ok (.int (s.ints f), s)
def getStr (s : El) (f : StrField) : Res (Val × El) := .ok (.str (s.strs f), s)
def getRef (s : El) (f : RefField) : Res (Val × El) := .ok (ofRef (s.refs f), s)

/-- Setters of the form: keep the old value, store the new one, notify `SET` (for instance
ecore/enamedelement_impl.go 52-58), after the type assertion of `ESetFromID`. -/
def setBool (s : El) (id : Nat) (f : BoolField) : Val → Res El
  | .bool b =>
    .ok (notify { s with bools := fun g => if g = f then b else s.bools g } ⟨.set, id, .bool (s.bools f), .bool b⟩)
  | _ => .panic

def setInt (s : El) (id : Nat) (f : IntField) : Val → Res El
  | .int i =>
    .ok (notify { s with ints := fun g => if g = f then i else s.ints g } ⟨.set, id, .int (s.ints f), .int i⟩)
  | _ => .panic

def setStr (s : El) (id : Nat) (f : StrField) : Val → Res El
  | .str t =>
    .ok (notify { s with strs := fun g => if g = f then t else s.strs g } ⟨.set, id, .str (s.strs f), .str t⟩)
  | _ => .panic

/-- The write of a field that holds an element. -/
def putRef (s : El) (f : RefField) (o : Option Nat) : El :=
  { s with refs := fun g => if g = f then o else s.refs g }

/-- `SetEType`, `SetEOpposite`, `SetEClassifier`, `SetETypeParameter` (ecore/etypedelement_impl.go 81-87,
ecore/ereference_impl.go 94-100, ecore/egenerictype_impl.go 93-99, 171-177). -/
def setRef (s : El) (id : Nat) (f : RefField) (o : Option Nat) : Res El :=
  .ok (notify (putRef s f o) ⟨.set, id, ofRef (s.refs f), ofRef o⟩)

/-- `SetEFactoryInstance`, `SetELowerBound`, `SetEUpperBound` (ecore/epackage_impl.go 86-115, ecore/egenerictype_impl.go
107-136, 185-214), without the effect on the elements referred to. -/
def setChild (s : El) (id : Nat) (f : RefField) (o : Option Nat) : Res El :=
  if o ≠ s.refs f then setRef s id f o else .ok s

/-- `UnsetEType` (ecore/etypedelement_impl.go 90-96). -/
def unsetEType (s : El) : El :=
  notify (putRef s .eType none) ⟨.unset, 8, ofRef (s.refs .eType), .nil⟩

/-- `GetEType`, `GetEOpposite`, `GetEClassifier`, `GetERawType` (ecore/etypedelement_impl.go 62-74,
ecore/ereference_impl.go 75-87, ecore/egenerictype_impl.go 74-86, 138-150): a proxy is replaced by what it resolves to. -/
def getResolved (E : Env) (s : El) (id : Nat) (f : RefField) : Option Nat × El :=
  match s.refs f with
  | none => (none, s)
  | some o =>
    if E.resolve o ≠ o then
      (some (E.resolve o), notify (putRef s f (some (E.resolve o))) ⟨.resolve, id, .obj o, .obj (E.resolve o)⟩)
    else (some o, s)

/-- `if resolve { return e.GetX() }; return e.basicGetX()`. -/
def getProxy (E : Env) (s : El) (id : Nat) (f : RefField) (resolve : Bool) : Res (Val × El) :=
  if resolve then .ok (ofRef (getResolved E s id f).1, (getResolved E s id f).2) else getRef s f

/-- `GetX` of a list: the list is created at the first call. -/
def getList (s : El) (f : ListField) : Res (Val × El) :=
  match s.lists f with
  | some l => .ok (.list (some f) l, s)
  | none => .ok (.list (some f) [], { s with lists := fun g => if g = f then some [] else s.lists g })

/-- `AddAll` of a list of distinct elements: the elements already there are skipped (C02). -/
def addAll : List Nat → List Nat → List Nat
  | l, [] => l
  | l, x :: xs => addAll (if x ∈ l then l else l ++ [x]) xs

/-- `list := e.GetX(); list.Clear(); list.AddAll(newValue.(EList))`.  A list given by the element itself is read after the
`Clear`. -/
def setList (s : El) (f : ListField) : Val → Res El
  | .list owner l =>
    let given : List Nat :=
      match owner with
      | none => l
      | some g => if g = f then [] else (s.lists g).getD []
    .ok { s with lists := fun g => if g = f then some (addAll [] given) else s.lists g }
  | _ => .panic

/-- `e.GetX().Clear()`. -/
def clearList (s : El) (f : ListField) : El :=
  { s with lists := fun g => if g = f then some [] else s.lists g }

/-- `UnsetEExceptions` (ecore/eoperation_impl.go 78-82). -/
def unsetExceptions (s : El) : El :=
  match s.lists .eExceptions with
  | none => s
  | some _ => clearList s .eExceptions

/-- `e.list != nil && e.list.Size() != 0`. -/
def listIsSet (o : Option (List Nat)) : Bool :=
  match o with
  | none => false
  | some l => !l.isEmpty

/-- `if e.EContainerFeatureID() == ID { return e.EContainer().(T) }; return nil` (ecore/eannotation_impl.go 83-88,
eclassifier_impl.go 89-94, eenumliteral_impl.go 51-56, efactory_impl.go 63-68, eoperation_impl.go 62-67, epackage_impl.go
126-131, eparameter_impl.go 40-45, estructuralfeature_impl.go 92-97).  The assertion panics on `nil`.  Containers are
supposed not to be proxies. -/
def getContainer (s : El) (id : Nat) : Res (Option Nat) :=
  if s.containerFeatureID = (id : Int) then
    match s.container with
    | some c => .ok (some c)
    | none => .panic
  else .ok none

def containerGet (s : El) (id : Nat) : Res (Val × El) :=
  (getContainer s id).bind fun c => .ok (ofRef c, s)

/-- `e.GetX() != nil` for a container. -/
def containerIsSet (s : El) (id : Nat) : Res (Bool × El) :=
  (getContainer s id).bind fun c => .ok (c.isSome, s)

/-- `SetEModelElement` and `SetEPackage` (ecore/eannotation_impl.go 91-113, ecore/efactory_impl.go 71-92), with the end
of `EBasicSetContainer` (ecore/abstracteobject.go 819, 827-850): the notification of the old container feature when it is
another one, and the notification of this one.  Without the effect on the containers and on the resources. -/
def setContainer (s : El) (id : Nat) (o : Option Nat) : Res El :=
  if o ≠ s.container ∨ (o ≠ none ∧ s.containerFeatureID ≠ (id : Int)) then
    let t : El := { s with container := o, containerFeatureID := id }
    let t : El :=
      if s.container ≠ none ∧ 0 ≤ s.containerFeatureID ∧ s.containerFeatureID ≠ (id : Int)
      then notify t ⟨.set, s.containerFeatureID.toNat, ofRef s.container, .nil⟩ else t
    .ok (notify t ⟨.set, id, if s.containerFeatureID = (id : Int) then ofRef s.container else .nil, ofRef o⟩)
  else .ok (notify s ⟨.set, id, ofRef o, ofRef o⟩)

/-- `IsMany` (ecore/etypedelement_ext.go 25-28). -/
def isMany (s : El) : Bool := decide (s.ints .upperBound > 1) || decide (s.ints .upperBound = -1)

/-- `IsRequired` (ecore/etypedelement_ext.go 31-34). -/
def isRequired (s : El) : Bool := decide (s.ints .lowerBound ≥ 1)

/-- `EStructuralFeatureExt.GetDefaultValue` (ecore/estructuralfeature_ext.go 27-48). -/
def getDefaultValue (E : Env) (s : El) : Val × El :=
  let r := getResolved E s 8 .eType
  let s := r.2
  match r.1 with
  | none => (.nil, s)
  | some t =>
    if s.strs .defaultValueLiteral = "" then
      if isMany s then (.nil, s) else (E.typeDefault t, s)
    else if E.isDataType t then
      match E.factory t with
      | none => (s.defaultValue, s)
      | some f =>
        if some f ≠ s.defaultValueFactory then
          let v := if E.serializable t then E.fromString f t (s.strs .defaultValueLiteral) else s.defaultValue
          (v, { s with defaultValue := v, defaultValueFactory := some f })
        else (s.defaultValue, s)
    else (.nil, s)

/-- `EStructuralFeatureExt.SetDefaultValue` (ecore/estructuralfeature_ext.go 51-61). -/
def setDefaultValue (E : Env) (s : El) (v : Val) : Res El :=
  let r := getResolved E s 8 .eType
  match r.1 with
  | none => .panic
  | some t =>
    if E.isDataType t then
      match E.factory t with
      | none => .panic
      | some f =>
        (setStr r.2 12 .defaultValueLiteral (.str (E.toString f t v))).bind fun s =>
          .ok { s with defaultValueFactory := none }
    else .panic

/-- `EStructuralFeatureExt.SetDefaultValueLiteral` (ecore/estructuralfeature_ext.go 64-67). -/
def setDefaultValueLiteral (s : El) (v : Val) : Res El :=
  setStr { s with defaultValueFactory := none } 12 .defaultValueLiteral v

/-- `EStructuralFeatureExt.SetFeatureID` (ecore/estructuralfeature_ext.go 75-77): no notification. -/
def setFeatureID (s : El) : Val → Res El
  | .int i => .ok { s with ints := fun g => if g = .featureID then i else s.ints g }
  | _ => .panic

/-- `EAttributeExt.SetID` (ecore/eattribute_ext.go 32-39): the class is told after the change. -/
def setID (s : El) (v : Val) : Res El :=
  (setBool s 18 .iD v).bind fun s => (getContainer s 16).bind fun _ => .ok s

/-- `EAttributeExt.GetEAttributeType` and `basicGetEAttributeType` (ecore/eattribute_ext.go 24-30): an assertion. -/
def attributeType (E : Env) (s : El) (resolve : Bool) : Res (Nat × El) :=
  let r := if resolve then getResolved E s 8 .eType else (s.refs .eType, s)
  match r.1 with
  | none => .panic
  | some t => if E.isDataType t then .ok (t, r.2) else .panic

/-- `EReferenceExt.GetEReferenceType` and `basicGetEReferenceType` (ecore/ereference_ext.go 30-50); the type kept is
supposed not to be a proxy. -/
def referenceType (E : Env) (s : El) (resolve : Bool) : Option Nat × El :=
  match s.refs .eReferenceType with
  | some c => (some c, s)
  | none =>
    let r := if resolve then getResolved E s 8 .eType else (s.refs .eType, s)
    match r.1 with
    | none => (none, r.2)
    | some t => if E.isClass t then (some t, putRef r.2 .eReferenceType (some t)) else (none, r.2)

/-- `EReferenceExt.IsContainer` (ecore/ereference_ext.go 25-28). -/
def isContainer (E : Env) (s : El) : Bool × El :=
  let r := getResolved E s 21 .eOpposite
  match r.1 with
  | none => (false, r.2)
  | some o => (E.isContainment o, r.2)

/-- `GetClassifierID` (ecore/eclassifier_impl.go 67-72) with `initClassifierID` (ecore/eclassifier_ext.go 24-29). -/
def getClassifierID (E : Env) (s : El) : Res (Int × El) :=
  if s.ints .classifierID = -1 then
    (getContainer s 6).bind fun c =>
      let i : Int := match c with
        | none => -1
        | some p => E.position p
      .ok (i, { s with ints := fun g => if g = .classifierID then i else s.ints g })
  else .ok (s.ints .classifierID, s)

/-- `GetDefaultValue` of the classifiers (ecore/eclassifier_ext.go 31-33, ecore/edatatype_ext.go 41-69). -/
def classifierDefault (E : Env) (s : El) : Val :=
  match s.kind with
  | .eDataType => E.dataTypeDefault
  | .eEnum => E.dataTypeDefault
  | _ => .nil

/-- The getters of the computed lists of a class (ecore/eclass_impl.go 76-227): computed at the first call.  Each list is
computed alone here. -/
def computedGet (E : Env) (s : El) (id : Nat) : Res (Val × El) :=
  match s.computed id with
  | some l => .ok (.list none l, s)
  | none => .ok (.list none (E.classList id),
      { s with computed := fun j => if j = id then some (E.classList id) else s.computed j })

/-- `GetEIDAttribute` (ecore/eclass_impl.go 195-198). -/
def idAttributeGet (E : Env) (s : El) : Res (Val × El) :=
  match s.idAttribute with
  | some a => .ok (.obj a, s)
  | none => .ok (ofRef E.idAttribute, { s with idAttribute := E.idAttribute })

/-- `EEnumLiteralExt.GetLiteral` (ecore/eenumliteral_ext.go 23-28). -/
def getLiteral (s : El) : String := if s.strs .literal = "" then s.strs .name else s.strs .literal

/-- `SetInstanceClass` after the assertion `newValue.(reflect.Type)` (ecore/eclassifier_impl.go 102-108, 161-162), which
panics on `nil`. -/
def putInstanceClass (s : El) (o : Option Nat) : El :=
  notify { s with instanceClass := o } ⟨.set, 3, ofType s.instanceClass, ofType o⟩

def setInstanceClass (s : El) : Val → Res El
  | .type t => .ok (putInstanceClass s (some t))
  | _ => .panic

/-- `SetInstance` (ecore/eenumliteral_impl.go 64-70). -/
def setInstance (s : El) (v : Val) : El :=
  notify { s with instance_ := v } ⟨.set, 3, s.instance_, v⟩

/-! ## `EGetFromID` -/

/-- ecore/emodelelement_impl.go 69-76 -/
def modelElementGet (s : El) (id : Nat) : Res (Val × El) :=
  match id with
  | 0 => getList s .eAnnotations
  | _ => fallback s id

/-- ecore/enamedelement_impl.go 60-67 -/
def namedElementGet (s : El) (id : Nat) : Res (Val × El) :=
  match id with
  | 1 => getStr s .name
  | _ => modelElementGet s id

/-- ecore/etypedelement_impl.go 164-186 -/
def typedElementGet (E : Env) (s : El) (id : Nat) (resolve : Bool) : Res (Val × El) :=
  match id with
  | 8 => getProxy E s 8 .eType resolve
  | 4 => getInt s .lowerBound
  | 6 => .ok (.bool (isMany s), s)
  | 2 => getBool s .ordered
  | 7 => .ok (.bool (isRequired s), s)
  | 3 => getBool s .unique
  | 5 => getInt s .upperBound
  | _ => namedElementGet s id

/-- ecore/estructuralfeature_impl.go 183-206 -/
def structuralFeatureGet (E : Env) (s : El) (id : Nat) (resolve : Bool) : Res (Val × El) :=
  match id with
  | 9 => getBool s .changeable
  | 13 => .ok (getDefaultValue E s)
  | 12 => getStr s .defaultValueLiteral
  | 15 => getBool s .derived
  | 16 => containerGet s 16
  | 17 => getInt s .featureID
  | 11 => getBool s .transient
  | 14 => getBool s .unsettable
  | 10 => getBool s .volatile
  | _ => typedElementGet E s id resolve

/-- ecore/eattribute_impl.go 77-89 -/
def attributeGet (E : Env) (s : El) (id : Nat) (resolve : Bool) : Res (Val × El) :=
  match id with
  | 19 => (attributeType E s resolve).bind fun r => .ok (.obj r.1, r.2)
  | 18 => getBool s .iD
  | _ => structuralFeatureGet E s id resolve

/-- ecore/ereference_impl.go 148-177 -/
def referenceGet (E : Env) (s : El) (id : Nat) (resolve : Bool) : Res (Val × El) :=
  match id with
  | 19 => .ok (.bool (isContainer E s).1, (isContainer E s).2)
  | 18 => getBool s .containment
  | 23 => getList s .eKeys
  | 21 => getProxy E s 21 .eOpposite resolve
  | 22 => .ok (ofRef (referenceType E s resolve).1, (referenceType E s resolve).2)
  | 20 => getBool s .resolveProxies
  | _ => structuralFeatureGet E s id resolve

/-- ecore/eoperation_impl.go 114-133 -/
def operationGet (E : Env) (s : El) (id : Nat) (resolve : Bool) : Res (Val × El) :=
  match id with
  | 9 => containerGet s 9
  | 11 => getList s .eExceptions
  | 10 => getList s .eParameters
  | 12 => getInt s .operationID
  | _ => typedElementGet E s id resolve

/-- ecore/eparameter_impl.go 47-54 -/
def parameterGet (E : Env) (s : El) (id : Nat) (resolve : Bool) : Res (Val × El) :=
  match id with
  | 9 => containerGet s 9
  | _ => typedElementGet E s id resolve

/-- ecore/eclassifier_impl.go 138-155, with the overrides of ecore/eclassifier_ext.go 31-42 -/
def classifierGet (E : Env) (s : El) (id : Nat) : Res (Val × El) :=
  match id with
  | 7 => (getClassifierID E s).bind fun r => .ok (.int r.1, r.2)
  | 5 => .ok (classifierDefault E s, s)
  | 6 => containerGet s 6
  | 3 => .ok (ofType s.instanceClass, s)
  | 2 => getStr s .instanceClassName
  | 4 => getStr s .instanceClassName
  | _ => namedElementGet s id

/-- ecore/eclass_impl.go 318-429 -/
def classGet (E : Env) (s : El) (id : Nat) : Res (Val × El) :=
  match id with
  | 8 => getBool s .abstract
  | 17 => computedGet E s 17
  | 19 => computedGet E s 19
  | 20 => computedGet E s 20
  | 21 => computedGet E s 21
  | 18 => computedGet E s 18
  | 22 => computedGet E s 22
  | 23 => computedGet E s 23
  | 11 => computedGet E s 11
  | 15 => computedGet E s 15
  | 16 => computedGet E s 16
  | 24 => idAttributeGet E s
  | 14 => getList s .eOperations
  | 12 => computedGet E s 12
  | 10 => getList s .eStructuralFeatures
  | 13 => getList s .eSuperTypes
  | 9 => getBool s .interface
  | _ => classifierGet E s id

/-- ecore/edatatype_impl.go 60-67 -/
def dataTypeGet (E : Env) (s : El) (id : Nat) : Res (Val × El) :=
  match id with
  | 8 => getBool s .serializable
  | _ => classifierGet E s id

/-- ecore/eenum_impl.go 79-86 -/
def enumGet (E : Env) (s : El) (id : Nat) : Res (Val × El) :=
  match id with
  | 9 => getList s .eLiterals
  | _ => dataTypeGet E s id

/-- ecore/eenumliteral_impl.go 100-113 -/
def enumLiteralGet (s : El) (id : Nat) : Res (Val × El) :=
  match id with
  | 5 => containerGet s 5
  | 3 => .ok (s.instance_, s)
  | 4 => .ok (.str (getLiteral s), s)
  | 2 => getInt s .value
  | _ => namedElementGet s id

/-- ecore/epackage_impl.go 169-186 -/
def packageGet (s : El) (id : Nat) : Res (Val × El) :=
  match id with
  | 5 => getList s .eClassifiers
  | 4 => getRef s .eFactoryInstance
  | 6 => getList s .eSubPackages
  | 7 => containerGet s 7
  | 3 => getStr s .nsPrefix
  | 2 => getStr s .nsURI
  | _ => namedElementGet s id

/-- ecore/eannotation_impl.go 147-168 -/
def annotationGet (s : El) (id : Nat) : Res (Val × El) :=
  match id with
  | 4 => getList s .contents
  | 2 => getList s .details
  | 3 => containerGet s 3
  | 5 => getList s .references
  | 1 => getStr s .source
  | _ => modelElementGet s id

/-- ecore/efactory_impl.go 93-100 -/
def factoryGet (s : El) (id : Nat) : Res (Val × El) :=
  match id with
  | 1 => containerGet s 1
  | _ => modelElementGet s id

/-- ecore/egenerictype_impl.go 220-243 -/
def genericTypeGet (E : Env) (s : El) (id : Nat) (resolve : Bool) : Res (Val × El) :=
  match id with
  | 5 => getProxy E s 5 .eClassifier resolve
  | 3 => getRef s .eLowerBound
  | 2 => getProxy E s 2 .eRawType resolve
  | 1 => getList s .eTypeArguments
  | 4 => getRef s .eTypeParameter
  | 0 => getRef s .eUpperBound
  | _ => fallback s id

/-- ecore/etypeparameter_impl.go 64-71 -/
def typeParameterGet (s : El) (id : Nat) : Res (Val × El) :=
  match id with
  | 2 => getList s .eBounds
  | _ => namedElementGet s id

/-- ecore/estringtostringmapentry_impl.go 91-100 -/
def entryGet (s : El) (id : Nat) : Res (Val × El) :=
  match id with
  | 0 => getStr s .key
  | 1 => getStr s .entryValue
  | _ => fallback s id

/-- `EGetFromID`: the method of the class of the element. -/
def eGet (E : Env) (s : El) (id : Nat) (resolve : Bool) : Res (Val × El) :=
  match s.kind with
  | .eAnnotation => annotationGet s id
  | .eAttribute => attributeGet E s id resolve
  | .eClass => classGet E s id
  | .eDataType => dataTypeGet E s id
  | .eEnum => enumGet E s id
  | .eEnumLiteral => enumLiteralGet s id
  | .eFactory => factoryGet s id
  | .eGenericType => genericTypeGet E s id resolve
  | .eOperation => operationGet E s id resolve
  | .ePackage => packageGet s id
  | .eParameter => parameterGet E s id resolve
  | .eReference => referenceGet E s id resolve
  | .eTypeParameter => typeParameterGet s id
  | .eStringToStringMapEntry => entryGet s id

/-! ## `ESetFromID` -/

/-- ecore/emodelelement_impl.go 78-87 -/
def modelElementSet (s : El) (id : Nat) (v : Val) : Res El :=
  match id with
  | 0 => setList s .eAnnotations v
  | _ => fallback s id

/-- ecore/enamedelement_impl.go 69-76 -/
def namedElementSet (s : El) (id : Nat) (v : Val) : Res El :=
  match id with
  | 1 => setStr s 1 .name v
  | _ => modelElementSet s id v

/-- ecore/etypedelement_impl.go 188-204 -/
def typedElementSet (s : El) (id : Nat) (v : Val) : Res El :=
  match id with
  | 8 => setRef s 8 .eType (toRef v)
  | 4 => setInt s 4 .lowerBound v
  | 2 => setBool s 2 .ordered v
  | 3 => setBool s 3 .unique v
  | 5 => setInt s 5 .upperBound v
  | _ => namedElementSet s id v

/-- ecore/estructuralfeature_impl.go 208-229 -/
def structuralFeatureSet (E : Env) (s : El) (id : Nat) (v : Val) : Res El :=
  match id with
  | 9 => setBool s 9 .changeable v
  | 13 => setDefaultValue E s v
  | 12 => setDefaultValueLiteral s v
  | 15 => setBool s 15 .derived v
  | 17 => setFeatureID s v
  | 11 => setBool s 11 .transient v
  | 14 => setBool s 14 .unsettable v
  | 10 => setBool s 10 .volatile v
  | _ => typedElementSet s id v

/-- ecore/eattribute_impl.go 91-98 -/
def attributeSet (E : Env) (s : El) (id : Nat) (v : Val) : Res El :=
  match id with
  | 18 => setID s v
  | _ => structuralFeatureSet E s id v

/-- ecore/ereference_impl.go 179-195 -/
def referenceSet (E : Env) (s : El) (id : Nat) (v : Val) : Res El :=
  match id with
  | 18 => setBool s 18 .containment v
  | 23 => setList s .eKeys v
  | 21 => setRef s 21 .eOpposite (toRef v)
  | 20 => setBool s 20 .resolveProxies v
  | _ => structuralFeatureSet E s id v

/-- ecore/eoperation_impl.go 135-150 -/
def operationSet (s : El) (id : Nat) (v : Val) : Res El :=
  match id with
  | 11 => setList s .eExceptions v
  | 10 => setList s .eParameters v
  | 12 => setInt s 12 .operationID v
  | _ => typedElementSet s id v

/-- ecore/eclassifier_impl.go 157-170, with the override of ecore/eclassifier_ext.go 40-42 -/
def classifierSet (s : El) (id : Nat) (v : Val) : Res El :=
  match id with
  | 7 => setInt s 7 .classifierID v
  | 3 => setInstanceClass s v
  | 2 => setStr s 2 .instanceClassName v
  | 4 => setStr s 2 .instanceClassName v
  | _ => namedElementSet s id v

/-- ecore/eclass_impl.go 431-452 -/
def classSet (s : El) (id : Nat) (v : Val) : Res El :=
  match id with
  | 8 => setBool s 8 .abstract v
  | 14 => setList s .eOperations v
  | 10 => setList s .eStructuralFeatures v
  | 13 => setList s .eSuperTypes v
  | 9 => setBool s 9 .interface v
  | _ => classifierSet s id v

/-- ecore/edatatype_impl.go 69-76 -/
def dataTypeSet (s : El) (id : Nat) (v : Val) : Res El :=
  match id with
  | 8 => setBool s 8 .serializable v
  | _ => classifierSet s id v

/-- ecore/eenum_impl.go 88-97 -/
def enumSet (s : El) (id : Nat) (v : Val) : Res El :=
  match id with
  | 9 => setList s .eLiterals v
  | _ => dataTypeSet s id v

/-- ecore/eenumliteral_impl.go 115-126 -/
def enumLiteralSet (s : El) (id : Nat) (v : Val) : Res El :=
  match id with
  | 3 => .ok (setInstance s v)
  | 4 => setStr s 4 .literal v
  | 2 => setInt s 2 .value v
  | _ => namedElementSet s id v

/-- ecore/epackage_impl.go 188-208 -/
def packageSet (s : El) (id : Nat) (v : Val) : Res El :=
  match id with
  | 5 => setList s .eClassifiers v
  | 4 => setChild s 4 .eFactoryInstance (toRef v)
  | 6 => setList s .eSubPackages v
  | 3 => setStr s 3 .nsPrefix v
  | 2 => setStr s 2 .nsURI v
  | _ => namedElementSet s id v

/-- ecore/eannotation_impl.go 170-192 -/
def annotationSet (s : El) (id : Nat) (v : Val) : Res El :=
  match id with
  | 4 => setList s .contents v
  | 2 => setList s .details v
  | 3 => setContainer s 3 (toRef v)
  | 5 => setList s .references v
  | 1 => setStr s 1 .source v
  | _ => modelElementSet s id v

/-- ecore/efactory_impl.go 102-110 -/
def factorySet (s : El) (id : Nat) (v : Val) : Res El :=
  match id with
  | 1 => setContainer s 1 (toRef v)
  | _ => modelElementSet s id v

/-- ecore/egenerictype_impl.go 245-266 -/
def genericTypeSet (s : El) (id : Nat) (v : Val) : Res El :=
  match id with
  | 5 => setRef s 5 .eClassifier (toRef v)
  | 3 => setChild s 3 .eLowerBound (toRef v)
  | 1 => setList s .eTypeArguments v
  | 4 => setRef s 4 .eTypeParameter (toRef v)
  | 0 => setChild s 0 .eUpperBound (toRef v)
  | _ => fallback s id

/-- ecore/etypeparameter_impl.go 73-82 -/
def typeParameterSet (s : El) (id : Nat) (v : Val) : Res El :=
  match id with
  | 2 => setList s .eBounds v
  | _ => namedElementSet s id v

/-- ecore/estringtostringmapentry_impl.go 102-111 -/
def entrySet (s : El) (id : Nat) (v : Val) : Res El :=
  match id with
  | 0 => setStr s 0 .key v
  | 1 => setStr s 1 .entryValue v
  | _ => fallback s id

/-- `ESetFromID`: the method of the class of the element; `EParameterImpl` has the one of `ETypedElementImpl`. -/
def eSet (E : Env) (s : El) (id : Nat) (v : Val) : Res El :=
  match s.kind with
  | .eAnnotation => annotationSet s id v
  | .eAttribute => attributeSet E s id v
  | .eClass => classSet s id v
  | .eDataType => dataTypeSet s id v
  | .eEnum => enumSet s id v
  | .eEnumLiteral => enumLiteralSet s id v
  | .eFactory => factorySet s id v
  | .eGenericType => genericTypeSet s id v
  | .eOperation => operationSet s id v
  | .ePackage => packageSet s id v
  | .eParameter => typedElementSet s id v
  | .eReference => referenceSet E s id v
  | .eTypeParameter => typeParameterSet s id v
  | .eStringToStringMapEntry => entrySet s id v

/-! ## `EUnsetFromID` -/

/-- ecore/emodelelement_impl.go 89-96 -/
def modelElementUnset (s : El) (id : Nat) : Res El :=
  match id with
  | 0 => .ok (clearList s .eAnnotations)
  | _ => fallback s id

/-- ecore/enamedelement_impl.go 78-85 -/
def namedElementUnset (s : El) (id : Nat) : Res El :=
  match id with
  | 1 => setStr s 1 .name (.str "")
  | _ => modelElementUnset s id

/-- ecore/etypedelement_impl.go 206-221 -/
def typedElementUnset (s : El) (id : Nat) : Res El :=
  match id with
  | 8 => .ok (unsetEType s)
  | 4 => setInt s 4 .lowerBound (.int 0)
  | 2 => setBool s 2 .ordered (.bool true)
  | 3 => setBool s 3 .unique (.bool true)
  | 5 => setInt s 5 .upperBound (.int 1)
  | _ => namedElementUnset s id

/-- ecore/estructuralfeature_impl.go 231-252 -/
def structuralFeatureUnset (E : Env) (s : El) (id : Nat) : Res El :=
  match id with
  | 9 => setBool s 9 .changeable (.bool true)
  | 13 => setDefaultValue E s .nil
  | 12 => setDefaultValueLiteral s (.str "")
  | 15 => setBool s 15 .derived (.bool false)
  | 17 => setFeatureID s (.int (-1))
  | 11 => setBool s 11 .transient (.bool false)
  | 14 => setBool s 14 .unsettable (.bool false)
  | 10 => setBool s 10 .volatile (.bool false)
  | _ => typedElementUnset s id

/-- ecore/eattribute_impl.go 100-107 -/
def attributeUnset (E : Env) (s : El) (id : Nat) : Res El :=
  match id with
  | 18 => setID s (.bool false)
  | _ => structuralFeatureUnset E s id

/-- ecore/ereference_impl.go 197-210 -/
def referenceUnset (E : Env) (s : El) (id : Nat) : Res El :=
  match id with
  | 18 => setBool s 18 .containment (.bool false)
  | 23 => .ok (clearList s .eKeys)
  | 21 => setRef s 21 .eOpposite none
  | 20 => setBool s 20 .resolveProxies (.bool true)
  | _ => structuralFeatureUnset E s id

/-- ecore/eoperation_impl.go 152-163 -/
def operationUnset (s : El) (id : Nat) : Res El :=
  match id with
  | 11 => .ok (unsetExceptions s)
  | 10 => .ok (clearList s .eParameters)
  | 12 => setInt s 12 .operationID (.int (-1))
  | _ => typedElementUnset s id

/-- ecore/eclassifier_impl.go 172-185, with the override of ecore/eclassifier_ext.go 40-42 -/
def classifierUnset (s : El) (id : Nat) : Res El :=
  match id with
  | 7 => setInt s 7 .classifierID (.int (-1))
  | 3 => .ok (putInstanceClass s none)
  | 2 => setStr s 2 .instanceClassName (.str "")
  | 4 => setStr s 2 .instanceClassName (.str "")
  | _ => namedElementUnset s id

/-- ecore/eclass_impl.go 454-469 -/
def classUnset (s : El) (id : Nat) : Res El :=
  match id with
  | 8 => setBool s 8 .abstract (.bool false)
  | 14 => .ok (clearList s .eOperations)
  | 10 => .ok (clearList s .eStructuralFeatures)
  | 13 => .ok (clearList s .eSuperTypes)
  | 9 => setBool s 9 .interface (.bool false)
  | _ => classifierUnset s id

/-- ecore/edatatype_impl.go 78-85 -/
def dataTypeUnset (s : El) (id : Nat) : Res El :=
  match id with
  | 8 => setBool s 8 .serializable (.bool true)
  | _ => classifierUnset s id

/-- ecore/eenum_impl.go 99-106 -/
def enumUnset (s : El) (id : Nat) : Res El :=
  match id with
  | 9 => .ok (clearList s .eLiterals)
  | _ => dataTypeUnset s id

/-- ecore/eenumliteral_impl.go 128-139 -/
def enumLiteralUnset (s : El) (id : Nat) : Res El :=
  match id with
  | 3 => .ok (setInstance s .nil)
  | 4 => setStr s 4 .literal (.str "")
  | 2 => setInt s 2 .value (.int 0)
  | _ => namedElementUnset s id

/-- ecore/epackage_impl.go 210-225 -/
def packageUnset (s : El) (id : Nat) : Res El :=
  match id with
  | 5 => .ok (clearList s .eClassifiers)
  | 4 => setChild s 4 .eFactoryInstance none
  | 6 => .ok (clearList s .eSubPackages)
  | 3 => setStr s 3 .nsPrefix (.str "")
  | 2 => setStr s 2 .nsURI (.str "")
  | _ => namedElementUnset s id

/-- ecore/eannotation_impl.go 194-209 -/
def annotationUnset (s : El) (id : Nat) : Res El :=
  match id with
  | 4 => .ok (clearList s .contents)
  | 2 => .ok (clearList s .details)
  | 3 => setContainer s 3 none
  | 5 => .ok (clearList s .references)
  | 1 => setStr s 1 .source (.str "")
  | _ => modelElementUnset s id

/-- ecore/efactory_impl.go 112-119 -/
def factoryUnset (s : El) (id : Nat) : Res El :=
  match id with
  | 1 => setContainer s 1 none
  | _ => modelElementUnset s id

/-- ecore/egenerictype_impl.go 268-283 -/
def genericTypeUnset (s : El) (id : Nat) : Res El :=
  match id with
  | 5 => setRef s 5 .eClassifier none
  | 3 => setChild s 3 .eLowerBound none
  | 1 => .ok (clearList s .eTypeArguments)
  | 4 => setRef s 4 .eTypeParameter none
  | 0 => setChild s 0 .eUpperBound none
  | _ => fallback s id

/-- ecore/etypeparameter_impl.go 84-91 -/
def typeParameterUnset (s : El) (id : Nat) : Res El :=
  match id with
  | 2 => .ok (clearList s .eBounds)
  | _ => namedElementUnset s id

/-- ecore/estringtostringmapentry_impl.go 113-122 -/
def entryUnset (s : El) (id : Nat) : Res El :=
  match id with
  | 0 => setStr s 0 .key (.str "")
  | 1 => setStr s 1 .entryValue (.str "")
  | _ => fallback s id

/-- `EUnsetFromID`: the method of the class of the element; `EParameterImpl` has the one of `ETypedElementImpl`. -/
def eUnset (E : Env) (s : El) (id : Nat) : Res El :=
  match s.kind with
  | .eAnnotation => annotationUnset s id
  | .eAttribute => attributeUnset E s id
  | .eClass => classUnset s id
  | .eDataType => dataTypeUnset s id
  | .eEnum => enumUnset s id
  | .eEnumLiteral => enumLiteralUnset s id
  | .eFactory => factoryUnset s id
  | .eGenericType => genericTypeUnset s id
  | .eOperation => operationUnset s id
  | .ePackage => packageUnset s id
  | .eParameter => typedElementUnset s id
  | .eReference => referenceUnset E s id
  | .eTypeParameter => typeParameterUnset s id
  | .eStringToStringMapEntry => entryUnset s id

/-! ## `EIsSetFromID` -/

/-- ecore/emodelelement_impl.go 98-105 -/
def modelElementIsSet (s : El) (id : Nat) : Res (Bool × El) :=
  match id with
  | 0 => .ok (listIsSet (s.lists .eAnnotations), s)
  | _ => fallback s id

/-- ecore/enamedelement_impl.go 87-94 -/
def namedElementIsSet (s : El) (id : Nat) : Res (Bool × El) :=
  match id with
  | 1 => .ok (decide (s.strs .name ≠ ""), s)
  | _ => modelElementIsSet s id

/-- ecore/etypedelement_impl.go 223-242 -/
def typedElementIsSet (s : El) (id : Nat) : Res (Bool × El) :=
  match id with
  | 8 => .ok ((s.refs .eType).isSome, s)
  | 4 => .ok (decide (s.ints .lowerBound ≠ 0), s)
  | 6 => .ok (isMany s, s)
  | 2 => .ok (!s.bools .ordered, s)
  | 7 => .ok (isRequired s, s)
  | 3 => .ok (!s.bools .unique, s)
  | 5 => .ok (decide (s.ints .upperBound ≠ 1), s)
  | _ => namedElementIsSet s id

/-- ecore/estructuralfeature_impl.go 254-277 -/
def structuralFeatureIsSet (E : Env) (s : El) (id : Nat) : Res (Bool × El) :=
  match id with
  | 9 => .ok (!s.bools .changeable, s)
  | 13 => .ok (decide ((getDefaultValue E s).1 ≠ .nil), (getDefaultValue E s).2)
  | 12 => .ok (decide (s.strs .defaultValueLiteral ≠ ""), s)
  | 15 => .ok (s.bools .derived, s)
  | 16 => containerIsSet s 16
  | 17 => .ok (decide (s.ints .featureID ≠ -1), s)
  | 11 => .ok (s.bools .transient, s)
  | 14 => .ok (s.bools .unsettable, s)
  | 10 => .ok (s.bools .volatile, s)
  | _ => typedElementIsSet s id

/-- ecore/eattribute_impl.go 109-118 -/
def attributeIsSet (E : Env) (s : El) (id : Nat) : Res (Bool × El) :=
  match id with
  | 19 => (attributeType E s true).bind fun r => .ok (true, r.2)
  | 18 => .ok (s.bools .iD, s)
  | _ => structuralFeatureIsSet E s id

/-- ecore/ereference_impl.go 212-229 -/
def referenceIsSet (E : Env) (s : El) (id : Nat) : Res (Bool × El) :=
  match id with
  | 19 => .ok (isContainer E s)
  | 18 => .ok (s.bools .containment, s)
  | 23 => .ok (listIsSet (s.lists .eKeys), s)
  | 21 => .ok ((s.refs .eOpposite).isSome, s)
  | 22 => .ok ((referenceType E s true).1.isSome, (referenceType E s true).2)
  | 20 => .ok (!s.bools .resolveProxies, s)
  | _ => structuralFeatureIsSet E s id

/-- ecore/eoperation_impl.go 165-178 -/
def operationIsSet (s : El) (id : Nat) : Res (Bool × El) :=
  match id with
  | 9 => containerIsSet s 9
  | 11 => .ok (listIsSet (s.lists .eExceptions), s)
  | 10 => .ok (listIsSet (s.lists .eParameters), s)
  | 12 => .ok (decide (s.ints .operationID ≠ -1), s)
  | _ => typedElementIsSet s id

/-- ecore/eparameter_impl.go 56-63 -/
def parameterIsSet (s : El) (id : Nat) : Res (Bool × El) :=
  match id with
  | 9 => containerIsSet s 9
  | _ => typedElementIsSet s id

/-- ecore/eclassifier_impl.go 187-204, with the overrides of ecore/eclassifier_ext.go 31-38 -/
def classifierIsSet (E : Env) (s : El) (id : Nat) : Res (Bool × El) :=
  match id with
  | 7 => .ok (decide (s.ints .classifierID ≠ -1), s)
  | 5 => .ok (decide (classifierDefault E s ≠ .nil), s)
  | 6 => containerIsSet s 6
  | 3 => .ok (s.instanceClass.isSome, s)
  | 2 => .ok (decide (s.strs .instanceClassName ≠ ""), s)
  | 4 => .ok (decide (s.strs .instanceClassName ≠ ""), s)
  | _ => namedElementIsSet s id

/-- ecore/eclass_impl.go 471-510 -/
def classIsSet (E : Env) (s : El) (id : Nat) : Res (Bool × El) :=
  match id with
  | 8 => .ok (s.bools .abstract, s)
  | 17 => .ok (listIsSet (s.computed 17), s)
  | 19 => .ok (listIsSet (s.computed 19), s)
  | 20 => .ok (listIsSet (s.computed 20), s)
  | 21 => .ok (listIsSet (s.computed 21), s)
  | 18 => .ok (listIsSet (s.computed 18), s)
  | 22 => .ok (listIsSet (s.computed 22), s)
  | 23 => .ok (listIsSet (s.computed 23), s)
  | 11 => .ok (listIsSet (s.computed 11), s)
  | 15 => .ok (listIsSet (s.computed 15), s)
  | 16 => .ok (listIsSet (s.computed 16), s)
  | 24 => .ok (s.idAttribute.isSome, s)
  | 14 => .ok (listIsSet (s.lists .eOperations), s)
  | 12 => .ok (listIsSet (s.computed 12), s)
  | 10 => .ok (listIsSet (s.lists .eStructuralFeatures), s)
  | 13 => .ok (listIsSet (s.lists .eSuperTypes), s)
  | 9 => .ok (s.bools .interface, s)
  | _ => classifierIsSet E s id

/-- ecore/edatatype_impl.go 87-94 -/
def dataTypeIsSet (E : Env) (s : El) (id : Nat) : Res (Bool × El) :=
  match id with
  | 8 => .ok (!s.bools .serializable, s)
  | _ => classifierIsSet E s id

/-- ecore/eenum_impl.go 108-115 -/
def enumIsSet (E : Env) (s : El) (id : Nat) : Res (Bool × El) :=
  match id with
  | 9 => .ok (listIsSet (s.lists .eLiterals), s)
  | _ => dataTypeIsSet E s id

/-- ecore/eenumliteral_impl.go 141-154 -/
def enumLiteralIsSet (s : El) (id : Nat) : Res (Bool × El) :=
  match id with
  | 5 => containerIsSet s 5
  | 3 => .ok (decide (s.instance_ ≠ .nil), s)
  | 4 => .ok (decide (s.strs .literal ≠ ""), s)
  | 2 => .ok (decide (s.ints .value ≠ 0), s)
  | _ => namedElementIsSet s id

/-- ecore/epackage_impl.go 227-244 -/
def packageIsSet (s : El) (id : Nat) : Res (Bool × El) :=
  match id with
  | 5 => .ok (listIsSet (s.lists .eClassifiers), s)
  | 4 => .ok ((s.refs .eFactoryInstance).isSome, s)
  | 6 => .ok (listIsSet (s.lists .eSubPackages), s)
  | 7 => containerIsSet s 7
  | 3 => .ok (decide (s.strs .nsPrefix ≠ ""), s)
  | 2 => .ok (decide (s.strs .nsURI ≠ ""), s)
  | _ => namedElementIsSet s id

/-- ecore/eannotation_impl.go 211-226 -/
def annotationIsSet (s : El) (id : Nat) : Res (Bool × El) :=
  match id with
  | 4 => .ok (listIsSet (s.lists .contents), s)
  | 2 => .ok (listIsSet (s.lists .details), s)
  | 3 => containerIsSet s 3
  | 5 => .ok (listIsSet (s.lists .references), s)
  | 1 => .ok (decide (s.strs .source ≠ ""), s)
  | _ => modelElementIsSet s id

/-- ecore/efactory_impl.go 121-128 -/
def factoryIsSet (s : El) (id : Nat) : Res (Bool × El) :=
  match id with
  | 1 => containerIsSet s 1
  | _ => modelElementIsSet s id

/-- ecore/egenerictype_impl.go 285-302 -/
def genericTypeIsSet (s : El) (id : Nat) : Res (Bool × El) :=
  match id with
  | 5 => .ok ((s.refs .eClassifier).isSome, s)
  | 3 => .ok ((s.refs .eLowerBound).isSome, s)
  | 2 => .ok ((s.refs .eRawType).isSome, s)
  | 1 => .ok (listIsSet (s.lists .eTypeArguments), s)
  | 4 => .ok ((s.refs .eTypeParameter).isSome, s)
  | 0 => .ok ((s.refs .eUpperBound).isSome, s)
  | _ => fallback s id

/-- ecore/etypeparameter_impl.go 93-100 -/
def typeParameterIsSet (s : El) (id : Nat) : Res (Bool × El) :=
  match id with
  | 2 => .ok (listIsSet (s.lists .eBounds), s)
  | _ => namedElementIsSet s id

/-- ecore/estringtostringmapentry_impl.go 124-133 -/
def entryIsSet (s : El) (id : Nat) : Res (Bool × El) :=
  match id with
  | 0 => .ok (decide (s.strs .key ≠ ""), s)
  | 1 => .ok (decide (s.strs .entryValue ≠ ""), s)
  | _ => fallback s id

/-- `EIsSetFromID`: the method of the class of the element. -/
def eIsSet (E : Env) (s : El) (id : Nat) : Res (Bool × El) :=
  match s.kind with
  | .eAnnotation => annotationIsSet s id
  | .eAttribute => attributeIsSet E s id
  | .eClass => classIsSet E s id
  | .eDataType => dataTypeIsSet E s id
  | .eEnum => enumIsSet E s id
  | .eEnumLiteral => enumLiteralIsSet s id
  | .eFactory => factoryIsSet s id
  | .eGenericType => genericTypeIsSet s id
  | .eOperation => operationIsSet s id
  | .ePackage => packageIsSet s id
  | .eParameter => parameterIsSet s id
  | .eReference => referenceIsSet E s id
  | .eTypeParameter => typeParameterIsSet s id
  | .eStringToStringMapEntry => entryIsSet s id

/-- A new element: the zero values of Go and the ones given by `Initialize` of the generated structs (for instance
ecore/etypedelement_impl.go 36-42, ecore/compacteobject_impl.go 36-38), without the factory `EPackageExt.Initialize` gives
(ecore/epackage_ext.go 46-51). -/
def fresh (k : Kind) : El where
  kind := k
  bools := fun
    | .ordered => true
    | .unique => true
    | .changeable => true
    | .resolveProxies => true
    | .serializable => true
    | _ => false
  ints := fun
    | .upperBound => 1
    | .featureID => -1
    | .operationID => -1
    | .classifierID => -1
    | _ => 0
  strs := fun _ => ""
  refs := fun _ => none
  lists := fun _ => none
  computed := fun _ => none
  idAttribute := none
  instanceClass := none
  instance_ := .nil
  defaultValue := .nil
  defaultValueFactory := none
  container := none
  containerFeatureID := -1
  listening := false
  log := []

end Verif.Reflect
