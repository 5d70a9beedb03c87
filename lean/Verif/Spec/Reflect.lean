import Verif.Model.Reflect
/-!
# The metamodel as it declares itself

The features of the classes of the metamodel, in order, as `createPackageContents` and `initializePackageContents` declare
them (ecore/ecorepackage_impl.go 946-1140, 1142-1458).
-/

namespace Verif.Reflect.Spec

/-- The types of the features: the data types EBoolean, EInt, EString, EJavaClass, EJavaObject and EEnumerator, and the
classes. -/
inductive Ty where
  | boolean | integer | string | javaClass | javaObject | element
  deriving DecidableEq, Repr

/-- A declared feature.  `default` is the value of the default literal, or the default value of the type. -/
structure Decl where
  name : String
  type : Ty
  many : Bool := false
  changeable : Bool := true
  default : Val
  deriving DecidableEq, Repr

def flag (name : String) (default : Bool := false) (changeable : Bool := true) : Decl :=
  { name, type := .boolean, changeable, default := .bool default }
def number (name : String) (default : Int := 0) : Decl := { name, type := .integer, default := .int default }
def text (name : String) : Decl := { name, type := .string, default := .str "" }
def link (name : String) (changeable : Bool := true) : Decl := { name, type := .element, changeable, default := .nil }
def links (name : String) (changeable : Bool := true) : Decl :=
  { name, type := .element, many := true, changeable, default := .list none [] }
def value (name : String) (type : Ty) (changeable : Bool := true) : Decl := { name, type, changeable, default := .nil }

/-- ecore/ecorepackage_impl.go 1307 -/
def eModelElement : List Decl := [links "eAnnotations"]

/-- ecore/ecorepackage_impl.go 1315 -/
def eNamedElement : List Decl := eModelElement ++ [text "name"]

/-- ecore/ecorepackage_impl.go 1416-1422 -/
def eTypedElement : List Decl := eNamedElement ++
  [flag "ordered" true, flag "unique" true, number "lowerBound", number "upperBound" 1,
   flag "many" (changeable := false), flag "required" (changeable := false), link "eType"]

/-- ecore/ecorepackage_impl.go 1401-1409 -/
def eStructuralFeature : List Decl := eTypedElement ++
  [flag "changeable" true, flag "volatile", flag "transient", text "defaultValueLiteral",
   value "defaultValue" .javaObject, flag "unsettable", flag "derived", link "eContainingClass" (changeable := false),
   number "featureID" (-1)]

/-- ecore/ecorepackage_impl.go 1234-1239 -/
def eClassifier : List Decl := eNamedElement ++
  [text "instanceClassName", value "instanceClass" .javaClass, text "instanceTypeName",
   value "defaultValue" .javaObject (changeable := false), link "ePackage" (changeable := false),
   number "classifierID" (-1)]

/-- ecore/ecorepackage_impl.go 1247 -/
def eDataType : List Decl := eClassifier ++ [flag "serializable" true]

/-- The features of an element, in the order of their IDs. -/
def declared : Kind → List Decl
  -- 1162-1166
  | .eAnnotation => eModelElement ++
    [text "source", links "details", link "eModelElement", links "contents", links "references"]
  -- 1169-1170
  | .eAttribute => eStructuralFeature ++ [flag "iD", link "eAttributeType" (changeable := false)]
  -- 1173-1189
  | .eClass => eClassifier ++
    [flag "abstract", flag "interface", links "eStructuralFeatures", links "eAttributes" (changeable := false),
     links "eReferences" (changeable := false), links "eSuperTypes", links "eOperations",
     links "eContainmentFeatures" (changeable := false), links "eCrossReferenceFeatures" (changeable := false),
     links "eAllAttributes" (changeable := false), links "eAllReferences" (changeable := false),
     links "eAllContainments" (changeable := false), links "eAllCrossReferences" (changeable := false),
     links "eAllOperations" (changeable := false), links "eAllStructuralFeatures" (changeable := false),
     links "eAllSuperTypes" (changeable := false), link "eIDAttribute" (changeable := false)]
  | .eDataType => eDataType
  -- 1250
  | .eEnum => eDataType ++ [links "eLiterals"]
  -- 1268-1271
  | .eEnumLiteral => eNamedElement ++
    [number "value", value "instance" .javaObject, text "literal", link "eEnum" (changeable := false)]
  -- 1274
  | .eFactory => eModelElement ++ [link "ePackage"]
  -- 1294-1299
  | .eGenericType =>
    [link "eUpperBound", links "eTypeArguments", link "eRawType" (changeable := false), link "eLowerBound",
     link "eTypeParameter", link "eClassifier"]
  -- 1362-1365
  | .eOperation => eTypedElement ++
    [link "eContainingClass" (changeable := false), links "eParameters", links "eExceptions", number "operationID" (-1)]
  -- 1373-1378
  | .ePackage => eNamedElement ++
    [text "nsURI", text "nsPrefix", link "eFactoryInstance", links "eClassifiers", links "eSubPackages",
     link "eSuperPackage" (changeable := false)]
  -- 1386
  | .eParameter => eTypedElement ++ [link "eOperation" (changeable := false)]
  -- 1389-1394
  | .eReference => eStructuralFeature ++
    [flag "containment", flag "container" (changeable := false), flag "resolveProxies" true, link "eOpposite",
     link "eReferenceType" (changeable := false), links "eKeys"]
  -- 1413
  | .eTypeParameter => eNamedElement ++ [links "eBounds"]
  -- 1397-1398
  | .eStringToStringMapEntry => [text "key", text "value"]

/-- A value of the declared type: one value, or a list of distinct elements for a feature that is many. -/
def Fits (d : Decl) (v : Val) : Prop :=
  if d.many = true then ∃ l : List Nat, l.Nodup ∧ v = .list none l
  else match d.type with
    | .boolean => ∃ b : Bool, v = .bool b
    | .integer => ∃ i : Int, v = .int i
    | .string => ∃ t : String, v = .str t
    | .javaClass => v = .nil ∨ ∃ t : Nat, v = .type t
    | .javaObject => ∀ (o : Option ListField) (l : List Nat), v ≠ .list o l
    | .element => v = .nil ∨ ∃ o : Nat, v = .obj o

/-- What a value shows: a list object shows its elements. -/
def shown : Val → Val
  | .list _ l => .list none l
  | v => v

/-- `EGet` without resolution returns a value that shows `v`. -/
def Shows (E : Env) (s : El) (id : Nat) (v : Val) : Prop :=
  ∃ (w : Val) (t : El), eGet E s id false = .ok (w, t) ∧ shown w = v

/-- The features whose value is computed from another one: `(a, b)` when `a` is computed from `b`. -/
def computedFrom : List (String × String) :=
  [("many", "upperBound"), ("required", "lowerBound"),
   ("defaultValue", "defaultValueLiteral"), ("defaultValue", "eType"), ("defaultValue", "upperBound"),
   ("eAttributeType", "eType"), ("eReferenceType", "eType"), ("container", "eOpposite"),
   ("instanceClassName", "instanceTypeName"), ("instanceTypeName", "instanceClassName"), ("literal", "name")]

/-- The element was in a container through the feature `id` and is in none any more. -/
def Removed (s : El) (id : Nat) : Prop := s.container = none ∧ s.containerFeatureID = (id : Int)

/-- A write: `ESet` or `EUnset`. -/
inductive Write where
  | set (id : Nat) (v : Val)
  | unset (id : Nat)

def Write.id : Write → Nat
  | .set i _ => i
  | .unset i => i

/-- The features that are not read the way they are written. -/
def irregular : List String :=
  ["defaultValue", "literal", "classifierID", "eModelElement", "ePackage", "instanceClass"]

/-- The last value given to the feature `id` by writes, `none` when there is none. -/
def last (k : Kind) (id : Nat) : List Write → Option Val
  | [] => none
  | w :: ws =>
    match last k id ws with
    | some v => some v
    | none =>
      match w with
      | .set i v => if i = id then some v else none
      | .unset i => if i = id then (declared k)[id]?.map (·.default) else none

/-- Writes of fitting values to changeable features that are not irregular. -/
def Regular (k : Kind) (ws : List Write) : Prop :=
  ∀ w ∈ ws, ∃ d : Decl, (declared k)[w.id]? = some d ∧ d.changeable = true ∧ d.name ∉ irregular ∧
    ∀ v : Val, w = .set w.id v → Fits d v

/-- One write after the other. -/
def writeAll (E : Env) (s : El) : List Write → Res El
  | [] => .ok s
  | .set i v :: ws => (eSet E s i v).bind fun t => writeAll E t ws
  | .unset i :: ws => (eUnset E s i).bind fun t => writeAll E t ws

end Verif.Reflect.Spec
