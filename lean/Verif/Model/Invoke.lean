/-!
# Calling operations by reflection

`EInvoke` of generated classes, in particular those of the Ecore model itself, and of dynamic objects.

`C` are the classes, `O` the operations; the method of an operation has the operation as its name. Values of objects are their class and a number.
What the methods do is left out. The lists of operations are those of `GetEAllOperations` without its cache (C34, C35).
-/
namespace Verif.Invoke

variable {C O : Type} [DecidableEq C] [DecidableEq O]

/-- The classes as they are in memory: super types, own operations, and the class an operation is in. -/
structure Classes (C O : Type) where
  supers : C → List C
  own : C → List O
  decl : O → C

/-- Types of parameters in Go: `object c` is the interface of the class `c`. -/
inductive Ty (C : Type) where
  | int
  | string
  | bool
  | list
  | any
  | object (c : C)
deriving DecidableEq, Repr

/-- Values given in the list of arguments. -/
inductive Val (C : Type) where
  | nil
  | int (i : Int)
  | string (s : String)
  | bool (b : Bool)
  | list (i : Nat)
  | object (c : C) (i : Nat)
deriving DecidableEq, Repr

/-- The generated code: the struct that is embedded, the switch of `EInvokeFromID`, the types of the parameters of the methods, and whether the
struct of a class has the interface of another class. -/
structure Code (C O : Type) where
  embed : C → Option C
  cases : C → List (Nat × O)
  params : O → List (Ty C)
  implements : C → C → Bool

/-- What `EInvoke` does: a method is called with arguments, nil is given back, or it panics. -/
inductive Outcome (C O : Type) where
  | called (o : O) (args : List (Val C))
  | nothing
  | panic
deriving DecidableEq, Repr

/-- `GetEAllOperations` (ecore/eclass_ext.go:354-380) -/
def allOps (M : Classes C O) : Nat → C → List O
  | 0, _ => []
  | n + 1, c => (M.supers c).flatMap (allOps M n) ++ M.own c

/-- `GetOperationID` of an operation: the number given when the operations of its class are collected (ecore/eclass_ext.go:366-374) -/
def opID (M : Classes C O) (n : Nat) (o : O) : Nat :=
  ((M.supers (M.decl o)).flatMap (allOps M n)).length + (M.own (M.decl o)).idxOf o

/-- a type assertion `v.(T)`: false if it panics; nil has no dynamic type -/
def asserts (implements : C → C → Bool) : Ty C → Val C → Bool
  | .any, _ => true
  | .int, .int _ => true
  | .string, .string _ => true
  | .bool, .bool _ => true
  | .list, .list _ => true
  | .object c, .object k _ => implements k c
  | _, _ => false

/-- the arguments of a method: `arguments.Get(i).(T)` for each parameter (e.g. ecore/eclass_impl.go:514-533) -/
def arguments (implements : C → C → Bool) : List (Ty C) → List (Val C) → Option (List (Val C))
  | [], _ => some []
  | _ :: _, [] => none
  | t :: ts, v :: vs => if asserts implements t v then (arguments implements ts vs).map (v :: ·) else none

/-- a case of `EInvokeFromID` -/
def call (code : Code C O) (o : O) (args : List (Val C)) : Outcome C O :=
  match arguments code.implements (code.params o) args with
  | some vs => .called o vs
  | none => .panic

/-- `EInvokeFromID` of the struct of `c`, for an object of the class `k`: the switch, the embedded struct, and at last that of
`AbstractEObject` (ecore/eclass_impl.go:512-537, ecore/abstracteobject.go:641-647) -/
def invokeFromID (code : Code C O) (M : Classes C O) (n : Nat) (k : C) : Nat → C → Nat → List (Val C) → Outcome C O
  | 0, _, _, _ => .panic
  | m + 1, c, id, args =>
    match (code.cases c).find? (fun p => p.1 = id) with
    | some p => call code p.2 args
    | none =>
      match code.embed c with
      | some d => invokeFromID code M n k m d id args
      | none => if id < (allOps M n k).length then .nothing else .panic

/-- `EInvoke` of an object of the class `k` (ecore/abstracteobject.go:229-238, 632-638) -/
def invoke (code : Code C O) (M : Classes C O) (n : Nat) (k : C) (o : O) (args : List (Val C)) : Outcome C O :=
  if o ∈ allOps M n k then invokeFromID code M n k n k (opID M n o) args else .panic

/-- `GetOperationID` of a class (ecore/eclass_ext.go:183-194) -/
def classOpID (M : Classes C O) (n : Nat) (k : C) (o : O) : Option Nat :=
  if o ∈ (allOps M n k).drop (opID M n o) then some (opID M n o + ((allOps M n k).drop (opID M n o)).idxOf o) else none

/-- `EInvoke` of a dynamic object (ecore/dynamiceobject_impl.go:80-82, ecore/abstracteobject.go:632-647) -/
def invokeDynamic (M : Classes C O) (n : Nat) (k : C) (o : O) : Outcome C O :=
  match classOpID M n k o with
  | some id => if id < (allOps M n k).length then .nothing else .panic
  | none => .panic

/-! ### The Ecore model -/

/-- The classes of Ecore (ecore/ecorepackage_impl.go:930-1100). -/
inductive EC where
  | eAnnotation | eAttribute | eClass | eClassifier | eDataType | eEnum | eEnumLiteral | eFactory | eGenericType | eModelElement | eNamedElement
  | eObject | eOperation | ePackage | eParameter | eReference | eStringToStringMapEntry | eStructuralFeature | eTypeParameter | eTypedElement
deriving DecidableEq, Repr

/-- The operations of Ecore (ecore/ecorepackage_impl.go:1192-1410). -/
inductive EO where
  | getEAnnotation
  | isInstance
  | isSuperTypeOf | getFeatureCount | getEStructuralFeature | getEStructuralFeatureFromName | getFeatureID | getOperationCount | getEOperation
  | getOperationID | getOverride | getFeatureType
  | getEEnumLiteralByName | getEEnumLiteralByValue | getEEnumLiteralByLiteral
  | create | createFromString | convertToString
  | isInstanceOfGeneric
  | eClass | eIsProxy | eResource | eContainer | eContainingFeature | eContainmentFeature | eContents | eAllContents | eCrossReferences | eGet
  | eGetResolve | eSet | eIsSet | eUnset | eInvoke
  | isOverrideOf
  | getEClassifier
  | getContainerClass
deriving DecidableEq, Repr

/-- super types (ecore/ecorepackage_impl.go:1144-1159) -/
def ecoreSupers : EC → List EC
  | .eAnnotation => [.eModelElement]
  | .eAttribute => [.eStructuralFeature]
  | .eClass => [.eClassifier]
  | .eClassifier => [.eNamedElement]
  | .eDataType => [.eClassifier]
  | .eEnum => [.eDataType]
  | .eEnumLiteral => [.eNamedElement]
  | .eFactory => [.eModelElement]
  | .eNamedElement => [.eModelElement]
  | .eOperation => [.eTypedElement]
  | .ePackage => [.eNamedElement]
  | .eParameter => [.eTypedElement]
  | .eReference => [.eStructuralFeature]
  | .eStructuralFeature => [.eTypedElement]
  | .eTypeParameter => [.eNamedElement]
  | .eTypedElement => [.eNamedElement]
  | .eGenericType | .eModelElement | .eObject | .eStringToStringMapEntry => []

/-- own operations in the order of their creation (ecore/ecorepackage_impl.go:977-1092) -/
def ecoreOwn : EC → List EO
  | .eClass => [.isSuperTypeOf, .getFeatureCount, .getEStructuralFeature, .getEStructuralFeatureFromName, .getFeatureID, .getOperationCount,
      .getEOperation, .getOperationID, .getOverride, .getFeatureType]
  | .eClassifier => [.isInstance]
  | .eEnum => [.getEEnumLiteralByName, .getEEnumLiteralByValue, .getEEnumLiteralByLiteral]
  | .eFactory => [.create, .createFromString, .convertToString]
  | .eGenericType => [.isInstanceOfGeneric]
  | .eModelElement => [.getEAnnotation]
  | .eObject => [.eClass, .eIsProxy, .eResource, .eContainer, .eContainingFeature, .eContainmentFeature, .eContents, .eAllContents,
      .eCrossReferences, .eGet, .eGetResolve, .eSet, .eIsSet, .eUnset, .eInvoke]
  | .eOperation => [.isOverrideOf]
  | .ePackage => [.getEClassifier]
  | .eStructuralFeature => [.getContainerClass]
  | _ => []

/-- the class an operation is created in (ecore/ecorepackage_impl.go:977-1092) -/
def ecoreDecl : EO → EC
  | .getEAnnotation => .eModelElement
  | .isInstance => .eClassifier
  | .isSuperTypeOf | .getFeatureCount | .getEStructuralFeature | .getEStructuralFeatureFromName | .getFeatureID | .getOperationCount
  | .getEOperation | .getOperationID | .getOverride | .getFeatureType => .eClass
  | .getEEnumLiteralByName | .getEEnumLiteralByValue | .getEEnumLiteralByLiteral => .eEnum
  | .create | .createFromString | .convertToString => .eFactory
  | .isInstanceOfGeneric => .eGenericType
  | .isOverrideOf => .eOperation
  | .getEClassifier => .ePackage
  | .getContainerClass => .eStructuralFeature
  | _ => .eObject

/-- the classes of Ecore as they are in memory -/
def ecoreClasses : Classes EC EO := ⟨ecoreSupers, ecoreOwn, ecoreDecl⟩

/-- the numbers of operations (ecore/ecorepackage.go:41, 59, 98, 308, 458): EMODEL_ELEMENT_OPERATION_COUNT -/
def modelElementCount : Nat := 1
/-- ENAMED_ELEMENT_OPERATION_COUNT (ecore/ecorepackage.go:59) -/
def namedElementCount : Nat := modelElementCount + 0
/-- ETYPED_ELEMENT_OPERATION_COUNT (ecore/ecorepackage.go:98) -/
def typedElementCount : Nat := namedElementCount + 0
/-- ECLASSIFIER_OPERATION_COUNT (ecore/ecorepackage.go:308) -/
def classifierCount : Nat := namedElementCount + 1
/-- EDATA_TYPE_OPERATION_COUNT (ecore/ecorepackage.go:458) -/
def dataTypeCount : Nat := classifierCount + 0

/-- The switches of `EInvokeFromID` with their constants (ecore/ecorepackage.go:38-866; ecore/eclass_impl.go:512-537,
ecore/eclassifier_impl.go:206-213, ecore/eenum_impl.go:117-128, ecore/efactory_impl.go:130-141, ecore/egenerictype_impl.go:304-311,
ecore/emodelelement_impl.go:107-114, ecore/eobject_impl.go:39-76, ecore/eoperation_impl.go:180-187, ecore/epackage_impl.go:246-253,
ecore/estructuralfeature_impl.go:279-286), in the order of the code. -/
def ecoreCases : EC → List (Nat × EO)
  | .eClass => [(classifierCount + 6, .getEOperation), (classifierCount + 2, .getEStructuralFeature),
      (classifierCount + 3, .getEStructuralFeatureFromName), (classifierCount + 1, .getFeatureCount), (classifierCount + 4, .getFeatureID),
      (classifierCount + 9, .getFeatureType), (classifierCount + 5, .getOperationCount), (classifierCount + 7, .getOperationID),
      (classifierCount + 8, .getOverride), (classifierCount + 0, .isSuperTypeOf)]
  | .eClassifier => [(namedElementCount + 0, .isInstance)]
  | .eEnum => [(dataTypeCount + 2, .getEEnumLiteralByLiteral), (dataTypeCount + 0, .getEEnumLiteralByName), (dataTypeCount + 1, .getEEnumLiteralByValue)]
  | .eFactory => [(modelElementCount + 2, .convertToString), (modelElementCount + 0, .create), (modelElementCount + 1, .createFromString)]
  | .eGenericType => [(0, .isInstanceOfGeneric)]
  | .eModelElement => [(0, .getEAnnotation)]
  | .eObject => [(7, .eAllContents), (0, .eClass), (3, .eContainer), (4, .eContainingFeature), (5, .eContainmentFeature), (6, .eContents),
      (8, .eCrossReferences), (9, .eGet), (10, .eGetResolve), (14, .eInvoke), (1, .eIsProxy), (12, .eIsSet), (2, .eResource), (11, .eSet),
      (13, .eUnset)]
  | .eOperation => [(typedElementCount + 0, .isOverrideOf)]
  | .ePackage => [(namedElementCount + 0, .getEClassifier)]
  | .eStructuralFeature => [(typedElementCount + 0, .getContainerClass)]
  | _ => []

/-- the parameters of the methods (same lines as `ecoreCases`) -/
def ecoreParams : EO → List (Ty EC)
  | .getEAnnotation => [.string]
  | .isInstance | .isInstanceOfGeneric => [.any]
  | .isSuperTypeOf => [.object .eClass]
  | .getEStructuralFeature | .getEOperation => [.int]
  | .getEStructuralFeatureFromName => [.string]
  | .getFeatureID | .getFeatureType => [.object .eStructuralFeature]
  | .getOperationID | .getOverride | .isOverrideOf => [.object .eOperation]
  | .getEEnumLiteralByName | .getEEnumLiteralByLiteral | .getEClassifier => [.string]
  | .getEEnumLiteralByValue => [.int]
  | .create => [.object .eClass]
  | .createFromString => [.object .eDataType, .string]
  | .convertToString => [.object .eDataType, .any]
  | .eGet | .eIsSet | .eUnset => [.object .eStructuralFeature]
  | .eGetResolve => [.object .eStructuralFeature, .bool]
  | .eSet => [.object .eStructuralFeature, .any]
  | .eInvoke => [.object .eOperation, .list]
  | _ => []

/-- whether a struct has the methods of the interface of a class: the interfaces embed each other as the classes do; every struct is an
`EObject` (e.g. ecore/eclass.go:14-16, ecore/emodelelement.go:13-15) -/
def ecoreImplements (k c : EC) : Bool :=
  c == .eObject || k == c || (ecoreSupers k).any fun d => d == c || (ecoreSupers d).any fun e => e == c || (ecoreSupers e).any fun f => f == c ||
    (ecoreSupers f).any fun g => g == c

/-- the generated code of Ecore: each struct embeds the one of its super type (e.g. ecore/eclass_impl.go:15-16, ecore/eenum_impl.go:15-16);
`CompactEObjectContainer` and `BasicEObjectImpl` take `EInvokeFromID` from `AbstractEObject` -/
def ecoreCode : Code EC EO := ⟨fun c => (ecoreSupers c).head?, ecoreCases, ecoreParams, ecoreImplements⟩

end Verif.Invoke
