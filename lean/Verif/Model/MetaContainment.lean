/-!
# Containment between metamodel elements

The generated classes of the Ecore metamodel keep their containment references in typed fields and lists, and tell
the other end through `EInverseAdd` and `EInverseRemove`, which dispatch on generated `switch` statements.

Simplifications: notifications and resources are left out (they are modelled in `Notify`, `Graph` and `Resource`),
no object is a proxy, and the order of evaluation within one operation is kept only as far as it changes the
fields below.  A single-valued containment is a list of at most one element.
-/

namespace Verif.MetaContainment

/-- The concrete classes of the metamodel, ecorepackage.go 24–60. -/
inductive Kind where
  | eAnnotation | eAttribute | eClass | eDataType | eEnum | eEnumLiteral | eFactory | eGenericType | eOperation
  | ePackage | eParameter | eReference | eTypeParameter | eStringToStringMapEntry
  deriving DecidableEq, Repr

/-- The containment features of the metamodel: emodelelement_impl.go 66, eannotation_impl.go 136 and 140,
eclass_impl.go 303 and 311, eenum_impl.go 76, eoperation_impl.go 111, epackage_impl.go 162, 166 and 83,
egenerictype_impl.go 217, 102 and 180, etypeparameter_impl.go 61. -/
inductive Slot where
  | eAnnotations | contents | details | eOperations | eStructuralFeatures | eLiterals | eParameters | eClassifiers
  | eSubPackages | eTypeArguments | eBounds | eFactoryInstance | eLowerBound | eUpperBound
  deriving DecidableEq, Repr

/-- The fields of the objects that take part: the lists and references of the generated structs, and the container
with its feature ID, compacteobject_impl.go 231–245. -/
structure World where
  kind : Nat → Kind
  held : Nat → Slot → List Nat
  container : Nat → Option Nat
  cfid : Nat → Int

/-- Assignment to a list or to a field. -/
def assign (w : World) (p : Nat) (s : Slot) (l : List Nat) : World :=
  { w with held := fun q t => if q = p ∧ t = s then l else w.held q t }

/-- `EBasicSetContainer`, abstracteobject.go 782–850, without resources and notifications. -/
def setContainer (w : World) (c : Nat) (p : Option Nat) (fid : Int) : World :=
  { w with
    container := fun o => if o = c then p else w.container o
    cfid := fun o => if o = c then fid else w.cfid o }

/-- `AddWithNotification`, basicenotifyinglist.go 149–154. -/
def addWith (w : World) (p : Nat) (s : Slot) (c : Nat) : World := assign w p s (w.held p s ++ [c])

/-- `RemoveWithNotification`, basicenotifyinglist.go 157–166. -/
def removeWith (w : World) (p : Nat) (s : Slot) (c : Nat) : World := assign w p s ((w.held p s).erase c)

/-- The feature ID of a containment feature in the class that owns it, ecorepackage.go 24–880. -/
def featureID : Slot → Nat
  | .eAnnotations => 0
  | .contents => 4
  | .details => 2
  | .eOperations => 14
  | .eStructuralFeatures => 10
  | .eLiterals => 9
  | .eParameters => 10
  | .eClassifiers => 5
  | .eSubPackages => 6
  | .eTypeArguments => 1
  | .eBounds => 2
  | .eFactoryInstance => 4
  | .eLowerBound => 3
  | .eUpperBound => 0

/-- The inverse feature ID given to `NewBasicEObjectList`, where the list has an opposite, and the one used by
`SetEFactoryInstance`. -/
def inverseFeatureID : Slot → Option Nat
  | .eAnnotations => some 3
  | .eOperations => some 9
  | .eStructuralFeatures => some 16
  | .eLiterals => some 5
  | .eParameters => some 9
  | .eClassifiers => some 6
  | .eSubPackages => some 7
  | .eFactoryInstance => some 1
  | _ => none

/-- The feature ID `inverseAdd` and `inverseRemove` of a list give to the element, basiceobjectlist.go 123–145:
the inverse feature ID or `EOPPOSITE_FEATURE_BASE - featureID`. -/
def endID (s : Slot) : Int :=
  match inverseFeatureID s with
  | some i => i
  | none => -1 - (featureID s : Int)

/-! ## `EBasicInverseRemove` -/

/-- `EModelElementImpl.EBasicInverseRemove`, emodelelement_impl.go 126–134. -/
def modelElementRemove (w : World) (e o : Nat) : Nat → World
  | 0 => removeWith w e .eAnnotations o
  | _ => w

/-- `EAnnotationImpl.EBasicInverseRemove`, eannotation_impl.go 241–253.  The case of `details` leaves the map as it
is. -/
def annotationRemove (w : World) (e o : Nat) (fid : Nat) : World :=
  if fid = 4 then removeWith w e .contents o
  else if fid = 2 then w
  else if fid = 3 then setContainer w e none 3
  else modelElementRemove w e o fid

/-- `EClassifierImpl.EBasicInverseRemove`, eclassifier_impl.go 228–235. -/
def classifierRemove (w : World) (e o : Nat) (fid : Nat) : World :=
  if fid = 6 then setContainer w e none 6 else modelElementRemove w e o fid

/-- `EClassImpl.EBasicInverseRemove`, eclass_impl.go 552–563. -/
def classRemove (w : World) (e o : Nat) (fid : Nat) : World :=
  if fid = 14 then removeWith w e .eOperations o
  else if fid = 10 then removeWith w e .eStructuralFeatures o
  else classifierRemove w e o fid

/-- `EEnumImpl.EBasicInverseRemove`, eenum_impl.go 140–148. -/
def enumRemove (w : World) (e o : Nat) (fid : Nat) : World :=
  if fid = 9 then removeWith w e .eLiterals o else classifierRemove w e o fid

/-- `EEnumLiteralImpl.EBasicInverseRemove`, eenumliteral_impl.go 169–176. -/
def enumLiteralRemove (w : World) (e o : Nat) (fid : Nat) : World :=
  if fid = 5 then setContainer w e none 5 else modelElementRemove w e o fid

/-- `EFactoryImpl.EBasicInverseRemove`, efactory_impl.go 156–163. -/
def factoryRemove (w : World) (e o : Nat) (fid : Nat) : World :=
  if fid = 1 then setContainer w e none 1 else modelElementRemove w e o fid

/-- `EGenericTypeImpl.EBasicInverseRemove`, egenerictype_impl.go 313–325. -/
def genericTypeRemove (w : World) (e o : Nat) (fid : Nat) : World :=
  if fid = 3 then assign w e .eLowerBound []
  else if fid = 1 then removeWith w e .eTypeArguments o
  else if fid = 0 then assign w e .eUpperBound []
  else w

/-- `EOperationImpl.EBasicInverseRemove`, eoperation_impl.go 205–215. -/
def operationRemove (w : World) (e o : Nat) (fid : Nat) : World :=
  if fid = 9 then setContainer w e none 9
  else if fid = 10 then removeWith w e .eParameters o
  else modelElementRemove w e o fid

/-- `EPackageImpl.EBasicInverseRemove`, epackage_impl.go 281–296. -/
def packageRemove (w : World) (e o : Nat) (fid : Nat) : World :=
  if fid = 5 then removeWith w e .eClassifiers o
  else if fid = 4 then assign w e .eFactoryInstance []
  else if fid = 6 then removeWith w e .eSubPackages o
  else if fid = 7 then setContainer w e none 7
  else modelElementRemove w e o fid

/-- `EParameterImpl.EBasicInverseRemove`, eparameter_impl.go 78–85. -/
def parameterRemove (w : World) (e o : Nat) (fid : Nat) : World :=
  if fid = 9 then setContainer w e none 9 else modelElementRemove w e o fid

/-- `EStructuralFeatureImpl.EBasicInverseRemove`, estructuralfeature_impl.go 301–308. -/
def structuralFeatureRemove (w : World) (e o : Nat) (fid : Nat) : World :=
  if fid = 16 then setContainer w e none 16 else modelElementRemove w e o fid

/-- `ETypeParameterImpl.EBasicInverseRemove`, etypeparameter_impl.go 102–110. -/
def typeParameterRemove (w : World) (e o : Nat) (fid : Nat) : World :=
  if fid = 2 then removeWith w e .eBounds o else modelElementRemove w e o fid

/-- The dispatch on the class of the object.  Other static features fall to `AbstractEObject.EBasicInverseRemove`,
abstracteobject.go 739–752, which does nothing for them. -/
def basicInverseRemove (w : World) (e o : Nat) (fid : Nat) : World :=
  match w.kind e with
  | .eAnnotation => annotationRemove w e o fid
  | .eAttribute => structuralFeatureRemove w e o fid
  | .eClass => classRemove w e o fid
  | .eDataType => classifierRemove w e o fid
  | .eEnum => enumRemove w e o fid
  | .eEnumLiteral => enumLiteralRemove w e o fid
  | .eFactory => factoryRemove w e o fid
  | .eGenericType => genericTypeRemove w e o fid
  | .eOperation => operationRemove w e o fid
  | .ePackage => packageRemove w e o fid
  | .eParameter => parameterRemove w e o fid
  | .eReference => structuralFeatureRemove w e o fid
  | .eTypeParameter => typeParameterRemove w e o fid
  | .eStringToStringMapEntry => w

/-- `EInverseRemove`, abstracteobject.go 662–668. -/
def eInverseRemove (w : World) (e o : Nat) (fid : Int) : World :=
  if fid ≥ 0 then basicInverseRemove w e o fid.toNat else setContainer w e none fid

/-- The feature ID of the opposite of a container reference of a class, ecorepackage_impl.go 1164, 1239, 1271, 1274,
1363, 1378, 1386 and 1409; nothing for the other references. -/
def oppositeID (k : Kind) (fid : Nat) : Option Nat :=
  match k with
  | .eAnnotation => if fid = 3 then some 0 else none
  | .eAttribute | .eReference => if fid = 16 then some 10 else none
  | .eClass | .eDataType | .eEnum => if fid = 6 then some 5 else none
  | .eEnumLiteral => if fid = 5 then some 9 else none
  | .eFactory => if fid = 1 then some 4 else none
  | .eOperation => if fid = 9 then some 14 else none
  | .ePackage => if fid = 7 then some 6 else none
  | .eParameter => if fid = 9 then some 10 else none
  | .eGenericType | .eTypeParameter | .eStringToStringMapEntry => none

/-- `EBasicRemoveFromContainer` and `EBasicRemoveFromContainerFeature`, abstracteobject.go 853–876. -/
def removeFromContainer (w : World) (c : Nat) : World :=
  match w.container c with
  | none => w
  | some p =>
    if w.cfid c ≥ 0 then
      match oppositeID (w.kind c) (w.cfid c).toNat with
      | some i => eInverseRemove w p c i
      | none => w
    else eInverseRemove w p c (-1 - w.cfid c)

/-! ## `EBasicInverseAdd` -/

/-- The shape of the container cases of the generated `EBasicInverseAdd`, e.g. eclassifier_impl.go 217–222. -/
def enterContainer (w : World) (c p : Nat) (fid : Nat) : World := setContainer (removeFromContainer w c) c (some p) fid

/-- `EModelElementImpl.EBasicInverseAdd`, emodelelement_impl.go 116–124. -/
def modelElementAdd (w : World) (e o : Nat) : Nat → World
  | 0 => addWith w e .eAnnotations o
  | _ => w

/-- `EAnnotationImpl.EBasicInverseAdd`, eannotation_impl.go 228–239. -/
def annotationAdd (w : World) (e o : Nat) (fid : Nat) : World :=
  if fid = 3 then enterContainer w e o 3 else modelElementAdd w e o fid

/-- `EClassifierImpl.EBasicInverseAdd`, eclassifier_impl.go 215–226. -/
def classifierAdd (w : World) (e o : Nat) (fid : Nat) : World :=
  if fid = 6 then enterContainer w e o 6 else modelElementAdd w e o fid

/-- `EClassImpl.EBasicInverseAdd`, eclass_impl.go 539–550. -/
def classAdd (w : World) (e o : Nat) (fid : Nat) : World :=
  if fid = 14 then addWith w e .eOperations o
  else if fid = 10 then addWith w e .eStructuralFeatures o
  else classifierAdd w e o fid

/-- `EEnumImpl.EBasicInverseAdd`, eenum_impl.go 130–138. -/
def enumAdd (w : World) (e o : Nat) (fid : Nat) : World :=
  if fid = 9 then addWith w e .eLiterals o else classifierAdd w e o fid

/-- `EEnumLiteralImpl.EBasicInverseAdd`, eenumliteral_impl.go 156–167. -/
def enumLiteralAdd (w : World) (e o : Nat) (fid : Nat) : World :=
  if fid = 5 then enterContainer w e o 5 else modelElementAdd w e o fid

/-- `EFactoryImpl.EBasicInverseAdd`, efactory_impl.go 143–154. -/
def factoryAdd (w : World) (e o : Nat) (fid : Nat) : World :=
  if fid = 1 then enterContainer w e o 1 else modelElementAdd w e o fid

/-- `EOperationImpl.EBasicInverseAdd`, eoperation_impl.go 189–203. -/
def operationAdd (w : World) (e o : Nat) (fid : Nat) : World :=
  if fid = 9 then enterContainer w e o 9
  else if fid = 10 then addWith w e .eParameters o
  else modelElementAdd w e o fid

/-- `EPackageImpl.EBasicInverseAdd`, epackage_impl.go 255–279.  The former factory is told with
`EOPPOSITE_FEATURE_BASE - EPACKAGE__EFACTORY_INSTANCE`. -/
def packageAdd (w : World) (e o : Nat) (fid : Nat) : World :=
  if fid = 5 then addWith w e .eClassifiers o
  else if fid = 4 then
    match (w.held e .eFactoryInstance).head? with
    | some old => assign (eInverseRemove w old e (-1 - 4)) e .eFactoryInstance [o]
    | none => assign w e .eFactoryInstance [o]
  else if fid = 6 then addWith w e .eSubPackages o
  else if fid = 7 then enterContainer w e o 7
  else modelElementAdd w e o fid

/-- `EParameterImpl.EBasicInverseAdd`, eparameter_impl.go 65–76. -/
def parameterAdd (w : World) (e o : Nat) (fid : Nat) : World :=
  if fid = 9 then enterContainer w e o 9 else modelElementAdd w e o fid

/-- `EStructuralFeatureImpl.EBasicInverseAdd`, estructuralfeature_impl.go 288–299. -/
def structuralFeatureAdd (w : World) (e o : Nat) (fid : Nat) : World :=
  if fid = 16 then enterContainer w e o 16 else modelElementAdd w e o fid

/-- The dispatch on the class of the object; `EGenericTypeImpl`, `ETypeParameterImpl` and
`EStringToStringMapEntryImpl` have no `EBasicInverseAdd` of their own. -/
def basicInverseAdd (w : World) (e o : Nat) (fid : Nat) : World :=
  match w.kind e with
  | .eAnnotation => annotationAdd w e o fid
  | .eAttribute => structuralFeatureAdd w e o fid
  | .eClass => classAdd w e o fid
  | .eDataType => classifierAdd w e o fid
  | .eEnum => enumAdd w e o fid
  | .eEnumLiteral => enumLiteralAdd w e o fid
  | .eFactory => factoryAdd w e o fid
  | .eGenericType => w
  | .eOperation => operationAdd w e o fid
  | .ePackage => packageAdd w e o fid
  | .eParameter => parameterAdd w e o fid
  | .eReference => structuralFeatureAdd w e o fid
  | .eTypeParameter => modelElementAdd w e o fid
  | .eStringToStringMapEntry => w

/-- `EInverseAdd`, abstracteobject.go 650–659. -/
def eInverseAdd (w : World) (e o : Nat) (fid : Int) : World :=
  if fid ≥ 0 then basicInverseAdd w e o fid.toNat
  else setContainer (removeFromContainer w e) e (some o) fid

/-! ## The operations -/

/-- `Insert` of a containment list, abstractelist.go 98–108 and basicenotifyinglist.go 188–193; nothing when the call
panics. -/
def insert (w : World) (p : Nat) (s : Slot) (i c : Nat) : Option World :=
  if (w.held p s).length < i then none
  else if c ∈ w.held p s then some w
  else some (eInverseAdd (assign w p s ((w.held p s).insertIdx i c)) c p (endID s))

/-- `Add`, abstractelist.go 78–85 and basicenotifyinglist.go 175–181. -/
def add (w : World) (p : Nat) (s : Slot) (c : Nat) : World :=
  if c ∈ w.held p s then w
  else eInverseAdd (assign w p s (w.held p s ++ [c])) c p (endID s)

/-- `Set` of a containment list, abstractelist.go 200–212 and basicenotifyinglist.go 215–225. -/
def setAt (w : World) (p : Nat) (s : Slot) (i c : Nat) : Option World :=
  match (w.held p s)[i]? with
  | none => none
  | some old =>
    if c ∈ w.held p s ∧ (w.held p s).idxOf c ≠ i then none
    else if c = old then some w
    else some (eInverseAdd (eInverseRemove (assign w p s ((w.held p s).set i c)) old p (endID s)) c p (endID s))

/-- `RemoveAt`, abstractelist.go 144–150 and basicenotifyinglist.go 256–265. -/
def removeAt (w : World) (p : Nat) (s : Slot) (i : Nat) : Option World :=
  match (w.held p s)[i]? with
  | none => none
  | some old => some (eInverseRemove (assign w p s ((w.held p s).eraseIdx i)) old p (endID s))

/-- `Remove`, abstractelist.go 153–161. -/
def remove (w : World) (p : Nat) (s : Slot) (c : Nat) : World :=
  if c ∈ w.held p s then eInverseRemove (assign w p s ((w.held p s).eraseIdx ((w.held p s).idxOf c))) c p (endID s)
  else w

/-- `Clear`, basicenotifyinglist.go 227–247. -/
def clear (w : World) (p : Nat) (s : Slot) : World :=
  (w.held p s).foldl (fun v o => eInverseRemove v o p (endID s)) (assign w p s [])

/-- `SetEFactoryInstance`, `SetELowerBound` and `SetEUpperBound`: epackage_impl.go 86–102, egenerictype_impl.go
107–121 and 185–199. -/
def setRef (w : World) (p : Nat) (s : Slot) (c : Option Nat) : World :=
  if (w.held p s).head? = c then w
  else
    let w := match (w.held p s).head? with
      | some old => eInverseRemove w old p (endID s)
      | none => w
    let w := match c with
      | some new => eInverseAdd w new p (endID s)
      | none => w
    assign w p s c.toList

/-- `SetEModelElement` of an annotation and `SetEPackage` of a factory: eannotation_impl.go 91–108 and
efactory_impl.go 71–88.  `s` is the feature of the new container, `own` the ID of the container reference. -/
def setOwner (w : World) (c : Nat) (s : Slot) (own : Nat) (p : Option Nat) : World :=
  if w.container c ≠ p ∨ (p ≠ none ∧ w.cfid c ≠ own) then
    let w := removeFromContainer w c
    let w := match p with
      | some p => eInverseAdd w p c (featureID s)
      | none => w
    setContainer w c p own
  else w

/-- `SetEModelElement`, eannotation_impl.go 91–108. -/
def setEModelElement (w : World) (c : Nat) (p : Option Nat) : World := setOwner w c .eAnnotations 3 p

/-- `SetEPackage` of a factory, efactory_impl.go 71–88. -/
def setEPackage (w : World) (c : Nat) (p : Option Nat) : World := setOwner w c .eFactoryInstance 1 p

/-- What a call gives back: an object, `nil` or a panic. -/
inductive Answer where
  | object (o : Nat)
  | nothing
  | panics
  deriving DecidableEq, Repr

/-- The ID of the container reference of a class. -/
def ownerID : Kind → Option Nat
  | .eAnnotation => some 3
  | .eAttribute | .eReference => some 16
  | .eClass | .eDataType | .eEnum => some 6
  | .eEnumLiteral => some 5
  | .eFactory => some 1
  | .eOperation => some 9
  | .ePackage => some 7
  | .eParameter => some 9
  | .eGenericType | .eTypeParameter | .eStringToStringMapEntry => none

/-- `GetEModelElement`, `GetEContainingClass`, `GetEPackage`, `GetEEnum`, `GetESuperPackage`, `GetEOperation`:
eannotation_impl.go 83–88, estructuralfeature_impl.go 92–97, eclassifier_impl.go 89–94, eenumliteral_impl.go
51–56, efactory_impl.go 63–68, eoperation_impl.go 62–67, epackage_impl.go 126–131, eparameter_impl.go 40–45.  The
container is converted to its type when the feature ID agrees, which panics on `nil`. -/
def getOwner (w : World) (c : Nat) : Answer :=
  match ownerID (w.kind c) with
  | none => .nothing
  | some i =>
    if w.cfid c = i then
      match w.container c with
      | some p => .object p
      | none => .panics
    else .nothing

/-- The calls of a program. -/
inductive Op where
  | insert (p : Nat) (s : Slot) (i c : Nat)
  | add (p : Nat) (s : Slot) (c : Nat)
  | setAt (p : Nat) (s : Slot) (i c : Nat)
  | removeAt (p : Nat) (s : Slot) (i : Nat)
  | remove (p : Nat) (s : Slot) (c : Nat)
  | clear (p : Nat) (s : Slot)
  | setRef (p : Nat) (s : Slot) (c : Option Nat)
  | setEModelElement (c : Nat) (p : Option Nat)
  | setEPackage (c : Nat) (p : Option Nat)
  deriving DecidableEq, Repr

/-- One call; nothing when it panics. -/
def step (w : World) : Op → Option World
  | .insert p s i c => insert w p s i c
  | .add p s c => some (add w p s c)
  | .setAt p s i c => setAt w p s i c
  | .removeAt p s i => removeAt w p s i
  | .remove p s c => some (remove w p s c)
  | .clear p s => some (clear w p s)
  | .setRef p s c => some (setRef w p s c)
  | .setEModelElement c p => some (setEModelElement w c p)
  | .setEPackage c p => some (setEPackage w c p)

/-- New objects of the given classes: nothing is contained and the container feature ID is -1,
compacteobject_impl.go (`Initialize`).  The factory a new package is given by
epackage_ext.go 46–51 is the call `setRef p .eFactoryInstance`. -/
def fresh (kind : Nat → Kind) : World where
  kind := kind
  held := fun _ _ => []
  container := fun _ => none
  cfid := fun _ => -1

end Verif.MetaContainment
