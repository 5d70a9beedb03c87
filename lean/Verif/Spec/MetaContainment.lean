import Verif.Model.MetaContainment

/-!
# What containment between metamodel elements should be

Every element is in at most one place, a place being a containment feature of an object.  Putting an element
somewhere takes it away from where it was.  The vocabulary below is the Ecore metamodel and lists; it does not
mention inverses, feature IDs or the way the two ends are kept in step.
-/

namespace Verif.MetaContainment

/-- Which classes have a containment feature. -/
def owns : Kind → Slot → Bool
  | .eAnnotation, s => s = .eAnnotations ∨ s = .contents ∨ s = .details
  | .eClass, s => s = .eAnnotations ∨ s = .eOperations ∨ s = .eStructuralFeatures
  | .eEnum, s => s = .eAnnotations ∨ s = .eLiterals
  | .eOperation, s => s = .eAnnotations ∨ s = .eParameters
  | .ePackage, s => s = .eAnnotations ∨ s = .eClassifiers ∨ s = .eSubPackages ∨ s = .eFactoryInstance
  | .eTypeParameter, s => s = .eAnnotations ∨ s = .eBounds
  | .eGenericType, s => s = .eTypeArguments ∨ s = .eLowerBound ∨ s = .eUpperBound
  | .eStringToStringMapEntry, _ => false
  | _, s => s = .eAnnotations

/-- Which classes of elements a containment feature takes. -/
def takes : Slot → Kind → Bool
  | .eAnnotations, k => k = .eAnnotation
  | .contents, _ => true
  | .details, k => k = .eStringToStringMapEntry
  | .eOperations, k => k = .eOperation
  | .eStructuralFeatures, k => k = .eAttribute ∨ k = .eReference
  | .eLiterals, k => k = .eEnumLiteral
  | .eParameters, k => k = .eParameter
  | .eClassifiers, k => k = .eClass ∨ k = .eDataType ∨ k = .eEnum
  | .eSubPackages, k => k = .ePackage
  | .eTypeArguments, k => k = .eGenericType
  | .eBounds, k => k = .eGenericType
  | .eFactoryInstance, k => k = .eFactory
  | .eLowerBound, k => k = .eGenericType
  | .eUpperBound, k => k = .eGenericType

/-- The features that hold one element. -/
def single : Slot → Bool
  | .eFactoryInstance | .eLowerBound | .eUpperBound => true
  | _ => false

/-- The features whose elements know their container under a name of its own, such as `eContainingClass`. -/
def twoWay : Slot → Bool
  | .contents | .details | .eTypeArguments | .eBounds | .eLowerBound | .eUpperBound => false
  | _ => true

/-- A call the types allow. -/
def Typed (kind : Nat → Kind) : Op → Prop
  | .insert p s _ c | .add p s c | .setAt p s _ c =>
    owns (kind p) s = true ∧ single s = false ∧ takes s (kind c) = true
  | .removeAt p s _ | .remove p s _ | .clear p s => owns (kind p) s = true ∧ single s = false
  | .setRef p s c => owns (kind p) s = true ∧ single s = true ∧ ∀ x, c = some x → takes s (kind x) = true
  | .setEModelElement c p =>
    takes .eAnnotations (kind c) = true ∧ ∀ x, p = some x → owns (kind x) .eAnnotations = true
  | .setEPackage c p =>
    takes .eFactoryInstance (kind c) = true ∧ ∀ x, p = some x → owns (kind x) .eFactoryInstance = true

/-- What is in which place. -/
abbrev Lists := Nat → Slot → List Nat

/-- The call does not move an entry out of the details of an annotation. -/
def KeepsDetails (h : Lists) : Op → Prop
  | .insert p s _ c | .add p s c | .setAt p s _ c => ∀ q, c ∈ h q .details → q = p ∧ s = .details
  | _ => True

/-- The worlds a program reaches from new objects by calls that the types allow, that do not panic and that do not
move entries between details. -/
inductive Reach (kind : Nat → Kind) : World → Prop
  | fresh : Reach kind (fresh kind)
  | step {w w' : World} {op : Op} : Reach kind w → Typed kind op → KeepsDetails w.held op → step w op = some w' →
      Reach kind w'

/-- Everywhere but in one place, where the list is as given. -/
def put (h : Lists) (p : Nat) (s : Slot) (l : List Nat) : Lists := fun q t => if q = p ∧ t = s then l else h q t

/-- An element taken away from where it is. -/
def without (h : Lists) (c : Nat) : Lists := fun q t => (h q t).erase c

/-- What a call should do to the places; nothing when it should panic. -/
def effect (h : Lists) : Op → Option Lists
  | .insert p s i c =>
    if (h p s).length < i then none
    else if c ∈ h p s then some h
    else some (put (without h c) p s ((h p s).insertIdx i c))
  | .add p s c => if c ∈ h p s then some h else some (put (without h c) p s (h p s ++ [c]))
  | .setAt p s i c =>
    if (h p s).length ≤ i then none
    else if (h p s)[i]? = some c then some h
    else if c ∈ h p s then none
    else some (put (without h c) p s ((h p s).set i c))
  | .removeAt p s i => if (h p s).length ≤ i then none else some (put h p s ((h p s).eraseIdx i))
  | .remove p s c => some (put h p s ((h p s).erase c))
  | .clear p s => some (put h p s [])
  | .setRef p s none => some (put h p s [])
  | .setRef p s (some c) => some (put (without h c) p s [c])
  | .setEModelElement c none => some (without h c)
  | .setEModelElement c (some p) =>
    if c ∈ h p .eAnnotations then some h
    else some (put (without h c) p .eAnnotations (h p .eAnnotations ++ [c]))
  | .setEPackage c none => some (without h c)
  | .setEPackage c (some p) => some (put (without h c) p .eFactoryInstance [c])

end Verif.MetaContainment
