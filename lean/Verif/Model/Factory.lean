/-!
# Creating objects by their class

`Create` of dynamic factories (ecore/efactory_ext.go:31-44) and of the factory of Ecore
(ecore/ecorefactory_impl.go:88-124).

Simplifications: a class is what these functions ask of it; `entry` is the result of
`IsMapEntry` (modelled in `Verif/Model/DynamicEntry.lean`); an object is its class and, for
dynamic ones, if it is a map entry; a panic is `none`.
-/

namespace Verif.Factory

/-- The classes of Ecore: ecore/ecorepackage_impl.go:947-1102. -/
inductive Kind where
  | annotation | attribute | «class» | classifier | dataType | enum | enumLiteral | factory
  | genericType | modelElement | namedElement | object | operation | package | parameter
  | reference | stringToStringMapEntry | structuralFeature | typeParameter | typedElement
  deriving DecidableEq, Repr

/-- The IDs: the constants of ecore/ecorepackage.go:29-869. -/
def Kind.id : Kind → Int
  | .annotation => 1 | .class => 2 | .classifier => 3 | .dataType => 4 | .enum => 5
  | .enumLiteral => 6 | .factory => 7 | .modelElement => 8 | .namedElement => 9
  | .object => 10 | .operation => 11 | .package => 12 | .parameter => 13 | .reference => 14
  | .structuralFeature => 15 | .typedElement => 16 | .stringToStringMapEntry => 48
  | .genericType => 50 | .typeParameter => 51 | .attribute => 53

/-- The `isAbstract` of ecore/ecorepackage_impl.go:1161-1415. -/
def Kind.abstract : Kind → Bool
  | .classifier | .modelElement | .namedElement | .structuralFeature | .typedElement => true
  | _ => false

/-- A class: one of Ecore, or any other, with its identity, package (nil if it is in none),
ID (ecore/eclassifier_impl.go:66-72), and what else `Create` asks. -/
inductive Class where
  | ecore (k : Kind)
  | other (ident : Nat) (pkg : Option Nat) (id : Int) (abstract entry : Bool)
  deriving DecidableEq, Repr

/-- A package: Ecore or another one. -/
inductive Package where
  | ecore
  | other (p : Nat)
  deriving DecidableEq, Repr

/-- `GetEPackage`: ecore/eclassifier_impl.go:89-94. -/
def Class.package : Class → Option Package
  | .ecore _ => some .ecore
  | .other _ p _ _ _ => p.map .other

/-- `GetClassifierID`. -/
def Class.id : Class → Int
  | .ecore k => k.id
  | .other _ _ i _ _ => i

/-- `IsAbstract`. -/
def Class.abstract : Class → Bool
  | .ecore k => k.abstract
  | .other _ _ _ a _ => a

/-- `IsMapEntry`: ecore/eclass_ext.go:470-477; of Ecore only `EStringToStringMapEntry`. -/
def Class.entry : Class → Bool
  | .ecore k => k = .stringToStringMapEntry
  | .other _ _ _ _ e => e

/-- An object: what its `EClass` is, and if it is a map entry. -/
structure Obj where
  cls : Class
  entry : Bool
  deriving DecidableEq, Repr

/-- `Create` of a dynamic factory: ecore/efactory_ext.go:31-44. -/
def create (factoryPackage : Option Package) (c : Class) : Option Obj :=
  if factoryPackage ≠ c.package ∨ c.abstract then none
  else if c.entry then some ⟨c, true⟩
  else some ⟨c, false⟩

/-- The `Create…` functions of ecore/ecorefactory_impl.go: the `EStaticClass` of the new
object (ecore/eannotation_impl.go:58-60 and the same in the other files). -/
def new (k : Kind) : Obj := ⟨.ecore k, k = .stringToStringMapEntry⟩

/-- `Create` of the factory of Ecore: ecore/ecorefactory_impl.go:88-124. -/
def ecoreCreate (c : Class) : Option Obj :=
  let i := c.id
  if i = 1 then some (new .annotation)
  else if i = 53 then some (new .attribute)
  else if i = 2 then some (new .class)
  else if i = 4 then some (new .dataType)
  else if i = 5 then some (new .enum)
  else if i = 6 then some (new .enumLiteral)
  else if i = 7 then some (new .factory)
  else if i = 50 then some (new .genericType)
  else if i = 10 then some (new .object)
  else if i = 11 then some (new .operation)
  else if i = 12 then some (new .package)
  else if i = 13 then some (new .parameter)
  else if i = 14 then some (new .reference)
  else if i = 48 then some (new .stringToStringMapEntry)
  else if i = 51 then some (new .typeParameter)
  else none

end Verif.Factory
