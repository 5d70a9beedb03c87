import Verif.Model.XMLRoot

/-!
# What is expected of XML documents with document roots

Metamodels and objects are those of the model (they are data); the rest does not use the functions of the model.
-/

namespace Verif.Spec.XMLRoot

open Verif.XMLRoot (Feature Class Meta Objs Vals Token)

/-- A metamodel whose names are not ambiguous. -/
structure Proper (m : Meta) : Prop where
  /-- packages have different URIs -/
  uris : m.uris.Nodup
  /-- the packages of the classes are registered -/
  packages : ∀ c ∈ m.classes, c.package < m.uris.length
  /-- the classes of a package have different extended names -/
  classes : ∀ (i j : Nat) (c d : Class), m.classes[i]? = some c → m.classes[j]? = some d → c.package = d.package → c.ext = d.ext → i = j
  /-- the extended name of a feature is neither the name nor the extended name of another feature of the class -/
  features : ∀ c ∈ m.classes, ∀ (i j : Nat) (f g : Feature), c.features[i]? = some f → c.features[j]? = some g →
    f.ext = g.ext ∨ f.ext = g.name → i = j
  /-- no feature is named as what has a meaning in all documents -/
  reserved : ∀ c ∈ m.classes, ∀ f ∈ c.features, f.ext ≠ "href" ∧ f.ext ≠ "xmlns" ∧ f.space ≠ "xmlns"

mutual
/-- The objects can be values of the feature, and their classes can be found: the class is the type of the feature, or it has a name and the
type of the feature is not `EObject`. -/
def Fit (m : Meta) (f : Feature) : Objs → Prop
  | .nil => True
  | .cons c vs rest =>
    (∃ cl, m.classes[c]? = some cl ∧ cl.abstract = false ∧ (c = f.type ∨ f.type ≠ m.any ∧ cl.ext ≠ "") ∧ Filled m cl.features vs) ∧ Fit m f rest
/-- The values are values of the features: texts for an attribute, objects for a containment reference, one at most if the feature is
single-valued. -/
def Filled (m : Meta) : List Feature → Vals → Prop
  | [], .nil => True
  | f :: fs, .texts l rest => f.data = true ∧ (f.many = true ∨ l.length ≤ 1) ∧ Filled m fs rest
  | f :: fs, .kids l rest =>
    f.data = false ∧ (f.many = true ∨ l = .nil ∨ ∃ c vs, l = .cons c vs .nil) ∧ Fit m f l ∧ Filled m fs rest
  | _, _ => False
end

/-- No feature has a value. -/
def Vacant : Vals → Prop
  | .nil => True
  | .texts l rest => l = [] ∧ Vacant rest
  | .kids l rest => l = .nil ∧ Vacant rest

/-- One feature has a value, and only one: an object, or a text of a many-valued attribute; the feature is in the namespace. -/
def Single (uri : String) : List Feature → Vals → Prop
  | f :: fs, .texts l rest => (l = [] ∧ Single uri fs rest) ∨ (f.many = true ∧ f.space = uri ∧ (∃ t, l = [t]) ∧ Vacant rest)
  | f :: fs, .kids l rest => (l = .nil ∧ Single uri fs rest) ∨ (f.space = uri ∧ (∃ c vs, l = .cons c vs .nil) ∧ Vacant rest)
  | _, _ => False

/-- The number of elements at the outermost level of a document. -/
def roots : Nat → List Token → Nat
  | _, [] => 0
  | d, .start _ _ _ :: ts => (if d = 0 then 1 else 0) + roots (d + 1) ts
  | d, .stop :: ts => roots (d - 1) ts
  | d, .chars _ :: ts => roots d ts

/-- There is text outside of the elements of a document. -/
def outside : Nat → List Token → Bool
  | _, [] => false
  | d, .start _ _ _ :: ts => outside (d + 1) ts
  | d, .stop :: ts => outside (d - 1) ts
  | d, .chars _ :: ts => d == 0 || outside d ts

/-- A resource that holds one object. -/
def one (c : Nat) (vs : Vals) : Objs := .cons c vs .nil

/-- The values of a document root that holds one object in one feature, the `i`-th. -/
def holds : List Feature → Nat → Nat → Vals → Vals
  | [], _, _, _ => .nil
  | f :: fs, 0, c, vs => if f.data then .texts [] (holds fs fs.length c vs) else .kids (one c vs) (holds fs fs.length c vs)
  | f :: fs, i + 1, c, vs => if f.data then .texts [] (holds fs i c vs) else .kids .nil (holds fs i c vs)

end Verif.Spec.XMLRoot
