import Verif.Model.ExtMeta
/-
The specification: the extended name and namespace of an element are read off its
annotation, and lookups find elements by their extended names.
-/
namespace Verif.ExtMeta.Spec
open Verif.ExtMeta

structure Meta where
  kind : Nat → Kind
  name : Nat → String
  details : Nat → Option (List (String × String))
  classifiers : Nat → List Nat
  references : Nat → List Nat
  owner : Nat → Option Nat
  package : Nat → Option Nat
  nsURI : Nat → String

def start (kind : Nat → Kind) : Meta where
  kind := kind
  name _ := ""
  details _ := none
  classifiers _ := []
  references _ := []
  owner _ := none
  package _ := none
  nsURI _ := ""

def change (m : Meta) : Edit → Meta
  | .setName e n => { m with name := fun x => if x = e then n else m.name x }
  | .setDetails e d => { m with details := fun x => if x = e then d else m.details x }
  | .setClassifiers p l => { m with classifiers := fun x => if x = p then l else m.classifiers x }
  | .setReferences c l => { m with references := fun x => if x = c then l else m.references x }
  | .setOwner f c => { m with owner := fun x => if x = f then c else m.owner x }
  | .setPackage c p => { m with package := fun x => if x = c then p else m.package x }
  | .setNsURI p n => { m with nsURI := fun x => if x = p then n else m.nsURI x }

/-- A detail of the annotation of an element. -/
def detail (m : Meta) (e : Nat) (k : String) : Option String := (m.details e).bind (·.lookup k)

/-- The extended name: the one of the annotation, or the plain one. -/
def extName (m : Meta) (e : Nat) : String := (detail m e "name").getD (m.name e)

/-- The URI of the package of the class of a feature, empty if there is none. -/
def target (m : Meta) (f : Nat) : String :=
  (((m.owner f).bind m.package).map m.nsURI).getD ""

/-- The namespace: the one of the annotation, where "##targetNamespace" stands for the
URI of the package. -/
def extNamespace (m : Meta) (f : Nat) : String :=
  match detail m f "namespace" with
  | none => ""
  | some "##targetNamespace" => target m f
  | some n => n

/-- The answer is right for the metamodel as it is. -/
def Right (m : Meta) : Query → Answer → Prop
  | .name e, .text t => t = extName m e
  | .namespace_ f, .text t => t = extNamespace m f
  | .type p n, .element (some c) => c ∈ m.classifiers p ∧ extName m c = n
  | .type p n, .element none => ∀ c ∈ m.classifiers p, extName m c ≠ n
  | .documentRoot p, .element (some c) =>
    c ∈ m.classifiers p ∧ extName m c = "" ∧ m.kind c = .cls
  | .documentRoot p, .element none => ∀ c ∈ m.classifiers p, extName m c ≠ ""
  | .documentRoot p, .panic => ∃ c ∈ m.classifiers p, extName m c = "" ∧ m.kind c ≠ .cls
  | .xmlnsPrefixMap c, .element r =>
    match r with
    | some f => ∃ a b : List Nat, m.references c = a ++ f :: b ∧ extName m f = "xmlns:prefix" ∧
        ∀ g ∈ a, extName m g ≠ "xmlns:prefix"
    | none => ∀ g ∈ m.references c, extName m g ≠ "xmlns:prefix"
  | .xsiSchemaLocationMap c, .element r =>
    match r with
    | some f => ∃ a b : List Nat, m.references c = a ++ f :: b ∧ extName m f = "xsi:schemaLocation" ∧
        ∀ g ∈ a, extName m g ≠ "xsi:schemaLocation"
    | none => ∀ g ∈ m.references c, extName m g ≠ "xsi:schemaLocation"
  | _, _ => False

def AllRight (m : Meta) : List Call → List (Option Answer) → Prop
  | [], as => as = []
  | .edit e :: cs, as => ∃ rest : List (Option Answer), as = none :: rest ∧
      AllRight (change m e) cs rest
  | .query q :: cs, as => ∃ (a : Answer) (rest : List (Option Answer)), as = some a :: rest ∧
      Right m q a ∧ AllRight m cs rest

/-- What was asked: names of elements, namespaces of features, types of packages. -/
structure Asked where
  name : Nat → Bool
  namespace_ : Nat → Bool
  type : Nat → Bool

def nothing : Asked where
  name _ := false
  namespace_ _ := false
  type _ := false

/-- What was asked, after a query.  Looking for a type asks the names of the
classifiers, looking for a reference the names of the references. -/
def asked (m : Meta) (k : Asked) : Query → Asked
  | .name e => { k with name := fun x => x == e || k.name x }
  | .namespace_ f => { k with namespace_ := fun x => x == f || k.namespace_ x }
  | .type p _ =>
    { k with name := fun x => decide (x ∈ m.classifiers p) || k.name x
             type := fun x => x == p || k.type x }
  | .documentRoot p =>
    { k with name := fun x => decide (x ∈ m.classifiers p) || k.name x
             type := fun x => x == p || k.type x }
  | .xmlnsPrefixMap c => { k with name := fun x => decide (x ∈ m.references c) || k.name x }
  | .xsiSchemaLocationMap c => { k with name := fun x => decide (x ∈ m.references c) || k.name x }

/-- The edit does not change what was asked about: a name that was asked, a namespace
that was asked; and no classifier is taken from a package whose types were asked.
The lists hold elements of the right kind. -/
def CarefulEdit (m : Meta) (k : Asked) (e : Edit) : Prop :=
  (∀ x : Nat, k.name x = true → extName (change m e) x = extName m x) ∧
  (∀ f : Nat, k.namespace_ f = true → extNamespace (change m e) f = extNamespace m f) ∧
  match e with
  | .setClassifiers p l => (∀ c ∈ l, m.kind c = .cls ∨ m.kind c = .data) ∧
      (k.type p = true → ∀ c ∈ m.classifiers p, c ∈ l)
  | .setReferences _ l => ∀ r ∈ l, m.kind r = .reference
  | _ => True

/-- A package is not asked for its extended name and for a type. -/
def CarefulQuery (m : Meta) (k : Asked) : Query → Prop
  | .name e => k.type e = false
  | .namespace_ f => m.kind f = .reference ∨ m.kind f = .attribute
  | .type p _ => m.kind p = .package ∧ k.name p = false
  | .documentRoot p => m.kind p = .package ∧ k.name p = false
  | .xmlnsPrefixMap c => m.kind c = .cls
  | .xsiSchemaLocationMap c => m.kind c = .cls

def Careful (m : Meta) (k : Asked) : List Call → Prop
  | [] => True
  | .edit e :: cs => CarefulEdit m k e ∧ Careful (change m e) k cs
  | .query q :: cs => CarefulQuery m k q ∧ Careful m (asked m k q) cs

end Verif.ExtMeta.Spec
