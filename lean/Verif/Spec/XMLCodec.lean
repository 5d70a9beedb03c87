import Verif.Model.XMLCodec
import Verif.Spec.XMLLex

/-!
# What it means that a resource is saved and loaded

`Savable`: the resources for which it is claimed.  `SameDocument`: what has been read is the same as what was written.
-/

namespace Verif.XMLCodec.Spec

open Verif.XMLString (Text)
open Verif.XMLLex (LegalName Literal inRange)
open Verif.XMLCodec

variable {D : Type}

/-- the objects of a value -/
def objects : Option (Val D) → List Nat
  | some (.obj (some o)) => [o]
  | some (.objs l) => l.filterMap id
  | _ => []

/-- the values of a list of data -/
def values : Option (Val D) → List D
  | some (.data (some v)) => [v]
  | some (.datas l) => l.filterMap id
  | _ => []

/-- The feature is saved: it is not transient, its data type is serializable, it is not the reference to the container. -/
def Saved (f : Feature) : Prop :=
  f.transient = false ∧ (f.isReference = true → f.containment = true ∨ f.container = false) ∧ (f.isReference = false → f.serializable = true)

/-- An object that is written where it is contained: it is neither a proxy nor the root of another resource. -/
def Inside (g : Graph D) (o : Nat) : Prop := g.proxy o = none ∧ g.direct o = none

instance (g : Graph D) (o : Nat) : Decidable (Inside g o) := by unfold Inside; infer_instance

/-- An object of another document: a proxy, or an object of another resource. -/
def Foreign (g : Graph D) (o : Nat) : Prop := g.proxy o ≠ none ∨ (g.res o ≠ none ∧ g.res o ≠ some 0)

instance (g : Graph D) (o : Nat) : Decidable (Foreign g o) := by unfold Foreign; infer_instance

/-- the objects contained by an object, in the order of the features -/
def children (env : Env D) (g : Graph D) (o : Nat) : List Nat :=
  (env.features (g.cls o)).zipIdx.flatMap fun p =>
    if p.1.isReference = true ∧ p.1.containment = true ∧ p.1.transient = false then (objects (g.slot o p.2)).filter (fun x => decide (Inside g x))
    else []

/-- `InOrder os l`: `l` are the objects `os` with all their contents, in the order of the document. -/
inductive InOrder (env : Env D) (g : Graph D) : List Nat → List Nat → Prop
  | nil : InOrder env g [] []
  | cons (o : Nat) (os l l' : List Nat) : InOrder env g (children env g o) l → InOrder env g os l' → InOrder env g (o :: os) (o :: (l ++ l'))

/-- the ID given to an object by its ID attribute -/
def HasID (env : Env D) (g : Graph D) (o : Nat) (t : Text) : Prop :=
  ∃ p ∈ (env.features (g.cls o)).zipIdx, p.1.isReference = false ∧ p.1.isID = true ∧
    ∃ v, g.slot o p.2 = some (.data (some v)) ∧ t = env.toText p.1.type v

/-- a text that can be an ID: it looks neither like a path nor like a query, has no spaces and no markup -/
def ProperID (t : Text) : Prop := t ≠ [] ∧ Literal t ∧ ' ' ∉ t ∧ t.head? ≠ some '/' ∧ t.getLast? ≠ some '?'

/-- an identifier: letters, digits, `_` and `-` -/
def Identifier (t : Text) : Prop := LegalName t ∧ ':' ∉ t ∧ '.' ∉ t

/-- text that can be written as content, which is not escaped -/
def Content (t : Text) : Prop := (∀ c ∈ t, c ≠ '&' ∧ c ≠ '<' ∧ c ≠ '\r' ∧ inRange c = true) ∧ XMLLex.hasEnd t = false

/-- the value fits the feature and has no nil -/
def Fits (f : Feature) : Val D → Prop
  | .obj o => f.isReference = true ∧ f.many = false ∧ o ≠ none
  | .objs l => f.isReference = true ∧ f.many = true ∧ none ∉ l ∧ l.Nodup
  | .data v => f.isReference = false ∧ f.many = false ∧ v ≠ none
  | .datas l => f.isReference = false ∧ f.many = true ∧ none ∉ l

/-- the URIs of an object: of a proxy, of an object of another resource, of an object of the document (any fragment) -/
def HasURI (g : Graph D) (x : Nat) (u : Text) : Prop :=
  g.proxy x = some u ∨ (g.proxy x = none ∧ ∃ r t, g.res x = some r ∧ (r ≠ 0 → t = g.fragment x) ∧ Literal t ∧ u = g.uri r ++ '#' :: t)

/-- The class can be found by the reader. -/
structure Known (env : Env D) (idAttribute : Text) (c : Nat) : Prop where
  concrete : env.isAbstract c = false
  name : LegalName (env.name c) ∧ ':' ∉ env.name c
  uri : Literal (env.ns.nsURI (env.pkg c)).toList ∧ env.ns.nsURI (env.pkg c) ≠ XMLPrefix.xsiURI
  pre : LegalName (env.ns.nsPrefix (env.pkg c)).toList ∧ ':' ∉ (env.ns.nsPrefix (env.pkg c)).toList
  reserved : env.ns.nsPrefix (env.pkg c) ∉ ["xsi", "xmi", "xmlns", "xml", "href"] ∧ (env.ns.nsPrefix (env.pkg c)).toList ≠ idAttribute
  factory : env.factory (env.ns.nsURI (env.pkg c)).toList = some (env.pkg c)
  classifier : env.classifier (env.pkg c) (env.name c) = some c

/-- the classes whose names are written: those of the objects and those of the objects they refer to -/
def Named (env : Env D) (g : Graph D) (doc : List Nat) (c : Nat) : Prop :=
  ∃ o ∈ doc, c = g.cls o ∨ ∃ p ∈ (env.features (g.cls o)).zipIdx, Saved p.1 ∧ ∃ x ∈ objects (g.slot o p.2), c = g.cls x

/-- The resources for which it is claimed that they are read back. `doc` are the objects in the order of the document. -/
structure Savable (env : Env D) (g : Graph D) (opt : Opt) (root : Nat) (doc : List Nat) : Prop where
  /-- the contents are a tree with one root -/
  roots : g.roots = [root]
  order : InOrder env g [root] doc
  nodup : doc.Nodup
  top : g.container root = none ∧ g.direct root = some 0
  proxy : ∀ o ∈ doc, g.proxy o = none
  res : ∀ o ∈ doc, g.res o = some 0
  direct : ∀ o ∈ doc, o ≠ root → g.direct o = none
  container : ∀ o ∈ doc, ∀ p ∈ (env.features (g.cls o)).zipIdx, p.1.isReference = true → p.1.containment = true → p.1.transient = false →
    ∀ x ∈ objects (g.slot o p.2), Inside g x → g.container x = some (o, p.2)
  /-- values fit their features; what is referenced is in the document or in another one -/
  fits : ∀ o ∈ doc, ∀ p ∈ (env.features (g.cls o)).zipIdx, Saved p.1 → ∀ v, g.slot o p.2 = some v → Fits p.1 v ∧ (objects (some v)).length < 2 ^ 63
  contained : ∀ o ∈ doc, ∀ p ∈ (env.features (g.cls o)).zipIdx, p.1.containment = true → Saved p.1 →
    ∀ x ∈ objects (g.slot o p.2), Inside g x ∨ Foreign g x
  referenced : ∀ o ∈ doc, ∀ p ∈ (env.features (g.cls o)).zipIdx, p.1.containment = false → Saved p.1 →
    ∀ x ∈ objects (g.slot o p.2), x ∈ doc ∨ Foreign g x
  nonempty : ∀ o ∈ doc, ∀ p ∈ (env.features (g.cls o)).zipIdx, p.1.isReference = true → p.1.unsettable = true → Saved p.1 →
    g.slot o p.2 ≠ some (.objs [])
  /-- without deferred resolution, references to objects that come later are not followed by others -/
  backward : opt.deferred = false → ∀ o ∈ doc, ∀ p ∈ (env.features (g.cls o)).zipIdx, p.1.containment = false → Saved p.1 →
    (∀ x ∈ objects (g.slot o p.2), ¬ Foreign g x) →
    (objects (g.slot o p.2)).Pairwise fun a b =>
      (doc.idxOf b < doc.idxOf o ∨ (g.manager = true ∧ b = o)) → (doc.idxOf a < doc.idxOf o ∨ (g.manager = true ∧ a = o))
  /-- names -/
  features : ∀ o ∈ doc, ((env.features (g.cls o)).map Feature.name).Nodup ∧
    ∀ f ∈ env.features (g.cls o), Identifier f.name ∧ f.name ≠ "href".toList ∧ f.name ≠ XMLLex.xmlns ∧ f.name ≠ opt.idAttribute
  types : ∀ o ∈ doc, ∀ p ∈ (env.features (g.cls o)).zipIdx, Saved p.1 → ∀ x ∈ objects (g.slot o p.2), p.1.type = env.eObject → g.cls x = env.eObject
  known : ∀ c, Named env g doc c → Known env opt.idAttribute c
  prefixes : ∀ c d, Named env g doc c → Named env g doc d → env.ns.nsPrefix (env.pkg c) = env.ns.nsPrefix (env.pkg d) → env.pkg c = env.pkg d
  /-- data -/
  single : ∀ o ∈ doc, ∀ p ∈ (env.features (g.cls o)).zipIdx, Saved p.1 → ∀ v ∈ values (g.slot o p.2),
    env.fromText p.1.type (env.toText p.1.type v) = v ∧ (p.1.many = false → ∀ c ∈ env.toText p.1.type v, inRange c = true) ∧
      (p.1.many = true → Content (env.toText p.1.type v))
  /-- URIs -/
  uris : ∀ o ∈ doc, ∀ p ∈ (env.features (g.cls o)).zipIdx, Saved p.1 → ∀ x ∈ objects (g.slot o p.2), ∀ u, HasURI g x u →
    Literal (env.relativize u) ∧ env.relativize u ≠ [] ∧ env.resolve (env.relativize u) = some u
  fragments : ∀ o ∈ doc, ∀ p ∈ (env.features (g.cls o)).zipIdx, Saved p.1 → ∀ x ∈ objects (g.slot o p.2), Literal (g.fragment x)
  /-- identifiers: given by the manager, or by an ID attribute -/
  idAttribute : opt.idAttribute ∉ ["xsi".toList, "xmi".toList, "xmlns".toList, "version".toList, "type".toList, "href".toList]
  managed : g.manager = true → Identifier opt.idAttribute ∧ (∀ o ∈ doc, ∀ f ∈ env.features (g.cls o), f.isID = false) ∧
    (∀ o ∈ doc, ∃ id, g.id o = some id ∧ ProperID id) ∧ ∀ o ∈ doc, ∀ o' ∈ doc, g.id o = g.id o' → o = o'
  unmanaged : g.manager = false →
    (∀ o ∈ doc, ∀ p ∈ (env.features (g.cls o)).zipIdx, ∀ q ∈ (env.features (g.cls o)).zipIdx, p.1.isID = true → p.1.isReference = false →
      q.1.isID = true → q.1.isReference = false → p = q) ∧
    (∀ o ∈ doc, ∀ f ∈ env.features (g.cls o), f.isID = true → f.isReference = false → Saved f ∧ f.many = false) ∧
    (∀ o ∈ doc, ∀ t, HasID env g o t → t ≠ [] → ProperID t) ∧
    (∀ o ∈ doc, ∀ o' ∈ doc, ∀ t, HasID env g o t → HasID env g o' t → t ≠ [] → o = o')

/-- `j` is a proxy of `x`: its URI is that of `x`, with a fragment that leads to the copy of `x` if `x` is in the document -/
def IsProxyOf (env : Env D) (g : Graph D) (s : Dec D) (copy : Nat → Nat) (x j : Nat) : Prop :=
  ∃ c u, s.objs[j]? = some c ∧ c.proxy = some u ∧ HasURI g x u ∧
    (g.proxy x = none → g.res x = some 0 → ∃ t, u = g.uri 0 ++ '#' :: t ∧ getEObject env g.manager s t = .obj (copy x))

/-- the elements of a reference -/
def referred : Option (Val D) → List (Option Nat)
  | some (.obj o) => [o]
  | some (.objs l) => l
  | _ => []

/-- the elements of a list of data -/
def listed : Option (Val D) → List (Option D)
  | some (.datas l) => l
  | _ => []

/-- The same value: the same data; the copies of the objects in the same order, or proxies of them when one of them is in
another document.  An empty list is the same as a list that is not set. -/
def SameValue (env : Env D) (g : Graph D) (s : Dec D) (copy : Nat → Nat) (f : Feature) (v w : Option (Val D)) : Prop :=
  if f.isReference then
    List.Forall₂ (fun x (j : Option Nat) => ∃ k, j = some k ∧
      if f.containment then (Inside g x ∧ k = copy x) ∨ (¬ Inside g x ∧ IsProxyOf env g s copy x k)
      else ((∀ y ∈ objects v, ¬ Foreign g y) ∧ k = copy x) ∨ ((∃ y ∈ objects v, Foreign g y) ∧ IsProxyOf env g s copy x k))
      (objects v) (referred w)
  else if f.many then (values v).map some = listed w
  else w = v

/-- What has been read is the document: `copy` gives the object that is read for each object. -/
structure SameDocument (env : Env D) (g : Graph D) (root : Nat) (doc : List Nat) (s : Dec D) (copy : Nat → Nat) : Prop where
  errors : s.errors = 0
  roots : s.roots = [copy root]
  distinct : ∀ o ∈ doc, ∀ o' ∈ doc, copy o = copy o' → o = o'
  objects : ∀ o ∈ doc, ∃ c, s.objs[copy o]? = some c ∧ c.cls = g.cls o ∧ c.proxy = none ∧
    c.container = (g.container o).map (fun p => (copy p.1, p.2)) ∧
    ∀ p ∈ (env.features (g.cls o)).zipIdx, Saved p.1 → SameValue env g s copy p.1 (g.slot o p.2) (c.slot p.2)
  ids : g.manager = true → ∀ o ∈ doc, ∀ id, g.id o = some id → s.ids.lookup id = some (copy o)

/-- The resource is saved and loaded: the encoder reports no error, and what the decoder reads is the same document. `n` bounds
the depth of the calls. -/
def RoundTrip (env : Env D) (g : Graph D) (opt : Opt) (root : Nat) (doc : List Nat) (n : Nat) : Prop :=
  ∃ (t : Text) (s : Dec D) (copy : Nat → Nat), encode env g opt n = some (t, 0) ∧ decode env g.manager opt t = some s ∧
    SameDocument env g root doc s copy

end Verif.XMLCodec.Spec
