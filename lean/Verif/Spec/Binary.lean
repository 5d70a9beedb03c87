import Verif.Model.Binary
import Mathlib.Data.List.Forall2

/-!
# What is read of what was written

The specification of C22.  `objs` lists the objects that were written: the object read at position `i` is the copy of the
object at position `i` of `objs`.
-/

namespace Verif.Binary.Spec

variable {D : Type}

/-- a reference and the reference that is read for it -/
def SameRef (objs : List Nat) : Option Nat → Option Nat → Prop
  | none, none => True
  | some o, some i => objs[i]? = some o
  | _, _ => False

/-- a value and the value that is read for it -/
def SameVal (objs : List Nat) : Val Nat D → Val Nat D → Prop
  | .obj o, .obj o' => SameRef objs o o'
  | .objs l, .objs l' => List.Forall₂ (SameRef objs) l l'
  | .data v, .data v' => v = v'
  | .datas l, .datas l' => l = l'
  | _, _ => False

/-- a feature that is set or not, and what is read for it -/
def SameSlot (objs : List Nat) : Option (Val Nat D) → Option (Val Nat D) → Prop
  | none, none => True
  | some v, some v' => SameVal objs v v'
  | _, _ => False

/-- a reference to the container -/
def isParent (f : Feature) : Prop := f.isReference = true ∧ f.containment = false ∧ f.container = true

/-- a feature that has to be written: it is not transient, or it is one of the two maps of namespaces -/
def isKept (opt : Opt) (f : Feature) : Prop :=
  f.transient = false ∨ (opt.namespaces = true ∧ (f.xmlName = "xmlns:prefix" ∨ f.xmlName = "xsi:schemaLocation"))

/-- The copy has the class, the ID, and the values of the features of the object; a reference to the container may be left
out, since it is given by the containment. -/
structure FullCopy (env : Env D) (g : Graph D) (opt : Opt) (objs : List Nat) (o : Nat) (c : Copy D) : Prop where
  cls : c.cls = g.cls o
  proxy : g.proxy o = none ∧ c.proxy = none
  id : c.id = if opt.ids = true then g.id o else none
  kept : ∀ (i : Nat) (f : Feature), (env.features (g.cls o))[i]? = some f → ¬ isParent f → isKept opt f →
    SameSlot objs (g.slot o i) (c.slot i)
  parent : ∀ (i : Nat) (f : Feature), (env.features (g.cls o))[i]? = some f → isParent f →
    SameSlot objs (g.slot o i) (c.slot i) ∨ c.slot i = none
  dropped : ∀ (i : Nat) (f : Feature), (env.features (g.cls o))[i]? = some f → ¬ isKept opt f → c.slot i = none
  nothing : ∀ i : Nat, (env.features (g.cls o))[i]? = none → c.slot i = none

/-- the URI of an object: of the proxy, or by its resource -/
def uriOf (g : Graph D) (o : Nat) (u : URI) : Prop :=
  g.proxy o = some u ∨
    g.proxy o = none ∧ ∃ (r : Nat) (p : String), (g.res o = some r ∨ g.direct o = some r) ∧ g.resURI r = some p ∧ u = ⟨p, g.fragment o⟩

/-- The copy is a proxy for the object, of the same class. -/
structure ProxyCopy (g : Graph D) (o : Nat) (c : Copy D) : Prop where
  cls : c.cls = g.cls o
  proxy : ∃ u : URI, uriOf g o u ∧ c.proxy = some u
  slot : ∀ i : Nat, c.slot i = none

/-- the object is a value of the feature -/
def Holds (v : Val Nat D) (o : Nat) : Prop :=
  match v with
  | .obj x => x = some o
  | .objs l => some o ∈ l
  | _ => False

/-- Objects that may be written as proxies: proxies, objects of other resources or outside the root, and objects contained by
others that are in the contents of a resource. -/
def Foreign (env : Env D) (g : Graph D) (opt : Opt) (o : Nat) : Prop :=
  g.proxy o ≠ none ∨
    (∃ r : Nat, g.res o = some r ∧ (r ≠ opt.resource ∨ opt.root ≠ none ∧ opt.inRoot o = false)) ∨
    (g.direct o ≠ none ∧ ∃ (x i : Nat) (f : Feature) (v : Val Nat D), (env.features (g.cls x))[i]? = some f ∧
      f.containment = true ∧ f.resolveProxies = true ∧ g.slot x i = some v ∧ Holds v o)

/-- The objects that are read are copies of the objects written, and the roots are those written. -/
structure Isomorphic (env : Env D) (g : Graph D) (opt : Opt) (objs : List Nat) (copies : List (Copy D)) : Prop where
  once : objs.Nodup
  size : copies.length = objs.length
  copy : ∀ (i o : Nat), objs[i]? = some o → ∃ c : Copy D, copies[i]? = some c ∧
    (FullCopy env g opt objs o c ∨ Foreign env g opt o ∧ ProxyCopy g o c)

/-- a URI that is read as it was written -/
def Readable (env : Env D) (path : String) : Prop :=
  (if env.relativize path = "" then env.baseURI else env.resolve (env.relativize path)) = path

/-- a value has the type of its feature, and its data survive conversion -/
def Fits (env : Env D) (g : Graph D) (objects : List Nat) (f : Feature) : Val Nat D → Prop
  | .obj o => f.isReference = true ∧ (f.many = false ∨ f.containment = false ∧ f.container = true) ∧
      ∃ x : Nat, o = some x ∧ x ∈ objects ∧ (f.resolveProxies = false → g.proxy x = none)
  | .objs l => f.isReference = true ∧ f.many = true ∧ (f.containment = true ∨ f.container = false) ∧
      ∀ x : Nat, some x ∈ l → x ∈ objects ∧ (f.resolveProxies = false → g.proxy x = none)
  | .data v => f.isReference = false ∧ f.many = false ∧
      match kindOf f with
      | .basic t => env.wire t v = some v
      | _ => env.fromText f.dataType (env.toText f.dataType v) = v
  | .datas l => f.isReference = false ∧ f.many = true ∧ ∀ v ∈ l, env.fromText f.dataType (env.toText f.dataType v) = v

/-- The objects, which are closed under the references, and their metamodel. -/
structure Valid (env : Env D) (g : Graph D) (objects : List Nat) : Prop where
  registered : ∀ o ∈ objects, env.registry (env.nsURI (env.pkg (g.cls o))) = some (env.pkg (g.cls o))
  member : ∀ o ∈ objects, g.cls o ∈ env.classifiers (env.pkg (g.cls o))
  found : ∀ o ∈ objects, env.findClass (env.pkg (g.cls o)) (env.name (g.cls o)) = some (g.cls o)
  feature : ∀ o ∈ objects, ∀ f ∈ env.features (g.cls o), f.name ≠ "" ∧ env.findFeature (g.cls o) f.name = some f ∧
    (f.container = true → f.containment = false ∧ (f.resolveProxies = true ∨ ¬ (f.xmlName = "xmlns:prefix" ∨ f.xmlName = "xsi:schemaLocation")))
  pkgURI : ∀ o ∈ objects, ∀ u : URI, env.pkgURI (env.pkg (g.cls o)) = some u → Readable env u.path
  proxyURI : ∀ o ∈ objects, ∀ u : URI, g.proxy o = some u → Readable env u.path
  resURI : ∀ o ∈ objects, ∀ r : Nat, g.res o = some r ∨ g.direct o = some r →
    ∃ p : String, g.resURI r = some p ∧ Readable env p
  slots : ∀ o ∈ objects, ∀ (i : Nat) (f : Feature), (env.features (g.cls o))[i]? = some f →
    ∀ v : Val Nat D, g.slot o i = some v → Fits env g objects f v

end Verif.Binary.Spec
