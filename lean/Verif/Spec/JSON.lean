import Verif.Model.JSON
/-
The specification: what it means that two objects look the same, and that a document
can be read.
-/
namespace Verif.JSON.Spec
open Verif.JSON

/-- The feature is to be saved: it is not transient and does not lead to the
container. -/
def Persistent (f : Feature) : Prop :=
  f.transient = false ∧ (f.isRef = true → f.containment = false → f.container = false)

/-- The feature holds objects that are part of the document: contained ones, and those
of references that know no proxies. -/
def Inside (f : Feature) : Prop := f.isRef = true ∧ (f.containment = true ∨ f.resolve = false)

/-- Two objects of two worlds look the same to some depth: they have the same class and
the same ID if IDs are written, and the same features are set, to the same values.
Objects that are part of the document look the same to the next depth, other objects
have the same class and the same reference. -/
def Same (opt : Options) (v w : World) : Nat → Nat → Nat → Prop
  | 0, _, _ => True
  | n + 1, a, b =>
    v.cls a = w.cls b ∧
    (opt.idAttribute ≠ "" → opt.manager = true → v.id a = w.id b) ∧
    ∀ f ∈ (v.cls a).features, Persistent f →
      v.isSet a f = w.isSet b f ∧
      (v.isSet a f = true →
        match v.value a f, w.value b f with
        | .data x, .data y => x = y
        | .datas xs, .datas ys => xs = ys
        | .object none, .object none => True
        | .object (some c), .object (some d) =>
          (Inside f → Same opt v w n c d) ∧
          (¬ Inside f → v.cls c = w.cls d ∧ v.reference c = w.reference d)
        | .objects cs, .objects ds =>
          cs.length = ds.length ∧
          ∀ (i : Nat) (c d : Nat), cs[i]? = some c → ds[i]? = some d →
            (Inside f → Same opt v w n c d) ∧
            (¬ Inside f → v.cls c = w.cls d ∧ v.reference c = w.reference d)
        | _, _ => False)

/-- The value fits the feature. -/
def Fits (f : Feature) : Value → Prop
  | .data _ => f.isRef = false ∧ f.many = false
  | .datas _ => f.isRef = false ∧ f.many = true
  | .object _ => f.isRef = true ∧ f.many = false
  | .objects _ => f.isRef = true ∧ f.many = true

/-- What the encoder needs: values fit their features; the features of a class have
different names, none of which is "eClass" or the name under which IDs are written;
nothing that is set is nil; and what is referred to has a reference. -/
structure Clean (opt : Options) (w : World) : Prop where
  fits : ∀ (o : Nat) (f : Feature), f ∈ (w.cls o).features → Fits f (w.value o f)
  names : ∀ o : Nat, ((w.cls o).features.map (·.name)).Nodup
  reserved : ∀ (o : Nat) (f : Feature), f ∈ (w.cls o).features →
    f.name ≠ "eClass" ∧ f.name ≠ opt.idAttribute
  idName : opt.idAttribute ≠ "eClass"
  noNil : ∀ (o : Nat) (f : Feature), f ∈ (w.cls o).features → w.isSet o f = true →
    w.value o f ≠ .data none ∧ w.value o f ≠ .object none ∧
    ∀ vs : List (Option Nat), w.value o f = .datas vs → none ∉ vs
  homes : ∀ (o : Nat) (f : Feature), f ∈ (w.cls o).features → w.isSet o f = true →
    ¬ Inside f →
    (∀ c : Nat, w.value o f = .object (some c) → w.reference c ≠ none) ∧
    (∀ cs : List Nat, w.value o f = .objects cs → ∀ c ∈ cs, w.reference c ≠ none)

/-- The two worlds have the same metamodel: the label of a class tells which class it
is, values are converted the same way, and different values to different texts. -/
structure SameMeta (v w : World) : Prop where
  classes : ∀ a b : Nat, (v.cls a).nsURI ++ "#//" ++ (v.cls a).name =
    (w.cls b).nsURI ++ "#//" ++ (w.cls b).name → v.cls a = w.cls b
  convert : ∀ (f : Feature) (x y : Nat), v.convert f x = w.convert f y ↔ x = y

/-- A document can be read: no object of it has the same key twice. -/
inductive Readable : Doc → Prop where
  | text (s : String) : Readable (.text s)
  | array (ds : List Doc) : (∀ d ∈ ds, Readable d) → Readable (.array ds)
  | object (fs : List (String × Doc)) : (fs.map Prod.fst).Nodup → (∀ p ∈ fs, Readable p.2) →
      Readable (.object fs)

/-- The next objects of the document. -/
def Child (w : World) (a c : Nat) : Prop :=
  ∃ f ∈ (w.cls a).features, Persistent f ∧ Inside f ∧ w.isSet a f = true ∧
    (w.value a f = .object (some c) ∨ ∃ cs : List Nat, w.value a f = .objects cs ∧ c ∈ cs)

end Verif.JSON.Spec
