import Verif.Spec.Binary

/-!
# What a document depends on

The specification of C102.  `T` tells which objects are saved: those of the resource, or those of the object that is written.
-/

namespace Verif.Binary.Spec

variable {D : Type}

/-- References leave the objects of `T` only where a proxy can be read: an object that is contained is one of `T`, or is at the top of another resource; an object that is
referred to is one of `T`, or is a proxy or in a resource, but not in the document. -/
structure Within (env : Env D) (g : Graph D) (opt : Opt) (T : Nat → Prop) : Prop where
  contained : ∀ (x i : Nat) (f : Feature) (v : Val Nat D) (o : Nat), T x → (env.features (g.cls x))[i]? = some f → isKept opt f →
    f.containment = true → g.slot x i = some v → Holds v o → T o ∨ f.resolveProxies = true ∧ (g.proxy o ≠ none ∨ g.direct o ≠ none)
  referred : ∀ (x i : Nat) (f : Feature) (v : Val Nat D) (o : Nat), T x → (env.features (g.cls x))[i]? = some f → isKept opt f →
    f.containment = false → (f.container = true → f.resolveProxies = true) → g.slot x i = some v → Holds v o →
      T o ∨ f.resolveProxies = true ∧ (g.proxy o ≠ none ∨ ∃ r : Nat, g.res o = some r ∧ (r ≠ opt.resource ∨ opt.root ≠ none ∧ opt.inRoot o = false))

/-- The two graphs have the same object `o`, seen from outside: its class and its URI. -/
structure SameOutside (g g' : Graph D) (o : Nat) : Prop where
  cls : g'.cls o = g.cls o
  proxy : g'.proxy o = g.proxy o
  res : g'.res o = g.res o
  direct : g'.direct o = g.direct o
  fragment : g'.fragment o = g.fragment o
  uri : ∀ r : Nat, g.res o = some r ∨ g.direct o = some r → g'.resURI r = g.resURI r

/-- The two graphs have the same objects of `T`, and the same classes and URIs of the objects that these hold or refer to; anything else may differ. -/
structure SameWithin (T : Nat → Prop) (g g' : Graph D) : Prop where
  inside : ∀ x : Nat, T x → SameOutside g g' x ∧ g'.id x = g.id x ∧ ∀ i : Nat, g'.slot x i = g.slot x i
  outside : ∀ (x i : Nat) (v : Val Nat D) (o : Nat), T x → g.slot x i = some v → Holds v o → SameOutside g g' o

/-- `o` is contained in one of the objects at the top, at any depth, by features that are saved. -/
inductive Contained (env : Env D) (g : Graph D) (opt : Opt) (contents : List (Option Nat)) : Nat → Prop where
  | top (o : Nat) : some o ∈ contents → Contained env g opt contents o
  | child (x i : Nat) (f : Feature) (v : Val Nat D) (o : Nat) : Contained env g opt contents x → (env.features (g.cls x))[i]? = some f →
      f.containment = true → f.container = false → isKept opt f → g.slot x i = some v → Holds v o → Contained env g opt contents o

end Verif.Binary.Spec
