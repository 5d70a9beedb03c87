import Verif.Model.Ancestors
import Verif.Spec.Graph
/-!
# What removing and looking upwards mean
-/

namespace Verif.Ancestors.Spec
open Verif.Graph

/-- `o` is `a`, or is somewhere inside of it. -/
inductive Inside (w : World) (a : Nat) : Nat → Prop where
  | self : Inside w a a
  | up (o c : Nat) : eContainer w o = some c → Inside w a c → Inside w a o

/-- The containers of `o` come to an end. -/
inductive Grounded (w : World) : Nat → Prop where
  | root (o : Nat) : eContainer w o = none → Grounded w o
  | up (o c : Nat) : eContainer w o = some c → Grounded w c → Grounded w o

/-- The contents of the resources are the objects that know them. -/
def Rooted (s : State) : Prop :=
  ∀ r o : Nat, (s.contents r).Nodup ∧ (o ∈ s.contents r ↔ s.resource o = some r)

/-- `s'` is `s` without `o`: it has no container and no resource, is a value of no containment reference and of the
contents of no resource; nothing else has changed: the values of the features, the contents of resources are the same
but for `o`, in the same order, and the other objects are where they were. -/
structure Without (M : Meta) (cls : Nat → Nat) (s s' : State) (o : Nat) : Prop where
  container : eContainer s'.graph o = none
  resource : s'.resource o = none
  nowhere : ∀ a r : Nat, r ∈ M.features (cls a) → (M.refs r).containment = true → o ∉ eGet M s'.graph a r
  noRoot : ∀ r : Nat, o ∉ s'.contents r
  values : ∀ a r : Nat, r ∈ M.features (cls a) → (M.refs r).containment = true →
    eGet M s'.graph a r = (eGet M s.graph a r).filter (· ≠ o)
  others : ∀ a r : Nat, r ∈ M.features (cls a) → (M.refs r).containment = false →
    eGet M s'.graph a r = eGet M s.graph a r
  containers : ∀ p : Nat, p ≠ o → eContainer s'.graph p = eContainer s.graph p ∧
    eContainingFeature M s'.graph p = eContainingFeature M s.graph p
  roots : ∀ r : Nat, s'.contents r = (s.contents r).filter (· ≠ o)
  resources : ∀ p : Nat, p ≠ o → s'.resource p = s.resource p

end Verif.Ancestors.Spec
