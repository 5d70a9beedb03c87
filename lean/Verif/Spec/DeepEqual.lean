import Mathlib.Data.List.Forall2
import Verif.Model.DeepEqual

/-!
# What structural equality means
-/

namespace Verif.DeepEqual

/-- Two objects have the same value for a feature, objects being compared by `R`. -/
structure SameFeature (M : Meta) (H : Heap) (R : Nat → Nat → Prop) (a b f : Nat) : Prop where
  set : H.isSet a f = H.isSet b f
  attr : M.kind f = .attr → H.isSet a f = true → H.attr a f = H.attr b f
  attrs : M.kind f = .attrs → H.isSet a f = true → H.attrs a f = H.attrs b f
  ref : M.kind f = .ref → H.isSet a f = true → R (H.ref a f) (H.ref b f)
  refs : M.kind f = .refs → H.isSet a f = true → List.Forall₂ R (H.refs a f) (H.refs b f)

/-- Two objects have the same content: they are the same, proxies of the same URI, or two objects of the same class with the
same values for the features `fs` of the class that are not derived. -/
def SameContent (M : Meta) (H : Heap) (fs : Nat → List Nat) (R : Nat → Nat → Prop) (a b : Nat) : Prop :=
  a = b ∨ ((H.uri a).isSome = true ∧ H.uri a = H.uri b) ∨
  (H.uri a = none ∧ H.uri b = none ∧ H.cls a = H.cls b ∧ ∀ f ∈ fs (H.cls a), M.derived f = false → SameFeature M H R a b f)

/-- `R` pairs objects, each with one object at most, whose contents are the same up to `R`. -/
structure Pairing (M : Meta) (H : Heap) (fs : Nat → List Nat) (R : Nat → Nat → Prop) : Prop where
  symm : ∀ a b : Nat, R a b → R b a
  unique : ∀ a b c : Nat, R a b → R a c → b = c
  same : ∀ a b : Nat, R a b → SameContent M H fs R a b

/-- objects that are reached from an object through the references that are compared -/
inductive Reach (M : Meta) (H : Heap) (o : Nat) : Nat → Prop where
  | refl : Reach M H o o
  | ref (a f : Nat) : Reach M H o a → f ∈ M.features (H.cls a) → M.derived f = false → M.kind f = .ref → H.isSet a f = true → Reach M H o (H.ref a f)
  | refs (a f x : Nat) : Reach M H o a → f ∈ M.features (H.cls a) → M.derived f = false → M.kind f = .refs → H.isSet a f = true → x ∈ H.refs a f → Reach M H o x

/-- a finite set of objects, closed by references -/
structure Closed (H : Heap) (os : List Nat) : Prop where
  ref : ∀ a ∈ os, ∀ f : Nat, H.ref a f ∈ os
  refs : ∀ a ∈ os, ∀ f : Nat, ∀ x ∈ H.refs a f, x ∈ os

end Verif.DeepEqual
