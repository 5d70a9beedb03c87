import Verif.Model.ContentAdapter

/-!
# What a content adapter should be attached to
-/

namespace Verif.ContentAdapter

/-- the containment tree of a notifier -/
inductive Below (W : World) (t : Nat) : Nat → Prop where
  | refl : Below W t t
  | step (p x : Nat) : Below W t p → x ∈ W.contents p → Below W t x

/-- containers, resources and contents agree, and nothing contains itself -/
structure Sound (W : World) : Prop where
  object : ∀ p x : Nat, W.kind p = .object → (x ∈ W.contents p ↔ W.kind x = .object ∧ W.container x = some p)
  resource : ∀ p x : Nat, W.kind p = .resource → (x ∈ W.contents p ↔ W.kind x = .object ∧ W.resource x = some p)
  set : ∀ p x : Nat, W.kind p = .set → x ∈ W.contents p → W.kind x = .resource ∧ ∀ q : Nat, W.kind q = .set → x ∈ W.contents q → q = p
  containers : ∀ p x : Nat, W.container x = some p → W.kind p = .object
  resources : ∀ p x : Nat, W.resource x = some p → W.kind p = .resource

/-- heights: contents are strictly lower -/
structure Height (W : World) (bound : Nat) (height : Nat → Nat) : Prop where
  le : ∀ n : Nat, height n ≤ bound
  lt : ∀ p x : Nat, x ∈ W.contents p → height x < height p

/-- what a notification says to be removed -/
def Event.lost : Event → List (Nat × Nat)
  | .remove p x => [(p, x)]
  | .removeMany p xs => xs.map fun x => (p, x)
  | .set p old _ | .unset p old _ => old.toList.map fun x => (p, x)
  | _ => []

/-- what a notification says to be added -/
def Event.gained : Event → List (Nat × Nat)
  | .add p x => [(p, x)]
  | .addMany p xs => xs.map fun x => (p, x)
  | .set p _ new | .unset p _ new => new.toList.map fun x => (p, x)
  | _ => []

/-- The notifications of an operation that changes `W` into `W'`: first those of removals from other notifiers, then the one of
the notifier that is changed. They report what is removed and what is added; `SET` and `UNSET` come from objects. No notifier
is below an object that is removed. -/
structure Reports (W W' : World) (es : List Event) (e : Event) : Prop where
  kind : W'.kind = W.kind
  before : ∀ r ∈ es, r.gained = []
  lost : ∀ p x : Nat, (x ∈ W.contents p ∧ x ∉ W'.contents p) ↔ ∃ r ∈ es ++ [e], (p, x) ∈ r.lost
  gained : ∀ p x : Nat, (x ∉ W.contents p ∧ x ∈ W'.contents p) ↔ (p, x) ∈ e.gained
  setters : ∀ r ∈ es ++ [e], (∃ p o n, r = .set p o n ∨ r = .unset p o n) → W.kind r.notifier = .object
  apart : ∀ r ∈ es ++ [e], ∀ r' ∈ es ++ [e], ∀ p x : Nat, (p, x) ∈ r'.lost → ¬ Below W' x r.notifier

end Verif.ContentAdapter
