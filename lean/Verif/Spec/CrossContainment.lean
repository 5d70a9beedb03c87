import Verif.Model.CrossContainment
/-!
Specification for C95: what objects contain, across resources.
-/
namespace Verif.Spec.CrossContainment
open Verif.CrossContainment (Ref St)

/-- The object an entry stands for: a proxy stands for the object it resolves to, others for themselves. -/
def standsFor (tgt : Nat → Option Nat) (v : Nat) : Nat :=
  match tgt v with
  | some t => t
  | none => v

/-- `v` is an entry of the list of `a`, or the value of its single reference. -/
def Holds (s : St) (a : Nat) (r : Ref) (v : Nat) : Prop :=
  match r with
  | .list => v ∈ s.kids a
  | .one => s.one a = some v

/-- No two entries stand for the same object. -/
def Distinct (tgt : Nat → Option Nat) (s : St) : Prop :=
  (∀ a, ((s.kids a).map (standsFor tgt)).Nodup) ∧
  ∀ a r v b q w, Holds s a r v → Holds s b q w → standsFor tgt v = standsFor tgt w → a = b ∧ r = q

/-- What is found is no proxy. -/
def Loaded (tgt : Nat → Option Nat) : Prop := ∀ p t, tgt p = some t → tgt t = none

/-- Following the containers from `v` on, one or more, leads to `a`. -/
inductive Inside (s : St) : Nat → Nat → Prop where
  | one {v a : Nat} {r : Ref} (h : s.cont v = some (a, r)) : Inside s v a
  | up {v b a : Nat} {r : Ref} (h : s.cont v = some (b, r)) (i : Inside s b a) : Inside s v a

end Verif.Spec.CrossContainment
