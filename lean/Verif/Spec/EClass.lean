/-
Specification for C34-C36 and C48: class hierarchies.
-/
namespace Verif.Spec.Hier

/-- `Reaches supers b a`: `a` is `b` or is reached from `b` by following the super types. -/
inductive Reaches (supers : Nat → List Nat) : Nat → Nat → Prop where
  | refl (c : Nat) : Reaches supers c c
  | up {b s a : Nat} (h : s ∈ supers b) (r : Reaches supers s a) : Reaches supers b a

/-- `all c` lists what the super types of `c` have, in order, and then what `c` itself has. In a hierarchy without cycles there is exactly
one such function. -/
def Inherits (supers own : Nat → List Nat) (all : Nat → List Nat) : Prop := ∀ c, all c = (supers c).flatMap all ++ own c

/-- No class is its own proper super type; the depth is bounded by `n`. -/
def Acyclic (supers : Nat → List Nat) (n : Nat) : Prop :=
  ∃ rank : Nat → Nat, (∀ c s, s ∈ supers c → rank s < rank c) ∧ ∀ c, rank c < n

end Verif.Spec.Hier
