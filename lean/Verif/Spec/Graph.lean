import Verif.Model.Graph
import Verif.Spec.Seq

/-!
# Consistent object graphs
-/

namespace Verif.Graph

/-- Metamodels considered: opposites are mutual and not the reference itself; the opposite of a containment
reference is single valued and not a containment; a feature has the same position in every class as in the class that
declares it (single inheritance). -/
structure WellFormed (M : Meta) : Prop where
  opp : ∀ r r', (M.refs r).opposite = some r' → (M.refs r').opposite = some r ∧ r' ≠ r
  cont : ∀ r r', (M.refs r).containment = true → (M.refs r).opposite = some r' → (M.refs r').containment = false ∧ (M.refs r').many = false
  ids : ∀ c r, r ∈ M.features c → (M.features c)[(M.refs r).declId]? = some r

/-- the objects added by a call on a list -/
def LOp.added : LOp → List Nat
  | .add e => [e]
  | .addAll c => c
  | .insert _ e => [e]
  | .insertAll _ c => c
  | .set _ e => [e]
  | _ => []

/-- the call, for the specification of lists -/
def LOp.toOp : LOp → EList.Op Nat
  | .add e => .add e
  | .addAll c => .addAll c
  | .insert i e => .insert i e
  | .insertAll i c => .insertAll i c
  | .set i e => .set i e
  | .removeAt i => .removeAt i
  | .remove e => .remove e
  | .removeRange i j => .removeRange i j
  | .removeAll c => .removeAll c
  | .clear => .clear
  | .move i j => .move [] i j

/-- The contents of a list without duplicates after a call, `none` if the call is refused; the one of C02. -/
def LOp.after (l : List Nat) (op : LOp) : Option (List Nat) :=
  match Spec.Seq.step true l op.toOp with
  | (_, .panic) => none
  | (l', _) => some l'

/-- `v` is of the type of `f`: it has the opposite reference, if any -/
def Fits (M : Meta) (cls : Nat → Nat) (f v : Nat) : Prop := ∀ f', (M.refs f).opposite = some f' → f' ∈ M.features (cls v)

/-- Well typed calls; `ESet` and `EUnset` of single valued features, list calls on many valued ones. -/
def Typed (M : Meta) (cls : Nat → Nat) : Op → Prop
  | .set o f v => f ∈ M.features (cls o) ∧ (M.refs f).many = false ∧ ∀ x, v = some x → Fits M cls f x
  | .unset o f => f ∈ M.features (cls o) ∧ (M.refs f).many = false
  | .list o f op => f ∈ M.features (cls o) ∧ (M.refs f).many = true ∧ M.isContainer f = false ∧ ∀ e ∈ op.added, Fits M cls f e

/-- Containment: the value of a containment reference of `a` are the objects whose container is `a` and whose
containing feature is this reference; and every container has such a reference. -/
def Contained (M : Meta) (cls : Nat → Nat) (w : World) : Prop :=
  (∀ a r o, r ∈ M.features (cls a) → (M.refs r).containment = true →
    (o ∈ eGet M w a r ↔ eContainer w o = some a ∧ eContainingFeature M w o = some r)) ∧
  ∀ o a, eContainer w o = some a → ∃ r ∈ M.features (cls a), (M.refs r).containment = true ∧ o ∈ eGet M w a r

/-- Opposites are symmetric. -/
def Symmetric (M : Meta) (cls : Nat → Nat) (w : World) : Prop :=
  ∀ a r b r', r ∈ M.features (cls a) → r' ∈ M.features (cls b) → (M.refs r).opposite = some r' → (b ∈ eGet M w a r ↔ a ∈ eGet M w b r')

end Verif.Graph
