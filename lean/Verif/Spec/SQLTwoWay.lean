import Verif.Model.SQLTwoWay

/-!
# What is expected of two-way references that are loaded
-/

namespace Verif.Spec.SQLTwoWay

open Verif.SQLTwoWay (Refs)

/-- What objects have in their references before they are saved: `db r o` is what object `o` has in reference `r`. -/
structure Consistent (e : Refs) (db : Nat → Nat → List Nat) : Prop where
  /-- the opposite of the opposite -/
  opposite : ∀ r, e.opp (e.opp r) = r
  /-- two-way -/
  symmetric : ∀ r o v, v ∈ db r o ↔ o ∈ db (e.opp r) v
  /-- no duplicates -/
  nodup : ∀ r o, (db r o).Nodup
  /-- single-valued references -/
  single : ∀ r o, e.many r = false → (db r o).length ≤ 1
  /-- an object is not in its own reference, if the reference is its own opposite -/
  self : ∀ r o, e.opp r = r → o ∉ db r o

/-- The lists and values that are read: each is what the object had. -/
def Faithful (db : Nat → Nat → List Nat) (reads : List (Nat × Nat × List Nat)) : Prop :=
  ∀ x ∈ reads, x.2.2 = db x.1 x.2.1

/-- Of two opposite references, one at least is read for all objects (the container of an object is not stored, a reference without value has
no row). -/
def Complete (e : Refs) (db : Nat → Nat → List Nat) (reads : List (Nat × Nat × List Nat)) : Prop :=
  ∀ r, (∀ o, db r o ≠ [] → (r, o, db r o) ∈ reads) ∨ (∀ o, db (e.opp r) o ≠ [] → (e.opp r, o, db (e.opp r) o) ∈ reads)

/-- Of two opposite references, one is read for all objects, and the other for none. -/
def OneSide (e : Refs) (db : Nat → Nat → List Nat) (reads : List (Nat × Nat × List Nat)) : Prop :=
  ∀ r, ((∀ x ∈ reads, x.1 ≠ e.opp r) ∧ ∀ o, db r o ≠ [] → (r, o, db r o) ∈ reads) ∨
    ((∀ x ∈ reads, x.1 ≠ r) ∧ ∀ o, db (e.opp r) o ≠ [] → (e.opp r, o, db (e.opp r) o) ∈ reads)

end Verif.Spec.SQLTwoWay
