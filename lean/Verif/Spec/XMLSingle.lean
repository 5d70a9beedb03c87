import Verif.Model.XMLSingle

/-!
# Copies made by writing and reading
-/

namespace Verif.XMLSingle

/-- the objects of a tree, in the order of the document: each once, each with its features once, the elements of a reference are unique -/
structure Written (refs : Nat → Nat → List Nat) (features : Nat → List Nat) (objs : List Nat) : Prop where
  some_ : objs ≠ []
  once : objs.Nodup
  distinct : ∀ o ∈ objs, (features o).Nodup
  unique : ∀ o ∈ objs, ∀ f ∈ features o, (refs o f).Nodup

/-- the references stay in the tree -/
def Inside (refs : Nat → Nat → List Nat) (features : Nat → List Nat) (objs : List Nat) : Prop :=
  ∀ o ∈ objs, ∀ f ∈ features o, ∀ x ∈ refs o f, x ∈ objs

/-- the copy of an object: the objects read have the numbers from `next` -/
def copyOf (objs : List Nat) (next x : Nat) : Nat := next + objs.idxOf x

/-- the objects of the tree have IDs of their own -/
structure Identified (r : Res) (m : Manager) (ident : Nat → Nat) (objs : List Nat) : Prop where
  manager : r.manager = some m
  attached : ∀ o ∈ objs, r.attached o = true
  has : ∀ o ∈ objs, m.idOf o = some (ident o)
  own : ∀ o ∈ objs, ∀ p ∈ objs, ident o = ident p → o = p

/-- nothing is known about the objects that are not there yet -/
def Unused (refs : Nat → Nat → List Nat) (next : Nat) : Prop := ∀ o f, next ≤ o → refs o f = []

/-- the resource when the IDs of some elements have been read -/
def resAfter (ids : Bool) (r : Res) (next : Nat) : List Elem → Res
  | [] => r
  | e :: es => resAfter ids (readID ids r next e.id) (next + 1) es

/-- the fragments of a reference in an element -/
def fragsOf (l : List (Nat × List Frag)) (f : Nat) : List Frag :=
  match l.find? (fun a => a.1 = f) with
  | some a => a.2
  | none => []

end Verif.XMLSingle
