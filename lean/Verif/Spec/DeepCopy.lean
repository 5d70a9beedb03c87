import Verif.Model.DeepCopy

/-!
# What is copied
-/

namespace Verif.DeepCopy

/-- the objects of a reference, in order -/
def values (w : World) (o f : Nat) : List Nat :=
  match w.slot o f with
  | .obj x => [x]
  | .list l => (w.list l).items
  | _ => []

/-- Metamodels considered: only references have opposites, which are mutual and not the reference itself; the opposite of
a containment reference is single valued and not a containment; a class has the features it declares, each once. -/
structure WellFormed (M : Meta) : Prop where
  opp : ∀ f g : Nat, (M.feature f).opposite = some g → (M.feature g).opposite = some f ∧ g ≠ f
  ref : ∀ f g : Nat, (M.feature f).opposite = some g → (M.feature f).isRef = true
  cref : ∀ f : Nat, (M.feature f).containment = true → (M.feature f).isRef = true
  cont : ∀ f g : Nat, (M.feature f).containment = true → (M.feature f).opposite = some g → (M.feature g).containment = false ∧ (M.feature g).many = false
  sub : ∀ c f : Nat, f ∈ M.declared c → f ∈ M.all c
  nodup : ∀ c : Nat, (M.all c).Nodup
  once : ∀ c : Nat, (M.declared c).Nodup

/-- Consistent object graphs: values are existing objects and lists, single values or lists as the feature says, lists of
references have no duplicates, opposites are symmetric, contained objects know their container (see C01, C19, C20). -/
structure Valid (M : Meta) (w : World) : Prop where
  attr : ∀ o f : Nat, o < w.nextObj → (M.feature f).isRef = false → (M.feature f).many = false → w.slot o f = .none ∨ ∃ v : Nat, w.slot o f = .value v
  ref : ∀ o f : Nat, o < w.nextObj → (M.feature f).isRef = true → (M.feature f).many = false → w.slot o f = .none ∨ ∃ x : Nat, w.slot o f = .obj x
  many : ∀ o f : Nat, o < w.nextObj → (M.feature f).many = true → w.slot o f = .none ∨ ∃ l : Nat, w.slot o f = .list l ∧ l < w.nextList
  objects : ∀ o f x : Nat, o < w.nextObj → (M.feature f).isRef = true → x ∈ values w o f → x < w.nextObj
  container : ∀ o p r : Nat, o < w.nextObj → w.container o = some (p, r) → p < w.nextObj
  unique : ∀ o f : Nat, o < w.nextObj → (M.feature f).isRef = true → (values w o f).Nodup
  contained : ∀ o f x : Nat, o < w.nextObj → (M.feature f).containment = true → x ∈ values w o f → w.container x = some (o, f)
  symmetric : ∀ o f x g : Nat, o < w.nextObj → x < w.nextObj → (M.feature f).opposite = some g → (M.feature f).containment = false →
    (M.feature g).containment = false → x ∈ values w o f → o ∈ values w x g

/-- the containment tree of an object -/
inductive Within (M : Meta) (w : World) (o : Nat) : Nat → Prop where
  | root : Within M w o o
  | child (x f y : Nat) : Within M w o x → f ∈ M.all (w.cls x) → (M.feature f).containment = true → (M.feature f).derived = false →
      y ∈ values w x f → Within M w o y

/-- `order` has the objects of the containment tree of `o`, which has no cycle: objects are less deep than their container.
Features that cannot be changed are not set. -/
structure Tree (M : Meta) (w : World) (o : Nat) (order : List Nat) (depth : Nat → Nat) : Prop where
  exists_ : o < w.nextObj
  mem : ∀ x : Nat, x ∈ order ↔ Within M w o x
  nodup : order.Nodup
  depth : ∀ x f y : Nat, Within M w o x → (M.feature f).containment = true → y ∈ values w x f → depth y < depth x
  changeable : ∀ x f : Nat, Within M w o x → f ∈ M.all (w.cls x) → (M.feature f).derived = false → (M.feature f).changeable = false →
    M.isContainer f = false → isSet M w x f = false

/-- What `Copy` needs for an equal copy: no container reference of `o` is set, references with an opposite stay in the
tree, and contained objects of dynamic objects in lists have no container reference. -/
structure Closed (M : Meta) (w : World) (o : Nat) : Prop where
  root : ∀ f ∈ M.declared (w.cls o), M.isContainer f = true → isSet M w o f = false
  inside : ∀ x f z : Nat, Within M w o x → f ∈ M.declared (w.cls x) → (M.feature f).opposite.isSome = true → (M.feature f).containment = false →
    M.isContainer f = false → z ∈ values w x f → Within M w o z
  lists : ∀ x f : Nat, Within M w o x → M.generated (w.cls x) = false → (M.feature f).containment = true → (M.feature f).many = true →
    (M.feature f).opposite.isSome = true → values w x f = []

/-- The same for several objects, the roots: no root is in the containment tree of another, `order` has the objects of all
these trees. -/
structure Forest (M : Meta) (w : World) (roots order : List Nat) (depth : Nat → Nat) : Prop where
  exists_ : ∀ r ∈ roots, r < w.nextObj
  once : roots.Nodup
  apart : ∀ r ∈ roots, ∀ r' ∈ roots, Within M w r r' → r = r'
  mem : ∀ x : Nat, x ∈ order ↔ ∃ r ∈ roots, Within M w r x
  nodup : order.Nodup
  depth : ∀ x f y : Nat, (∃ r ∈ roots, Within M w r x) → (M.feature f).containment = true → y ∈ values w x f → depth y < depth x
  changeable : ∀ x f : Nat, (∃ r ∈ roots, Within M w r x) → f ∈ M.all (w.cls x) → (M.feature f).derived = false → (M.feature f).changeable = false →
    M.isContainer f = false → isSet M w x f = false

/-- What `CopyAll` needs for equal copies: references with an opposite may go from the tree of a root to that of another. -/
structure ClosedAll (M : Meta) (w : World) (roots : List Nat) : Prop where
  root : ∀ r ∈ roots, ∀ f ∈ M.declared (w.cls r), M.isContainer f = true → isSet M w r f = false
  inside : ∀ x f z : Nat, (∃ r ∈ roots, Within M w r x) → f ∈ M.declared (w.cls x) → (M.feature f).opposite.isSome = true →
    (M.feature f).containment = false → M.isContainer f = false → z ∈ values w x f → ∃ r ∈ roots, Within M w r z
  lists : ∀ x f : Nat, (∃ r ∈ roots, Within M w r x) → M.generated (w.cls x) = false → (M.feature f).containment = true → (M.feature f).many = true →
    (M.feature f).opposite.isSome = true → values w x f = []

/-- the objects and lists of `w` are in `w'` what they were -/
structure Kept (w w' : World) : Prop where
  cls : ∀ x : Nat, x < w.nextObj → w'.cls x = w.cls x
  uri : ∀ x : Nat, x < w.nextObj → w'.uri x = w.uri x
  slot : ∀ x f : Nat, x < w.nextObj → w'.slot x f = w.slot x f
  container : ∀ x : Nat, x < w.nextObj → w'.container x = w.container x
  list : ∀ l : Nat, l < w.nextList → w'.list l = w.list l

/-- Later changes: a single value of an object is set, or unset; the list of an object is given other elements, whatever
operations did that. -/
inductive Edit where
  | put (o f : Nat) (v : Option Nat)
  | fill (o f : Nat) (V : List Nat)

def Edit.object : Edit → Nat
  | .put o _ _ => o
  | .fill o _ _ => o

def Edit.apply (M : Meta) (w : World) : Edit → World
  | .put o f none => setSlot w o f .none
  | .put o f (some v) => setSlot w o f (if (M.feature f).isRef then .obj v else .value v)
  | .fill o f V => setItems (getList M w o f).1 (getList M w o f).2 V

end Verif.DeepCopy
