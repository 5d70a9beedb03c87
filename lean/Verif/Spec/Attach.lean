import Verif.Model.Attach

/-!
# What it means to be in a resource

Written without the functions of the model.
-/

namespace Verif.Attach
open Verif.Graph (LOp)

/-- `x` is `e` or is inside `e`, through any number of containers. -/
inductive Inside (box : Nat → Option (Nat × Nat)) (e : Nat) : Nat → Prop
  | refl : Inside box e e
  | step {x c k : Nat} : box x = some (c, k) → Inside box e c → Inside box e x

/-- `x` is in the contents of the resource `r`, or inside an object that is. -/
def Member (t : Tree) (r x : Nat) : Prop := ∃ root ∈ t.roots r, Inside t.box root x

/-- What a listener heard about an object, the events being `(object, true)` for attached and `(object, false)` for detached:
`some true` or `some false` if it was told attached, detached, attached, ... in turn, this being the last thing; `none` if it was told
the same thing twice in a row, or detached first. -/
def told (x : Nat) : List (Nat × Bool) → Option Bool → Option Bool
  | [], b => b
  | (y, b') :: es, b => told x es (if y = x then (if b = some (!b') then some b' else none) else b)

/-- The managers give valid IDs: `good` is a property of the state of the generator. -/
structure Works {ID G : Type} (c : IDManager.Cfg ID G) (good : G → Prop) : Prop where
  new : ∀ g, good g → c.isValidID (c.newID g).1 = true ∧ good (c.newID g).2
  set : ∀ id g, good g → c.isValidID id = true → good (c.setID id g)

/-- the objects given to a list -/
def given : LOp → List Nat
  | .add e => [e]
  | .addAll c => c
  | .insert _ e => [e]
  | .insertAll _ c => c
  | .set _ e => [e]
  | _ => []

/-- A reference whose objects may be in its container and also in the contents of a resource: it resolves proxies (its opposite
does, if it has one). -/
def crosses (M : List Ref) (k : Nat) : Prop := ∃ f, M[k]? = some f ∧ f.opposite.getD f.resolve = true

/-- `e` can be put in the reference `k` of `p`: `p` is not in `e`; and if the reference resolves proxies, `e` is not in the contents
of a resource. -/
def Fits (M : List Ref) (t : Tree) (p k e : Nat) : Prop := ¬ Inside t.box e p ∧ (crosses M k → ∀ r, e ∉ t.roots r)

/-- `e` can be put in the contents of a resource: it is not in a reference that resolves proxies. -/
def FitsRoot (M : List Ref) (t : Tree) (e : Nat) : Prop := ∀ p k, e ∈ t.kids p k → ¬ crosses M k

/-- A call that puts no object inside itself, that puts no object both in a reference and in the contents of a resource, that is
not `Unload`, and that does not, by setting its container, put an object in place of an object that it is in. -/
def Plain (M : List Ref) (t : Tree) : Op → Prop
  | .contents _ op => ∀ e ∈ given op, FitsRoot M t e
  | .list p k op => ∀ e ∈ given op, Fits M t p k e
  | .set p k v => ∀ e ∈ v, Fits M t p k e
  | .container o k v => ∀ p ∈ v, Fits M t p k o ∧
      ((∃ f, M[k]? = some f ∧ f.many = false) → ∀ q ∈ t.kids p k, ¬ Inside t.box q o)
  | .unload _ => False

/-- All calls of a program are such calls. -/
def PlainRun {ID G : Type} [DecidableEq ID] (c : IDManager.Cfg ID G) (M : List Ref) (n : Nat) : World ID G → List Op → Prop
  | _, [] => True
  | w, op :: ops => Plain M w.tree op ∧ ∀ w', step c M n w op = some w' → PlainRun c M n w' ops

end Verif.Attach
