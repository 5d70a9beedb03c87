import Verif.Model.Graph
import Verif.Model.IDManager

/-!
# Objects in resources: `Attached`, `Detached`, IDs and resource listeners

What happens to the resources when objects are put in containers and in the contents of resources
(ecore/eresource_impl.go 79-97, 336-390, ecore/abstracteobject.go 127-171, 782-877): which object has an ID in the manager of
which resource, and what the listeners of a resource are told.

Left out: references that are no containments, proxies, the flags and notifications of resources (C28), notifications of
objects (C72), listeners that change the objects.  `none` is a panic, or a call that does not end: walks of the containers and of
the contents are given a number of steps.
-/

namespace Verif.Attach
open Verif.Graph (LOp)

/-- A containment reference: `IsMany`, `IsResolveProxies`, and `IsResolveProxies` of its opposite, if it has one. -/
structure Ref where
  many : Bool
  resolve : Bool
  opposite : Option Bool
deriving DecidableEq, Repr

/-- `IsResolveProxies` of what `eContainmentFeature` gives (ecore/abstracteobject.go 188-212): for a reference with an opposite
this is the opposite (see C56). -/
def Ref.flag (f : Ref) : Bool :=
  match f.opposite with
  | some b => b
  | none => f.resolve

/-- The objects: `kids o k` are the objects of the reference `k` of `o`, `box o` the container and its reference
(`ESetInternalContainer`), `own o` the resource set by `ESetInternalResource` (ecore/basiceobject_impl.go 97-118), `roots r` the
contents of the resource `r`. -/
structure Tree where
  kids : Nat → Nat → List Nat
  box : Nat → Option (Nat × Nat)
  own : Nat → Option Nat
  roots : Nat → List Nat

/-- With the manager of each resource (`objectIDManager`) and what the listener of each resource was told: `(o, true)` for
`Attached(o)`, `(o, false)` for `Detached(o)`; `none`: no manager, no listener. -/
structure World (ID G : Type) where
  tree : Tree
  mgr : Nat → Option (IDManager.St ID G)
  heard : Nat → Option (List (Nat × Bool))

/-- set one value of a function -/
def put {β : Type} (f : Nat → β) (i : Nat) (v : β) : Nat → β := fun x => if x = i then v else f x

def Tree.setKids (t : Tree) (o k : Nat) (l : List Nat) : Tree := { t with kids := put t.kids o (put (t.kids o) k l) }
def Tree.setBox (t : Tree) (o : Nat) (b : Option (Nat × Nat)) : Tree := { t with box := put t.box o b }
def Tree.setOwn (t : Tree) (o : Nat) (r : Option Nat) : Tree := { t with own := put t.own o r }
def Tree.setRoots (t : Tree) (r : Nat) (l : List Nat) : Tree := { t with roots := put t.roots r l }

/-- `EContents` without resolution: the objects of all references (ecore/econtentslist.go 28-75, see C15) -/
def contents (M : List Ref) (t : Tree) (o : Nat) : List Nat := (List.range M.length).flatMap (t.kids o)

/-- the walks of some objects, one after the other -/
def walks (f : Nat → Option (List Nat)) : List Nat → Option (List Nat)
  | [] => some []
  | o :: os =>
    match f o, walks f os with
    | some l, some l' => some (l ++ l')
    | _, _ => none

/-- An object and what `getAllContentsResolve(object, false)` gives (ecore/eresource_impl.go 230-241, 343-344): preorder (see C13). -/
def below (M : List Ref) (t : Tree) : Nat → Nat → Option (List Nat)
  | 0, _ => none
  | n + 1, o => (walks (below M t n) (contents M t o)).map (o :: ·)

/-- `EResource()` (ecore/abstracteobject.go 127-135) -/
def eResource (t : Tree) : Nat → Nat → Option (Option Nat)
  | 0, _ => none
  | n + 1, o =>
    match t.own o with
    | some r => some (some r)
    | none =>
      match t.box o with
      | none => some none
      | some (c, _) => if c = o then some none else eResource t n c

section
variable {ID G : Type} [DecidableEq ID]

/-- `DoAttached` (ecore/eresource_impl.go 352-362) -/
def doAttached (c : IDManager.Cfg ID G) (r : Nat) (w : World ID G) (o : Nat) : World ID G :=
  { w with
    mgr := put w.mgr r ((w.mgr r).map (IDManager.register c · o)),
    heard := put w.heard r ((w.heard r).map (· ++ [(o, true)])) }

/-- `DoDetached` (ecore/eresource_impl.go 375-385) -/
def doDetached (c : IDManager.Cfg ID G) (r : Nat) (w : World ID G) (o : Nat) : World ID G :=
  { w with
    mgr := put w.mgr r ((w.mgr r).map (IDManager.unRegister c · o)),
    heard := put w.heard r ((w.heard r).map (· ++ [(o, false)])) }

/-- `IsAttachedDetachedRequired` (ecore/eresource_impl.go 336-338) -/
def required (w : World ID G) (r : Nat) : Bool := (w.mgr r).isSome || (w.heard r).isSome

/-- `Attached` (ecore/eresource_impl.go 340-350) -/
def attached (c : IDManager.Cfg ID G) (M : List Ref) (n : Nat) (w : World ID G) (r o : Nat) : Option (World ID G) :=
  if required w r then (below M w.tree n o).map fun l => l.foldl (doAttached c r) w else some w

/-- `Detached` (ecore/eresource_impl.go 363-373) -/
def detached (c : IDManager.Cfg ID G) (M : List Ref) (n : Nat) (w : World ID G) (r o : Nat) : Option (World ID G) :=
  if required w r then (below M w.tree n o).map fun l => l.foldl (doDetached c r) w else some w

/-- `EBasicRemoveFromContainer` (ecore/abstracteobject.go 854-877): the reference of the container, a list or not, no longer
has the object (752-779). -/
def takeOut (M : List Ref) (t : Tree) (o : Nat) : Tree :=
  match t.box o with
  | none => t
  | some (c, k) =>
    match M[k]? with
    | some f => t.setKids c k (if f.many then (t.kids c k).erase o else [])
    | none => t

/-- whether the reference resolves proxies -/
def flag (M : List Ref) (k : Nat) : Bool :=
  match M[k]? with
  | some f => f.flag
  | none => true

/-- the resource of the container given, if any -/
def resourceOf (t : Tree) (n : Nat) : Option (Nat × Nat) → Option (Option Nat)
  | none => some none
  | some (c, _) => eResource t n c

/-- the object leaves the old resource in `EBasicSetContainer` (ecore/abstracteobject.go 811-813) -/
def leave (c : IDManager.Cfg ID G) (M : List Ref) (n : Nat) (w : World ID G) (o : Nat) (old new : Option Nat) : Option (World ID G) :=
  match old with
  | some r => if some r ≠ new then detached c M n w r o else some w
  | none => some w

/-- the object enters the new resource in `EBasicSetContainer` (ecore/abstracteobject.go 820-822) -/
def enter (c : IDManager.Cfg ID G) (M : List Ref) (n : Nat) (w : World ID G) (o : Nat) (old new : Option Nat) : Option (World ID G) :=
  match new with
  | some r => if some r ≠ old then attached c M n w r o else some w
  | none => some w

/-- `EBasicSetContainer` (ecore/abstracteobject.go 782-851) -/
def basicSetContainer (c : IDManager.Cfg ID G) (M : List Ref) (n : Nat) (w : World ID G) (o : Nat) (b : Option (Nat × Nat)) :
    Option (World ID G) := do
  let (t1, old, new) ←
    match w.tree.own o with
    | some r =>
      match b with
      | some (p, k) =>
        if flag M k = false then do
          let t1 := (w.tree.setRoots r ((w.tree.roots r).erase o)).setOwn o none
          let new ← eResource t1 n p
          some (t1, some r, new)
        else some (w.tree, none, none)
      | none => some (w.tree, none, none)
    | none => do
      let old ← resourceOf w.tree n (w.tree.box o)
      let new ← resourceOf w.tree n b
      some (w.tree, old, new)
  let w1 : World ID G := { w with tree := t1 }
  let w2 ← leave c M n w1 o old new
  enter c M n { w2 with tree := w2.tree.setBox o b } o old new

/-- `ESetResource`, the old resource (ecore/abstracteobject.go 143-147) -/
def leaveOwn (c : IDManager.Cfg ID G) (M : List Ref) (n : Nat) (w : World ID G) (o : Nat) (old new : Option Nat) : Option (World ID G) :=
  match old, new with
  | some r, some _ => detached c M n { w with tree := w.tree.setRoots r ((w.tree.roots r).erase o) } r o
  | _, _ => some w

/-- `ESetResource`, the container (ecore/abstracteobject.go 148-166) -/
def leaveBox (c : IDManager.Cfg ID G) (M : List Ref) (n : Nat) (w : World ID G) (o : Nat) (old new : Option Nat) : Option (World ID G) :=
  match w.tree.box o with
  | none => some w
  | some (p, k) =>
    if flag M k then
      match eResource w.tree n p, new, old with
      | none, _, _ => none
      | some none, _, _ => some w
      | some (some pr), none, _ => attached c M n w pr o
      | some (some pr), some _, none => detached c M n w pr o
      | some (some _), some _, some _ => some w
    else basicSetContainer c M n { w with tree := takeOut M w.tree o } o none

/-- `ESetResource` (ecore/abstracteobject.go 138-171) -/
def setResource (c : IDManager.Cfg ID G) (M : List Ref) (n : Nat) (w : World ID G) (o : Nat) (new : Option Nat) :
    Option (World ID G) := do
  let w1 ← leaveOwn c M n w o (w.tree.own o) new
  let w2 ← leaveBox c M n w1 o (w.tree.own o) new
  some { w2 with tree := w2.tree.setOwn o new }

/-- `resourceContents.inverseAdd` (ecore/eresource_impl.go 79-87) -/
def rootAdd (c : IDManager.Cfg ID G) (M : List Ref) (n : Nat) (r : Nat) (w : World ID G) (o : Nat) : Option (World ID G) := do
  let w1 ← setResource c M n w o (some r)
  attached c M n w1 r o

/-- `resourceContents.inverseRemove` (ecore/eresource_impl.go 89-97) -/
def rootRemove (c : IDManager.Cfg ID G) (M : List Ref) (n : Nat) (r : Nat) (w : World ID G) (o : Nat) : Option (World ID G) := do
  let w1 ← detached c M n w r o
  setResource c M n w1 o none

/-- `inverseAdd` of the reference `k` of `p`, `EInverseAdd` of the object (ecore/basiceobjectlist.go 121-131,
ecore/abstracteobject.go 650-658, 689-711) -/
def kidAdd (c : IDManager.Cfg ID G) (M : List Ref) (n : Nat) (p k : Nat) (w : World ID G) (o : Nat) : Option (World ID G) :=
  basicSetContainer c M n { w with tree := takeOut M w.tree o } o (some (p, k))

/-- `inverseRemove` of a containment, `EInverseRemove` of the object (ecore/basiceobjectlist.go 133-143,
ecore/abstracteobject.go 661-667, 753-764) -/
def kidRemove (c : IDManager.Cfg ID G) (M : List Ref) (n : Nat) (w : World ID G) (o : Nat) : Option (World ID G) :=
  basicSetContainer c M n w o none

/-- a call for each object -/
def each (f : World ID G → Nat → Option (World ID G)) : World ID G → List Nat → Option (World ID G)
  | w, [] => some w
  | w, o :: os => (f w o).bind (each f · os)

/-- A call on a list without duplicates: the new contents, the objects for which `inverseRemove` is called, then those for
which `inverseAdd` is called (ecore/abstractelist.go 78-216, ecore/basicenotifyinglist.go 174-332; see C02). -/
def plan (l : List Nat) : LOp → Option (List Nat × List Nat × List Nat)
  | .add e => some (if e ∈ l then (l, [], []) else (l ++ [e], [], [e]))
  | .addAll c => let c' := EList.getNonDuplicates .snapshot l c; some (l ++ c', [], c')
  | .insert i e =>
    if i > l.length then none
    else some (if e ∈ l then (l, [], []) else (l.take i ++ [e] ++ l.drop i, [], [e]))
  | .insertAll i c =>
    if i > l.length then none
    else let c' := EList.getNonDuplicates .snapshot l c; some (l.take i ++ c' ++ l.drop i, [], c')
  | .set i e =>
    match l[i]? with
    | none => none
    | some old =>
      if e ∈ l ∧ l.idxOf e ≠ i then none
      else some (if e = old then (l, [], []) else (l.set i e, [old], [e]))
  | .removeAt i =>
    match l[i]? with
    | none => none
    | some old => some (l.eraseIdx i, [old], [])
  | .remove e => some (if e ∈ l then (l.erase e, [e], []) else (l, [], []))
  | .removeRange i j =>
    if i ≥ l.length ∨ j > l.length ∨ i > j then none
    else some (l.take i ++ l.drop j, (l.take j).drop i, [])
  | .removeAll c => some (l.filter (· ∉ c), l.filter (· ∈ c), [])
  | .clear => some ([], l, [])
  | .move i j =>
    match l[i]? with
    | none => none
    | some e => if j < l.length then some ((l.eraseIdx i).insertIdx j e, [], []) else none

/-- a call on `resource.GetContents()` -/
def contentsOp (c : IDManager.Cfg ID G) (M : List Ref) (n : Nat) (w : World ID G) (r : Nat) (op : LOp) : Option (World ID G) := do
  let (l, out, inn) ← plan (w.tree.roots r) op
  let w1 ← each (rootRemove c M n r) { w with tree := w.tree.setRoots r l } out
  each (rootAdd c M n r) w1 inn

/-- a call on the list of a containment reference -/
def listOp (c : IDManager.Cfg ID G) (M : List Ref) (n : Nat) (w : World ID G) (p k : Nat) (op : LOp) : Option (World ID G) :=
  match M[k]? with
  | some ⟨true, _, _⟩ => do
    let (l, out, inn) ← plan (w.tree.kids p k) op
    let w1 ← each (kidRemove c M n) { w with tree := w.tree.setKids p k l } out
    each (kidAdd c M n p k) w1 inn
  | _ => none

/-- `ESet` or `EUnset` of a single containment reference (ecore/abstracteobject.go 443-476, 575-610) -/
def setKid (c : IDManager.Cfg ID G) (M : List Ref) (n : Nat) (w : World ID G) (p k : Nat) (v : Option Nat) :
    Option (World ID G) :=
  match M[k]? with
  | some ⟨false, _, _⟩ => do
    let old := (w.tree.kids p k).head?
    if old = v then some w
    else
      let w1 ← each (kidRemove c M n) w old.toList
      let w2 ← each (kidAdd c M n p k) w1 v.toList
      some { w2 with tree := w2.tree.setKids p k v.toList }
  | _ => none

/-- `ESet` or `EUnset` of the container reference that is the opposite of the reference `k` (ecore/abstracteobject.go 422-442,
573-584, and 689-736 for the new container) -/
def setContainer (c : IDManager.Cfg ID G) (M : List Ref) (n : Nat) (w : World ID G) (o k : Nat) (v : Option Nat) :
    Option (World ID G) :=
  match M[k]? with
  | some ⟨many, _, some _⟩ =>
    if v ≠ (w.tree.box o).map Prod.fst ∨ (v ≠ none ∧ (w.tree.box o).map Prod.snd ≠ some k) then do
      let w1 : World ID G := { w with tree := takeOut M w.tree o }
      let w2 ← match v with
        | none => some w1
        | some p =>
          if many then some { w1 with tree := w1.tree.setKids p k (w1.tree.kids p k ++ [o]) }
          else do
            let w2 ← each (kidRemove c M n) w1 (w1.tree.kids p k).head?.toList
            some { w2 with tree := w2.tree.setKids p k [o] }
      basicSetContainer c M n w2 o (v.map (·, k))
    else some w
  | _ => none

/-- The calls of a program. -/
inductive Op where
  | contents (r : Nat) (op : LOp)
  | list (p k : Nat) (op : LOp)
  | set (p k : Nat) (v : Option Nat)
  | container (o k : Nat) (v : Option Nat)
  | unload (r : Nat)
deriving DecidableEq, Repr

/-- One call.  `Unload` of a loaded resource drops the contents and clears the manager (ecore/eresource_impl.go 469-486). -/
def step (c : IDManager.Cfg ID G) (M : List Ref) (n : Nat) (w : World ID G) : Op → Option (World ID G)
  | .contents r op => contentsOp c M n w r op
  | .list p k op => listOp c M n w p k op
  | .set p k v => setKid c M n w p k v
  | .container o k v => setContainer c M n w o k v
  | .unload r =>
    some { w with tree := w.tree.setRoots r [], mgr := put w.mgr r ((w.mgr r).map (IDManager.step c · .clear)) }

/-- several calls -/
def run (c : IDManager.Cfg ID G) (M : List Ref) (n : Nat) (w : World ID G) : List Op → Option (World ID G)
  | [] => some w
  | op :: ops => (step c M n w op).bind (run c M n · ops)

/-- New objects and new resources: which resources have an ID manager (with the first state of its generator), and which have a
listener. -/
def init (gen : Nat → Option G) (listens : Nat → Bool) : World ID G where
  tree := ⟨fun _ _ => [], fun _ => none, fun _ => none, fun _ => []⟩
  mgr r := (gen r).map IDManager.init
  heard r := if listens r then some [] else none

/-- `SetObjectIDManager` with a new manager (ecore/eresource_impl.go 597-599) -/
def setManager (w : World ID G) (r : Nat) (g : G) : World ID G := { w with mgr := put w.mgr r (some (IDManager.init g)) }

/-- `GetObjectIDManager().GetID(o)` -/
def getID (w : World ID G) (r o : Nat) : Option ID := (w.mgr r).bind (IDManager.getID · o)

end
end Verif.Attach
