/-!
# Traversal of the contained objects of a class

`EAllContentsWithClass` (ecore/ecoreutils.go 235-237) and the tables of transitions between classes
(ecore/eallcontents.go).

Left out: changes of the objects or of the metamodel during the traversal, proxies.
-/

namespace Verif.AllContents

/-- A metamodel: `containments c` is `GetEContainmentFeatures` of class `c` (the references among them, ecore/eclass_ext.go
230-259), `type r` is `GetEReferenceType` of a reference. -/
structure Meta where
  containments : Nat → List Nat
  type : Nat → Nat

/-- ecore/eallcontents.go 11-15 -/
structure Trans where
  source : Nat
  ref : Nat
  target : Nat
deriving DecidableEq, Repr

/-- `EClassTransitionsTable` (ecore/eallcontents.go 37-40): `keys` are the keys of `transitionsMap` -/
structure Table where
  keys : List Nat
  trans : Nat → List Trans
  ends : List Nat

/-- `newEClassTransitionsTable` (ecore/eallcontents.go 42-47) -/
def Table.empty : Table := ⟨[], fun _ => [], []⟩

/-- `transitions.addTransition` (ecore/eallcontents.go 19-26) -/
def addTo (ts : List Trans) (t : Trans) : List Trans := if t ∈ ts then ts else ts ++ [t]

/-- `transitions.removeTransition` (ecore/eallcontents.go 28-36): the last one takes the place of the removed one -/
def removeFrom (ts : List Trans) (t : Trans) : List Trans :=
  if t ∈ ts then
    match ts.getLast? with
    | some last => (ts.set (ts.idxOf t) last).dropLast
    | none => ts
  else ts

/-- `addTransition` (ecore/eallcontents.go 61-63) -/
def Table.add (T : Table) (t : Trans) : Table :=
  ⟨if t.source ∈ T.keys then T.keys else T.keys ++ [t.source], fun c => if c = t.source then addTo (T.trans c) t else T.trans c, T.ends⟩

/-- `removeTransition` (ecore/eallcontents.go 65-69): the key stays -/
def Table.remove (T : Table) (t : Trans) : Table :=
  if t.source ∈ T.keys then ⟨T.keys, fun c => if c = t.source then removeFrom (T.trans c) t else T.trans c, T.ends⟩ else T

/-- `setIsEnd` (ecore/eallcontents.go 83-85) -/
def Table.setIsEnd (T : Table) (c : Nat) : Table := ⟨T.keys, T.trans, if c ∈ T.ends then T.ends else T.ends ++ [c]⟩

/-- `union` (ecore/eallcontents.go 49-59); the order of the keys does not matter -/
def Table.union (T other : Table) : Table :=
  let T1 := other.keys.foldl (fun T c => (other.trans c).foldl Table.add T) T
  other.ends.foldl Table.setIsEnd T1

/-- `computeTransitionTableForReference` (ecore/eallcontents.go 110-138); `state` is
`computeTransitionTableForState` -/
def computeReference (M : Meta) (endClass : Nat) (state : Nat → Table × Table → Option (Table × Table)) (c : Nat) (s : Table × Table) (r : Nat) :
    Option (Table × Table) :=
  let target := M.type r
  let t : Trans := ⟨c, r, target⟩
  let current := s.1
  let result := if target = endClass then ((s.2.setIsEnd target).union current).add t else s.2
  if target ∈ current.keys then
    if target ∈ result.keys then some (current, (result.union current).add t) else some (current, result)
  else
    (state target (current.add t, result)).map fun s' => (s'.1.remove t, s'.2)

/-- `computeTransitionTableForState` (ecore/eallcontents.go 101-108); `none`: the depth is not sufficient -/
def computeState (M : Meta) (endClass : Nat) : Nat → Nat → Table × Table → Option (Table × Table)
  | 0, _, _ => none
  | depth + 1, c, s => (M.containments c).foldlM (computeReference M endClass (computeState M endClass depth) c) s

/-- `NewEClassTransitionsTable` (ecore/eallcontents.go 93-99) -/
def newTable (M : Meta) (depth startClass endClass : Nat) : Option Table :=
  if startClass = endClass then some .empty
  else (computeState M endClass depth startClass (.empty, .empty)).map (·.2)

/-- An object: its class, the containment reference of its container that holds it, and the objects it contains. -/
inductive Tree where
  | node (id cls ref : Nat) (kids : List Tree)

def Tree.id : Tree → Nat
  | .node i _ _ _ => i

def Tree.cls : Tree → Nat
  | .node _ c _ _ => c

def Tree.ref : Tree → Nat
  | .node _ _ r _ => r

def Tree.kids : Tree → List Tree
  | .node _ _ _ ks => ks

/-- `EGet(reference)` as a list, empty if it is not set -/
def value (o : Tree) (r : Nat) : List Tree := o.kids.filter fun k => k.ref = r

/-- `data` (ecore/eallcontents.go 140-146); `iter` are the objects the iterator has not given yet -/
structure Data where
  obj : Tree
  cls : Nat
  iter : List Tree
  trans : Option Trans
  rest : Option (List Trans)

/-- the choice of the next reference (ecore/eallcontents.go 209-236) -/
def advance (T : Table) (d : Data) : Data :=
  match d.iter with
  | [] =>
    let rest := d.rest.getD (T.trans d.cls)
    match rest.getLast? with
    | some t => { d with trans := some t, rest := some rest.dropLast, iter := value d.obj t.ref }
    | none => { d with trans := none, rest := some [] }
  | _ :: _ => d

/-- One round of the loop of `findNext` (ecore/eallcontents.go 205-251): the stack, top first, and the object found -/
def step (T : Table) : List Data → List Data × Option Tree
  | [] => ([], none)
  | d :: ds =>
    let d := advance T d
    match d.iter, d.trans with
    | x :: xs, some t => (⟨x, t.target, [], none, none⟩ :: { d with iter := xs } :: ds, if t.target ∈ T.ends then some x else none)
    | _, _ => (ds, none)

/-- All objects given by the iterator, with a bound for the number of rounds (ecore/eallcontents.go 181-201) -/
def collect (T : Table) : Nat → List Data → Option (List Tree)
  | _, [] => some []
  | 0, _ :: _ => none
  | n + 1, d :: ds => (collect T n (step T (d :: ds)).1).map fun l => (step T (d :: ds)).2.toList ++ l

/-- `EAllContentsWithClass(o, c)`, with bounds -/
def allContentsWithClass (M : Meta) (depth n : Nat) (o : Tree) (c : Nat) : Option (List Tree) :=
  (newTable M depth o.cls c).bind fun T => collect T n [⟨o, o.cls, [], none, none⟩]

end Verif.AllContents
