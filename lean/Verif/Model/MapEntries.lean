/-!
# The entries of maps of objects and their containers

The maps of objects (`BasicEObjectMap`, ecore/basiceobjectmap.go: the details of an annotation, the map features of dynamic objects) contain their entries: an entry is an
object whose container is the owner of the map.  The model has any number of owners, each with a map and a containment list (`EAnnotation.details` and
`EAnnotation.contents`; any two such features of a dynamic object), and entries that go from one to the other.

Simplified: keys and values are numbers; features have no opposite (so `EInverseAdd` and `EInverseRemove` get negative feature IDs); no resources, no notifications.  The Go map for lookups
is not here (see `EMap`); `put` and `removeKey` walk through the entries as the code does.
-/

namespace Verif.MapEntries

/-- A place an entry can be in: the owner, and whether it is its map or its list. -/
structure Place where
  owner : Nat
  isMap : Bool
deriving DecidableEq, Repr

/-- An entry: key, value and container (with the containment feature), ecore/compacteobjectcontainer.go and ecore/emapentry.go. -/
structure Entry where
  key : Nat
  value : Nat
  container : Option Place
deriving DecidableEq, Repr

structure State where
  lists : Place → List Nat
  entries : Nat → Entry
  next : Nat

def init : State := ⟨fun _ => [], fun _ => ⟨0, 0, none⟩, 0⟩

inductive Op where
  | newEntry (k x : Nat)
  | put (o : Nat) (k x : Nat)
  | removeKey (o : Nat) (k : Nat)
  | add (p : Place) (e : Nat)
  | insert (p : Place) (i : Int) (e : Nat)
  | set (p : Place) (i : Int) (e : Nat)
  | remove (p : Place) (e : Nat)
  | removeAt (p : Place) (i : Int)
  | clear (p : Place)
  | contents (p : Place)
  | container (e : Nat)
  | entry (e : Nat)
deriving DecidableEq, Repr

inductive Ans where
  | unit
  | bool (b : Bool)
  | obj (e : Nat)
  | value (x : Option Nat)
  | list (l : List Nat)
  | place (p : Option Place)
  | pair (k x : Nat)
  | panic
deriving DecidableEq, Repr

def State.setList (s : State) (p : Place) (l : List Nat) : State :=
  { s with lists := fun q => if q = p then l else s.lists q }

def State.setContainer (s : State) (e : Nat) (c : Option Place) : State :=
  { s with entries := fun i => if i = e then { s.entries i with container := c } else s.entries i }

/-- The owner of `p` is told that `e` has another container now (`EBasicInverseRemove`).  A list removes it (`RemoveWithNotification`: ecore/basicenotifyinglist.go 156-166,
ecore/eannotation_impl.go 243-245).  The details of an annotation do nothing (ecore/eannotation_impl.go 246-247), the map of a dynamic object is not an `ENotifyingList`, so nothing is done either
(ecore/abstracteobject.go 753-760, ecore/basicemap.go 14-19: a `BasicEMap` has the methods of `EList` and `EMap` only). -/
def inverseRemoveOwner (s : State) (p : Place) (e : Nat) : State :=
  if p.isMap then s else s.setList p ((s.lists p).erase e)

/-- `EInverseAdd` of an entry with a negative feature ID: it leaves its container (`EBasicRemoveFromContainer`) and gets the new one: ecore/abstracteobject.go 650-658, ecore/basiceobjectlist.go
121-131. -/
def inverseAdd (s : State) (e : Nat) (p : Place) : State :=
  let s := match (s.entries e).container with
    | some q => inverseRemoveOwner s q e
    | none => s
  s.setContainer e (some p)

/-- `EInverseRemove` of an entry with a negative feature ID: it has no container any more, whoever calls: ecore/abstracteobject.go 660-670, ecore/basiceobjectlist.go 133-143. -/
def inverseRemove (s : State) (e : Nat) : State := s.setContainer e none

/-- `Add`: ecore/abstractelist.go 78-85, ecore/basicenotifyinglist.go 175-181 -/
def add (s : State) (p : Place) (e : Nat) : State × Ans :=
  if e ∈ s.lists p then (s, .bool false)
  else (inverseAdd (s.setList p (s.lists p ++ [e])) e p, .bool true)

/-- `Remove`: ecore/abstractelist.go 152-161, ecore/basicenotifyinglist.go 256-265 -/
def remove (s : State) (p : Place) (e : Nat) : State × Ans :=
  if e ∈ s.lists p then (inverseRemove (s.setList p ((s.lists p).erase e)) e, .bool true)
  else (s, .bool false)

/-- `getEntryForKey`: ecore/basicemap.go 71-79 -/
def entryForKey (s : State) (o k : Nat) : Option Nat := (s.lists ⟨o, true⟩).find? fun e => (s.entries e).key = k

/-- `newEntry`: ecore/basiceobjectmap.go 68-74 -/
def newEntry (s : State) (k x : Nat) : State :=
  { s with entries := fun i => if i = s.next then ⟨k, x, none⟩ else s.entries i, next := s.next + 1 }

/-- One call.  `put`: ecore/basicemap.go 88-99; `removeKey`: ecore/basicemap.go 126-132; `insert`: ecore/abstractelist.go 98-108, ecore/basicenotifyinglist.go 188-193;
`set`: ecore/abstractelist.go 200-212, ecore/basicenotifyinglist.go 215-225; `removeAt`: ecore/abstractelist.go 144-150; `clear`: ecore/basicenotifyinglist.go 227-247. -/
def step (s : State) : Op → State × Ans
  | .newEntry k x => (newEntry s k x, .obj s.next)
  | .put o k x =>
    match entryForKey s o k with
    | some e => ({ s with entries := fun i => if i = e then { s.entries i with value := x } else s.entries i }, .unit)
    | none => ((add (newEntry s k x) ⟨o, true⟩ s.next).1, .unit)
  | .removeKey o k =>
    match entryForKey s o k with
    | some e => ((remove s ⟨o, true⟩ e).1, .value (some (s.entries e).value))
    | none => (s, .value none)
  | .add p e => if e < s.next then add s p e else (s, .panic)
  | .insert p i e =>
    if e < s.next then
      if i < 0 ∨ i > (s.lists p).length then (s, .panic)
      else if e ∈ s.lists p then (s, .bool false)
      else (inverseAdd (s.setList p ((s.lists p).insertIdx i.toNat e)) e p, .bool true)
    else (s, .panic)
  | .set p i e =>
    if e < s.next then
      if i < 0 ∨ i ≥ (s.lists p).length then (s, .panic)
      else if e ∈ s.lists p ∧ (s.lists p).idxOf e ≠ i.toNat then (s, .panic)
      else match (s.lists p)[i.toNat]? with
        | none => (s, .panic)
        | some old =>
          if old = e then (s, .obj old)
          else (inverseAdd (inverseRemove (s.setList p ((s.lists p).set i.toNat e)) old) e p, .obj old)
    else (s, .panic)
  | .remove p e => remove s p e
  | .removeAt p i =>
    if i < 0 ∨ i ≥ (s.lists p).length then (s, .panic)
    else match (s.lists p)[i.toNat]? with
      | none => (s, .panic)
      | some e => (inverseRemove (s.setList p ((s.lists p).eraseIdx i.toNat)) e, .obj e)
  | .clear p => ((s.lists p).foldl inverseRemove (s.setList p []), .unit)
  | .contents p => (s, .list (s.lists p))
  | .container e => (s, .place (s.entries e).container)
  | .entry e => (s, .pair (s.entries e).key (s.entries e).value)

def run (s : State) (ops : List Op) : State := ops.foldl (fun s op => (step s op).1) s

/-- the answer of a call after a program -/
def answer (ops : List Op) (op : Op) : Ans := (step (run init ops) op).2

/-- the answers of a program -/
def answers (s : State) : List Op → List Ans
  | [] => []
  | op :: ops => (step s op).2 :: answers (step s op).1 ops

end Verif.MapEntries
