import Verif.Model.Graph
import Verif.Model.Notify

/-!
# Notifications of the calls on an object graph

The functions of Verif/Model/Graph.lean with the notifications they create: `ESet`, `EUnset` and the lists of
references of dynamic objects (ecore/abstracteobject.go, ecore/basicenotifyinglist.go, ecore/basiceobjectlist.go).

Simplified: a chain of notifications is the list of its notifications, whether it starts with a notification or
with `NewNotificationChain` (`linkedAdd` and `chainAdd` of Verif/Model/Notify.lean do the same, see C08); the objects
that are listened to do not change, and listeners do not change the objects.  The rest is left out as in
Verif/Model/Graph.lean.
-/

namespace Verif.GraphNotes
open Verif.Graph Verif.Notify

/-- The metamodel, the objects for which `ENotificationRequired()` holds (ecore/abstractenotifier.go 126-129 and
ecore/basicenotifyinglist.go 97-100) and `IsUnsettable` of the features. -/
structure Env where
  M : Meta
  listening : Nat → Bool
  unsettable : Nat → Bool

/-- the objects and the chain of notifications to be dispatched -/
abbrev State := World × List (Notif Nat)

/-- a stored value -/
def ofSlot : Slot → Payload Nat
  | .none => .nil
  | .obj o => .elem o
  | .list l => .elems l

/-- an object or nil -/
def ofObj : Option Nat → Payload Nat
  | some o => .elem o
  | none => .nil

/-- `if o.ENotificationRequired() { ... notifications.Add(notification) ... }` -/
def note (E : Env) (s : State) (o : Nat) (id : Int) (event : Event) (old new : Payload Nat) (position : Int) : Option State :=
  if E.listening o then (chainAdd s.2 (some ⟨some o, id, event, old, new, position⟩)).map fun c => (s.1, c.1) else some s

/-- `EBasicSetContainer` without resources (ecore/abstracteobject.go 782-851) -/
def setContainerN (E : Env) (s : State) (o : Nat) (c : Option Nat) (id : Int) : Option State :=
  let old := (s.1 o).container
  let oldId := (s.1 o).cfid
  let s1 : State := (setContainer s.1 o c id, s.2)
  (if old ≠ none ∧ oldId ≥ 0 ∧ oldId ≠ id then note E s1 o oldId .set (ofObj old) .nil (-1) else some s1).bind fun s2 =>
    if id ≥ 0 then note E s2 o id .set (if oldId = id then ofObj old else .nil) (ofObj c) (-1) else some s2

/-- `o.EInverseRemove(other, id, notifications)` (ecore/abstracteobject.go 661-667, 739-779) with
`RemoveWithNotification` (ecore/basicenotifyinglist.go 157-166) -/
def inverseRemoveN (E : Env) (s : State) (o other : Nat) (id : Int) : Option State :=
  if id ≥ 0 then
    match E.M.feature (s.1 o).cls id with
    | none => none
    | some f =>
      if (E.M.refs f).many then
        match (s.1 o).slots id.toNat with
        | .list l =>
          if other ∈ l then
            note E (setSlot s.1 o id.toNat (.list (l.erase other)), s.2) o (E.M.refs f).declId .remove (.elem other) .nil (l.idxOf other)
          else some (setSlot s.1 o id.toNat (.list l), s.2)
        | _ => some s
      else if E.M.isContainer f then setContainerN E s o none (E.M.featureID (s.1 o).cls f)
      else
        note E (setSlot s.1 o id.toNat .none, s.2) o (E.M.refs f).declId .set (ofSlot ((s.1 o).slots id.toNat)) .nil (-1)
  else setContainerN E s o none id

/-- `EBasicRemoveFromContainer` and `EBasicRemoveFromContainerFeature` (ecore/abstracteobject.go 854-877) -/
def removeFromContainerN (E : Env) (s : State) (o : Nat) : Option State :=
  if (s.1 o).cfid ≥ 0 then
    match E.M.feature (s.1 o).cls (s.1 o).cfid with
    | none => some s
    | some f =>
      match (s.1 o).container, (E.M.refs f).opposite with
      | some c, some f' => inverseRemoveN E s c o (E.M.refs f').declId
      | _, _ => some s
  else
    match (s.1 o).container with
    | some c => inverseRemoveN E s c o (-1 - (s.1 o).cfid)
    | none => some s

/-- `o.EInverseAdd(other, id, notifications)` (ecore/abstracteobject.go 650-658, 675-736) with `AddWithNotification`
(ecore/basicenotifyinglist.go 149-154) -/
def inverseAddN (E : Env) (s : State) (o other : Nat) (id : Int) : Option State :=
  if id ≥ 0 then
    match E.M.feature (s.1 o).cls id with
    | none => none
    | some f =>
      if (E.M.refs f).many then
        match (s.1 o).slots id.toNat with
        | .list l =>
          note E (setSlot s.1 o id.toNat (.list (l ++ [other])), s.2) o (E.M.refs f).declId .add .nil (.elem other) l.length
        | .none => note E (setSlot s.1 o id.toNat (.list [other]), s.2) o (E.M.refs f).declId .add .nil (.elem other) 0
        | .obj _ => some s
      else if E.M.isContainer f then
        (if (s.1 o).container ≠ none then removeFromContainerN E s o else some s).bind fun s1 =>
          setContainerN E s1 o (some other) (E.M.featureID (s.1 o).cls f)
      else
        (match (s.1 o).slots id.toNat with
          | .obj x =>
            if (E.M.refs f).containment then inverseRemoveN E s x o (-1 - E.M.featureID (s.1 o).cls f)
            else
              match (E.M.refs f).opposite with
              | some f' => inverseRemoveN E s x o (E.M.featureID (s.1 x).cls f')
              | none => some s
          | _ => some s).bind fun s1 =>
            note E (setSlot s1.1 o id.toNat (.obj other), s1.2) o (E.M.refs f).declId .set (ofSlot ((s.1 o).slots id.toNat)) (.elem other) (-1)
  else (removeFromContainerN E s o).bind fun s1 => setContainerN E s1 o (some other) id

/-- ecore/abstracteobject.go 451-454, 462-466 and 584-597 -/
def removeOldN (E : Env) (s : State) (o f : Nat) : Option Nat → Option State
  | none => some s
  | some x =>
    match (E.M.refs f).opposite with
    | none => inverseRemoveN E s x o (-1 - E.M.featureID (s.1 o).cls f)
    | some f' => inverseRemoveN E s x o (E.M.featureID (s.1 x).cls f')

/-- ecore/abstracteobject.go 455-458, 467-471 -/
def addNewN (E : Env) (s : State) (o f : Nat) : Option Nat → Option State
  | none => some s
  | some x =>
    match (E.M.refs f).opposite with
    | none => inverseAddN E s x o (-1 - E.M.featureID (s.1 o).cls f)
    | some f' => inverseAddN E s x o (E.M.featureID (s.1 x).cls f')

/-- `ESet(f, v)` with an object or nil (ecore/abstracteobject.go 391-499); the chain of the result is the one that is
dispatched -/
def eSetN (E : Env) (w : World) (o f : Nat) (v : Option Nat) : Option State :=
  let id := E.M.featureID (w o).cls f
  if id < 0 then none
  else if E.M.isContainer f then
    if v ≠ (w o).container ∨ (v ≠ none ∧ (w o).cfid ≠ id) then
      (if (w o).container ≠ none then removeFromContainerN E (w, []) o else some (w, [])).bind fun s1 =>
        (match v, (E.M.refs f).opposite with
          | some c, some f' => inverseAddN E s1 c o (E.M.featureID (s1.1 c).cls f')
          | _, _ => some s1).bind fun s2 => setContainerN E s2 o v id
    else note E (w, []) o (E.M.refs f).declId .set (ofObj v) (ofObj v) (-1)
  else if (E.M.refs f).opposite ≠ none ∨ (E.M.refs f).containment then
    let old := (w o).slots id.toNat
    if old ≠ Slot.of v then do
      let s1 ← removeOldN E (w, []) o f old.object
      let s2 ← addNewN E s1 o f v
      note E (setSlot s2.1 o id.toNat (.of v), s2.2) o (E.M.refs f).declId .set (ofSlot old) (ofObj v) (-1)
    else some (w, [])
  else note E (setSlot w o id.toNat (.of v), []) o (E.M.refs f).declId .set (ofSlot ((w o).slots id.toNat)) (ofObj v) (-1)

/-- `EUnset(f)` (ecore/abstracteobject.go 541-629) -/
def eUnsetN (E : Env) (w : World) (o f : Nat) : Option State :=
  let id := E.M.featureID (w o).cls f
  if id < 0 then none
  else if E.M.isContainer f then
    if (w o).container ≠ none then do
      let s1 ← removeFromContainerN E (w, []) o
      setContainerN E s1 o none id
    else note E (w, []) o (E.M.refs f).declId .set .nil .nil (-1)
  else if (E.M.refs f).opposite ≠ none ∨ (E.M.refs f).containment then
    let old := (w o).slots id.toNat
    if old ≠ .none then do
      let s1 ← removeOldN E (w, []) o f old.object
      note E (setSlot s1.1 o id.toNat .none, s1.2) o (E.M.refs f).declId (if E.unsettable f then .unset else .set) (ofSlot old) .nil (-1)
    else some (w, [])
  else note E (setSlot w o id.toNat .none, []) o (E.M.refs f).declId .unset (ofSlot ((w o).slots id.toNat)) .nil (-1)

/-- `basicEObjectList.inverseAdd` (ecore/basiceobjectlist.go 121-131) -/
def listInverseAddN (E : Env) (s : State) (o f e : Nat) : Option State :=
  match (E.M.refs f).opposite with
  | some f' => inverseAddN E s e o (E.M.refs f').declId
  | none => if (E.M.refs f).containment then inverseAddN E s e o (-1 - (E.M.refs f).declId) else some s

/-- `basicEObjectList.inverseRemove` (ecore/basiceobjectlist.go 133-143) -/
def listInverseRemoveN (E : Env) (s : State) (o f e : Nat) : Option State :=
  match (E.M.refs f).opposite with
  | some f' => inverseRemoveN E s e o (E.M.refs f').declId
  | none => if (E.M.refs f).containment then inverseRemoveN E s e o (-1 - (E.M.refs f).declId) else some s

/-- the loops over the added objects -/
def listInverseAddsN (E : Env) (o f : Nat) : State → List Nat → Option State
  | s, [] => some s
  | s, e :: es => (listInverseAddN E s o f e).bind (listInverseAddsN E o f · es)

/-- the loops over the removed objects -/
def listInverseRemovesN (E : Env) (o f : Nat) : State → List Nat → Option State
  | s, [] => some s
  | s, e :: es => (listInverseRemoveN E s o f e).bind (listInverseRemovesN E o f · es)

/-- the positions of the objects that are removed (ecore/basicenotifyinglist.go 302-319) -/
def positions (c : List Nat) : Nat → List Nat → List Int
  | _, [] => []
  | i, x :: xs => if x ∈ c then (i : Int) :: positions c (i + 1) xs else positions c (i + 1) xs

/-- the end of `doInsertAll` (ecore/basicenotifyinglist.go 205-211) -/
def noteAdded (E : Env) (s : State) (o f i : Nat) : List Nat → Option State
  | [] => some s
  | [e] => note E s o (E.M.refs f).declId .add .nil (.elem e) i
  | es => note E s o (E.M.refs f).declId .addMany .nil (.elems es) i

/-- the end of `doRemoveRange` and `doRemoveAll` (ecore/basicenotifyinglist.go 276-288, 333-340) -/
def noteRemoved (E : Env) (s : State) (o f : Nat) : List Nat → List Int → Option State
  | [e], [i] => note E s o (E.M.refs f).declId .remove (.elem e) .nil i
  | es, i :: is => note E s o (E.M.refs f).declId .removeMany (.elems es) (.ints (i :: is)) i
  | _, _ => some s

/-- A call on the list `EGet(f)` of `o`, as `listOp` of Verif/Model/Graph.lean, with the notifications of
ecore/basicenotifyinglist.go 175-347. -/
def listOpN (E : Env) (w : World) (o f : Nat) (op : LOp) : Option State :=
  let id := E.M.featureID (w o).cls f
  if id < 0 then none
  else
    let data := ((w o).slots id.toNat).data
    let put : List Nat → State := fun l => (setSlot w o id.toNat (.list l), [])
    match op with
    | .add e =>
      if e ∈ data then some (put data)
      else (listInverseAddsN E o f (put (data ++ [e])) [e]).bind fun s => noteAdded E s o f data.length [e]
    | .addAll c =>
      let c' := EList.getNonDuplicates .snapshot data c
      (listInverseAddsN E o f (put (data ++ c')) c').bind fun s => noteAdded E s o f data.length c'
    | .insert i e =>
      if i > data.length then none
      else if e ∈ data then some (put data)
      else (listInverseAddsN E o f (put (data.take i ++ [e] ++ data.drop i)) [e]).bind fun s => noteAdded E s o f i [e]
    | .insertAll i c =>
      if i > data.length then none
      else
        let c' := EList.getNonDuplicates .snapshot data c
        (listInverseAddsN E o f (put (data.take i ++ c' ++ data.drop i)) c').bind fun s => noteAdded E s o f i c'
    | .set i e =>
      match data[i]? with
      | none => none
      | some old =>
        if e ∈ data ∧ data.idxOf e ≠ i then none
        else if e = old then some (put data)
        else do
          let s1 ← listInverseRemovesN E o f (put (data.set i e)) [old]
          let s2 ← listInverseAddsN E o f s1 [e]
          note E s2 o (E.M.refs f).declId .set (.elem old) (.elem e) i
    | .removeAt i =>
      match data[i]? with
      | none => none
      | some old =>
        (listInverseRemovesN E o f (put (data.eraseIdx i)) [old]).bind fun s => noteRemoved E s o f [old] [(i : Int)]
    | .remove e =>
      if e ∈ data then
        (listInverseRemovesN E o f (put (data.erase e)) [e]).bind fun s => noteRemoved E s o f [e] [(data.idxOf e : Int)]
      else some (put data)
    | .removeRange i j =>
      if i ≥ data.length ∨ j > data.length ∨ i > j then none
      else
        let es := (data.take j).drop i
        (listInverseRemovesN E o f (put (data.take i ++ data.drop j)) es).bind fun s =>
          noteRemoved E s o f es ((List.range' i es.length).map Int.ofNat)
    | .removeAll c =>
      let es := data.filter (· ∈ c)
      (listInverseRemovesN E o f (put (data.filter (· ∉ c))) es).bind fun s => noteRemoved E s o f es (positions c 0 data)
    | .clear =>
      (listInverseRemovesN E o f (put []) data).bind fun s =>
        match data with
        | [e] => note E s o (E.M.refs f).declId .remove (.elem e) .nil 0
        | es => note E s o (E.M.refs f).declId .removeMany (.elems es) .nil (-1)
    | .move i j =>
      match data[i]? with
      | none => none
      | some e =>
        if j < data.length then
          note E (put ((data.eraseIdx i).insertIdx j e)) o (E.M.refs f).declId .move (.int i) (.elem e) j
        else none

/-- A call: the objects after it and the notifications it dispatches, in order. -/
def stepN (E : Env) (w : World) (op : Op) : Option State :=
  (match op with
    | .set o f v => eSetN E w o f v
    | .unset o f => eUnsetN E w o f
    | .list o f op => listOpN E w o f op).map fun (s : State) => (s.1, chainDispatch s.2)

/-- Calls: the objects after them and all the notifications dispatched. -/
def runN (E : Env) (w : World) : List Op → Option State
  | [] => some (w, [])
  | op :: ops => do
    let s ← stepN E w op
    let t ← runN E s.1 ops
    some (t.1, s.2 ++ t.2)

end Verif.GraphNotes
