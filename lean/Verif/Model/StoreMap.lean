import Verif.Model.EMap
import Verif.Model.StoreList

/-!
# Maps of objects with a store

`EStoreMap` (ecore/estoremap.go): a map, its entries being in a list backed by a store (ecore/estorelist.go, see
`StoreList`), with the Go map built at the first lookup and kept up to date by the callbacks of the list
(ecore/basicemap.go, see `EMap`).

Entries are natural numbers (their identity); `heap` gives their keys and values.  A store gives back the entries it was
given.  The mutex of the list is there only as the flag `locked`, set when a call panics and does not release it.  Left out:
notifications and inverse references, proxies (entries are contained), the cache of the entries themselves.
-/

namespace Verif.StoreMap

open Verif.EList (CB Op)
open Verif.EMap (MOp mapPut)

variable {K V : Type} [DecidableEq K]

/-- `unique`: the feature is unique (ecore/estorelist.go 43), `provider`: the entries made by the factory of the package of
the entry class can be told to have a cache (ecore/estoremap.go 86); `iter`: the iterator of the hash set (see
`EList.SetIter`) -/
structure Cfg where
  unique : Bool
  iter : EList.SetIter
  provider : Bool

/-- the list of the map (entries are never proxies) -/
def Cfg.list (cfg : Cfg) : StoreList.Cfg Nat := ⟨cfg.unique, cfg.iter, id⟩

/-- ecore/estoremap.go 45-48, ecore/basiceobjectmap.go 11-14, ecore/basicemap.go 14-19, and the entries of the program -/
structure St (K V : Type) where
  list : StoreList.St Nat
  heap : Nat → K × V
  next : Nat
  mapData : Option (K → Option V)
  locked : Bool

/-- `NewEStoreMap` (ecore/estoremap.go 50-56); the store has the entries `store`, `next` is the number of entries of the
program -/
def init (store : Option (List Nat)) (heap : Nat → K × V) (next : Nat) : St K V :=
  ⟨StoreList.init store, heap, next, none, false⟩

/-! ### Callbacks of the list -/

/-- `performAdd` (ecore/estorelist.go 186-207): with data, those of `BasicEList` (ecore/basicelist.go 64-71) -/
def addEvents (s : StoreList.St Nat) (e : Nat) : List (CB Nat) :=
  match s.data, s.store with
  | some d, _ => (EList.doAdd d e).trace
  | none, some _ => [.didAdd s.size.toNat e, .didChange]
  | none, none => []

/-- `performInsert` (ecore/estorelist.go 209-228) -/
def insertEvents (s : StoreList.St Nat) (index : Int) (e : Nat) : List (CB Nat) :=
  match s.data, s.store with
  | some d, _ => (EList.doInsert d index e).trace
  | none, some l => if (StoreList.storeAdd l index e).isSome then [.didAdd index.toNat e, .didChange] else []
  | none, none => []

/-- `performInsertAll` (ecore/estorelist.go 230-255) -/
def insertAllEvents (s : StoreList.St Nat) (index : Int) (c : List Nat) : List (CB Nat) :=
  match s.data, s.store with
  | some d, _ => (EList.doInsertAll d index c).trace
  | none, some l => if (StoreList.storeAddAll l index c).isSome then EList.didInserts index.toNat c else []
  | none, none => []

/-- `performClear` (ecore/estorelist.go 257-282) -/
def clearEvents (s : StoreList.St Nat) : List (CB Nat) :=
  match s.data, s.store with
  | some d, _ => (EList.doClear d).trace
  | none, some l => [.didClear l]
  | none, none => []

/-- `performRemove` (ecore/estorelist.go 285-310) -/
def removeEvents (s : StoreList.St Nat) (index : Int) : List (CB Nat) :=
  match s.data, s.store with
  | some d, _ => (EList.doRemove d index).trace
  | none, some l =>
    match StoreList.storeRemove l index with
    | some (_, v) => [.didRemove index.toNat v, .didChange]
    | none => []
  | none, none => []

/-- `performRemoveRange` with data (ecore/estorelist.go 317-319) -/
def removeRangeEvents (s : StoreList.St Nat) (f t : Int) : List (CB Nat) :=
  match s.data with
  | some d => (EList.doRemoveRange d f t).1.trace
  | none => []

/-- `performSet` (ecore/estorelist.go 342-363) -/
def setEvents (s : StoreList.St Nat) (index : Int) (e : Nat) : List (CB Nat) :=
  match s.data, s.store with
  | some d, _ => (EList.doSet d index e).trace
  | none, some l =>
    match StoreList.storeSet l index e with
    | some (_, v) => [.didSet index.toNat e v, .didChange]
    | none => []
  | none, none => []

/-- `performMove` (ecore/estorelist.go 365-383) -/
def moveEvents (s : StoreList.St Nat) (spare : List Nat) (o n : Int) : List (CB Nat) :=
  match s.data, s.store with
  | some d, _ => (EList.doMove d spare o n).trace
  | none, some l =>
    match StoreList.storeMove l o n with
    | some (_, v) => [.didMove n.toNat v o.toNat, .didChange]
    | none => []
  | none, none => []

/-- `doInsertAll` (ecore/basicenotifyinglist.go 199-218) -/
def doInsertAllEvents (s : StoreList.St Nat) (index : Int) (c : List Nat) : List (CB Nat) :=
  if c = [] then [] else insertAllEvents s index c

/-- the removals of `RemoveAll` (ecore/basicenotifyinglist.go 335-338) -/
def removeEachEvents (s : StoreList.St Nat) : List Nat → List (CB Nat)
  | [] => []
  | i :: is => removeEvents s i ++ removeEachEvents (StoreList.performRemove s i).1 is

/-- The callbacks of a call of the list API: the checks of ecore/abstractelist.go 78-216 and
ecore/basicenotifyinglist.go 301-365 come before. -/
def events (cfg : StoreList.Cfg Nat) (s : StoreList.St Nat) : Op Nat → List (CB Nat)
  | .add e => if cfg.unique && (StoreList.contains cfg s e).2 then [] else addEvents s e
  | .addAll c =>
    if cfg.unique then doInsertAllEvents s s.size (StoreList.getNonDuplicates cfg s c).2
    else doInsertAllEvents s s.size c
  | .insert i e =>
    if i < 0 ∨ i > s.size then []
    else if cfg.unique && (StoreList.contains cfg s e).2 then [] else insertEvents s i e
  | .insertAll i c =>
    if i < 0 ∨ i > s.size then []
    else if cfg.unique then doInsertAllEvents s i (StoreList.getNonDuplicates cfg s c).2
    else doInsertAllEvents s i c
  | .move spare o n => if o < 0 ∨ o ≥ s.size ∨ n < 0 ∨ n > s.size then [] else moveEvents s spare o n
  | .moveObject spare n e =>
    let o := (StoreList.indexOf cfg s e).2
    if o = -1 then [] else moveEvents s spare o n
  | .removeAt i => if i < 0 ∨ i ≥ s.size then [] else removeEvents s i
  | .remove e =>
    let i := (StoreList.indexOf cfg s e).2
    if i = -1 then [] else removeEvents s i
  | .removeRange f t =>
    if f < 0 ∨ f ≥ s.size then [] else if t < 0 ∨ t > s.size then [] else if f > t then []
    else removeRangeEvents s f t
  | .removeAll c =>
    match StoreList.removePositions cfg c 0 s.size.toNat s with
    | (s', some ps) => removeEachEvents s' ps
    | (_, none) => []
  | .set i e =>
    if i < 0 ∨ i ≥ s.size then []
    else
      let j := if cfg.unique then (StoreList.indexOf cfg s e).2 else -1
      if j ≥ 0 ∧ j ≠ i then [] else setEvents s i e
  | .clear => clearEvents s

/-- `RemoveRange` of at least one entry, without data: after the first removal from the store `DidRemove` is given the slice
of the removed entries in place of the entry (ecore/estorelist.go 325-328), and the type assertion of
ecore/estoremap.go 32 panics before the mutex is released and the size updated. -/
def rangePanics (s : StoreList.St Nat) : Op Nat → Option (List Nat)
  | .removeRange f t =>
    match s.data, s.store with
    | none, some l =>
      if 0 ≤ f ∧ f < t ∧ f < s.size ∧ t ≤ s.size then (StoreList.storeRemove l f).map (·.1) else none
    | _, _ => none
  | _ => none

/-- What the caller gets. -/
inductive Out (V : Type) where
  | unit
  | val (v : V)
  | bool (b : Bool)
  | opt (v : Option V)
  | list (r : StoreList.Out Nat)
  | panic
  | hang
deriving DecidableEq, Repr

/-- A call of the list API on the entries. -/
def listStep (cfg : Cfg) (s : St K V) (op : Op Nat) : St K V × StoreList.Out Nat :=
  match rangePanics s.list op with
  | some l => ({ s with list := { s.list with store := some l }, locked := true }, .panic)
  | none =>
    let r := StoreList.step cfg.list s.list (.op op)
    ({ s with list := r.1, mapData := (events cfg.list s.list op).foldl (EMap.callback s.heap) s.mapData }, r.2)

/-- the entries, as `All`, `Iterator` and `ToArray` give them (ecore/estorelist.go 430-471) -/
def ids (cfg : Cfg) (s : St K V) : List Nat := (StoreList.elements cfg.list s.list).2

/-- the keys and values read by iterating over the map -/
def entries (cfg : Cfg) (s : St K V) : List (K × V) := (ids cfg s).map s.heap

/-- ecore/basicemap.go 71-79 -/
def getEntryForKey (cfg : Cfg) (s : St K V) (k : K) : Option Nat := (ids cfg s).find? fun i => (s.heap i).1 = k

/-- ecore/basicemap.go 159-167: the state afterwards and the map -/
def initDataMap (cfg : Cfg) (s : St K V) : St K V × (K → Option V) :=
  match s.mapData with
  | some m => (s, m)
  | none => let m := EMap.build s.heap (ids cfg s) (fun _ => none); ({ s with mapData := some m }, m)

/-- The call needs the mutex of the list. -/
def needsList (s : St K V) : MOp K V → Bool
  | .getValue _ | .containsKey _ | .toMapAt _ => s.mapData.isNone
  | .newEntry _ _ | .entrySetValue _ _ => false
  | _ => true

/-- A call of the map (see `EMap.mstep` for the lines of ecore/basicemap.go). `newEntry` is ecore/estoremap.go 83-91. -/
def mapStep [Inhabited V] (cfg : Cfg) (s : St K V) : MOp K V → St K V × Out V
  | .put k v =>
    match getEntryForKey cfg s k with
    | some i =>
      ({ s with heap := EMap.setValue s.heap i v, mapData := s.mapData.map fun m => mapPut m k v }, .unit)
    | none =>
      if cfg.provider then
        let i := s.next
        let s1 := { s with heap := fun j => if j = i then (k, v) else s.heap j, next := s.next + 1 }
        let r := listStep cfg s1 (.add i)
        (r.1, if r.2 = .panic then .panic else .unit)
      else (s, .panic)
  | .removeKey k =>
    match getEntryForKey cfg s k with
    | some i =>
      let r := listStep cfg s (.remove i)
      (r.1, if r.2 = .panic then .panic else .val (r.1.heap i).2)
    | none => (s, .val default)
  | .clear => ((listStep cfg s .clear).1, .unit)
  | .getValue k => let r := initDataMap cfg s; (r.1, .val ((r.2 k).getD default))
  | .containsKey k => let r := initDataMap cfg s; (r.1, .bool (r.2 k).isSome)
  | .toMapAt k => let r := initDataMap cfg s; (r.1, .opt (r.2 k))
  | .newEntry k v =>
    ({ s with heap := fun j => if j = s.next then (k, v) else s.heap j, next := s.next + 1 }, .unit)
  | .list op => let r := listStep cfg s op; (r.1, .list r.2)
  | .entrySetValue i v => ({ s with heap := EMap.setValue s.heap i v }, .unit)

/-- Calls of a user: those of a map, `ContainsValue`, `SetCache`, `SetEStore` with a store that has the given entries, and
`m.ToMap()[k] = v`. -/
inductive Call (K V : Type) where
  | map (op : MOp K V)
  | containsValue (v : V)
  | setCache (b : Bool)
  | setStore (store : Option (List Nat))
  | writeToMap (k : K) (v : V)
deriving DecidableEq, Repr

/-- One call. `ContainsValue`: ecore/basicemap.go 134-142; `SetCache`: ecore/estoremap.go 69-75; `SetEStore`:
ecore/estoremap.go 62-66; `ToMap` gives the Go map itself (ecore/basicemap.go 152-157). -/
def step [Inhabited V] [DecidableEq V] (cfg : Cfg) (s : St K V) : Call K V → St K V × Out V
  | .map op => if s.locked && needsList s op then (s, .hang) else mapStep cfg s op
  | .containsValue v => if s.locked then (s, .hang) else (s, .bool ((entries cfg s).any fun e => e.2 = v))
  | .setCache b =>
    if s.locked then ({ s with mapData := none }, .hang)
    else ({ s with mapData := none, list := StoreList.setCache s.list b }, .unit)
  | .setStore st => if s.locked then (s, .hang) else ({ s with list := StoreList.setStore s.list st }, .unit)
  | .writeToMap k v =>
    if s.locked && s.mapData.isNone then (s, .hang)
    else let r := initDataMap cfg s; ({ r.1 with mapData := some (mapPut r.2 k v) }, .unit)

/-- the state after a sequence of calls, and the results -/
def run [Inhabited V] [DecidableEq V] (cfg : Cfg) : St K V → List (Call K V) → St K V × List (Out V)
  | s, [] => (s, [])
  | s, c :: cs =>
    let r := step cfg s c
    let q := run cfg r.1 cs
    (q.1, r.2 :: q.2)

end Verif.StoreMap
