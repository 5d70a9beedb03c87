import Verif.Model.EList
/-
Model of `BasicEMap` (ecore/basicemap.go): a unique list of entry objects with a map built lazily at the first
lookup and kept up to date by the callbacks of the list.

Entry objects are natural numbers (their identity); `heap` gives their key and value. `default : V` is the Go
value nil. The mutex is not modelled (the calls are sequential here).
-/
namespace Verif.EMap
open Verif.EList

variable {K V : Type} [DecidableEq K]

/-- ecore/basicemap.go:14-19 (`ids` is the embedded list) with the entry objects of the program. -/
structure St (K V : Type) where
  ids : List Nat
  heap : Nat → K × V
  next : Nat
  cache : Option (K → Option V)

/-- `m[k] = v` on a Go map. -/
def mapPut (m : K → Option V) (k : K) (v : V) : K → Option V := fun x => if x = k then some v else m x

/-- `delete(m, k)` on a Go map. -/
def mapDelete (m : K → Option V) (k : K) : K → Option V := fun x => if x = k then none else m x

/-- ecore/basicemap.go:169-175. -/
def doAdd (heap : Nat → K × V) (i : Nat) (cache : Option (K → Option V)) : Option (K → Option V) :=
  cache.map fun m => mapPut m (heap i).1 (heap i).2

/-- ecore/basicemap.go:177-181 (`delete` on a nil map does nothing). -/
def doRemove (heap : Nat → K × V) (i : Nat) (cache : Option (K → Option V)) : Option (K → Option V) :=
  cache.map fun m => mapDelete m (heap i).1

/-- ecore/basicemap.go:39-58 and 183-187: the callbacks overridden by `basicEMapList`. -/
def callback (heap : Nat → K × V) (cache : Option (K → Option V)) : CB Nat → Option (K → Option V)
  | .didAdd _ e => doAdd heap e cache
  | .didSet _ e o => doAdd heap e (doRemove heap o cache)
  | .didRemove _ o => doRemove heap o cache
  | .didClear _ => none
  | .didMove _ _ _ => cache
  | .didChange => cache

/-- A call of the list API on the entries (the list is unique: ecore/basicemap.go:30-37). -/
def listStep (it : SetIter) (s : St K V) (op : Op Nat) : St K V × Ret Nat :=
  let r := step ⟨true, it⟩ s.ids op
  ({ s with ids := r.data, cache := r.trace.foldl (callback s.heap) s.cache }, r.ret)

/-- ecore/basicemap.go:71-79. -/
def getEntryForKey (s : St K V) (k : K) : Option Nat := s.ids.find? fun i => (s.heap i).1 = k

/-- The loop of ecore/basicemap.go:162-165. -/
def build (heap : Nat → K × V) (ids : List Nat) (m : K → Option V) : K → Option V :=
  ids.foldl (fun m i => mapPut m (heap i).1 (heap i).2) m

/-- ecore/basicemap.go:159-167: the state afterwards and the map. -/
def initDataMap (s : St K V) : St K V × (K → Option V) :=
  match s.cache with
  | some m => (s, m)
  | none => let m := build s.heap s.ids (fun _ => none); ({ s with cache := some m }, m)

/-- `entry.SetValue(v)` (ecore/basicemap.go:118-120). -/
def setValue (heap : Nat → K × V) (i : Nat) (v : V) : Nat → K × V :=
  fun j => if j = i then ((heap i).1, v) else heap j

/-- What the caller gets. -/
inductive Ans (V : Type) where
  | unit
  | val (v : V)
  | bool (b : Bool)
  | opt (v : Option V)
  | list (r : Ret Nat)
  deriving DecidableEq, Repr

/-- Calls: the map API, the list API on the entries, creation of an entry object outside the map, and
`SetValue` directly on an entry. -/
inductive MOp (K V : Type) where
  | put (k : K) (v : V)
  | removeKey (k : K)
  | clear
  | getValue (k : K)
  | containsKey (k : K)
  | toMapAt (k : K)
  | newEntry (k : K) (v : V)
  | list (op : Op Nat)
  | entrySetValue (i : Nat) (v : V)
  deriving DecidableEq, Repr

/-- One call. `put`: ecore/basicemap.go:88-99 and 122-124; `removeKey`: 126-132; `clear`: the list's Clear; `getValue`:
81-86; `containsKey`: 144-150; `toMapAt k`: `v, ok := m.ToMap()[k]`, 152-157. -/
def mstep [Inhabited V] (it : SetIter) (s : St K V) : MOp K V → St K V × Ans V
  | .put k v =>
    match getEntryForKey s k with
    | some i =>
      ({ s with heap := setValue s.heap i v, cache := s.cache.map fun m => mapPut m k v }, .unit)
    | none =>
      let i := s.next
      let s1 := { s with heap := fun j => if j = i then (k, v) else s.heap j, next := s.next + 1 }
      ((listStep it s1 (.add i)).1, .unit)
  | .removeKey k =>
    match getEntryForKey s k with
    | some i => let s1 := (listStep it s (.remove i)).1; (s1, .val (s1.heap i).2)
    | none => (s, .val default)
  | .clear => ((listStep it s .clear).1, .unit)
  | .getValue k => let (s1, m) := initDataMap s; (s1, .val ((m k).getD default))
  | .containsKey k => let (s1, m) := initDataMap s; (s1, .bool (m k).isSome)
  | .toMapAt k => let (s1, m) := initDataMap s; (s1, .opt (m k))
  | .newEntry k v =>
    ({ s with heap := fun j => if j = s.next then (k, v) else s.heap j, next := s.next + 1 }, .unit)
  | .list op => let (s1, r) := listStep it s op; (s1, .list r)
  | .entrySetValue i v => ({ s with heap := setValue s.heap i v }, .unit)

/-- `NewBasicEMap` (ecore/basicemap.go:60-65) in a program without entry objects. -/
def init [Inhabited K] [Inhabited V] : St K V := ⟨[], fun _ => (default, default), 0, none⟩

/-- State after a sequence of calls. -/
def mrun [Inhabited V] (it : SetIter) (s : St K V) : List (MOp K V) → St K V
  | [] => s
  | op :: ops => mrun it (mstep it s op).1 ops

/-- Answers of a sequence of calls. -/
def manswers [Inhabited V] (it : SetIter) (s : St K V) : List (MOp K V) → List (Ans V)
  | [] => []
  | op :: ops => (mstep it s op).2 :: manswers it (mstep it s op).1 ops

/-- The entries, as read by iterating over the map. -/
def entries (s : St K V) : List (K × V) := s.ids.map s.heap

/-- ecore/basicemap.go:134-142. -/
def containsValue [DecidableEq V] (s : St K V) (v : V) : Bool := (entries s).any fun e => e.2 = v

end Verif.EMap
