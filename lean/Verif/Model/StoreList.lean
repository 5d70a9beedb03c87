import Verif.Model.EList

/-!
# Lists backed by a store

`EStoreList` (ecore/estorelist.go) with `AbstractEList` and `BasicENotifyingList` below it (ecore/abstractelist.go,
ecore/basicelist.go, ecore/basicenotifyinglist.go).

The store behaves as a sequence: `Add`, `Remove`, `Set`, `Move` insert, remove, replace and move elements, and panic when an
index is out of range; `ToArray` gives a copy.  Resolution of proxies is a function of the element (the identity when the
feature does not resolve proxies).

Left out: the mutex, callbacks, notifications and inverse references (see C06, C07, C19), the cache of the elements
themselves, arrays shared with callers.
-/

namespace Verif.StoreList

open Verif.EList (Res Ret SetIter Op)

variable {α : Type}

/-- `isUnique`; the iterator of the hash set (see `EList.SetIter`); the object a proxy stands for, itself for other objects
(ecore/estorelist.go 423-428) -/
structure Cfg (α : Type) where
  unique : Bool
  iter : SetIter
  resolve : α → α

/-- ecore/estorelist.go 19-33: `store` has the elements of the store, `data` is `nil` or the cache -/
structure St (α : Type) where
  store : Option (List α)
  data : Option (List α)
  cache : Bool
  size : Int
deriving DecidableEq, Repr

/-- `Initialize` (ecore/estorelist.go 42-55) -/
def init (store : Option (List α)) : St α :=
  match store with
  | some l => ⟨some l, none, false, l.length⟩
  | none => ⟨none, some [], false, 0⟩

/-- results, a panic being a value -/
inductive Out (α : Type) where
  | panic
  | unit
  | bool (b : Bool)
  | int (i : Int)
  | val (a : α)
  | list (l : List α)
deriving DecidableEq, Repr

/-! ### The store -/

def storeAdd (l : List α) (i : Int) (e : α) : Option (List α) :=
  if 0 ≤ i ∧ i ≤ (l.length : Int) then some (l.take i.toNat ++ e :: l.drop i.toNat) else none

def storeAddAll (l : List α) (i : Int) (c : List α) : Option (List α) :=
  if 0 ≤ i ∧ i ≤ (l.length : Int) then some (l.take i.toNat ++ c ++ l.drop i.toNat) else none

def storeRemove (l : List α) (i : Int) : Option (List α × α) :=
  if 0 ≤ i then l[i.toNat]?.map fun e => (l.eraseIdx i.toNat, e) else none

def storeSet (l : List α) (i : Int) (e : α) : Option (List α × α) :=
  if 0 ≤ i then l[i.toNat]?.map fun old => (l.set i.toNat e, old) else none

def storeMove (l : List α) (o n : Int) : Option (List α × α) :=
  if 0 ≤ o ∧ 0 ≤ n ∧ n < (l.length : Int) then
    l[o.toNat]?.map fun e => (((l.eraseIdx o.toNat).take n.toNat ++ e :: (l.eraseIdx o.toNat).drop n.toNat), e)
  else none

def storeGet (l : List α) (i : Int) : Option α := if 0 ≤ i then l[i.toNat]? else none

/-! ### The cache and the store; `none` is a panic -/

/-- the call on the data, when there are data -/
def onData (s : St α) (f : List α → Res α) : St α × Bool :=
  match s.data with
  | none => (s, true)
  | some d => ({ s with data := some (f d).data }, match (f d).ret with | .panic => false | _ => true)

/-- `performAdd` (ecore/estorelist.go 186-207) -/
def performAdd (s : St α) (e : α) : St α × Option Unit :=
  let index := s.size
  match onData s (EList.doAdd · e) with
  | (s1, false) => (s1, none)
  | (s1, true) =>
    match s1.store with
    | none => ({ s1 with size := s1.size + 1 }, some ())
    | some l =>
      match storeAdd l index e with
      | none => (s1, none)
      | some l' => ({ s1 with store := some l', size := s1.size + 1 }, some ())

/-- `performInsert` (ecore/estorelist.go 209-228) -/
def performInsert [Inhabited α] (s : St α) (index : Int) (e : α) : St α × Option Unit :=
  match onData s (EList.doInsert · index e) with
  | (s1, false) => (s1, none)
  | (s1, true) =>
    match s1.store with
    | none => ({ s1 with size := s1.size + 1 }, some ())
    | some l =>
      match storeAdd l index e with
      | none => (s1, none)
      | some l' => ({ s1 with store := some l', size := s1.size + 1 }, some ())

/-- `performInsertAll` (ecore/estorelist.go 230-255); the collection is not empty -/
def performInsertAll (s : St α) (index : Int) (c : List α) : St α × Option Unit :=
  match onData s (EList.doInsertAll · index c) with
  | (s1, false) => (s1, none)
  | (s1, true) =>
    match s1.store with
    | none => ({ s1 with size := s1.size + c.length }, some ())
    | some l =>
      match storeAddAll l index c with
      | none => (s1, none)
      | some l' => ({ s1 with store := some l', size := s1.size + c.length }, some ())

/-- `performClear` (ecore/estorelist.go 257-282) -/
def performClear (s : St α) : St α :=
  { s with data := s.data.map fun _ => [], store := s.store.map fun _ => [], size := 0 }

/-- the value a call on the data returns -/
def Ret.val? : Ret α → Option α
  | .val a => some a
  | _ => none

/-- `performRemove` (ecore/estorelist.go 285-310) -/
def performRemove (s : St α) (index : Int) : St α × Option α :=
  match s.data with
  | some d =>
    let r := EList.doRemove d index
    match Ret.val? r.ret with
    | none => ({ s with data := some r.data }, none)
    | some v =>
      match s.store with
      | none => ({ s with data := some r.data, size := s.size - 1 }, some v)
      | some l =>
        match storeRemove l index with
        | none => ({ s with data := some r.data }, none)
        | some (l', _) => ({ s with data := some r.data, store := some l', size := s.size - 1 }, some v)
  | none =>
    match s.store with
    | none => ({ s with size := s.size - 1 }, none)
    | some l =>
      match storeRemove l index with
      | none => (s, none)
      | some (l', v) => ({ s with store := some l', size := s.size - 1 }, some v)

/-- the loops of `performRemoveRange`: the element at `fromIndex` is removed `n` times -/
def storeRemoveN (l : List α) (fromIndex : Int) : Nat → List α × Option (List α)
  | 0 => (l, some [])
  | n + 1 =>
    match storeRemove l fromIndex with
    | none => (l, none)
    | some (l', v) =>
      let r := storeRemoveN l' fromIndex n
      (r.1, r.2.map (v :: ·))

/-- `performRemoveRange` (ecore/estorelist.go 312-340) -/
def performRemoveRange (s : St α) (fromIndex toIndex : Int) : St α × Option (List α) :=
  match s.data with
  | some d =>
    let r := EList.doRemoveRange d fromIndex toIndex
    match r.1.ret with
    | .panic => ({ s with data := some r.1.data }, none)
    | _ =>
      match s.store with
      | none => ({ s with data := some r.1.data, size := s.size - r.2.length }, some r.2)
      | some l =>
        let q := storeRemoveN l fromIndex (toIndex - fromIndex).toNat
        match q.2 with
        | none => ({ s with data := some r.1.data, store := some q.1 }, none)
        | some _ => ({ s with data := some r.1.data, store := some q.1, size := s.size - r.2.length }, some r.2)
  | none =>
    match s.store with
    | none => (s, some [])
    | some l =>
      let q := storeRemoveN l fromIndex (toIndex - fromIndex).toNat
      match q.2 with
      | none => ({ s with store := some q.1 }, none)
      | some removed => ({ s with store := some q.1, size := s.size - removed.length }, some removed)

/-- `performSet` (ecore/estorelist.go 342-363) -/
def performSet (s : St α) (index : Int) (e : α) : St α × Option α :=
  match s.data with
  | some d =>
    let r := EList.doSet d index e
    match Ret.val? r.ret with
    | none => ({ s with data := some r.data }, none)
    | some v =>
      match s.store with
      | none => ({ s with data := some r.data }, some v)
      | some l =>
        match storeSet l index e with
        | none => ({ s with data := some r.data }, none)
        | some (l', _) => ({ s with data := some r.data, store := some l' }, some v)
  | none =>
    match s.store with
    | none => (s, none)
    | some l =>
      match storeSet l index e with
      | none => (s, none)
      | some (l', v) => ({ s with store := some l' }, some v)

/-- `performMove` (ecore/estorelist.go 365-383); `spare` is the spare capacity of the data (see `EList.doMove`) -/
def performMove (s : St α) (spare : List α) (o n : Int) : St α × Option α :=
  match s.data with
  | some d =>
    let r := EList.doMove d spare o n
    match Ret.val? r.ret with
    | none => ({ s with data := some r.data }, none)
    | some v =>
      match s.store with
      | none => ({ s with data := some r.data }, some v)
      | some l =>
        match storeMove l o n with
        | none => ({ s with data := some r.data }, none)
        | some (l', _) => ({ s with data := some r.data, store := some l' }, some v)
  | none =>
    match s.store with
    | none => (s, none)
    | some l =>
      match storeMove l o n with
      | none => (s, none)
      | some (l', v) => ({ s with store := some l' }, some v)

/-! ### Queries: with a cache, proxies are replaced when they are read -/

/-- `doGet`, `get` and `resolve` (ecore/estorelist.go 385-421): the value, and the cache is updated -/
def doGet (cfg : Cfg α) (s : St α) (index : Int) : St α × Option α :=
  match s.data with
  | some d =>
    match storeGet d index with
    | none => (s, none)
    | some v => ({ s with data := some (d.set index.toNat (cfg.resolve v)) }, some (cfg.resolve v))
  | none =>
    match s.store with
    | none => (s, none)
    | some l => (s, (storeGet l index).map cfg.resolve)

section
variable [DecidableEq α]

/-- the loop of `IndexOf` over the data (ecore/estorelist.go 488-493): the data afterwards, and the index -/
def indexOfData (cfg : Cfg α) (e : α) : Nat → List α → List α × Int
  | _, [] => ([], -1)
  | i, v :: vs =>
    if v = e then (v :: vs, i)
    else if cfg.resolve v = e then (cfg.resolve v :: vs, i)
    else
      let r := indexOfData cfg e (i + 1) vs
      (cfg.resolve v :: r.1, r.2)

/-- `IndexOf` (ecore/estorelist.go 485-510) -/
def indexOf (cfg : Cfg α) (s : St α) (e : α) : St α × Int :=
  match s.data with
  | some d => let r := indexOfData cfg e 0 d; ({ s with data := some r.1 }, r.2)
  | none =>
    match s.store with
    | none => (s, -1)
    | some l => (s, if EList.indexOf l e ≥ 0 then EList.indexOf l e else EList.indexOf (l.map cfg.resolve) e)

/-- `Contains` (ecore/estorelist.go 512-532) -/
def contains (cfg : Cfg α) (s : St α) (e : α) : St α × Bool :=
  match s.data with
  | some _ => let r := indexOf cfg s e; (r.1, r.2 != -1)
  | none =>
    match s.store with
    | none => (s, false)
    | some l => (s, decide (e ∈ l) || decide (e ∈ l.map cfg.resolve))

/-- `Iterator`, `All` and `ToArray` (ecore/abstractelist.go 241-243, ecore/estorelist.go 430-471): all proxies are resolved -/
def elements (cfg : Cfg α) (s : St α) : St α × List α :=
  match s.data with
  | some d => ({ s with data := some (d.map cfg.resolve) }, d.map cfg.resolve)
  | none =>
    match s.store with
    | none => (s, [])
    | some l => (s, l.map cfg.resolve)

/-- ecore/abstractelist.go 64-69: elements of the set are removed if the list contains them (see `EList.pruneLive`,
`EList.pruneSnapshot`) -/
def prune (cfg : Cfg α) (s : St α) (idx size : Nat) : List α → St α × List α
  | [] => (s, [])
  | v :: vs =>
    if cfg.iter = .snapshot ∨ idx < size then
      let r := contains cfg s v
      if r.2 then prune cfg r.1 (idx + 1) (size - 1) vs
      else
        let q := prune cfg r.1 (idx + 1) size vs
        (q.1, v :: q.2)
    else (s, v :: vs)

/-- `getNonDuplicates` (ecore/abstractelist.go 51-76) -/
def getNonDuplicates (cfg : Cfg α) (s : St α) (c : List α) : St α × List α :=
  let set := EList.hashSetOf [] c
  if (set.length : Int) ≥ s.size then
    let r := elements cfg s
    (r.1, EList.removeEach set r.2)
  else prune cfg s 0 set.length set

/-! ### The API -/

/-- ecore/abstractelist.go 78-85, ecore/basicenotifyinglist.go 179-185 -/
def add (cfg : Cfg α) (s : St α) (e : α) : St α × Out α :=
  let r := if cfg.unique then contains cfg s e else (s, false)
  if r.2 then (r.1, .bool false)
  else
    match performAdd r.1 e with
    | (s', none) => (s', .panic)
    | (s', some _) => (s', .bool true)

/-- `doInsertAll` (ecore/basicenotifyinglist.go 199-218), the result of which is not used -/
def doInsertAll (s : St α) (index : Int) (c : List α) : St α × Out α :=
  if c = [] then (s, .bool true)
  else
    match performInsertAll s index c with
    | (s', none) => (s', .panic)
    | (s', some _) => (s', .bool true)

/-- ecore/abstractelist.go 87-96, ecore/basicenotifyinglist.go 187-190 -/
def addAll (cfg : Cfg α) (s : St α) (c : List α) : St α × Out α :=
  if cfg.unique then
    let r := getNonDuplicates cfg s c
    if r.2 = [] then (r.1, .bool false) else doInsertAll r.1 r.1.size r.2
  else doInsertAll s s.size c

/-- ecore/abstractelist.go 98-108 -/
def insert [Inhabited α] (cfg : Cfg α) (s : St α) (index : Int) (e : α) : St α × Out α :=
  if index < 0 ∨ index > s.size then (s, .panic)
  else
    let r := if cfg.unique then contains cfg s e else (s, false)
    if r.2 then (r.1, .bool false)
    else
      match performInsert r.1 index e with
      | (s', none) => (s', .panic)
      | (s', some _) => (s', .bool true)

/-- ecore/abstractelist.go 110-123 -/
def insertAll (cfg : Cfg α) (s : St α) (index : Int) (c : List α) : St α × Out α :=
  if index < 0 ∨ index > s.size then (s, .panic)
  else if cfg.unique then
    let r := getNonDuplicates cfg s c
    if r.2 = [] then (r.1, .bool false) else doInsertAll r.1 index r.2
  else doInsertAll s index c

/-- a value or a panic -/
def outVal : Option α → Out α
  | some v => .val v
  | none => .panic

/-- ecore/abstractelist.go 125-132 -/
def moveObject (cfg : Cfg α) (s : St α) (spare : List α) (newIndex : Int) (e : α) : St α × Out α :=
  let r := indexOf cfg s e
  if r.2 = -1 then (r.1, .panic)
  else
    match performMove r.1 spare r.2 newIndex with
    | (s', none) => (s', .panic)
    | (s', some _) => (s', .unit)

/-- ecore/abstractelist.go 135-141 -/
def move (s : St α) (spare : List α) (o n : Int) : St α × Out α :=
  if o < 0 ∨ o ≥ s.size ∨ n < 0 ∨ n > s.size then (s, .panic)
  else
    let r := performMove s spare o n
    (r.1, outVal r.2)

/-- ecore/abstractelist.go 144-150 -/
def removeAt (s : St α) (index : Int) : St α × Out α :=
  if index < 0 ∨ index ≥ s.size then (s, .panic)
  else
    let r := performRemove s index
    (r.1, outVal r.2)

/-- ecore/abstractelist.go 153-161 -/
def remove (cfg : Cfg α) (s : St α) (e : α) : St α × Out α :=
  let r := indexOf cfg s e
  if r.2 = -1 then (r.1, .bool false)
  else
    match performRemove r.1 r.2 with
    | (s', none) => (s', .panic)
    | (s', some _) => (s', .bool true)

/-- ecore/abstractelist.go 163-176 -/
def removeRange (s : St α) (fromIndex toIndex : Int) : St α × Out α :=
  if fromIndex < 0 ∨ fromIndex ≥ s.size then (s, .panic)
  else if toIndex < 0 ∨ toIndex > s.size then (s, .panic)
  else if fromIndex > toIndex then (s, .panic)
  else
    match performRemoveRange s fromIndex toIndex with
    | (s', none) => (s', .panic)
    | (s', some _) => (s', .unit)

/-- the positions that `RemoveAll` removes, in descending order (ecore/basicenotifyinglist.go 318-333) -/
def removePositions (cfg : Cfg α) (c : List α) : Nat → Nat → St α → St α × Option (List Nat)
  | _, 0, s => (s, some [])
  | i, n + 1, s =>
    match doGet cfg s i with
    | (s', none) => (s', none)
    | (s', some v) =>
      let r := removePositions cfg c (i + 1) n s'
      (r.1, r.2.map fun ps => if v ∈ c then ps ++ [i] else ps)

/-- ecore/basicenotifyinglist.go 335-338 -/
def removeEach (s : St α) : List Nat → St α × Bool
  | [] => (s, true)
  | i :: is =>
    match performRemove s i with
    | (s', none) => (s', false)
    | (s', some _) => removeEach s' is

/-- `RemoveAll` (ecore/basicenotifyinglist.go 301-365) -/
def removeAll (cfg : Cfg α) (s : St α) (c : List α) : St α × Out α :=
  if c = [] then (s, .bool false)
  else
    match removePositions cfg c 0 s.size.toNat s with
    | (s', none) => (s', .panic)
    | (s', some ps) =>
      match removeEach s' ps with
      | (s'', false) => (s'', .panic)
      | (s'', true) => (s'', .bool (!ps.isEmpty))

/-- ecore/abstractelist.go 200-212 -/
def set (cfg : Cfg α) (s : St α) (index : Int) (e : α) : St α × Out α :=
  if index < 0 ∨ index ≥ s.size then (s, .panic)
  else
    let r := if cfg.unique then indexOf cfg s e else (s, -1)
    if r.2 ≥ 0 ∧ r.2 ≠ index then (r.1, .panic)
    else
      let q := performSet r.1 index e
      (q.1, outVal q.2)

/-- ecore/abstractelist.go 191-197 -/
def get (cfg : Cfg α) (s : St α) (index : Int) : St α × Out α :=
  if index < 0 ∨ index ≥ s.size then (s, .panic)
  else
    let r := doGet cfg s index
    (r.1, outVal r.2)

/-- `SetCache` (ecore/estorelist.go 140-177) -/
def setCache (s : St α) (cache : Bool) : St α :=
  if s.cache = cache then s
  else if cache then
    match s.store with
    | some l => { s with cache := true, data := some l }
    | none => { s with cache := true, data := some (s.data.getD []) }
  else
    match s.store with
    | some _ => { s with cache := false, data := none }
    | none => { s with cache := false }

/-- `SetEStore` with another store, given by its elements, or `nil` (ecore/estorelist.go 120-137) -/
def setStore (s : St α) (store : Option (List α)) : St α :=
  match store with
  | none =>
    match s.store with
    | none => s
    | some l => { s with store := none, data := if s.cache then s.data else some l }
  | some l => { s with store := some l, data := if s.cache then s.data else none }

/-- the calls of a user -/
inductive Call (α : Type) where
  | op (o : Op α)
  | get (index : Int)
  | indexOf (e : α)
  | contains (e : α)
  | size
  | empty
  | elements
  | setCache (b : Bool)
  | setStore (store : Option (List α))
deriving Repr

/-- one call -/
def step [Inhabited α] (cfg : Cfg α) (s : St α) : Call α → St α × Out α
  | .op (.add e) => add cfg s e
  | .op (.addAll c) => addAll cfg s c
  | .op (.insert i e) => insert cfg s i e
  | .op (.insertAll i c) => insertAll cfg s i c
  | .op (.move spare o n) => move s spare o n
  | .op (.moveObject spare n e) => moveObject cfg s spare n e
  | .op (.removeAt i) => removeAt s i
  | .op (.remove e) => remove cfg s e
  | .op (.removeRange f t) => removeRange s f t
  | .op (.removeAll c) => removeAll cfg s c
  | .op (.set i e) => set cfg s i e
  | .op .clear => (performClear s, .unit)
  | .get i => get cfg s i
  | .indexOf e => let r := indexOf cfg s e; (r.1, .int r.2)
  | .contains e => let r := contains cfg s e; (r.1, .bool r.2)
  | .size => (s, .int s.size)
  | .empty => (s, .bool (s.size == 0))
  | .elements => let r := elements cfg s; (r.1, .list r.2)
  | .setCache b => (setCache s b, .unit)
  | .setStore st => (setStore s st, .unit)

/-- the results of a sequence of calls, and the state -/
def run [Inhabited α] (cfg : Cfg α) : St α → List (Call α) → St α × List (Out α)
  | s, [] => (s, [])
  | s, c :: cs =>
    let r := step cfg s c
    let q := run cfg r.1 cs
    (q.1, r.2 :: q.2)

end

end Verif.StoreList
