/-
Model of `AbstractEList` over `BasicEList` (ecore/abstractelist.go, ecore/basicelist.go),
of the list iterator (ecore/elistiterator.go) and of `BinarySearch` (ecore/elist.go).

The Go element type `any` is an abstract type `α` with decidable equality (Go `==`); `default : α`
stands for the Go value `nil`.
-/
namespace Verif.EList

/-- What a Go call returns, a panic being a value. -/
inductive Ret (α : Type) where
  | panic
  | unit
  | bool (b : Bool)
  | val (a : α)
  deriving DecidableEq, Repr

/-- Callbacks of ecore/basicelist.go:12-24 (`listCallBacks`) in the order in which they are made. -/
inductive CB (α : Type) where
  | didAdd (index : Nat) (elem : α)
  | didSet (index : Nat) (newElem oldElem : α)
  | didRemove (index : Nat) (old : α)
  | didClear (olds : List α)
  | didMove (newIndex : Nat) (moved : α) (oldIndex : Nat)
  | didChange
  deriving DecidableEq, Repr

/-- Result of a mutating call: contents afterwards, returned value, callbacks made. -/
structure Res (α : Type) where
  data : List α
  ret : Ret α
  trace : List (CB α)
  deriving DecidableEq, Repr

variable {α : Type}

/-! ### Go slices -/

/-- Go slice expression `data[lo:hi]` on a slice whose visible part is `data` and whose backing array
holds `spare` behind it (bounds are checked against the capacity, as in Go); `none` is a panic. -/
def goSlice (data spare : List α) (lo hi : Int) : Option (List α) :=
  if 0 ≤ lo ∧ lo ≤ hi ∧ hi ≤ ((data ++ spare).length : Int) then
    some (((data ++ spare).take hi.toNat).drop lo.toNat)
  else none

/-- Go `copy(data[at:], src)` (a memmove: `src` is read before any write); `none` when `data[at:]` panics. -/
def goCopy (data : List α) (start : Int) (src : List α) : Option (List α) :=
  if 0 ≤ start ∧ start ≤ (data.length : Int) then
    let k := start.toNat
    let n := min src.length (data.length - k)
    some (data.take k ++ src.take n ++ data.drop (k + n))
  else none

/-- Go `data[i]`; `none` is a panic. -/
def goIndex (data : List α) (i : Int) : Option α :=
  if 0 ≤ i then data[i.toNat]? else none

/-- Go `data[i] = e`; `none` is a panic. -/
def goAssign (data : List α) (i : Int) (e : α) : Option (List α) :=
  if 0 ≤ i ∧ i < (data.length : Int) then some (data.set i.toNat e) else none

/-! ### BasicEList (the `do...` functions) -/

/-- ecore/basicelist.go:64-71. -/
def doAdd (data : List α) (e : α) : Res α :=
  { data := data ++ [e], ret := .unit, trace := [.didAdd data.length e, .didChange] }

/-- Callbacks `DidAdd(i, element)` for consecutive indexes. -/
def didAdds : Nat → List α → List (CB α)
  | _, [] => []
  | i, e :: es => .didAdd i e :: didAdds (i + 1) es

/-- ecore/basicelist.go:73-83. The callback index really is `i` and not `size+i` (line 79). -/
def doAddAll (data : List α) (c : List α) : Res α :=
  { data := data ++ c, ret := .bool (c.length != 0), trace := didAdds 0 c ++ [.didChange] }

/-- ecore/basicelist.go:85-93: append nil, shift with copy, assign. -/
def doInsert [Inhabited α] (data : List α) (index : Int) (e : α) : Res α :=
  let d1 := data ++ [default]
  match goSlice d1 [] index d1.length with
  | none => ⟨d1, .panic, []⟩
  | some src =>
    match goCopy d1 (index + 1) src with
    | none => ⟨d1, .panic, []⟩
    | some d2 =>
      match goAssign d2 index e with
      | none => ⟨d2, .panic, []⟩
      | some d3 => ⟨d3, .unit, [.didAdd index.toNat e, .didChange]⟩

/-- Callbacks of ecore/basicelist.go:100-103: `DidAdd` and `DidChange` for each element. -/
def didInserts : Nat → List α → List (CB α)
  | _, [] => []
  | i, e :: es => .didAdd i e :: .didChange :: didInserts (i + 1) es

/-- ecore/basicelist.go:95-105. The collection is its snapshot `c`. -/
def doInsertAll (data : List α) (index : Int) (c : List α) : Res α :=
  match goSlice data [] 0 index, goSlice data [] index data.length with
  | some pre, some post =>
    ⟨pre ++ (c ++ post), .bool (c.length != 0), didInserts index.toNat c⟩
  | _, _ => ⟨data, .panic, []⟩

/-- ecore/basicelist.go:107-123. `spare` is what the backing array holds beyond `len(data)`: line 113
slices up to `newIndex+1`, which Go checks against the capacity, so spare elements can be shifted in
before line 115 panics. -/
def doMove (data spare : List α) (oldIndex newIndex : Int) : Res α :=
  match goIndex data oldIndex with
  | none => ⟨data, .panic, []⟩
  | some object =>
    if oldIndex ≠ newIndex then
      let shifted : Option (List α) :=
        if newIndex < oldIndex then
          match goSlice data spare newIndex oldIndex with
          | none => none
          | some src => goCopy data (newIndex + 1) src
        else
          match goSlice data spare (oldIndex + 1) (newIndex + 1) with
          | none => none
          | some src => goCopy data oldIndex src
      match shifted with
      | none => ⟨data, .panic, []⟩
      | some d1 =>
        match goAssign d1 newIndex object with
        | none => ⟨d1, .panic, []⟩
        | some d2 => ⟨d2, .val object, [.didMove newIndex.toNat object oldIndex.toNat, .didChange]⟩
    else ⟨data, .val object, []⟩

/-- ecore/basicelist.go:125-139 (the assignment of nil to the freed last slot, line 131, is not visible
through the list and is dropped). -/
def doRemove (data : List α) (index : Int) : Res α :=
  match goIndex data index with
  | none => ⟨data, .panic, []⟩
  | some object =>
    match goSlice data [] (index + 1) data.length with
    | none => ⟨data, .panic, []⟩
    | some src =>
      match goCopy data index src with
      | none => ⟨data, .panic, []⟩
      | some d1 => ⟨d1.take (d1.length - 1), .val object, [.didRemove index.toNat object, .didChange]⟩

/-- The descending `DidRemove(i, objects[i-fromIndex])` loop of ecore/basicelist.go:148-150, given the
objects in ascending order. -/
def didRemovesDesc : Nat → List α → List (CB α)
  | _, [] => []
  | i, e :: es => didRemovesDesc (i + 1) es ++ [.didRemove i e]

/-- ecore/basicelist.go:141-153. Returns the removed objects besides the result. -/
def doRemoveRange (data : List α) (fromIndex toIndex : Int) : Res α × List α :=
  match goSlice data [] fromIndex toIndex, goSlice data [] 0 fromIndex,
      goSlice data [] toIndex data.length with
  | some objects, some pre, some post =>
    (⟨pre ++ post, .unit, didRemovesDesc fromIndex.toNat objects ++ [.didChange]⟩, objects)
  | _, _, _ => (⟨data, .panic, []⟩, [])

/-- ecore/basicelist.go:159-167. -/
def doSet (data : List α) (index : Int) (elem : α) : Res α :=
  match goIndex data index with
  | none => ⟨data, .panic, []⟩
  | some old =>
    match goAssign data index elem with
    | none => ⟨data, .panic, []⟩
    | some d1 => ⟨d1, .val old, [.didSet index.toNat elem old, .didChange]⟩

/-- ecore/basicelist.go:169-177. -/
def doClear (data : List α) : Res α := ⟨[], .unit, [.didClear data]⟩

/-! ### Queries -/

/-- ecore/abstractelist.go:231-239: the loop over the iterator, `i` being the running index. -/
def indexOfFrom [DecidableEq α] (e : α) : Nat → List α → Int
  | _, [] => -1
  | i, v :: vs => if v = e then (i : Int) else indexOfFrom e (i + 1) vs

/-- ecore/abstractelist.go:231-239. -/
def indexOf [DecidableEq α] (data : List α) (e : α) : Int := indexOfFrom e 0 data

/-- ecore/abstractelist.go:227-229. -/
def contains [DecidableEq α] (data : List α) (e : α) : Bool := indexOf data e != -1

/-- ecore/abstractelist.go:191-197. -/
def get (data : List α) (index : Int) : Ret α :=
  if index < 0 ∨ index ≥ (data.length : Int) then .panic
  else match goIndex data index with
    | some e => .val e
    | none => .panic

/-! ### AbstractEList -/

/-- How the iterator of the external `linkedhashset` (package gods-generic, source not in /repo)
behaves when the current element is removed from the set during the iteration
(ecore/abstractelist.go:64-69):
* `snapshot`: the iteration still visits every element;
* `live`: as the doubly linked list iterator of gods does: it keeps a running index and stops as soon as this index
  reaches the *current* size, so each removal makes the loop skip one element at the end. -/
inductive SetIter where
  | snapshot
  | live
  deriving DecidableEq, Repr

/-- Filling the linked hash set (ecore/abstractelist.go:53-56): first occurrences, in order. -/
def hashSetOf [DecidableEq α] : List α → List α → List α
  | acc, [] => acc
  | acc, v :: vs => if v ∈ acc then hashSetOf acc vs else hashSetOf (acc ++ [v]) vs

/-- ecore/abstractelist.go:60-62: remove every element of the list from the set. -/
def removeEach [DecidableEq α] (set : List α) : List α → List α
  | [] => set
  | v :: vs => removeEach (set.erase v) vs

/-- ecore/abstractelist.go:64-69 with a `live` iterator: `idx` is the iterator index of the head of
`rest`, `size` the current size of the set; elements which are not visited stay in the set. -/
def pruneLive [DecidableEq α] (data : List α) (idx size : Nat) : List α → List α
  | [] => []
  | v :: vs =>
    if idx < size then
      if contains data v then pruneLive data (idx + 1) (size - 1) vs
      else v :: pruneLive data (idx + 1) size vs
    else v :: vs

/-- ecore/abstractelist.go:64-69 with a `snapshot` iterator. -/
def pruneSnapshot [DecidableEq α] (data : List α) : List α → List α
  | [] => []
  | v :: vs => if contains data v then pruneSnapshot data vs else v :: pruneSnapshot data vs

/-- ecore/abstractelist.go:51-76. -/
def getNonDuplicates [DecidableEq α] (m : SetIter) (data c : List α) : List α :=
  let set := hashSetOf [] c
  if set.length ≥ data.length then removeEach set data
  else match m with
    | .snapshot => pruneSnapshot data set
    | .live => pruneLive data 0 set.length set

/-- Configuration of a list: its `isUnique` flag and the behaviour of the external set iterator. -/
structure Cfg where
  unique : Bool
  iter : SetIter := .snapshot
  deriving DecidableEq, Repr

/-- The mutating calls of the public EList API. `move`/`moveObject` carry the contents of the spare
capacity of the slice at that moment (an arbitrary choice of the runtime). Collections are given by
their contents. -/
inductive Op (α : Type) where
  | add (e : α)
  | addAll (c : List α)
  | insert (index : Int) (e : α)
  | insertAll (index : Int) (c : List α)
  | move (spare : List α) (oldIndex newIndex : Int)
  | moveObject (spare : List α) (newIndex : Int) (e : α)
  | removeAt (index : Int)
  | remove (e : α)
  | removeRange (fromIndex toIndex : Int)
  | removeAll (c : List α)
  | set (index : Int) (e : α)
  | clear
  deriving DecidableEq, Repr

section Abstract
variable [DecidableEq α]

/-- A call that changes nothing. -/
def noop (data : List α) (r : Ret α) : Res α := ⟨data, r, []⟩

/-- Continue with return value `r` unless the inner call panicked. -/
def Res.returning (x : Res α) (r : Ret α) : Res α :=
  match x.ret with
  | .panic => x
  | _ => { x with ret := r }

/-- ecore/abstractelist.go:78-85. -/
def add (cfg : Cfg) (data : List α) (e : α) : Res α :=
  if cfg.unique && contains data e then noop data (.bool false)
  else (doAdd data e).returning (.bool true)

/-- ecore/abstractelist.go:87-96. -/
def addAll (cfg : Cfg) (data c : List α) : Res α :=
  if cfg.unique then
    let c' := getNonDuplicates cfg.iter data c
    if c'.length = 0 then noop data (.bool false)
    else (doAddAll data c').returning (.bool true)
  else (doAddAll data c).returning (.bool true)

/-- ecore/abstractelist.go:98-108. -/
def insert [Inhabited α] (cfg : Cfg) (data : List α) (index : Int) (e : α) : Res α :=
  if index < 0 ∨ index > (data.length : Int) then noop data .panic
  else if cfg.unique && contains data e then noop data (.bool false)
  else (doInsert data index e).returning (.bool true)

/-- ecore/abstractelist.go:110-123. -/
def insertAll (cfg : Cfg) (data : List α) (index : Int) (c : List α) : Res α :=
  if index < 0 ∨ index > (data.length : Int) then noop data .panic
  else if cfg.unique then
    let c' := getNonDuplicates cfg.iter data c
    if c'.length = 0 then noop data (.bool false)
    else (doInsertAll data index c').returning (.bool true)
  else (doInsertAll data index c).returning (.bool true)

/-- ecore/abstractelist.go:125-132 (no check of `newIndex`). -/
def moveObject (data spare : List α) (newIndex : Int) (e : α) : Res α :=
  let oldIndex := indexOf data e
  if oldIndex = -1 then noop data .panic
  else (doMove data spare oldIndex newIndex).returning .unit

/-- ecore/abstractelist.go:135-141 (`newIndex = size` passes the check). -/
def move (data spare : List α) (oldIndex newIndex : Int) : Res α :=
  if oldIndex < 0 ∨ oldIndex ≥ (data.length : Int) ∨ newIndex < 0 ∨ newIndex > (data.length : Int) then
    noop data .panic
  else doMove data spare oldIndex newIndex

/-- ecore/abstractelist.go:144-150. -/
def removeAt (data : List α) (index : Int) : Res α :=
  if index < 0 ∨ index ≥ (data.length : Int) then noop data .panic
  else doRemove data index

/-- ecore/abstractelist.go:153-161. -/
def remove (data : List α) (e : α) : Res α :=
  let index := indexOf data e
  if index = -1 then noop data (.bool false)
  else (doRemove data index).returning (.bool true)

/-- ecore/abstractelist.go:163-176. -/
def removeRange (data : List α) (fromIndex toIndex : Int) : Res α :=
  if fromIndex < 0 ∨ fromIndex ≥ (data.length : Int) then noop data .panic
  else if toIndex < 0 ∨ toIndex > (data.length : Int) then noop data .panic
  else if fromIndex > toIndex then noop data .panic
  else (doRemoveRange data fromIndex toIndex).1

/-- The loop of ecore/abstractelist.go:181-186; the next index to look at is `n-1`. -/
def removeAllLoop (c : List α) : Nat → List α → Bool → Res α
  | 0, data, modified => ⟨data, .bool modified, []⟩
  | n + 1, data, modified =>
    match goIndex data n with
    | none => ⟨data, .panic, []⟩
    | some v =>
      if contains c v then
        let r := removeAt data n
        match r.ret with
        | .panic => r
        | _ =>
          let r' := removeAllLoop c n r.data true
          { r' with trace := r.trace ++ r'.trace }
      else removeAllLoop c n data modified

/-- ecore/abstractelist.go:178-188. -/
def removeAll (data c : List α) : Res α := removeAllLoop c data.length data false

/-- ecore/abstractelist.go:200-212. -/
def set (cfg : Cfg) (data : List α) (index : Int) (e : α) : Res α :=
  if index < 0 ∨ index ≥ (data.length : Int) then noop data .panic
  else if cfg.unique && (decide (indexOf data e ≥ 0) && decide (indexOf data e ≠ index)) then
    noop data .panic
  else doSet data index e

/-- ecore/abstractelist.go:214-216. -/
def clear (data : List α) : Res α := doClear data

/-- One public call on a list with contents `data`. -/
def step [Inhabited α] (cfg : Cfg) (data : List α) : Op α → Res α
  | .add e => add cfg data e
  | .addAll c => addAll cfg data c
  | .insert i e => insert cfg data i e
  | .insertAll i c => insertAll cfg data i c
  | .move spare o n => move data spare o n
  | .moveObject spare n e => moveObject data spare n e
  | .removeAt i => removeAt data i
  | .remove e => remove data e
  | .removeRange f t => removeRange data f t
  | .removeAll c => removeAll data c
  | .set i e => set cfg data i e
  | .clear => clear data

/-- Contents after a sequence of calls (panics are recovered by the caller). -/
def run [Inhabited α] (cfg : Cfg) (data : List α) : List (Op α) → List α
  | [] => data
  | op :: ops => run cfg (step cfg data op).data ops

/-- Values returned by a sequence of calls. -/
def runRets [Inhabited α] (cfg : Cfg) (data : List α) : List (Op α) → List (Ret α)
  | [] => []
  | op :: ops => (step cfg data op).ret :: runRets cfg (step cfg data op).data ops

end Abstract

/-! ### Iterator -/

/-- ecore/elistiterator.go:12-15 (the list itself is a parameter of the calls). -/
structure Iter where
  cursor : Nat
  deriving DecidableEq, Repr

/-- ecore/abstractelist.go:241-243. -/
def iterator : Iter := ⟨0⟩

/-- ecore/elistiterator.go:28-30. -/
def Iter.hasNext (it : Iter) (data : List α) : Bool := decide (it.cursor < data.length)

/-- ecore/elistiterator.go:18-25. -/
def Iter.next (it : Iter) (data : List α) : Iter × Ret α :=
  if it.cursor ≥ data.length then (it, .panic)
  else (⟨it.cursor + 1⟩, get data it.cursor)

/-- ecore/abstractelist.go:245-254: the loop of `All` from index `i`, for a consumer which accepts every element
(`fuel` bounds the number of remaining elements and is `len - i`). -/
def allFrom (data : List α) (i : Nat) : List (Ret α) :=
  if i < data.length then get data i :: allFrom data (i + 1) else []
termination_by data.length - i

/-! ### BinarySearch -/

/-- The loop of ecore/elist.go:61-69 (the element access `l.Get(h)` cannot panic there and a panic would
end the loop). -/
def bsLoop {τ : Type} (cmp : α → τ → Int) (data : List α) (target : τ) (i j : Nat) : Nat :=
  if _h : i < j then
    let m := (i + j) / 2
    match data[m]? with
    | none => i
    | some x => if cmp x target < 0 then bsLoop cmp data target (m + 1) j
                else bsLoop cmp data target i m
  else i
termination_by j - i

/-- ecore/elist.go:56-72. -/
def binarySearch {τ : Type} (cmp : α → τ → Int) (data : List α) (target : τ) : Nat × Bool :=
  let i := bsLoop cmp data target 0 data.length
  (i, match data[i]? with
    | none => false
    | some x => cmp x target == 0)

end Verif.EList
