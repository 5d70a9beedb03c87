import Verif.Model.EList

/-!
# Lists and the arrays behind them

`BasicEList` (ecore/basicelist.go) with the Go slices it is made of: arrays with capacity in a heap, slices that share them, `append` that writes in place when the capacity is sufficient
and takes a new array otherwise.  Several lists, used as collections of each other, and the arrays given by `ToArray`.

`grow` is the spare capacity that `append` gives to a new array (any function of the old capacity and the length needed).
-/

namespace Verif.SharedList

open Verif.EList (Ret)

/-- A Go slice of type `[]any` that starts at the beginning of its array (there are no other ones in ecore/basicelist.go besides temporary ones). -/
structure Slice where
  arr : Nat
  len : Nat
deriving DecidableEq, Repr

/-- the arrays, each as long as its capacity -/
abbrev Heap (α : Type) := List (List α)

variable {α : Type}

/-- an array -/
def arrOf (h : Heap α) (a : Nat) : List α := (h[a]?).getD []

/-- the elements of a slice -/
def view (h : Heap α) (s : Slice) : List α := (arrOf h s.arr).take s.len

/-- an array with the elements from a position overwritten -/
def over (a : List α) (i : Nat) (xs : List α) : List α := a.take i ++ xs ++ a.drop (i + xs.length)

/-- `append(s, xs...)`; `xs` has been read before anything is written, as in Go -/
def append [Inhabited α] (grow : Nat → Nat → Nat) (h : Heap α) (s : Slice) (xs : List α) : Heap α × Slice :=
  if s.len + xs.length ≤ (arrOf h s.arr).length then (h.set s.arr (over (arrOf h s.arr) s.len xs), ⟨s.arr, s.len + xs.length⟩)
  else (h ++ [view h s ++ xs ++ List.replicate (grow (arrOf h s.arr).length (s.len + xs.length)) default], ⟨h.length, s.len + xs.length⟩)

/-- `copy(s[i:], xs)` -/
def copy (h : Heap α) (s : Slice) (i : Nat) (xs : List α) : Heap α := h.set s.arr (over (arrOf h s.arr) i (xs.take (s.len - i)))

/-- `s[i] = v` -/
def assign (h : Heap α) (s : Slice) (i : Nat) (v : α) : Heap α := h.set s.arr ((arrOf h s.arr).set i v)

/-- a new array without spare capacity: `make`, `[]any{...}` -/
def alloc (h : Heap α) (xs : List α) : Heap α × Slice := (h ++ [xs], ⟨h.length, xs.length⟩)

variable [DecidableEq α] [Inhabited α]

/-- ecore/basicelist.go:64-71 -/
def doAdd (grow : Nat → Nat → Nat) (h : Heap α) (s : Slice) (e : α) : Heap α × Slice := append grow h s [e]

/-- ecore/basicelist.go:73-83 -/
def doAddAll (grow : Nat → Nat → Nat) (h : Heap α) (s c : Slice) : Heap α × Slice := append grow h s (view h c)

/-- ecore/basicelist.go:85-93 -/
def doInsert (grow : Nat → Nat → Nat) (h : Heap α) (s : Slice) (i : Nat) (e : α) : Heap α × Slice :=
  let x := append grow h s [default]
  let h2 := copy x.1 x.2 (i + 1) ((view x.1 x.2).drop i)
  (assign h2 x.2 i e, x.2)

/-- ecore/basicelist.go:95-105 -/
def doInsertAll (grow : Nat → Nat → Nat) (h : Heap α) (s : Slice) (i : Nat) (c : Slice) : Heap α × Slice :=
  let x := append grow h c ((view h s).drop i)
  append grow x.1 ⟨s.arr, i⟩ (view x.1 x.2)

/-- ecore/basicelist.go:125-139 -/
def doRemove (h : Heap α) (s : Slice) (i : Nat) : Heap α × Slice :=
  let h1 := copy h s i ((view h s).drop (i + 1))
  (assign h1 s (s.len - 1) default, ⟨s.arr, s.len - 1⟩)

/-- ecore/basicelist.go:141-153 -/
def doRemoveRange (grow : Nat → Nat → Nat) (h : Heap α) (s : Slice) (f t : Nat) : Heap α × Slice := append grow h ⟨s.arr, f⟩ ((view h s).drop t)

/-- ecore/basicelist.go:159-167 -/
def doSet (h : Heap α) (s : Slice) (i : Nat) (e : α) : Heap α × Slice := (assign h s i e, s)

/-- ecore/basicelist.go:107-123: the elements are those of `Verif.EList.doMove`; only positions of the slice are written -/
def doMove (h : Heap α) (s : Slice) (o n : Int) : Heap α × Slice × Ret α :=
  let x := EList.doMove (view h s) ((arrOf h s.arr).drop s.len) o n
  (h.set s.arr (over (arrOf h s.arr) 0 x.data), s, x.ret)

/-- ecore/basicelist.go:169-177 -/
def doClear (h : Heap α) : Heap α × Slice := alloc h []

/-- ecore/abstractelist.go:51-76 with a new array for the result; see C01 for the iterator of the hash set -/
def nonDuplicates (h : Heap α) (s c : Slice) : Heap α × Slice := alloc h (EList.getNonDuplicates .snapshot (view h s) (view h c))

/-- A collection that is given to a call: an immutable list over a new array, another list, an immutable list over an array that the caller holds. -/
inductive Coll (α : Type) where
  | lit (xs : List α)
  | list (m : Nat)
  | held (k : Nat)
deriving DecidableEq, Repr

/-- The calls of `EList`, with collections. -/
inductive Op (α : Type) where
  | add (e : α)
  | addAll (c : Coll α)
  | insert (i : Int) (e : α)
  | insertAll (i : Int) (c : Coll α)
  | move (o n : Int)
  | moveObject (n : Int) (e : α)
  | removeAt (i : Int)
  | remove (e : α)
  | removeRange (f t : Int)
  | removeAll (c : Coll α)
  | set (i : Int) (e : α)
  | clear
deriving DecidableEq, Repr

/-- a result of two parts with the value that is returned -/
def giving (x : Heap α × Slice) (r : Ret α) : Heap α × Slice × Ret α := (x.1, x.2, r)

/-- the value at a position -/
def valueAt (h : Heap α) (s : Slice) (i : Nat) : Ret α :=
  match (view h s)[i]? with
  | some v => .val v
  | none => .panic

/-- the loop of ecore/abstractelist.go:181-186; `self`: the collection is the list itself; `Contains` reads it each time -/
def removeAllLoop (self : Bool) (c : Slice) : Nat → Heap α → Slice → Bool → Heap α × Slice × Ret α
  | 0, h, s, modified => (h, s, .bool modified)
  | n + 1, h, s, modified =>
    match (view h s)[n]? with
    | none => (h, s, .panic)
    | some v =>
      if v ∈ view h (if self then s else c) then removeAllLoop self c n (doRemove h s n).1 (doRemove h s n).2 true
      else removeAllLoop self c n h s modified

/-- `AddAll` (ecore/abstractelist.go:87-96) -/
def addAll (grow : Nat → Nat → Nat) (unique : Bool) (h : Heap α) (s c : Slice) : Heap α × Slice × Ret α :=
  if unique then
    let x := nonDuplicates h s c
    if x.2.len = 0 then (x.1, s, .bool false) else giving (doAddAll grow x.1 s x.2) (.bool true)
  else giving (doAddAll grow h s c) (.bool true)

/-- `InsertAll` (ecore/abstractelist.go:110-123) -/
def insertAll (grow : Nat → Nat → Nat) (unique : Bool) (h : Heap α) (s : Slice) (i : Int) (c : Slice) : Heap α × Slice × Ret α :=
  if i < 0 ∨ i > s.len then (h, s, .panic)
  else if unique then
    let x := nonDuplicates h s c
    if x.2.len = 0 then (x.1, s, .bool false) else giving (doInsertAll grow x.1 s i.toNat x.2) (.bool true)
  else giving (doInsertAll grow h s i.toNat c) (.bool true)

/-- A call without a collection (ecore/abstractelist.go 78-216): heap, slice of the list, result.  `IndexOf` and `Contains` read the elements. -/
def single (grow : Nat → Nat → Nat) (unique : Bool) (h : Heap α) (s : Slice) : Op α → Heap α × Slice × Ret α
  | .add e => if unique && EList.contains (view h s) e then (h, s, .bool false) else giving (doAdd grow h s e) (.bool true)
  | .insert i e =>
    if i < 0 ∨ i > s.len then (h, s, .panic)
    else if unique && EList.contains (view h s) e then (h, s, .bool false)
    else giving (doInsert grow h s i.toNat e) (.bool true)
  | .move o n => if o < 0 ∨ o ≥ s.len ∨ n < 0 ∨ n > s.len then (h, s, .panic) else doMove h s o n
  | .moveObject n e =>
    if EList.indexOf (view h s) e = -1 then (h, s, .panic)
    else
      let x := doMove h s (EList.indexOf (view h s) e) n
      (x.1, x.2.1, match x.2.2 with | .panic => .panic | _ => .unit)
  | .removeAt i => if i < 0 ∨ i ≥ s.len then (h, s, .panic) else giving (doRemove h s i.toNat) (valueAt h s i.toNat)
  | .remove e =>
    if EList.indexOf (view h s) e = -1 then (h, s, .bool false) else giving (doRemove h s (EList.indexOf (view h s) e).toNat) (.bool true)
  | .removeRange f t =>
    if f < 0 ∨ f ≥ s.len then (h, s, .panic)
    else if t < 0 ∨ t > s.len then (h, s, .panic)
    else if f > t then (h, s, .panic)
    else giving (doRemoveRange grow h s f.toNat t.toNat) .unit
  | .set i e =>
    if i < 0 ∨ i ≥ s.len then (h, s, .panic)
    else if unique && (decide (EList.indexOf (view h s) e ≥ 0) && decide (EList.indexOf (view h s) e ≠ i)) then (h, s, .panic)
    else giving (doSet h s i.toNat e) (valueAt h s i.toNat)
  | .clear => giving (doClear h) .unit
  | _ => (h, s, .unit)

/-- Lists with their slices and whether they are unique, and the arrays that the caller holds. -/
structure St (α : Type) where
  heap : Heap α
  lists : List (Slice × Bool)
  held : List Slice
deriving DecidableEq, Repr

/-- nothing yet -/
def init : St α := ⟨[], [], []⟩

/-- a collection as a slice (`ToArray`: ecore/basicelist.go:184-186, ecore/immutableEList.go 173-176) and whether it is list `l` -/
def collOf (st : St α) (l : Nat) : Coll α → Heap α × Slice × Bool
  | .lit xs => ((alloc st.heap xs).1, (alloc st.heap xs).2, false)
  | .list m =>
    match st.lists[m]? with
    | some (s, _) => (st.heap, s, m = l)
    | none => ((alloc st.heap []).1, (alloc st.heap []).2, false)
  | .held k =>
    match st.held[k]? with
    | some s => (st.heap, s, false)
    | none => ((alloc st.heap []).1, (alloc st.heap []).2, false)

/-- a call on list `l` -/
def onList (grow : Nat → Nat → Nat) (st : St α) (l : Nat) (s : Slice) (unique : Bool) : Op α → Heap α × Slice × Ret α
  | .addAll c => addAll grow unique (collOf st l c).1 s (collOf st l c).2.1
  | .insertAll i c => insertAll grow unique (collOf st l c).1 s i (collOf st l c).2.1
  | .removeAll c => removeAllLoop (collOf st l c).2.2 (collOf st l c).2.1 s.len (collOf st l c).1 s false
  | o => single grow unique st.heap s o

/-- What a program does: make a list over a new array that nobody else has (`NewBasicEList`, `NewUniqueBasicEList`, `NewEmptyBasicEList`: ecore/basicelist.go:33-57), make one over an array that
the caller holds, call `ToArray`, change a list. -/
inductive Call (α : Type) where
  | new (unique : Bool) (xs : List α)
  | adopt (unique : Bool) (k : Nat)
  | toArray (l : Nat)
  | op (l : Nat) (o : Op α)
deriving DecidableEq, Repr

/-- What a call gives back. -/
inductive Answer (α : Type) where
  | none
  | array (l : List α)
  | ret (r : Ret α)
deriving DecidableEq, Repr

/-- one call -/
def step (grow : Nat → Nat → Nat) (st : St α) : Call α → St α × Answer α
  | .new unique xs => (⟨(alloc st.heap xs).1, st.lists ++ [((alloc st.heap xs).2, unique)], st.held⟩, .none)
  | .adopt unique k =>
    match st.held[k]? with
    | some s => ({ st with lists := st.lists ++ [(s, unique)] }, .none)
    | Option.none => (st, .none)
  | .toArray l =>
    match st.lists[l]? with
    | some (s, _) => ({ st with held := st.held ++ [s] }, .array (view st.heap s))
    | Option.none => (st, .none)
  | .op l o =>
    match st.lists[l]? with
    | some (s, unique) =>
      let x := onList grow st l s unique o
      (⟨x.1, st.lists.set l (x.2.1, unique), st.held⟩, .ret x.2.2)
    | Option.none => (st, .none)

/-- the state after calls -/
def run (grow : Nat → Nat → Nat) (st : St α) : List (Call α) → St α
  | [] => st
  | c :: cs => run grow (step grow st c).1 cs

/-- the answers of calls -/
def answers (grow : Nat → Nat → Nat) (st : St α) : List (Call α) → List (Answer α)
  | [] => []
  | c :: cs => (step grow st c).2 :: answers grow (step grow st c).1 cs

/-- the elements of the lists -/
def lists (st : St α) : List (List α) := st.lists.map fun x => view st.heap x.1

/-- the elements of the arrays that the caller holds -/
def arrays (st : St α) : List (List α) := st.held.map fun s => view st.heap s

/-- `ADD_MANY` of ecore/basicenotifyinglist.go:199-213 for `InsertAll` of a list of non-unique values with the collection `c`: what `l.ToArray()` gives after the insertion -/
def told (grow : Nat → Nat → Nat) (st : St α) (l : Nat) (i : Int) (c : Coll α) : List α :=
  match (step grow st (.op l (.insertAll i c))).1.lists[l]? with
  | some (s', _) => view (step grow st (.op l (.insertAll i c))).1.heap (if (collOf st l c).2.2 then s' else (collOf st l c).2.1)
  | none => []

end Verif.SharedList
