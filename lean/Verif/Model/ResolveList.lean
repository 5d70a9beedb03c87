import Verif.Model.EList

/-!
# Lists that resolve their proxies

`basicEObjectList` with `proxies` (ecore/basiceobjectlist.go) on top of the lists of `Verif.Model.EList`.

`res` is `EResolveProxy` of the owner for a proxy (see C63) and the identity for the other objects.  Only the notifications RESOLVE are recorded;
inverses are those of C08 and C09.
-/

namespace Verif.ResolveList

open Verif.EList (Op Ret)

variable {α : Type} [DecidableEq α] [Inhabited α]

/-- A notification RESOLVE: position, old and new object. -/
structure Ev (α : Type) where
  index : Nat
  old : α
  new : α
deriving DecidableEq, Repr

/-- What a call does: the list, the result, the notifications RESOLVE. -/
structure Out (α : Type) where
  data : List α
  ret : Ret α
  events : List (Ev α)
deriving DecidableEq, Repr

/-- `resolve` (ecore/basiceobjectlist.go 96-112) at a position: what is notified -/
def notified (res : α → α) (i : Nat) (v : α) : List (Ev α) := if res v ≠ v then [⟨i, v, res v⟩] else []

/-- `IndexOf` (ecore/basiceobjectlist.go 73-80): the list, the index, the notifications -/
def look (res : α → α) (e : α) : Nat → List α → List α × Int × List (Ev α)
  | _, [] => ([], -1, [])
  | i, v :: vs =>
    if v = e then (v :: vs, i, [])
    else if res v = e then (res v :: vs, i, notified res i v)
    else
      let x := look res e (i + 1) vs
      (res v :: x.1, x.2.1, notified res i v ++ x.2.2)

/-- `Get` (ecore/abstractelist.go 188-194), `doGet` (ecore/basiceobjectlist.go 82-84) -/
def get (res : α → α) (data : List α) (i : Int) : Out α :=
  if i < 0 ∨ i ≥ data.length then ⟨data, .panic, []⟩
  else match data[i.toNat]? with
  | none => ⟨data, .panic, []⟩
  | some v => ⟨data.set i.toNat (res v), .val (res v), notified res i.toNat v⟩

/-- what `ToArray` notifies, the last position first -/
def notifieds (res : α → α) : Nat → List α → List (Ev α)
  | _, [] => []
  | i, v :: vs => notifieds res (i + 1) vs ++ notified res i v

/-- `ToArray` (ecore/basiceobjectlist.go 86-93): the list is the array -/
def toArray (res : α → α) (data : List α) : List α × List (Ev α) := (data.map res, notifieds res 0 data)

/-- iterating over the list: `Get` of each position -/
def iterated (res : α → α) : Nat → List α → List (Ev α)
  | _, [] => []
  | i, v :: vs => notified res i v ++ iterated res (i + 1) vs

/-- the loop over the hash set of ecore/abstractelist.go 65-70; the iterator of the hash set is taken to go over a copy, see C01 -/
def prune (res : α → α) : List α → List α → List α × List α × List (Ev α)
  | data, [] => (data, [], [])
  | data, v :: vs =>
    let x := look res v 0 data
    let y := prune res x.1 vs
    (y.1, if x.2.1 = -1 then v :: y.2.1 else y.2.1, x.2.2 ++ y.2.2)

/-- `getNonDuplicates` (ecore/abstractelist.go 51-76) -/
def nonDuplicates (res : α → α) (data c : List α) : List α × List α × List (Ev α) :=
  let h := EList.hashSetOf [] c
  if h.length ≥ data.length then (data.map res, EList.removeEach h (data.map res), iterated res 0 data)
  else prune res data h

/-- `getAndCompare` of `RemoveAll` (ecore/basiceobjectlist.go 66-71) for all elements of the collection (ecore/basicenotifyinglist.go 296-304) -/
def compared (res : α → α) : List α → α → α × Bool
  | [], v => (v, false)
  | a :: as, v => if v = a then (v, true) else if res v = a then (res v, true) else compared res as (res v)

/-- `doRemoveAll` (ecore/basicenotifyinglist.go 289-348): what stays, whether something is removed, the notifications.
Simplification: the positions are removed at once. -/
def removeAll (res : α → α) (c : List α) : Nat → List α → List α × Bool × List (Ev α)
  | _, [] => ([], false, [])
  | i, v :: vs =>
    let x := compared res c v
    let y := removeAll res c (i + 1) vs
    (if x.2 then y.1 else x.1 :: y.1, x.2 || y.2.1, (if x.1 ≠ v then [⟨i, v, x.1⟩] else []) ++ y.2.2)

/-- a call of the list below, which sees the objects as they are -/
def plain (x : EList.Res α) (events : List (Ev α)) : Out α := ⟨x.data, x.ret, events⟩

/-- the changes of the list (ecore/abstractelist.go 78-216 with `Contains`, `IndexOf` and `RemoveAll` of the list with proxies) -/
def step (res : α → α) (data : List α) : Op α → Out α
  | .add e =>
    let x := look res e 0 data
    if x.2.1 ≠ -1 then ⟨x.1, .bool false, x.2.2⟩ else plain ((EList.doAdd x.1 e).returning (.bool true)) x.2.2
  | .addAll c =>
    let x := nonDuplicates res data c
    if x.2.1 = [] then ⟨x.1, .bool false, x.2.2⟩ else plain ((EList.doInsertAll x.1 x.1.length x.2.1).returning (.bool true)) x.2.2
  | .insert i e =>
    if i < 0 ∨ i > data.length then ⟨data, .panic, []⟩
    else
      let x := look res e 0 data
      if x.2.1 ≠ -1 then ⟨x.1, .bool false, x.2.2⟩ else plain ((EList.doInsert x.1 i e).returning (.bool true)) x.2.2
  | .insertAll i c =>
    if i < 0 ∨ i > data.length then ⟨data, .panic, []⟩
    else
      let x := nonDuplicates res data c
      if x.2.1 = [] then ⟨x.1, .bool false, x.2.2⟩ else plain ((EList.doInsertAll x.1 i x.2.1).returning (.bool true)) x.2.2
  | .move spare o n => plain (EList.move data spare o n) []
  | .moveObject spare n e =>
    let x := look res e 0 data
    if x.2.1 = -1 then ⟨x.1, .panic, x.2.2⟩ else plain ((EList.doMove x.1 spare x.2.1 n).returning .unit) x.2.2
  | .removeAt i => plain (EList.removeAt data i) []
  | .remove e =>
    let x := look res e 0 data
    if x.2.1 = -1 then ⟨x.1, .bool false, x.2.2⟩ else plain ((EList.doRemove x.1 x.2.1).returning (.bool true)) x.2.2
  | .removeRange f t => plain (EList.removeRange data f t) []
  | .removeAll c =>
    let x := removeAll res c 0 data
    ⟨x.1, .bool x.2.1, x.2.2⟩
  | .set i e =>
    if i < 0 ∨ i ≥ data.length then ⟨data, .panic, []⟩
    else
      let x := look res e 0 data
      if x.2.1 ≥ 0 ∧ x.2.1 ≠ i then ⟨x.1, .panic, x.2.2⟩ else plain (EList.doSet x.1 i e) x.2.2
  | .clear => plain (EList.clear data) []

/-- A call: one that changes the list, or `Get`, `IndexOf`, `Contains`, `ToArray`. -/
inductive Call (α : Type) where
  | op (o : Op α)
  | get (i : Int)
  | indexOf (e : α)
  | contains (e : α)
  | toArray
deriving DecidableEq, Repr

/-- what a call gives back -/
inductive Answer (α : Type) where
  | ret (r : Ret α)
  | index (k : Int)
  | yes (b : Bool)
  | array (l : List α)
deriving DecidableEq, Repr

/-- one call: the list, the answer, the notifications -/
def call (res : α → α) (data : List α) : Call α → List α × Answer α × List (Ev α)
  | .op o => ((step res data o).data, .ret (step res data o).ret, (step res data o).events)
  | .get i => ((get res data i).data, .ret (get res data i).ret, (get res data i).events)
  | .indexOf e => ((look res e 0 data).1, .index (look res e 0 data).2.1, (look res e 0 data).2.2)
  | .contains e => ((look res e 0 data).1, .yes ((look res e 0 data).2.1 ≠ -1), (look res e 0 data).2.2)
  | .toArray => ((toArray res data).1, .array (toArray res data).1, (toArray res data).2)

/-- the list after calls -/
def run (res : α → α) (data : List α) : List (Call α) → List α
  | [] => data
  | c :: cs => run res (call res data c).1 cs

/-- the answers of calls -/
def answers (res : α → α) (data : List α) : List (Call α) → List (Answer α)
  | [] => []
  | c :: cs => (call res data c).2.1 :: answers res (call res data c).1 cs

end Verif.ResolveList
