import Verif.Model.ResolveList

/-!
# The view of a list that does not resolve proxies

`GetUnResolvedList` of a list with proxies (ecore/basiceobjectlist.go 57-64, 145-190, ecore/delegatingelist.go), together with the list itself
(`Verif.Model.ResolveList`): both have the same data.

As in `Verif.Model.ResolveList` only the notifications RESOLVE are recorded, and the iterator of the hash set is taken to go over a copy.
-/

namespace Verif.UnresolvedView

open Verif.EList (Op Ret)
open Verif.ResolveList (Ev Out Call Answer plain)

variable {α : Type} [DecidableEq α] [Inhabited α]

/-- `getNonDuplicates` (ecore/abstractelist.go 51-76) of the view -/
def nonDuplicates (data c : List α) : List α := EList.getNonDuplicates .snapshot data c

/-- `RemoveAll` (ecore/basiceobjectlist.go 172-176), `doRemoveAll` (ecore/basicenotifyinglist.go 289-348).
Simplification: the positions are removed at once. -/
def removeAll (c : List α) : List α → List α × Bool
  | [] => ([], false)
  | v :: vs =>
    if c.any (fun a => v = a) then ((removeAll c vs).1, true) else (v :: (removeAll c vs).1, (removeAll c vs).2)

/-- the changes through the view: `AbstractEList` (ecore/abstractelist.go 78-216) with `IndexOf` of the objects as they are
(ecore/basiceobjectlist.go 157-159, 178-180), the rest by the list (ecore/delegatingelist.go 9-51), whose `do...` functions see the objects
as they are -/
def step (data : List α) : Op α → Out α
  | .add e => if EList.contains data e then ⟨data, .bool false, []⟩ else plain ((EList.doAdd data e).returning (.bool true)) []
  | .addAll c =>
    if nonDuplicates data c = [] then ⟨data, .bool false, []⟩
    else plain ((EList.doInsertAll data data.length (nonDuplicates data c)).returning (.bool true)) []
  | .insert i e =>
    if i < 0 ∨ i > data.length then ⟨data, .panic, []⟩
    else if EList.contains data e then ⟨data, .bool false, []⟩ else plain ((EList.doInsert data i e).returning (.bool true)) []
  | .insertAll i c =>
    if i < 0 ∨ i > data.length then ⟨data, .panic, []⟩
    else if nonDuplicates data c = [] then ⟨data, .bool false, []⟩
    else plain ((EList.doInsertAll data i (nonDuplicates data c)).returning (.bool true)) []
  | .move spare o n => plain (EList.move data spare o n) []
  | .moveObject spare n e => plain (EList.moveObject data spare n e) []
  | .removeAt i => plain (EList.removeAt data i) []
  | .remove e => plain (EList.remove data e) []
  | .removeRange f t => plain (EList.removeRange data f t) []
  | .removeAll c => ⟨(removeAll c data).1, .bool (removeAll c data).2, []⟩
  | .set i e => plain (EList.set ⟨true, .snapshot⟩ data i e) []
  | .clear => plain (EList.clear data) []

/-- a call on the view: `Get`, `IndexOf`, `Contains` and `ToArray` of the objects as they are (ecore/basiceobjectlist.go 157-159, 178-184) -/
def call (data : List α) : Call α → List α × Answer α × List (Ev α)
  | .op o => ((step data o).data, .ret (step data o).ret, (step data o).events)
  | .get i => (data, .ret (EList.get data i), [])
  | .indexOf e => (data, .index (EList.indexOf data e), [])
  | .contains e => (data, .yes (EList.contains data e), [])
  | .toArray => (data, .array data, [])

/-- a call on the list or on its view -/
inductive Either (α : Type) where
  | list (c : Call α)
  | view (c : Call α)
deriving DecidableEq, Repr

/-- a call on one of the two -/
def both (res : α → α) (data : List α) : Either α → List α × Answer α × List (Ev α)
  | .list c => ResolveList.call res data c
  | .view c => call data c

/-- the data after calls -/
def run (res : α → α) (data : List α) : List (Either α) → List α
  | [] => data
  | c :: cs => run res (both res data c).1 cs

/-- the notifications RESOLVE of calls -/
def events (res : α → α) (data : List α) : List (Either α) → List (Ev α)
  | [] => []
  | c :: cs => (both res data c).2.2 ++ events res (both res data c).1 cs

/-- the answers of calls -/
def answers (res : α → α) (data : List α) : List (Either α) → List (Answer α)
  | [] => []
  | c :: cs => (both res data c).2.1 :: answers res (both res data c).1 cs

/-- `Add` through the view of a list with a store (ecore/estorelist.go 567-573): the view is unique whatever the feature is -/
def storeViewAdd (data : List α) (e : α) : EList.Res α := EList.add ⟨true, .snapshot⟩ data e

/-- `Add` to a list with a store (ecore/estorelist.go 41-42): unique if the feature is -/
def storeAdd (unique : Bool) (data : List α) (e : α) : EList.Res α := EList.add ⟨unique, .snapshot⟩ data e

end Verif.UnresolvedView
