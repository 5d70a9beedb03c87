/-!
# Loading two-way references from a SQL database

`decodeFeatures` of `SQLDecoder` (ecore/sqldecoder.go 1015-1050): one goroutine for each class reads the tables of the lists, then the
columns.  Every list and every single value is given to an object, which gives the object to the opposite reference of each value.

Objects and references are numbers.  Not modelled: references without opposite (see `SQLCodec`), notifications, what happens in the memory of
a list that two goroutines change at the same time (a change of one reference of one object is one step here).
-/

namespace Verif.SQLTwoWay

/-- References: the opposite, and whether a reference is many-valued (a unique list). -/
structure Refs where
  opp : Nat → Nat
  many : Nat → Bool

/-- The values of the references of the objects: `s r o` is what object `o` has in `r`; at most one if `r` is single-valued. -/
abbrev State := Nat → Nat → List Nat

/-- new objects -/
def init : State := fun _ _ => []

/-- one reference of one object is changed -/
def upd (s : State) (r o : Nat) (l : List Nat) : State := fun r' o' => if r' = r ∧ o' = o then l else s r' o'

/-- `EInverseRemove` (ecore/abstracteobject.go 660-667, 753-779): `o` is removed from `r` of `v`. -/
def inverseRemove (e : Refs) (s : State) (r v o : Nat) : State :=
  upd s r v (if e.many r then (s r v).erase o else [])

/-- `EInverseAdd` (ecore/abstracteobject.go 650-658, 674-735): `o` is added to `r` of `v`, without looking for it; what a single value
replaces loses `v`. -/
def inverseAdd (e : Refs) (s : State) (r v o : Nat) : State :=
  if e.many r then upd s r v (s r v ++ [o])
  else
    match s r v with
    | old :: _ => upd (inverseRemove e s (e.opp r) old v) r v [o]
    | [] => upd s r v [o]

/-- What a goroutine has to do: to give the values to a reference (`decodeFeatureList`, or `ESet` in `decodeColumnFeatures`); to add or to
remove an object in the opposite reference; to put a single value in place. -/
inductive Micro where
  | load (r o : Nat) (vs : List Nat)
  | add (r v o : Nat)
  | remove (r v o : Nat)
  | put (r o v : Nat)
deriving DecidableEq, Repr

/-- One step, and what there is to do next.  `AddAll` (ecore/abstractelist.go 87-96, ecore/basicenotifyinglist.go 183-213; ecore/sqldecoder.go
1133-1144): the values that are not there are added, then each is told.  `ESet` (ecore/abstracteobject.go 443-473; ecore/sqldecoder.go
1068-1091): the values are told, then the value is put.  A column is read if it is not null. -/
def exec (e : Refs) (s : State) : Micro → State × List Micro
  | .load r o vs =>
    if e.many r then
      let new := vs.filter (fun v => v ∉ s r o)
      (upd s r o (s r o ++ new), new.map (fun v => .add (e.opp r) v o))
    else
      match vs with
      | [] => (s, [])
      | v :: _ =>
        if s r o = [v] then (s, [])
        else (s, (s r o).map (fun old => .remove (e.opp r) old o) ++ [.add (e.opp r) v o, .put r o v])
  | .add r v o => (inverseAdd e s r v o, [])
  | .remove r v o => (inverseRemove e s r v o, [])
  | .put r o v => (upd s r o [v], [])

/-- The goroutines: what each has still to do. -/
structure Conf where
  state : State
  threads : List (List Micro)

/-- A goroutine makes one step, or has nothing to do. -/
def step (e : Refs) (c : Conf) (t : Nat) : Conf :=
  match c.threads[t]? with
  | some (a :: as) =>
    let (s, next) := exec e c.state a
    ⟨s, c.threads.set t (next ++ as)⟩
  | _ => c

/-- The goroutines make steps in the order of a schedule. -/
def run (e : Refs) : Conf → List Nat → Conf
  | c, [] => c
  | c, t :: ts => run e (step e c t) ts

/-- A goroutine that is not interrupted. -/
def finish (e : Refs) : State → List Micro → State
  | s, [] => s
  | s, a :: as => finish e (exec e s a).1 as

/-- A list or a value is given to an object, without interruption. -/
def load (e : Refs) (s : State) (r o : Nat) (vs : List Nat) : State :=
  let (s', next) := exec e s (.load r o vs)
  finish e s' next

/-- The lists and values of a database are given to the objects one after the other, in any order. -/
def loadAll (e : Refs) : State → List (Nat × Nat × List Nat) → State
  | s, [] => s
  | s, (r, o, vs) :: ls => loadAll e (load e s r o vs) ls

end Verif.SQLTwoWay
