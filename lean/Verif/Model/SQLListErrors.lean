/-!
# Errors of the database in lists of the SQL store

The calls of the SQL store for a many valued feature of objects that are in the database (ecore/sqlstore.go 1363-1418, 1568-1760, 1861-2125), one call after the other:
each is executed before the next one is called. The database may fail to execute any statement. As for single values (C105), a statement that failed stays in the queue
of its table, so that it fails those that wait for it.

Simplifications: one feature, which has a table of its own; values are numbers, stored as they are; the rows of an object are the list of their values in the order of
`idx` (C38 has these numbers, with exact arithmetic they are in order for `Add`, `Move` and for `AddAll` at the end, which is the only one here).
-/
set_option autoImplicit false
namespace Verif.SQLListErrors

/-- the lists of the objects, and if a statement that reads, and one that writes, is left in the queue of the table -/
structure State where
  list : Nat → List Nat
  readLeft : Bool
  writeLeft : Bool

def init : State := ⟨fun _ => [], false, false⟩

/-- A call for the object `o`. `r`, `r'` and `w` tell if the database fails to execute the statements of the call that read, or write; `ws` for each value in turn. -/
inductive Op where
  | get (o i : Nat) (r : Bool)
  | size (o : Nat) (r : Bool)
  | isEmpty (o : Nat) (r : Bool)
  | contains (o v : Nat) (r : Bool)
  | indexOf (o v : Nat) (r r' : Bool)
  | add (o i v : Nat) (r w : Bool)
  | addAll (o : Nat) (vs : List Nat) (r : Bool) (ws : List Bool)
  | remove (o i : Nat) (w : Bool)
  | move (o i j : Nat) (r w : Bool)
  | clear (o : Nat) (w : Bool)
deriving DecidableEq, Repr

/-- What a call gives back; `error` is an error in the place of a value. -/
inductive Out where
  | val (v : Option Nat)
  | error
  | nat (n : Nat)
  | index (i : Int)
  | bool (b : Bool)
  | done
deriving DecidableEq, Repr

/-- `executeSqlite` of a SELECT (ecore/sqlbase.go 127-265), see C105 -/
def read (s : State) (fails : Bool) : State × Bool :=
  if s.writeLeft || fails then ({ s with readLeft := true }, false) else (s, true)

/-- `executeSqlite` of an INSERT, UPDATE or DELETE -/
def write (s : State) (fails : Bool) : State × Bool :=
  if s.readLeft || s.writeLeft || fails then ({ s with writeLeft := true }, false) else (s, true)

def State.put (s : State) (o : Nat) (l : List Nat) : State := { s with list := fun p => if p = o then l else s.list p }

/-- the loop of `doAddAll` (ecore/sqlstore.go 1920-1934), it ends with the first error -/
def insertAll (s : State) (o : Nat) : List Nat → List Bool → State
  | [], _ => s
  | v :: vs, ws =>
    let (s, ok) := write s (ws.headD false)
    if ok then insertAll (s.put o (s.list o ++ [v])) o vs ws.tail else s

/-- `doGet` with `getValue` (ecore/sqlstore.go 1379-1418), the error is given back as the value -/
def doGet (s : State) (o i : Nat) (r : Bool) : State × Out :=
  let (s, ok) := read s r
  (s, if ok then .val (s.list o)[i]? else .error)

/-- `doSize` (ecore/sqlstore.go 1617-1642) with `awaitOperation` (1352-1361): 0 after an error -/
def doSize (s : State) (o : Nat) (r : Bool) : State × Out :=
  let (s, ok) := read s r
  (s, .nat (if ok then (s.list o).length else 0))

/-- `doIsEmpty` (ecore/sqlstore.go 1578-1605): true after an error, which is lost -/
def doIsEmpty (s : State) (o : Nat) (r : Bool) : State × Out :=
  let (s, ok) := read s r
  (s, .bool (if ok then (s.list o).isEmpty else true))

/-- `doContains` (ecore/sqlstore.go 1652-1684) with `awaitOperation`: false after an error -/
def doContains (s : State) (o v : Nat) (r : Bool) : State × Out :=
  let (s, ok) := read s r
  (s, .bool (if ok then (s.list o).contains v else false))

/-- `doIndexOf` (ecore/sqlstore.go 1686-1734) with `awaitOperation` (1352-1361): the -1 that `doIndexOf` gives with an error is replaced by the 0 of the type -/
def doIndexOf (s : State) (o v : Nat) (r r' : Bool) : State × Out :=
  let (s, ok) := read s r
  if !ok then (s, .index 0)
  else if !(s.list o).contains v then (s, .index (-1))
  else
    let (s, ok) := read s r'
    (s, .index (if ok then (s.list o).idxOf v else 0))

/-- `doAdd` (ecore/sqlstore.go 1869-1894) with `getInsertIdx` (1939-1987), which reads, and has an error for an index after the end -/
def doAdd (s : State) (o i v : Nat) (r w : Bool) : State :=
  let (s, ok) := read s r
  if ok then
    if i ≤ (s.list o).length then
      let (s, ok) := write s w
      if ok then s.put o ((s.list o).insertIdx i v) else s
    else s
  else s

/-- `doAddAll` (ecore/sqlstore.go 1904-1935) -/
def doAddAll (s : State) (o : Nat) (vs : List Nat) (r : Bool) (ws : List Bool) : State :=
  let (s, ok) := read s r
  if ok then insertAll s o vs ws else s

/-- `doRemove` (ecore/sqlstore.go 2001-2032) with the old value -/
def doRemove (s : State) (o i : Nat) (w : Bool) : State × Out :=
  let (s, ok) := write s w
  if ok then (s.put o ((s.list o).eraseIdx i), .val (s.list o)[i]?) else (s, .val none)

/-- `doMove` (ecore/sqlstore.go 2053-2095): the new `idx` is that of an element put before the target, or after it if the source is before it -/
def doMove (s : State) (o i j : Nat) (r w : Bool) : State × Out :=
  let (s, ok) := read s r
  if ok then
    if (if i < j then j + 1 else j) ≤ (s.list o).length then
      let (s, ok) := write s w
      if ok then
        match (s.list o)[i]? with
        | some v => (s.put o (((s.list o).eraseIdx i).insertIdx j v), .val (some v))
        | none => (s, .val none)
      else (s, .val none)
    else (s, .val none)
  else (s, .val none)

/-- `doClear` (ecore/sqlstore.go 2103-2121) -/
def doClear (s : State) (o : Nat) (w : Bool) : State :=
  let (s, ok) := write s w
  if ok then s.put o [] else s

/-- One call: `Get` (ecore/sqlstore.go 1363-1377), `IsEmpty`, `Size`, `Contains`, `IndexOf` (1568-1746), `Add`, `AddAll` (1861-1902), `Remove` with its result, `Move`,
`Clear` (1989-2101). -/
def step (s : State) : Op → State × Out
  | .get o i r => doGet s o i r
  | .size o r => doSize s o r
  | .isEmpty o r => doIsEmpty s o r
  | .contains o v r => doContains s o v r
  | .indexOf o v r r' => doIndexOf s o v r r'
  | .add o i v r w => (doAdd s o i v r w, .done)
  | .addAll o vs r ws => (doAddAll s o vs r ws, .done)
  | .remove o i w => doRemove s o i w
  | .move o i j r w => doMove s o i j r w
  | .clear o w => (doClear s o w, .done)

def run (s : State) : List Op → State
  | [] => s
  | op :: ops => run (step s op).1 ops

end Verif.SQLListErrors
