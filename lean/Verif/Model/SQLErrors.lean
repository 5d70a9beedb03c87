/-!
# Errors of the database in the SQL store

`Get`, `Set`, `IsSet` and `UnSet` of single-valued features of objects that are in the database, one call after the other: each is executed before the
next one is called (the order of calls that are not is C39 and C54).  The database may fail to execute any statement.  A statement that failed
stays in the queue of its table (C58), so that it fails those that wait for it.

Objects, features and tables are numbers.  Values are stored as they are.
-/
set_option autoImplicit false
namespace Verif.SQLErrors

/-- A value given to the user: nil, data, or an error in the place of a value. -/
inductive Val where
  | nil
  | data (n : Nat)
  | error
deriving DecidableEq, Repr

/-- The table of a feature, and its default value. -/
structure Env where
  table : Nat → Nat
  dflt : Nat → Val

/-- The columns, and for each table if a statement that reads, and one that writes, is left in the queue of the table. -/
structure State where
  val : Nat → Nat → Val
  readLeft : Nat → Bool
  writeLeft : Nat → Bool

def init (E : Env) : State := ⟨fun _ f => E.dflt f, fun _ => false, fun _ => false⟩

/-- A call. `r` and `w` tell if the database fails to execute the statement of the call that reads, or writes. -/
inductive Op where
  | get (o f : Nat) (r : Bool)
  | set (o f : Nat) (v : Val) (needResult : Bool) (r w : Bool)
  | isSet (o f : Nat) (r : Bool)
  | unset (o f : Nat) (w : Bool)
deriving DecidableEq, Repr

/-- What a call gives back. -/
inductive Out where
  | val (v : Val)
  | bool (b : Bool)
  | done
deriving DecidableEq, Repr

/-- `executeSqlite` of a SELECT (ecore/sqlbase.go 127-265): it waits for the last statement that writes (152-160), fails with it or by itself, and then stays in the
queue (195-217: it is taken out only after success) -/
def read (s : State) (t : Nat) (fails : Bool) : State × Bool :=
  if s.writeLeft t || fails then ({ s with readLeft := fun u => if u = t then true else s.readLeft u }, false) else (s, true)

/-- `executeSqlite` of an UPDATE: it waits for the last statement of the table (161-166) -/
def write (s : State) (t : Nat) (fails : Bool) : State × Bool :=
  if s.readLeft t || s.writeLeft t || fails then ({ s with writeLeft := fun u => if u = t then true else s.writeLeft u }, false) else (s, true)

def State.put (s : State) (o f : Nat) (v : Val) : State :=
  { s with val := fun p g => if p = o ∧ g = f then v else s.val p g }

/-- `getValue` (ecore/sqlstore.go 1394-1418): the error is given back as the value, without an error -/
def getValue (E : Env) (s : State) (o f : Nat) (r : Bool) : State × Val :=
  let (s', ok) := read s (E.table f) r
  (s', if ok then s'.val o f else .error)

/-- `doSet` (ecore/sqlstore.go 1433-1473) and `awaitOperation` (1352-1361): after an error the result is nil -/
def doSet (E : Env) (s : State) (o f : Nat) (v : Val) (needResult r w : Bool) : State × Val :=
  let (s, old) := if needResult then getValue E s o f r else (s, .nil)
  let (s, ok) := write s (E.table f) w
  if ok then (s.put o f v, old) else (s, .nil)

/-- One call: `Get` and `doGet` (ecore/sqlstore.go 1363-1392), `Set` (1420-1431), `IsSet` and `doIsSet` (1475-1531), `UnSet` and `doUnSet` (1533-1568). -/
def step (E : Env) (s : State) : Op → State × Out
  | .get o f r =>
    let (s, v) := getValue E s o f r
    (s, .val v)
  | .set o f v needResult r w =>
    let (s, old) := doSet E s o f v needResult r w
    (s, if needResult then .val old else .done)
  | .isSet o f r =>
    let (s, ok) := read s (E.table f) r
    (s, .bool (ok && s.val o f != E.dflt f))
  | .unset o f w =>
    let (s, ok) := write s (E.table f) w
    (if ok then s.put o f (E.dflt f) else s, .done)

def run (E : Env) (s : State) : List Op → State
  | [] => s
  | op :: ops => run E (step E s op).1 ops

def answers (E : Env) (s : State) : List Op → List (Op × Out)
  | [] => []
  | op :: ops => (op, (step E s op).2) :: answers E (step E s op).1 ops

end Verif.SQLErrors
