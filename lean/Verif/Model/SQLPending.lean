import Verif.Model.SQLScheduler

/-!
# Reading single valued features of the SQL store

`Get` and `IsSet` of a single valued feature look for a pending write first (ecore/sqlstore.go 1363-1377 and
1475-1490).  The model adds to the scheduler the calls of one client, the columns of the database and the results.
-/

namespace Verif.SQLPending

open SQLScheduler

/-- Go values; the constructor is the dynamic type.  Other numbers, bytes, dates and enumerations are left out. -/
inductive Val where
  | nil
  | bool (b : Bool)
  | int (n : Int)
  | int64 (n : Int)
  | str (s : String)
  | obj (o : Nat)
deriving DecidableEq, Repr

/-- What a column holds: `decodeAny` (ecore/sqldecoder.go 20-37); floats and blobs are left out. -/
inductive Raw where
  | null
  | int64 (n : Int)
  | text (s : String)
deriving DecidableEq, Repr

/-- `sqlFeatureKind`: the kinds of columns modelled; `ref` is a contained object (`sfkObject`). -/
inductive Kind where
  | bool
  | int
  | int64
  | str
  | ref
deriving DecidableEq, Repr

/-- how SQLite stores an argument; the ID of an object in the database is its number here -/
def bind : Val → Raw
  | .nil => .null
  | .bool b => .int64 (if b then 1 else 0)
  | .int n => .int64 n
  | .int64 n => .int64 n
  | .str s => .text s
  | .obj o => .int64 o

/-- `decodeFeatureValue` (ecore/sqldecoder.go 388-508); an error gives `nil` -/
def decode : Kind → Raw → Val
  | .bool, .null => .bool false
  | .bool, .int64 n => .bool (n = 1)
  | .int, .null => .int 0
  | .int, .int64 n => .int n
  | .int64, .null => .int64 0
  | .int64, .int64 n => .int64 n
  | .str, .null => .str ""
  | .str, .text s => .str s
  | .ref, .int64 n => .obj n.toNat
  | _, _ => .nil

/-- Go's `==` of a column and a value, as `any` -/
def same : Raw → Val → Bool
  | .null, .nil => true
  | .int64 n, .int64 m => n = m
  | .text s, .str t => s = t
  | _, _ => false

/-- The single valued features: kind of column and default value. -/
structure Feature where
  kind : Kind
  default : Val
deriving DecidableEq, Repr

/-- Calls of the store by a client. -/
inductive Api where
  | get (o f : Nat)
  | isSet (o f : Nat)
  | set (o f : Nat) (v : Val)
  | unSet (o f : Nat)
  | setContainer (o : Nat) (container : Option Nat) (f : Nat)
  | addRoot
deriving DecidableEq, Repr

/-- the object of a value -/
def Val.object : Val → Option Nat
  | .obj o => some o
  | _ => none

/-- The operation of a call: `Get` 1374, `Set` 1423, `IsSet` 1486, `UnSet` 1537, `AddRoot` 1762,
`SetContainer` 2202 (ecore/sqlstore.go).  All of them have the index -1. -/
def Api.call : Api → Call
  | .get o f => ⟨false, some o, some f, [], none⟩
  | .isSet o f => ⟨false, some o, some f, [], none⟩
  | .set o f v => ⟨true, some o, some f, [], v.object⟩
  | .unSet o f => ⟨true, some o, some f, [], none⟩
  | .setContainer o c f => ⟨true, some o, some f, [], c⟩
  | .addRoot => ⟨true, none, none, [], none⟩

/-- `operation.value` -/
def Api.value : Api → Val
  | .set _ _ v => v
  | .setContainer _ (some c) _ => .obj c
  | _ => .nil

inductive Result where
  | value (v : Val)
  | bool (b : Bool)
deriving DecidableEq, Repr

/-- The store with one client: the calls of the operations, the columns (`none`: the object is not in the
database), the operation the client waits for, and the results the client has got. -/
structure Client where
  sched : St
  apis : List Api
  db : Area → Option Raw
  waiting : Option Nat
  results : List Result

def start : Client := ⟨init, [], fun _ => none, none, []⟩

/-- `getLastOperation(operationWrite, object, feature, -1)` (ecore/sqlstore.go 1275-1288) -/
def lastOperation (s : St) (k : Area) : Option Nat := (get s.queues k).reverse.find? (writes s.ops)

/-- `scheduleOperation`; the client waits for the operation or not -/
def schedule (c : Client) (a : Api) (wait : Bool) : Client :=
  ⟨call c.sched a.call, c.apis ++ [a], c.db, if wait then some c.sched.ops.length else none, c.results⟩

/-- the column after the execution of an operation: `doSet` 1433-1473, `doUnSet` 1543-1568 (ecore/sqlstore.go) -/
def effect (fs : Area → Feature) (db : Area → Option Raw) : Api → Area → Option Raw
  | .set o f v => fun k => if k = ⟨some o, some f⟩ then some (bind v) else db k
  | .unSet o f => fun k => if k = ⟨some o, some f⟩ then some (bind (fs ⟨some o, some f⟩).default) else db k
  | _ => db

/-- the result of an operation: `doGet` 1379-1416, `doIsSet` 1492-1531 (ecore/sqlstore.go) -/
def result (fs : Area → Feature) (db : Area → Option Raw) : Api → List Result
  | .get o f =>
    match db ⟨some o, some f⟩ with
    | none => [.value .nil]
    | some raw => [.value (decode (fs ⟨some o, some f⟩).kind raw)]
  | .isSet o f =>
    match db ⟨some o, some f⟩ with
    | none => [.bool false]
    | some raw => [.bool (!same raw (fs ⟨some o, some f⟩).default)]
  | _ => []

/-- What happens: a call of the client, or a step of a goroutine. -/
inductive Event where
  | api (a : Api)
  | start (id : Nat)
  | finish (id : Nat)
deriving DecidableEq, Repr

/-- One event; `none`: not possible.  `Get`, `IsSet` and `UnSet` wait for their operation, the others do not.
Operations do not fail here (see C41), and are not cancelled.  The effect is that of the end of `fn`. -/
def step (fs : Area → Feature) (c : Client) : Event → Option Client
  | .api a =>
    if c.waiting ≠ none then none
    else
      match a with
      | .get o f =>
        match lastOperation c.sched ⟨some o, some f⟩ with
        | some id => some { c with results := c.results ++ [.value ((c.apis[id]?.map Api.value).getD .nil)] }
        | none => some (schedule c a true)
      | .isSet o f =>
        match lastOperation c.sched ⟨some o, some f⟩ with
        | some id => some { c with results := c.results ++ [.bool ((c.apis[id]?.map Api.value).getD .nil ≠ .nil)] }
        | none => some (schedule c a true)
      | .unSet _ _ => some (schedule c a true)
      | _ => some (schedule c a false)
  | .start id => (SQLScheduler.step c.sched (.start id)).map fun s => { c with sched := s }
  | .finish id =>
    match SQLScheduler.step c.sched (.finish id .ok), c.apis[id]? with
    | some s, some a =>
      some ⟨s, c.apis, effect fs c.db a, if c.waiting = some id then none else c.waiting,
        if c.waiting = some id then c.results ++ result fs c.db a else c.results⟩
    | _, _ => none

/-- an execution -/
def run (fs : Area → Feature) (c : Client) : List Event → Option Client
  | [] => some c
  | e :: es => (step fs c e).bind (run fs · es)

end Verif.SQLPending
