import Verif.Model.SQLScheduler

/-!
# Closing a SQL store

`Close` (ecore/sqlstore.go 2359-2379) waits for the operations of the store, closes the channel of operations and the
connections.  It runs beside the calls of other goroutines and the goroutines of the operations, so that it is
a part of the state machine of `Model/SQLScheduler.lean`: it begins, `WaitOperations` (998-1034) makes a round, and it
closes the store.

Not modelled: the error of `connPoolClose` (2373), which `Close` returns; the goroutine pool (`antsPool`) after
`Release` (2376).
-/

namespace Verif.SQLClose

open Verif.SQLScheduler (Call Outcome Phase phase pending)

/-- How far `Close` is: not called; in `WaitOperations` (ecore/sqlstore.go 998-1034) with the operations it has read under
the mutex and whose promises it waits for; after `connPoolClose` (2373), with the operations which had a
connection then. -/
inductive Closing where
  | opened
  | waiting (ids : List Nat)
  | closed (live : List Nat)
deriving DecidableEq, Repr

/-- The store; `panics` counts the calls of methods of the store that panicked, `returned` the calls of `Close` that
returned. -/
structure St where
  sched : SQLScheduler.St
  closing : Closing
  panics : Nat
  returned : Nat
deriving DecidableEq, Repr

def init : St := ⟨SQLScheduler.init, .opened, 0, 0⟩

/-- A step: one of the scheduler; a call of `Close`; `WaitOperations` goes round its loop; the store is closed and `Close`
returns. -/
inductive Label where
  | op (l : SQLScheduler.Label)
  | close
  | round
  | shut
deriving DecidableEq, Repr

/-- the promise of an operation is rejected -/
def rejected (s : SQLScheduler.St) (id : Nat) : Bool := phase s id = some .failed || phase s id = some .refused

/-- the operations whose function is being executed -/
def live (s : SQLScheduler.St) : List Nat := (List.range s.ops.length).filter fun id => phase s id = some .running

/-- One step; `none`: it is not possible in this state.
- a call of a method (`scheduleOperation`, ecore/sqlstore.go 1121-1275): the operation is registered and its goroutine
  begins, whether the store is closed or not; then it is sent to the channel (1273), a panic if the channel is closed;
- the end of `fn`: after the store is closed a function which has no connection yet does not get one
  (`connPool.Take`), it ends with an error.  Functions that have one go on or are interrupted.  Simplified: every
  function takes a connection;
- `close` (2359-2367): the first call begins to wait (`isClosed.Swap`, 2360), another one returns at once;
- `round` (1003-1024): all the promises are resolved, the operations are read again;
- `shut` (1017-1031, then 2367-2378): there was no operation, or one of the promises is rejected: `WaitOperations`
  returns, its error is ignored. -/
def step (s : St) : Label → Option St
  | .op l =>
    match SQLScheduler.step s.sched l with
    | none => none
    | some t =>
      match s.closing, l with
      | .closed _, .call _ => some { s with sched := t, panics := s.panics + 1 }
      | .closed live, .finish id .ok => if id ∈ live then some { s with sched := t } else none
      | _, _ => some { s with sched := t }
  | .close =>
    match s.closing with
    | .opened => some { s with closing := .waiting (pending s.sched none) }
    | _ => some { s with returned := s.returned + 1 }
  | .round =>
    match s.closing with
    | .waiting ids =>
      if ids ≠ [] ∧ ids.all (fun id => phase s.sched id = some .done) then
        some { s with closing := .waiting (pending s.sched none) }
      else none
    | _ => none
  | .shut =>
    match s.closing with
    | .waiting ids =>
      if ids = [] ∨ ids.any (rejected s.sched) then
        some { s with closing := .closed (live s.sched), returned := s.returned + 1 }
      else none
    | _ => none

/-- an execution -/
def run (s : St) : List Label → Option St
  | [] => some s
  | l :: ls => (step s l).bind (run · ls)

/-- `Serialize` (ecore/sqlstore.go 2280-2291): a read of the whole store, whose function `doSerialize` (2293-2342)
reads the database -/
def serialize : Call := ⟨false, none, none, [], none⟩

end Verif.SQLClose
