/-
Model of the unbounded channel of the SQL store (ecore/sqlstore.go:526-589): the goroutine `manage`, producers, consumers and
closers as a state machine whose steps are the rendezvous on the two unbuffered channels. A schedule is a list of actions; an
action which cannot happen in a state gives `none`.
-/
namespace Verif.Channel

/-- The goroutine `manage` (ecore/sqlstore.go:561-589: `queue`, and whether the local `in` was set to nil), the channels and the
`closed` flag (526-530). `closers` counts the calls of Close which have read the flag as false and have not stored it yet
(550-555). -/
structure St (α : Type) where
  queue : List α := []
  inNil : Bool := false
  inClosed : Bool := false
  outClosed : Bool := false
  flag : Bool := false
  closers : Nat := 0
  deriving DecidableEq, Repr

inductive Act (α : Type) where
  /-- a producer completes `q.In() <- v`, received by `manage` (line 569 or 579) -/
  | send (v : α)
  /-- a consumer completes `<-q.Out()` with a value (line 577) -/
  | recv
  /-- `manage` finds `in` closed (line 570 or 583) -/
  | seeClosed
  /-- `manage` closes `out` because `in` is nil and the queue is empty (line 565) -/
  | finish
  /-- a consumer finds `out` closed -/
  | recvEnd
  /-- a call of Close reads the flag (line 551) -/
  | closeLoad
  /-- a call of Close which read false stores true and closes the channel (lines 552-553) -/
  | closeStore
  deriving DecidableEq, Repr

/-- What a step yields: a received value, the end of the stream seen by a consumer, a panic (close of a closed channel), or nothing. -/
inductive Out (α : Type) where
  | none
  | value (v : α)
  | ended
  | panic
  deriving DecidableEq, Repr

variable {α : Type}

def step (s : St α) : Act α → Option (St α × Out α)
  | .send v => if !s.inClosed && !s.inNil && !s.outClosed then some ({ s with queue := s.queue ++ [v] }, .none) else none
  | .recv =>
    match s.queue with
    | x :: q => if !s.outClosed then some ({ s with queue := q }, .value x) else none
    | [] => none
  | .seeClosed =>
    if s.inClosed && !s.inNil && !s.outClosed then
      if s.queue.isEmpty then some ({ s with outClosed := true }, .none) else some ({ s with inNil := true }, .none)
    else none
  | .finish => if s.queue.isEmpty && s.inNil && !s.outClosed then some ({ s with outClosed := true }, .none) else none
  | .recvEnd => if s.outClosed then some (s, .ended) else none
  | .closeLoad => some (if s.flag then s else { s with closers := s.closers + 1 }, .none)
  | .closeStore =>
    if s.closers > 0 then
      if s.inClosed then some ({ s with flag := true, closers := s.closers - 1 }, .panic)
      else some ({ s with flag := true, inClosed := true, closers := s.closers - 1 }, .none)
    else none

/-- A schedule: the final state and what each step yielded. -/
def run (s : St α) : List (Act α) → Option (St α × List (Out α))
  | [] => some (s, [])
  | a :: as =>
    match step s a with
    | none => none
    | some (s1, o) =>
      match run s1 as with
      | none => none
      | some (s2, os) => some (s2, o :: os)

/-- `newInfiniteChannel` (ecore/sqlstore.go:532-540). -/
def init : St α := {}

end Verif.Channel
