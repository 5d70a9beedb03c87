/-!
# Goroutines that store objects

Several goroutines encode objects, classes, packages and enumeration literals with one `sqlEncoder` (ecore/sqlencoder.go): each is written by
the goroutine that has its lock, and the locks are those of a `sqlEncoderLockManager`, which takes its mutexes from a `sync.Pool` and puts them
back when nobody uses them.  The goroutines are interleaved at the calls of `Lock` and `Unlock`, at the questions whether something is written
and at the writing.

Simplified: what is encoded is a number, whatever its type; a row is written at once when the writing ends; nothing fails, and no object
has an ID from another database.  Left out: the mutex of the objects themselves (`ELockProvider`), the connections of the database, and the
values other than those that are encoded themselves.
-/

namespace Verif.EncoderLocks

/-- What encoding something makes one encode: `first` before the lock is asked for, `before` with the lock and before the row is written, `after`
with the lock and after that.  `pre` tells what is asked for before the lock, too.

* an object (ecore/sqlencoder.go 280-418): `pre`; before: its class; after: the data of its classes, its contained objects and its literals
* a class (506-569): first: its data; before: its package
* the data of a class (571-645): before: the data of its super types
* a package (648-679)
* a literal (457-501): before: its package -/
structure Cfg where
  pre : Nat → Bool
  first : Nat → List Nat
  before : Nat → List Nat
  after : Nat → List Nat

/-- What a goroutine still has to do. -/
inductive Act where
  | encode (x : Nat)
  | acquire (x : Nat)
  | check (x : Nat)
  | insert (x : Nat)
  | release (x : Nat)
deriving DecidableEq, Repr

/-- Where a goroutine is: `waiting x m` has the mutex `m` of `x` and calls `Lock` of it, `unlocking m` has given `x` back and calls `Unlock`,
`writing x` writes the row of `x` and its entry in the maps of the encoder. -/
inductive Phase where
  | ready
  | waiting (x m : Nat)
  | unlocking (m : Nat)
  | writing (x : Nat)
deriving DecidableEq, Repr

/-- A goroutine; `held` are the calls of `lock` that have returned, without those it has called `unlock` for. -/
structure Thread where
  todo : List Act
  held : List Nat
  phase : Phase
deriving DecidableEq, Repr

/-- The goroutines, the lock manager (ecore/sqlencoder.go 120-130) and what is written.  `locks` is the map of the locks with the count
of references, `pool` the mutexes in the pool, `next` the next mutex made, `locked` the mutexes that are locked; `fatal` tells that a mutex was unlocked
that was not locked. -/
structure St where
  threads : List Thread
  locks : Nat → Option (Nat × Nat)
  pool : List Nat
  next : Nat
  locked : Nat → Bool
  rows : List Nat
  fatal : Bool

variable {α : Type}

def upd (f : Nat → α) (i : Nat) (x : α) : Nat → α := fun j => if j = i then x else f j

/-- `Get` of the pool: one of the mutexes that are there, or a new one. -/
def poolGet (s : St) (choice : Option Nat) : St × Nat :=
  match choice.bind fun i => s.pool[i]? with
  | some m => ({ s with pool := s.pool.erase m }, m)
  | none => ({ s with next := s.next + 1 }, s.next)

/-- `aquireMutex` (ecore/sqlencoder.go 143-154) -/
def acquireMutex (s : St) (x : Nat) (choice : Option Nat) : St × Nat :=
  match s.locks x with
  | some (m, n) => ({ s with locks := upd s.locks x (some (m, n + 1)) }, m)
  | none => let (s, m) := poolGet s choice; ({ s with locks := upd s.locks x (some (m, 1)) }, m)

/-- `releaseMutex` (ecore/sqlencoder.go 156-167) -/
def releaseMutex (s : St) (x : Nat) : St × Option Nat :=
  match s.locks x with
  | some (m, n) =>
    if n - 1 = 0 then ({ s with pool := m :: s.pool, locks := upd s.locks x none }, some m)
    else ({ s with locks := upd s.locks x (some (m, n - 1)) }, some m)
  | none => (s, none)

def setThread (s : St) (i : Nat) (t : Thread) : St := { s with threads := s.threads.set i t }

/-- The goroutine `i` proceeds; `none` when it is blocked or has ended.  `choice` is what the pool gives. -/
def step (C : Cfg) (s : St) (i : Nat) (choice : Option Nat) : Option St :=
  match s.threads[i]? with
  | none => none
  | some t =>
    match t.phase with
    | .waiting x m => if s.locked m then none else some (setThread { s with locked := upd s.locked m true } i ⟨t.todo, x :: t.held, .ready⟩)
    | .unlocking m => some (setThread { s with fatal := s.fatal || !s.locked m, locked := upd s.locked m false } i ⟨t.todo, t.held, .ready⟩)
    | .writing x => some (setThread { s with rows := s.rows ++ [x] } i ⟨t.todo, t.held, .ready⟩)
    | .ready =>
      match t.todo with
      | [] => none
      | .encode x :: todo =>
        if C.pre x && decide (x ∈ s.rows) then some (setThread s i ⟨todo, t.held, .ready⟩)
        else some (setThread s i ⟨(C.first x).map .encode ++ .acquire x :: .check x :: .release x :: todo, t.held, .ready⟩)
      | .acquire x :: todo => let (s, m) := acquireMutex s x choice; some (setThread s i ⟨todo, t.held, .waiting x m⟩)
      | .check x :: todo =>
        if x ∈ s.rows then some (setThread s i ⟨todo, t.held, .ready⟩)
        else some (setThread s i ⟨(C.before x).map .encode ++ .insert x :: (C.after x).map .encode ++ todo, t.held, .ready⟩)
      | .insert x :: todo => some (setThread s i ⟨todo, t.held, .writing x⟩)
      | .release x :: todo =>
        match releaseMutex s x with
        | (s, none) => some (setThread s i ⟨todo, t.held.erase x, .ready⟩)
        | (s, some m) => some (setThread s i ⟨todo, t.held.erase x, .unlocking m⟩)

/-- An interleaving: which goroutines proceed, one after the other. -/
def run (C : Cfg) (s : St) : List (Nat × Option Nat) → Option St
  | [] => some s
  | (i, c) :: is => (step C s i c).bind fun s => run C s is

/-- Each goroutine has to encode something, and nothing is written (`newSqlEncoderLockManager`, ecore/sqlencoder.go 132-141). -/
def init (xs : List (List Nat)) : St :=
  ⟨xs.map fun l => ⟨l.map .encode, [], .ready⟩, fun _ => none, [], 0, fun _ => false, [], false⟩

/-! ## Goroutines that read objects -/

/-- A goroutine that decodes the object of row `row` (ecore/sqldecoder.go 278-340): it asks for the object, and makes one if there is none. -/
inductive Reader where
  | start (row : Nat)
  | create (row : Nat)
  | done (row : Nat) (object : Nat)
deriving DecidableEq, Repr

structure Readers where
  readers : List Reader
  objects : Nat → Option Nat
  next : Nat

def readStep (s : Readers) (i : Nat) : Option Readers :=
  match s.readers[i]? with
  | some (.start r) =>
    match s.objects r with
    | some o => some { s with readers := s.readers.set i (.done r o) }
    | none => some { s with readers := s.readers.set i (.create r) }
  | some (.create r) => some { readers := s.readers.set i (.done r s.next), objects := upd s.objects r (some s.next), next := s.next + 1 }
  | _ => none

def readRun (s : Readers) : List Nat → Option Readers
  | [] => some s
  | i :: is => (readStep s i).bind fun s => readRun s is

end Verif.EncoderLocks
