/-!
# The scheduler of the SQL store

Every method of the store creates an operation that is executed by its own goroutine, after some
of the operations called before (ecore/sqlstore.go 426-480 and 1034-1350).

The model is a state machine.  Its steps are the calls of the methods, and what the goroutine of an
operation does: it starts `fn`, `fn` ends, it gives up because a previous operation failed.
Registration and deregistration are done under a mutex, so that each of them is one step.  The
goroutine pool has no limit and every goroutine is run at any time.
-/

namespace Verif.SQLScheduler

/-- `objectFeature` (ecore/sqlstore.go 1034-1037): a key of `objectOperations`.  `none` is `nil`:
`⟨some o, none⟩` stands for all features of `o`, `⟨none, none⟩` for the whole store. -/
structure Area where
  obj : Option Nat
  feat : Option Nat
deriving DecidableEq, Repr

/-- A call of a method of the store: its operation (ecore/sqlstore.go 446-457).  `contents` is the
list of all contents of the object if the operation has the flag `contents`, otherwise it is empty;
`value` is the value if it is an object. -/
structure Call where
  write : Bool
  object : Option Nat
  feature : Option Nat
  contents : List Nat
  value : Option Nat
deriving DecidableEq, Repr

/-- `allObjectFeatures` (ecore/sqlstore.go 1129-1145) -/
def Call.areas (c : Call) : List Area :=
  ⟨c.object, c.feature⟩ ::
    ((if c.object = none then [] else c.contents.map fun o => ⟨some o, none⟩) ++
    (if c.value = none ∨ c.value = c.object then [] else [⟨c.value, none⟩]))

/-- `objectOperations` (ecore/sqlstore.go 600): for each key the operations registered, by number, oldest
first.  There is no entry without operations. -/
abbrev Queues := List (Area × List Nat)

/-- the operations of a key -/
def get : Queues → Area → List Nat
  | [], _ => []
  | (k', l) :: q, k => if k' = k then l else get q k

/-- `objectOperations[feature] = …` -/
def put : Queues → Area → List Nat → Queues
  | [], k, l => [(k, l)]
  | (k', l') :: q, k, l => if k' = k then (k, l) :: q else (k', l') :: put q k l

/-- `delete` -/
def del (q : Queues) (k : Area) : Queues := q.filter (fun e => e.1 ≠ k)

/-- the keys with an object -/
def objects (q : Queues) : List Nat := (q.filterMap (·.1.obj)).eraseDups

/-- the keys with object `o` and a feature -/
def features (q : Queues) (o : Nat) : List Area := (q.map (·.1)).filter fun k => k.obj = some o ∧ k.feat ≠ none

/-- `objectFeaturesIterator` (ecore/sqlstore.go 1039-1080).  The order of a Go map is not defined; here it is
that of the list, nothing depends on it. -/
def expand (q : Queues) (a : Area) : List Area :=
  match a.obj, a.feat with
  | none, _ => ⟨none, none⟩ :: (objects q).flatMap fun o => ⟨some o, none⟩ :: features q o
  | some o, none => ⟨some o, none⟩ :: features q o
  | some o, some f => [⟨some o, some f⟩]

/-- What the goroutine of an operation has done: it waits for previous operations, executes `fn`,
has resolved the promise, has rejected it after `fn` failed, has rejected it because a previous operation failed. -/
inductive Phase where
  | waiting
  | running
  | done
  | failed
  | refused
deriving DecidableEq, Repr

/-- An operation: its type, `registeredObjectFeatures`, `previous`, what its goroutine has done, and if its context
is cancelled. -/
structure Op where
  write : Bool
  keys : List Area
  previous : List Nat
  phase : Phase
  cancelled : Bool
deriving DecidableEq, Repr

/-- The store: operations are numbered in the order of the calls. -/
structure St where
  queues : Queues
  ops : List Op
deriving DecidableEq, Repr

def init : St := ⟨[], []⟩

/-- `registerOperation` (ecore/sqlstore.go 1290-1325): the previous operation is the last write for a read, the last
operation for a write. -/
def register (isWrite : Nat → Bool) (id : Nat) (acc : Queues × List Nat) (k : Area) : Queues × List Nat :=
  let l := get acc.1 k
  let p := if isWrite id then l.getLast? else l.reverse.find? isWrite
  (put acc.1 k (l ++ [id]), acc.2 ++ p.toList)

/-- the loop of `scheduleOperation` over `allObjectFeatures` (ecore/sqlstore.go 1150-1160): queues, previous
operations and registered keys -/
def registerAll (isWrite : Nat → Bool) (id : Nat) : Queues × List Nat × List Area → List Area → Queues × List Nat × List Area
  | acc, [] => acc
  | (q, p, ks), a :: as =>
    let new := expand q a
    let r := new.foldl (register isWrite id) (q, p)
    registerAll isWrite id (r.1, r.2, ks ++ new) as

/-- the type of the operation with a number -/
def writes (ops : List Op) (id : Nat) : Bool := (ops[id]?.map (·.write)).getD false

/-- `scheduleOperation` (ecore/sqlstore.go 1117-1273), up to the start of the goroutine -/
def call (s : St) (c : Call) : St :=
  let id := s.ops.length
  let r := registerAll (fun i => if i = id then c.write else writes s.ops i) id (s.queues, [], []) c.areas
  ⟨r.1, s.ops ++ [⟨c.write, r.2.2, r.2.1, .waiting, false⟩]⟩

/-- `unregisterOperation` (ecore/sqlstore.go 1327-1350); `none` is the error -/
def unregister (q : Queues) (k : Area) (id : Nat) : Option Queues :=
  let l := get q k
  if id ∈ l then
    let l := l.erase id
    some (if l = [] then del q k else put q k l)
  else none

/-- the loop of the goroutine over `registeredObjectFeatures` (ecore/sqlstore.go 1242-1247): the queues and if there
was no error -/
def unregisterAll (id : Nat) : Queues → List Area → Queues × Bool
  | q, [] => (q, true)
  | q, k :: ks =>
    match unregister q k id with
    | some q => unregisterAll id q ks
    | none => (q, false)

/-- How `fn` ends. -/
inductive Outcome where
  | ok
  | error
  | panic
deriving DecidableEq, Repr

/-- A step: a call, or a step of the goroutine of the operation with a number; `timeout` is
`unlockOperation` (ecore/sqlstore.go 1085-1111) cancelling the context of an operation. -/
inductive Label where
  | call (c : Call)
  | start (id : Nat)
  | finish (id : Nat) (r : Outcome)
  | refuse (id : Nat)
  | timeout (id : Nat)
deriving DecidableEq, Repr

/-- the phase of the operation with a number -/
def phase (s : St) (id : Nat) : Option Phase := s.ops[id]?.map (·.phase)

/-- change of an operation -/
def setOp (s : St) (id : Nat) (f : Op → Op) : St := ⟨s.queues, s.ops.modify id f⟩

/-- the goroutine may start `fn`: `promise.All(…).Await(ctx)` (ecore/sqlstore.go 1217) returned without error, or with
the error of the cancelled context -/
def ready (s : St) (op : Op) : Bool := op.cancelled || op.previous.all fun p => phase s p = some .done

/-- the goroutine gives up (ecore/sqlstore.go 1217-1225): one of the promises is rejected -/
def blocked (s : St) (op : Op) : Bool := op.previous.any fun p => phase s p = some .failed || phase s p = some .refused

/-- One step; `none`: it is not possible in this state.
- `start` (ecore/sqlstore.go 1216-1234);
- `finish` (1234-1269): `fn` returned or panicked, the operation is unregistered and its promise resolved
  or rejected.  After a panic `handlePanic` (1180-1196) rejects, nothing is unregistered;
- `refuse` (1217-1225): the promise is rejected, nothing is unregistered. -/
def step (s : St) : Label → Option St
  | .call c => some (call s c)
  | .start id =>
    match s.ops[id]? with
    | some op => if op.phase = .waiting ∧ ready s op then some (setOp s id fun op => { op with phase := .running }) else none
    | none => none
  | .finish id r =>
    match s.ops[id]? with
    | some op =>
      if op.phase = .running then
        if r = .panic then some (setOp s id fun op => { op with phase := .failed })
        else
          let u := unregisterAll id s.queues op.keys
          let ph := if u.2 = false ∨ r = .error then Phase.failed else Phase.done
          some (setOp ⟨u.1, s.ops⟩ id fun op => { op with phase := ph })
      else none
    | none => none
  | .refuse id =>
    match s.ops[id]? with
    | some op => if op.phase = .waiting ∧ blocked s op then some (setOp s id fun op => { op with phase := .refused }) else none
    | none => none
  | .timeout id =>
    match s.ops[id]? with
    | some _ => some (setOp s id fun op => { op with cancelled := true })
    | none => none

/-- an execution -/
def run (s : St) : List Label → Option St
  | [] => some s
  | l :: ls => (step s l).bind (run · ls)

/-- `WaitOperations` (ecore/sqlstore.go 998-1032): the operations it waits for; `none` is the whole store -/
def pending (s : St) (object : Option Nat) : List Nat :=
  (s.queues.filter fun e => object = none ∨ e.1.obj = object).flatMap (·.2)

/-- One round of `WaitOperations`. -/
inductive Wait where
  | returns (error : Bool)
  | again
  | waits
deriving DecidableEq, Repr

/-- It returns if no operation is registered, returns an error if the promise of one of them is rejected, starts again if
all are resolved, and otherwise waits. -/
def waitOperations (s : St) (object : Option Nat) : Wait :=
  let ids := pending s object
  if ids = [] then .returns false
  else if ids.any fun p => phase s p = some .failed || phase s p = some .refused then .returns true
  else if ids.all fun p => phase s p = some .done then .again
  else .waits

end Verif.SQLScheduler
