/-!
# The queue of SQL statements

Every access of the SQL encoder, decoder and store to the database goes through `executeSqlite` (ecore/sqlbase.go 127-265).  It gives the
statement to a goroutine that waits for some of the statements given before, executes it and takes it out of the queue.

The model is a state machine: `executeSqlite` is called, the goroutine of a statement starts to execute it, it ends with success or with an
error, it is given up because of an error of a statement it waits for.  Registration and removal are done under a mutex, so that each is one
step.  There is no limit of goroutines and of connections to the database.
-/

namespace Verif.SQLQueries

/-- What the parser of github.com/rqlite/sql finds in the text of a statement (ecore/sqlbase.go 66-88): the tables read (38-50), the table
written.  `unknown` is any other statement. -/
inductive Parsed where
  | select (tables : List String)
  | createTable (table : String)
  | insert (table : String)
  | delete (table : String)
  | update (table : String)
  | unknown
deriving DecidableEq, Repr

/-- `query` without its number and its promise (ecore/sqlbase.go 31-37) -/
structure Kind where
  write : Bool
  tables : List String
deriving DecidableEq, Repr

/-- the loop of `newQuery` (ecore/sqlbase.go 57-90): `bad` is true if the parser stops with an error after these statements -/
def parse (bad : Bool) : List Parsed → Kind → Kind
  | [], k => if bad then ⟨true, []⟩ else k
  | .select ts :: r, k => parse bad r ⟨false, k.tables ++ ts⟩
  | .createTable t :: r, k => parse bad r ⟨true, k.tables ++ [t]⟩
  | .insert t :: r, k => parse bad r ⟨true, k.tables ++ [t]⟩
  | .delete t :: r, k => parse bad r ⟨true, k.tables ++ [t]⟩
  | .update t :: r, k => parse bad r ⟨true, k.tables ++ [t]⟩
  | .unknown :: _, _ => ⟨true, []⟩

/-- `newQuery` (ecore/sqlbase.go 52-103).  A text without any statement has neither kind; it is then neither `queryRead` nor `queryWrite`, and
as its list of tables is empty it is treated as a read here. -/
def newQuery (bad : Bool) (ps : List Parsed) : Kind :=
  let k := parse bad ps ⟨false, []⟩
  if k.write then ⟨true, k.tables ++ [""]⟩ else k

/-- what the goroutine of a statement has done -/
inductive Phase where
  | waiting
  | running
  | done
  | failed
  | refused
deriving DecidableEq, Repr

/-- A statement: `prev` are the statements it waits for; `parent` is the statement whose result function called `executeSqlite`, if any. -/
structure Query where
  write : Bool
  tables : List String
  prev : List Nat
  parent : Option Nat
  phase : Phase
deriving DecidableEq, Repr

/-- The statements, by number, and `sqliteQueries` (ecore/sqlbase.go 112): for each table the statements registered, oldest first. -/
structure St where
  queries : List Query
  reg : String → List Nat

def init : St := ⟨[], fun _ => []⟩

def isWrite (s : St) (i : Nat) : Bool := match s.queries[i]? with
  | some q => q.write
  | none => false

def phaseOf (s : St) (i : Nat) : Option Phase := (s.queries[i]?).map (·.phase)

/-- the statement to wait for because of one table (ecore/sqlbase.go 151-165).  `w` tells whether a statement registered is a write. -/
def previous (w : Nat → Bool) (write : Bool) (registered : List Nat) : List Nat :=
  if write then registered.getLast?.toList else (registered.reverse.find? w).toList

/-- the loop over the tables (ecore/sqlbase.go 148-168) for the statement with number `n` -/
def register (w : Nat → Bool) (write : Bool) (n : Nat) : List String → (String → List Nat) → List Nat → (String → List Nat) × List Nat
  | [], reg, prev => (reg, prev)
  | t :: ts, reg, prev =>
    register w write n ts (fun u => if u = t then reg t ++ [n] else reg u) (prev ++ previous w write (reg t))

/-- the removal of a statement from the queue (ecore/sqlbase.go 228-245).  The statement is in the queue of each of its tables. -/
def unregister (n : Nat) : List String → (String → List Nat) → (String → List Nat)
  | [], reg => reg
  | t :: ts, reg => unregister n ts (fun u => if u = t then (reg t).erase n else reg u)

inductive Label where
  /-- `executeSqlite` is called, by itself or in the result function of another statement -/
  | call (parent : Option Nat) (bad : Bool) (ps : List Parsed)
  /-- the statement is given to the database -/
  | start (i : Nat)
  /-- the statement ended, with success or not -/
  | finish (i : Nat) (ok : Bool)
  /-- the goroutine ends without executing the statement -/
  | refuse (i : Nat)
deriving DecidableEq, Repr

/-- the call of `executeSqlite` returned -/
def Settled (p : Phase) : Prop := p = .done ∨ p = .failed ∨ p = .refused

instance (p : Phase) : Decidable (Settled p) := inferInstanceAs (Decidable (_ ∨ _ ∨ _))

def setPhase (s : St) (i : Nat) (p : Phase) : List Query :=
  match s.queries[i]? with
  | some q => s.queries.set i { q with phase := p }
  | none => s.queries

/-- `executeSqlite` (ecore/sqlbase.go 127-265), step by step -/
def step (s : St) : Label → Option St
  | .call parent bad ps =>
    -- a result function runs while its statement is executed
    if parent = none ∨ ∃ p ∈ parent, phaseOf s p = some .running then
      let k := newQuery bad ps
      let n := s.queries.length
      let (reg, prev) := register (fun i => if i = n then k.write else isWrite s i) k.write n k.tables s.reg []
      some ⟨s.queries ++ [⟨k.write, k.tables, prev, parent, .waiting⟩], reg⟩
    else none
  -- 174-197: all statements to wait for ended with success
  | .start i => match s.queries[i]? with
    | some q => if q.phase = .waiting ∧ ∀ p ∈ q.prev, phaseOf s p = some .done then some { s with queries := setPhase s i .running } else none
    | none => none
  -- 206-249: the result functions have returned
  | .finish i ok => match s.queries[i]? with
    | some q =>
      if q.phase = .running ∧ ∀ c ∈ s.queries, c.parent = some i → Settled c.phase then
        if ok then some ⟨setPhase s i .done, unregister i q.tables s.reg⟩
        -- 207-209: the statement stays in the queue
        else some { s with queries := setPhase s i .failed }
      else none
    | none => none
  -- 183-193: one of the statements to wait for ended without success; the statement stays in the queue
  | .refuse i => match s.queries[i]? with
    | some q =>
      if q.phase = .waiting ∧ ∃ p ∈ q.prev, phaseOf s p = some .failed ∨ phaseOf s p = some .refused then
        some { s with queries := setPhase s i .refused }
      else none
    | none => none

def run (s : St) : List Label → Option St
  | [] => some s
  | l :: ls => (step s l).bind (run · ls)

end Verif.SQLQueries
