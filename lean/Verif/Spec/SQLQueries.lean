import Verif.Model.SQLQueries

/-!
# What users expect of the queue of statements (C58)

Everything is said about the trace: the calls of `executeSqlite`, and the moments a statement starts and ends.
-/

namespace Verif.SQLQueries

/-- the statement changes the database -/
def writes : Parsed → Bool
  | .select _ => false
  | _ => true

/-- the tables a statement reads or changes, as far as they are known -/
def touches : Parsed → List String
  | .select ts => ts
  | .createTable t => [t]
  | .insert t => [t]
  | .delete t => [t]
  | .update t => [t]
  | .unknown => []

/-- the calls, in order: the statement whose result function makes the call, whether the text ends with something that is not a statement, and
the statements before -/
def calls : List Label → List (Option Nat × Bool × List Parsed)
  | [] => []
  | .call p b ps :: r => (p, b, ps) :: calls r
  | _ :: r => calls r

/-- call `i` changes the database, by each of its statements -/
def Writes (ls : List Label) (i : Nat) : Prop :=
  ∃ (p : Option Nat) (b : Bool) (ps : List Parsed), (calls ls)[i]? = some (p, b, ps) ∧ (b = true ∨ ps ≠ [] ∧ ∀ (x : Parsed), x ∈ ps → writes x = true)

/-- call `i` only reads -/
def Reads (ls : List Label) (i : Nat) : Prop :=
  ∃ (p : Option Nat) (ps : List Parsed), (calls ls)[i]? = some (p, false, ps) ∧ ∀ (x : Parsed), x ∈ ps → writes x = false

/-- call `i` is understood: its text is parsed to the end -/
def Known (ls : List Label) (i : Nat) : Prop :=
  ∃ (p : Option Nat) (ps : List Parsed), (calls ls)[i]? = some (p, false, ps) ∧ .unknown ∉ ps

/-- call `i` reads or changes table `t` -/
def Touches (ls : List Label) (i : Nat) (t : String) : Prop :=
  ∃ (p : Option Nat) (b : Bool) (ps : List Parsed), (calls ls)[i]? = some (p, b, ps) ∧ ∃ (x : Parsed), x ∈ ps ∧ t ∈ touches x

/-- no table has an empty name -/
def Named (ls : List Label) : Prop := ∀ (i : Nat), ¬ Touches ls i ""

/-- statement `x` has ended with success before `y` starts -/
def Before (ls : List Label) (x y : Nat) : Prop :=
  ∀ (A B : List Label), ls = A ++ .start y :: B → .finish x true ∈ A

/-- no call is made in a result function -/
def Flat (ls : List Label) : Prop := ∀ (x : Option Nat × Bool × List Parsed), x ∈ calls ls → x.1 = none

/-- no call changes a table twice -/
def Once (ls : List Label) : Prop :=
  ∀ (x : Option Nat × Bool × List Parsed), x ∈ calls ls → (x.2.2.flatMap touches).Nodup

/-- a step of a goroutine, and not of the user -/
def Internal : Label → Prop
  | .call .. => False
  | _ => True

/-- no goroutine has a step left -/
def Quiet (s : St) : Prop := ∀ (l : Label), Internal l → step s l = none

end Verif.SQLQueries
