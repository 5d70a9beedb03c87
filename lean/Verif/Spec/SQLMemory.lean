import Verif.Model.SQLMemory

/-!
# What users of databases expect
-/

namespace Verif.Spec.SQLMemory

open Verif.SQLMemory (Name Content User Result)

/-- Names that mean nothing else in a URI. -/
def Plain (n : Name) : Prop := '?' ∉ n ∧ '#' ∉ n ∧ '%' ∉ n

/-- The files of a user: the temporary file or the one they named, the file of a store. -/
def filesOf : User → List Name
  | .reader _ _ dbPath tmp _ _ => tmp :: dbPath.toList
  | .writer _ tmp _ => [tmp]
  | .store _ dir base _ => [dir ++ base]

/-- The name of the database in memory of a user. -/
def memoryOf : User → List Name
  | .reader m name _ _ _ _ => if m then [name] else []
  | .writer m _ _ => if m then [":memory:".toList] else []
  | .store m _ base _ => if m then [base] else []

/-- What a user expects to have read (the document that is loaded, or the bytes that are saved). -/
def expected : User → Result
  | .reader _ _ _ _ doc _ => .got doc
  | .writer _ _ rows => .got rows
  | .store .. => .nothing

/-- What a user expects of a file of theirs in the end: a store has the new rows, a temporary file is gone, the document is in the file that
was named (if the database is not in memory). -/
def left (before : Option Content) : User → Name → Option Content
  | .reader m _ dbPath _ doc _, f => if dbPath = some f then (if m then none else some doc) else before
  | .writer .., _ => before
  | .store _ _ _ rows, _ => some (before.getD [] ++ rows)

/-- Users have different files and different databases in memory. -/
def Apart (us : List User) : Prop :=
  us.Pairwise fun u v => (∀ f ∈ filesOf u, f ∉ filesOf v) ∧ (∀ n ∈ memoryOf u, n ∉ memoryOf v)

/-- Temporary files are new. -/
def Fresh (files : Name → Option Content) : User → Prop
  | .reader _ _ dbPath tmp _ _ => files tmp = none ∧ dbPath ≠ some tmp
  | .writer _ tmp _ => files tmp = none
  | .store .. => True

/-- The document is long enough to be a database. -/
def Long : User → Prop
  | .reader _ _ _ _ _ bytes => 20 ≤ bytes
  | _ => True

end Verif.Spec.SQLMemory
