/-
Model of the locking done by the derived lists of classes (ecore/eclass_ext.go): every class has a mutex; several goroutines.

Simplified: only the locking actions are modelled, not the computed lists (see Model/EClass for these).
-/
namespace Verif.ClassLocks

/-- `eClass.mutex.Lock()` and `eClass.mutex.Unlock()` of the class. -/
inductive Act where
  | lock (c : Nat)
  | unlock (c : Nat)
  deriving DecidableEq, Repr

/-- Locking done by reading one of the derived lists of a class (ecore/eclass_ext.go:265-419). If the list is cached the mutex is locked and
unlocked. Otherwise the lists of all the super types are read with the mutex locked. Whether the list of a class is cached may change from
one visit to the other, since other goroutines read and modify it: any outcome is allowed. -/
inductive Read (supers : Nat → List Nat) : Nat → List Act → Prop where
  | hit (c : Nat) : Read supers c [.lock c, .unlock c]
  | miss (c : Nat) (ts : List (List Act)) (hl : ts.length = (supers c).length)
      (h : ∀ (i : Nat) (s : Nat) (t : List Act), (supers c)[i]? = some s → ts[i]? = some t → Read supers s t) :
      Read supers c (.lock c :: (ts.flatten ++ [.unlock c]))

/-- Locking done by `setModified` (ecore/eclass_ext.go:437-468), given the sub classes and a bound on the depth. -/
def modified (subs : Nat → List Nat) : Nat → Nat → List Act
  | 0, _ => []
  | n + 1, c => .lock c :: ((subs c).flatMap (modified subs n) ++ [.unlock c])

/-- What every goroutine still has to do, and the goroutine which has locked the mutex of each class. -/
structure St where
  todo : Nat → List Act
  owner : Nat → Option Nat

/-- The goroutine `t` proceeds; `none` when it is blocked or has finished. A `sync.Mutex` is not reentrant. -/
def step (s : St) (t : Nat) : Option St :=
  match s.todo t with
  | [] => none
  | .lock c :: rest =>
    match s.owner c with
    | some _ => none
    | none => some { todo := fun u => if u = t then rest else s.todo u, owner := fun d => if d = c then some t else s.owner d }
  | .unlock c :: rest => some { todo := fun u => if u = t then rest else s.todo u, owner := fun d => if d = c then none else s.owner d }

/-- An interleaving: the goroutines proceed in the given order. -/
def run (s : St) : List Nat → Option St
  | [] => some s
  | t :: ts =>
    match step s t with
    | none => none
    | some s' => run s' ts

/-- Somebody has something to do and nobody can proceed. -/
def Deadlock (s : St) : Prop := (∃ t, s.todo t ≠ []) ∧ ∀ t, step s t = none

end Verif.ClassLocks
