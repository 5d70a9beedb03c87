import Verif.Model.SQLClose
import Verif.Spec.SQLScheduler

/-!
# Specification of the end of a SQL store
-/

namespace Verif.SQLClose

open Verif.SQLScheduler (Call Outcome)

/-- the steps of the operations in an execution -/
def ops (ls : List Label) : List SQLScheduler.Label := ls.filterMap fun
  | .op l => some l
  | _ => none

/-- the calls of methods of the store, in order; the number of an operation is the place of its call -/
def calls (ls : List Label) : List Call := SQLScheduler.calls (ops ls)

/-- the function of operation `x` has been executed without error -/
def Success (x : Nat) (ls : List Label) : Prop := Label.op (.finish x .ok) ∈ ls

instance (x : Nat) (ls : List Label) : Decidable (Success x ls) := by unfold Success; infer_instance

/-- the function of operation `x` has ended -/
def Ended (x : Nat) (ls : List Label) : Prop := ∃ r, Label.op (.finish x r) ∈ ls

/-- no function fails -/
def NoFailure (ls : List Label) : Prop := ∀ x, Label.op (.finish x .error) ∉ ls ∧ Label.op (.finish x .panic) ∉ ls

/-- no operation is cancelled because of its duration -/
def NoTimeout (ls : List Label) : Prop := ∀ x, Label.op (.timeout x) ∉ ls

/-- no goroutine of an operation has a step left -/
def Quiet (s : St) : Prop := ∀ l, SQLScheduler.Internal l → SQLScheduler.step s.sched l = none

end Verif.SQLClose
