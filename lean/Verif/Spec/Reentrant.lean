import Verif.Model.Reentrant
import Verif.Spec.Notify
/-
Specification for C86: what an observer of a notifier makes of what it was told.
-/
namespace Verif.Spec.Observer
open Verif.Notify Verif.Reentrant

variable {α : Type} [DecidableEq α]

/-- Effect of one notification on a copy of the list (feature 0) and of the value (feature 1) of a notifier -/
def note (s : List α × Payload α) (m : Notif α) : Option (List α × Payload α) :=
  if m.featureID = 0 then (Replay.apply s.1 m).map (·, s.2)
  else if m.featureID = 1 then (Replay.applySingle s.2 m).map (s.1, ·)
  else none

/-- The copy after the notifications -/
def notes (s : List α × Payload α) : List (Notif α) → Option (List α × Payload α)
  | [] => some s
  | m :: ms => (note s m).bind (notes · ms)

/-- What was told about notifier `n` -/
def about (n : Nat) (l : List (Nat × Notif α)) : List (Notif α) := l.filterMap fun x => if x.1 = n then some x.2 else none

/-- A call on a list or a value: observers stay the same, nothing is moved from one notifier to another. -/
def plain : Act α → Prop
  | .list .. | .put .. | .unset .. => True
  | _ => False

/-- A call which does not attach or detach observers or stop the delivery -/
def observed : Act α → Prop
  | .list .. | .put .. | .unset .. | .transfer .. => True
  | _ => False

instance (a : Act α) : Decidable (plain a) := by cases a <;> simp only [plain] <;> infer_instance
instance (a : Act α) : Decidable (observed a) := by cases a <;> simp only [observed] <;> infer_instance

/-- A move past the end, which changes a list and then panics (C03) -/
def pastEnd (w : World α) : Act α → Prop
  | .list n (.op o) => Seq.movesPastEnd (w.lists n) o
  | _ => False

/-- Adapter `a` is attached once to `n`, behind the adapters `before`. -/
def Attached (adapters : List Nat) (a : Nat) (before : List Nat) : Prop :=
  ∃ after, adapters = before ++ a :: after ∧ a ∉ before ∧ a ∉ after

end Verif.Spec.Observer
