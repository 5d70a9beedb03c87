import Verif.Model.GraphNotes
import Verif.Spec.Graph
import Verif.Spec.Notify

/-!
# Following an object graph by its notifications

What an observer does with the notifications about one feature of one object.
-/

namespace Verif.GraphNotes
open Verif.Notify

/-- the objects of an old or new value of a single valued feature -/
def objects : Payload Nat → Option (List Nat)
  | .nil => some []
  | .elem x => some [x]
  | _ => none

/-- The value of a feature after a notification, given the one before.  `none`: the notification makes no sense (it
announces another old value, a position outside the list...).  Notifications of lists are used as in C06
(`Spec.Replay.apply`), but for several removed objects, which are taken out whatever the announced positions. -/
def effect (s : List Nat) (n : Notif Nat) : Option (List Nat) :=
  if (n.event = .set ∨ n.event = .unset) ∧ n.position = -1 then
    if objects n.old = some s then objects n.new else none
  else
    match n.event, n.old with
    | .removeMany, .elems l => if ∀ x ∈ l, x ∈ s then some (s.filter (· ∉ l)) else none
    | _, _ => Spec.Replay.apply s n

/-- what is known of the feature `id` of `o` after the notifications, knowing `s` before them -/
def follow (o : Nat) (id : Int) (s : List Nat) (ns : List (Notif Nat)) : Option (List Nat) :=
  (ns.filter fun n => n.notifier = some o ∧ n.featureID = id).foldlM effect s

/-- the same by an observer that relies on the positions (the one of C06 for lists) -/
def followPositions (o : Nat) (id : Int) (s : List Nat) (ns : List (Notif Nat)) : Option (List Nat) :=
  Spec.Replay.applyAll s (ns.filter fun n => n.notifier = some o ∧ n.featureID = id)

end Verif.GraphNotes
