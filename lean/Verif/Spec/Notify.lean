import Verif.Model.Notify
import Verif.Spec.Seq
/-
Specification for C06-C08: what an observer does with a notification to keep a copy of a list
(or of a single value) up to date. `none` means that the notification does not make sense for the copy:
wrong old value, position outside the list, positions not increasing...
-/
namespace Verif.Spec.Replay
open Verif.Notify

variable {α : Type} [DecidableEq α]

/-- Remove the elements at the given increasing positions, checking that they are the announced ones
(the last one is removed first, so that each position refers to the original list). -/
def removeAt : List Int → List α → List α → Option (List α)
  | [], [], s => some s
  | p :: ps, x :: xs, s =>
    match removeAt ps xs s with
    | none => none
    | some s' =>
      if 0 ≤ p ∧ s[p.toNat]? = some x ∧ ∀ q ∈ ps, p < q then some (s'.eraseIdx p.toNat) else none
  | _, _, _ => none

/-- Effect of one notification on a copy `s` of the list. -/
def apply (s : List α) (n : Notif α) : Option (List α) :=
  match n.event, n.old, n.new with
  | .add, .nil, .elem x =>
    if 0 ≤ n.position ∧ n.position ≤ s.length then some (s.insertIdx n.position.toNat x) else none
  | .addMany, .nil, .elems l =>
    if 0 ≤ n.position ∧ n.position ≤ s.length then some (Seq.insertAllAt s n.position.toNat l) else none
  | .set, .elem o, .elem x =>
    if 0 ≤ n.position ∧ s[n.position.toNat]? = some o then some (s.set n.position.toNat x) else none
  | .move, .int o, .elem x =>
    if 0 ≤ o ∧ s[o.toNat]? = some x ∧ 0 ≤ n.position ∧ n.position < s.length then
      some (Seq.moved s o.toNat n.position.toNat x) else none
  | .remove, .elem x, .nil =>
    if 0 ≤ n.position ∧ s[n.position.toNat]? = some x then some (s.eraseIdx n.position.toNat) else none
  | .removeMany, .elems l, .nil => if l = s then some [] else none
  | .removeMany, .elems l, .ints ps => removeAt ps l s
  | _, _, _ => none

/-- Effect of a sequence of notifications. -/
def applyAll (s : List α) : List (Notif α) → Option (List α)
  | [] => some s
  | n :: ns =>
    match apply s n with
    | none => none
    | some s' => applyAll s' ns

/-- Effect of a SET/UNSET notification of a single valued feature on a copy of its value. -/
def applySingle (v : Payload α) (n : Notif α) : Option (Payload α) :=
  match n.event with
  | .set | .unset => if n.old = v then some n.new else none
  | _ => none

end Verif.Spec.Replay
