import Verif.Model.Notify
/-
Observers which change the model while they are notified: `AbstractENotifier.ENotify` (ecore/abstractenotifier.go 117-129) calls
the adapters one after the other, and `NotifyChanged` of an adapter may call the model again, which notifies the adapters again before the
remaining adapters have been told about the first change.

Modelled: any number of notifiers, each with one list (ecore/basicenotifyinglist.go, model of `Verif.Notify`), one single value
(an attribute of a dynamic object, ecore/abstracteobject.go 487-497, 620-627), an adapter list and a delivery flag; children moved from one notifier to
another.  The calls of Go are a stack of tasks: what is still to be done by the calls which have not returned.
Simplified: an adapter is a function of what it has been told and of the current values; targets of adapters and the REMOVING_ADAPTER
notification are left out (C46), also the change of the container of a moved child (C72).
-/
namespace Verif.Reentrant
open Verif.EList Verif.Notify

variable {α : Type}

/-- What can be called, by the user or by an adapter -/
inductive Act (α : Type) where
  /-- a call on the list of notifier `n` -/
  | list (n : Nat) (op : NOp α)
  /-- `ESet` of the value of notifier `n` -/
  | put (n : Nat) (v : α)
  /-- `EUnset` of the value of notifier `n` -/
  | unset (n : Nat)
  /-- `Add(x)` on the list of `m`, `x` being contained in the list of `n` -/
  | transfer (n m : Nat) (x : α)
  /-- `EAdapters().Add(a)` -/
  | attach (n a : Nat)
  /-- `EAdapters().Remove(a)` -/
  | detach (n a : Nat)
  /-- `ESetDeliver(b)` -/
  | deliver (n : Nat) (b : Bool)
deriving DecidableEq, Repr

/-- The values of all notifiers, and what the adapters were told: pairs of a notifier and its notification, in order -/
structure World (α : Type) where
  lists : Nat → List α
  values : Nat → Payload α
  adapters : Nat → List Nat
  deliver : Nat → Bool
  told : Nat → List (Nat × Notif α)

/-- What a notifier shows -/
def World.shown (w : World α) (n : Nat) : List α × Payload α := (w.lists n, w.values n)

/-- What is still to be done by a call -/
inductive Task (α : Type) where
  | act (a : Act α)
  /-- the loop of `ENotify` on notifier `n` (ecore/abstractenotifier.go 120-122) with the cursor of its iterator -/
  | visit (n : Nat) (m : Notif α) (cursor : Nat)
deriving DecidableEq, Repr

/-- `sent`: all the notifications dispatched, in the order of the changes; `panics`: number of calls that panicked -/
structure Conf (α : Type) where
  w : World α
  stack : List (Task α)
  program : List (Act α)
  sent : List (Nat × Notif α)
  panics : Nat

/-- What an adapter does when it is told something: given all it was told, the last one included, and what is shown -/
abbrev Reaction (α : Type) := Nat → List (Nat × Notif α) → (Nat → List α × Payload α) → List (Act α)

def upd {β : Type} (f : Nat → β) (n : Nat) (b : β) : Nat → β := fun m => if m = n then b else f m

/-- `isNotificationRequired` and `ENotificationRequired` (ecore/basicenotifyinglist.go 97-100,
ecore/abstractenotifier.go 126-129) -/
def required (w : World α) (n : Nat) : Bool := w.deliver n && !(w.adapters n).isEmpty

section
variable [DecidableEq α] [Inhabited α]

/-- The list of notifier `n` is its feature 0 -/
def listCfg (unique : Bool) (w : World α) (n : Nat) : NCfg := ⟨⟨unique, .snapshot⟩, n, 0, required w n⟩

/-- The notification of a change of the value, its feature 1 (ecore/abstracteobject.go 494-496, 623-625) -/
def valueNotif (w : World α) (n : Nat) (e : Event) (new : Payload α) : List (Nat × Notif α) :=
  if required w n then [(n, ⟨some n, 1, e, w.values n, new, -1⟩)] else []

/-- One call up to the dispatch of its notifications: the changed values, the notifications and whether it panicked. -/
def change (unique : Bool) (w : World α) : Act α → World α × List (Nat × Notif α) × Bool
  | .list n op =>
    let r := nstep (listCfg unique w n) (w.lists n) op
    ({ w with lists := upd w.lists n r.1.data }, r.2.map (n, ·), r.1.ret matches .panic)
  | .put n v => ({ w with values := upd w.values n (.elem v) }, valueNotif w n .set (.elem v), false)
  | .unset n => ({ w with values := upd w.values n .nil }, valueNotif w n .unset .nil, false)
  -- ecore/basicenotifyinglist.go 175-181 with ecore/basiceobjectlist.go 121-131 and EBasicRemoveFromContainer
  | .transfer n m x =>
    if x ∈ w.lists m then (w, [], false)
    else
      let r := nstep (listCfg true w n) (w.lists n) (.removeWN x)
      let s := nstep (listCfg true w m) (w.lists m) (.op (.add x))
      ({ w with lists := upd (upd w.lists n r.1.data) m s.1.data }, r.2.map (n, ·) ++ s.2.map (m, ·), false)
  | .attach n a => ({ w with adapters := upd w.adapters n (w.adapters n ++ [a]) }, [], false)
  | .detach n a => ({ w with adapters := upd w.adapters n ((w.adapters n).erase a) }, [], false)
  | .deliver n b => ({ w with deliver := upd w.deliver n b }, [], false)

/-- One step of the execution.  A panic ends all the calls which have not returned; the user goes on with the next call. -/
def step (unique : Bool) (react : Reaction α) (c : Conf α) : Conf α :=
  match c.stack with
  | [] =>
    match c.program with
    | [] => c
    | a :: p => { c with stack := [.act a], program := p }
  | .act a :: rest =>
    match change unique c.w a with
    | (w, ns, panic) =>
      if panic then { c with w := w, stack := [], panics := c.panics + 1 }
      else { c with w := w, stack := ns.map (fun x => .visit x.1 x.2 0) ++ rest, sent := c.sent ++ ns }
  | .visit n m i :: rest =>
    if c.w.deliver n = false ∧ i = 0 then { c with stack := rest }
    else
      match (c.w.adapters n)[i]? with
      | none => { c with stack := rest }
      | some a =>
        let told := c.w.told a ++ [(n, m)]
        { c with w := { c.w with told := upd c.w.told a told }
                 stack := (react a told c.w.shown).map .act ++ .visit n m (i + 1) :: rest }

/-- The user's calls on new lists, values and adapters -/
def start (lists : Nat → List α) (values : Nat → Payload α) (adapters : Nat → List Nat) (program : List (Act α)) : Conf α :=
  ⟨⟨lists, values, adapters, fun _ => true, fun _ => []⟩, [], program, [], 0⟩

/-- The execution after `t` steps -/
def run (unique : Bool) (react : Reaction α) (c : Conf α) : Nat → Conf α
  | 0 => c
  | t + 1 => step unique react (run unique react c t)

end
end Verif.Reentrant
