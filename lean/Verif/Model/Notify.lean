import Verif.Model.EList
/-
Model of notifications (ecore/abstractnotification.go, ecore/notificationchain.go) and of the notifying
list (ecore/basicenotifyinglist.go).
-/
namespace Verif.Notify
open Verif.EList

/-- ecore/enotification.go:21-42. `other` stands for -1 and user defined event types. -/
inductive Event where
  | set | unset | add | remove | addMany | removeMany | move | removingAdapter | resolve
  | none
  deriving DecidableEq, Repr

/-- The dynamic type of the `oldValue`/`newValue` fields (Go `any`): nil, one value, a slice of values, an int
or a slice of ints. -/
inductive Payload (α : Type) where
  | nil
  | elem (a : α)
  | elems (l : List α)
  | int (i : Int)
  | ints (l : List Int)
  deriving DecidableEq, Repr

/-- ecore/abstractnotification.go:12-19 together with the notifier and feature ID which the concrete
notification types answer (`notifier = none` is nil). -/
structure Notif (α : Type) where
  notifier : Option Nat
  featureID : Int
  event : Event
  old : Payload α
  new : Payload α
  position : Int
  deriving DecidableEq, Repr

variable {α : Type}

/-- Same notifier and same feature (ecore/abstractnotification.go:56-57, 68-69, 90-91). -/
def sameFeature (n o : Notif α) : Prop := n.notifier = o.notifier ∧ n.featureID = o.featureID

instance (n o : Notif α) : Decidable (sameFeature n o) := inferInstanceAs (Decidable (_ ∧ _))

/-- Wrapping two removed values in a `[]any`; the removed value of a REMOVE notification is one value. -/
def pairOf : Payload α → Payload α → Payload α
  | .elem a, .elem b => .elems [a, b]
  | _, _ => .nil

/-- The loop of ecore/abstractnotification.go:96-106: number of earlier removed positions that lie
at or before the new one, and the new position in original coordinates. -/
def shiftLoop : List Int → Nat → Int → Nat × Int
  | [], index, pos => (index, pos)
  | p :: ps, index, pos => if p ≤ pos then shiftLoop ps (index + 1) (pos + 1) else (index, pos)

/-- The loop of ecore/abstractnotification.go:115-119: `index` already incremented, positions
`positions[index-1]` are appended while `index < len(positions)`. -/
def tailLoop (positions : List Int) (index : Nat) : List Int :=
  if index < positions.length then
    match positions[index - 1]? with
    | some p => p :: tailLoop positions (index + 1)
    | none => []
  else []
termination_by positions.length - index

/-- ecore/abstractnotification.go:50-127. `none`: not merged (returns false). A type assertion that would panic (REMOVE_MANY without positions, i.e.
`newValue` nil as produced by `doClear`) is the result `some none`. -/
def merge (n o : Notif α) : Option (Option (Notif α)) :=
  match n.event with
  | .set | .unset =>
    match o.event with
    | .set | .unset =>
      if sameFeature n o then
        some (some { n with new := o.new, event := if o.event = .set then .set else n.event })
      else none
    | _ => none
  | .remove =>
    match o.event with
    | .remove =>
      if sameFeature n o then
        if n.position ≤ o.position then
          some (some { n with
            event := .removeMany, old := pairOf n.old o.old
            new := .ints [n.position, o.position + 1] })
        else
          some (some { n with
            event := .removeMany, old := pairOf o.old n.old
            position := o.position
            new := .ints [o.position, n.position] })
      else none
    | _ => none
  | .removeMany =>
    match o.event with
    | .remove =>
      if sameFeature n o then
        match n.new, n.old, o.old with
        | .ints positions, .elems olds, .elem x =>
          let (index, pos) := shiftLoop positions 0 o.position
          some (some { n with
            old := .elems (olds.take index ++ x :: olds.drop index)
            new := .ints (positions.take index ++ pos :: tailLoop positions (index + 1)) })
        | _, _, _ => some none
      else none
    | _ => none
  | _ => none

/-! ### Notification chain -/

/-- ecore/notificationchain.go:27-31: offer the notification to each one in turn. The second component tells whether it was absorbed. A panic of
`Merge` ends the loop, the chain being unchanged (`none`). -/
def mergeInto : List (Notif α) → Notif α → Option (List (Notif α) × Bool)
  | [], _ => some ([], false)
  | n :: ns, o =>
    match merge n o with
    | some (some n') => some (n' :: ns, true)
    | some none => none
    | none =>
      match mergeInto ns o with
      | some (ns', b) => some (n :: ns', b)
      | none => none

/-- ecore/notificationchain.go:23-34. The argument `none` is nil. The result `none` is a panic. -/
def chainAdd (chain : List (Notif α)) : Option (Notif α) → Option (List (Notif α) × Bool)
  | none => some (chain, false)
  | some o =>
    match mergeInto chain o with
    | none => none
    | some (c, true) => some (c, false)
    | some (c, false) => some (c ++ [o], true)

/-- ecore/notificationchain.go:37-45: what is delivered, in order. -/
def chainDispatch (chain : List (Notif α)) : List (Notif α) :=
  chain.filter (fun n => n.notifier.isSome && n.event != .none)

/-- A notification used as a chain (`AbstractNotification.Add`, ecore/abstractnotification.go:129-148): the
head and the notifications linked by `next`, each of which is itself such a chain. -/
def linkedAdd : Notif α → List (Notif α) → Notif α → Option (List (Notif α) × Bool)
  | n, next, o =>
    match merge n o with
    | some (some n') => some (n' :: next, false)
    | some none => none
    | none =>
      match next with
      | [] => some ([n, o], true)
      | m :: ms =>
        match linkedAdd m ms o with
        | some (c, b) => some (n :: c, b)
        | none => none
termination_by _ next _ => next.length

/-! ### BasicENotifyingList -/

/-- The calls of `ENotifyingList`: those of `EList` and the `...WithNotification` ones. -/
inductive NOp (α : Type) where
  | op (o : Op α)
  | addWN (e : α)
  | removeWN (e : α)
  | setWN (index : Int) (e : α)
  deriving DecidableEq, Repr

section
variable [DecidableEq α] [Inhabited α]

/-- A list with its notifier and feature; `required` is the value of `isNotificationRequired()`
(ecore/basicenotifyinglist.go:97-100). -/
structure NCfg where
  cfg : Cfg
  notifier : Nat := 0
  featureID : Int := 0
  required : Bool := true
  deriving DecidableEq, Repr

/-- ecore/basicenotifyinglist.go:90-95, 115-138: the notification created and dispatched, if required (the chains of
`inverseAdd`/`inverseRemove` are empty for this class, lines 140-146). -/
def emit (c : NCfg) (event : Event) (old new : Payload α) (position : Int) : List (Notif α) :=
  if c.required then [⟨some c.notifier, c.featureID, event, old, new, position⟩] else []

/-- Emit only if the operation did not panic before. -/
def Res.andEmit (r : Res α) (ns : Payload α → List (Notif α)) : Res α × List (Notif α) :=
  match r.ret with
  | .panic => (r, [])
  | .val a => (r, ns (.elem a))
  | _ => (r, ns .nil)

/-- ecore/basicenotifyinglist.go:175-181. -/
def nDoAdd (c : NCfg) (data : List α) (e : α) : Res α × List (Notif α) :=
  Res.andEmit (doAdd data e) fun _ => emit c .add .nil (.elem e) data.length

/-- ecore/basicenotifyinglist.go:188-193. -/
def nDoInsert (c : NCfg) (data : List α) (index : Int) (e : α) : Res α × List (Notif α) :=
  Res.andEmit (doInsert data index e) fun _ => emit c .add .nil (.elem e) index

/-- ecore/basicenotifyinglist.go:195-213. -/
def nDoInsertAll (c : NCfg) (data : List α) (index : Int) (l : List α) : Res α × List (Notif α) :=
  if l.isEmpty then (⟨data, .bool false, []⟩, [])
  else Res.andEmit (doInsertAll data index l) fun _ =>
    match l with
    | [x] => emit c .add .nil (.elem x) index
    | l => emit c .addMany .nil (.elems l) index

/-- ecore/basicenotifyinglist.go:183-186. -/
def nDoAddAll (c : NCfg) (data : List α) (l : List α) : Res α × List (Notif α) :=
  nDoInsertAll c data data.length l

/-- ecore/basicenotifyinglist.go:215-225: no notification when the value is the same. -/
def nDoSet (c : NCfg) (data : List α) (index : Int) (e : α) : Res α × List (Notif α) :=
  Res.andEmit (doSet data index e) fun old =>
    if Payload.elem e ≠ old then emit c .set old (.elem e) index else []

/-- ecore/basicenotifyinglist.go:227-247. -/
def nDoClear (c : NCfg) (data : List α) : Res α × List (Notif α) :=
  let r := doClear data
  match data with
  | [] => (r, emit c .removeMany (.elems []) .nil (-1))
  | [x] => (r, emit c .remove (.elem x) .nil 0)
  | l => (r, emit c .removeMany (.elems l) .nil (-1))

/-- ecore/basicenotifyinglist.go:249-254: MOVE carries the old index as old value. -/
def nDoMove (c : NCfg) (data spare : List α) (o n : Int) : Res α × List (Notif α) :=
  Res.andEmit (doMove data spare o n) fun obj => emit c .move (.int o) obj n

/-- ecore/basicenotifyinglist.go:256-265. -/
def nDoRemove (c : NCfg) (data : List α) (index : Int) : Res α × List (Notif α) :=
  Res.andEmit (doRemove data index) fun obj => emit c .remove obj .nil index

/-- The positions `fromIndex + i` of ecore/basicenotifyinglist.go:282-285. -/
def rangePositions : Int → List α → List Int
  | _, [] => []
  | i, _ :: xs => i :: rangePositions (i + 1) xs

/-- ecore/basicenotifyinglist.go:267-291. -/
def nDoRemoveRange (c : NCfg) (data : List α) (f t : Int) : Res α × List (Notif α) :=
  let (r, objects) := doRemoveRange data f t
  Res.andEmit r fun _ =>
    match objects with
    | [] => []
    | [x] => emit c .remove (.elem x) .nil f
    | l => emit c .removeMany (.elems l) (.ints (rangePositions f l)) f

/-- ecore/basicenotifyinglist.go:307-319: positions and values of the elements to remove. -/
def matching (c : List α) : Nat → List α → List (Nat × α)
  | _, [] => []
  | i, v :: vs => if v ∈ c then (i, v) :: matching c (i + 1) vs else matching c (i + 1) vs

/-- ecore/basicenotifyinglist.go:322-324: removal in descending order of positions (given ascending). -/
def removeDesc (data : List α) : List Nat → Res α
  | [] => ⟨data, .unit, []⟩
  | p :: ps =>
    let r := removeDesc data ps
    match r.ret with
    | .panic => r
    | _ =>
      let r' := doRemove r.data p
      { r' with trace := r.trace ++ r'.trace }

/-- ecore/basicenotifyinglist.go:293-347. -/
def nRemoveAll (c : NCfg) (data coll : List α) : Res α × List (Notif α) :=
  let m := matching coll 0 data
  let r := removeDesc data (m.map (·.1))
  match r.ret with
  | .panic => (r, [])
  | _ =>
    ({ r with ret := .bool (!m.isEmpty) },
      match m with
      | [] => []
      | [(p, x)] => emit c .remove (.elem x) .nil p
      | (p, x) :: m' => emit c .removeMany (.elems (x :: m'.map (·.2)))
          (.ints (((p, x) :: m').map (fun q => (q.1 : Int)))) p)

/-- Replace the returned value, unless it is a panic. -/
def returning (x : Res α × List (Notif α)) (r : Ret α) : Res α × List (Notif α) :=
  (x.1.returning r, x.2)

/-- One call: `AbstractEList` (ecore/abstractelist.go:78-216) dispatching to the overridden `do...`
functions, and the `...WithNotification` calls (ecore/basicenotifyinglist.go:149-173) whose chain is then dispatched by the caller. -/
def nstep (c : NCfg) (data : List α) : NOp α → Res α × List (Notif α)
  | .op (.add e) =>
    if c.cfg.unique && contains data e then (noop data (.bool false), [])
    else returning (nDoAdd c data e) (.bool true)
  | .op (.addAll l) =>
    if c.cfg.unique then
      let l' := getNonDuplicates c.cfg.iter data l
      if l'.length = 0 then (noop data (.bool false), [])
      else returning (nDoAddAll c data l') (.bool true)
    else returning (nDoAddAll c data l) (.bool true)
  | .op (.insert i e) =>
    if i < 0 ∨ i > (data.length : Int) then (noop data .panic, [])
    else if c.cfg.unique && contains data e then (noop data (.bool false), [])
    else returning (nDoInsert c data i e) (.bool true)
  | .op (.insertAll i l) =>
    if i < 0 ∨ i > (data.length : Int) then (noop data .panic, [])
    else if c.cfg.unique then
      let l' := getNonDuplicates c.cfg.iter data l
      if l'.length = 0 then (noop data (.bool false), [])
      else returning (nDoInsertAll c data i l') (.bool true)
    else returning (nDoInsertAll c data i l) (.bool true)
  | .op (.move spare o n) =>
    if o < 0 ∨ o ≥ (data.length : Int) ∨ n < 0 ∨ n > (data.length : Int) then (noop data .panic, [])
    else nDoMove c data spare o n
  | .op (.moveObject spare n e) =>
    let o := indexOf data e
    if o = -1 then (noop data .panic, []) else returning (nDoMove c data spare o n) .unit
  | .op (.removeAt i) =>
    if i < 0 ∨ i ≥ (data.length : Int) then (noop data .panic, []) else nDoRemove c data i
  | .op (.remove e) =>
    let i := indexOf data e
    if i = -1 then (noop data (.bool false), []) else returning (nDoRemove c data i) (.bool true)
  | .op (.removeRange f t) =>
    if f < 0 ∨ f ≥ (data.length : Int) then (noop data .panic, [])
    else if t < 0 ∨ t > (data.length : Int) then (noop data .panic, [])
    else if f > t then (noop data .panic, [])
    else nDoRemoveRange c data f t
  | .op (.removeAll l) => nRemoveAll c data l
  | .op (.set i e) =>
    if i < 0 ∨ i ≥ (data.length : Int) then (noop data .panic, [])
    else if c.cfg.unique && (decide (indexOf data e ≥ 0) && decide (indexOf data e ≠ i)) then
      (noop data .panic, [])
    else nDoSet c data i e
  | .op .clear => nDoClear c data
  | .addWN e => Res.andEmit (doAdd data e) fun _ => emit c .add .nil (.elem e) data.length
  | .removeWN e =>
    let i := indexOf data e
    if i = -1 then (noop data .unit, [])
    else Res.andEmit (doRemove data i) fun obj => emit c .remove obj .nil i
  | .setWN i e => Res.andEmit (doSet data i e) fun old => emit c .set old (.elem e) i

/-- Contents after a sequence of calls, and all the notifications dispatched, in order. -/
def nrun (c : NCfg) (data : List α) : List (NOp α) → List α × List (Notif α)
  | [] => (data, [])
  | op :: ops =>
    let (r, ns) := nstep c data op
    let (d, ns') := nrun c r.data ops
    (d, ns ++ ns')

end
end Verif.Notify
