/-!
# Content adapters

`EContentAdapter` (ecore/econtentadapter.go): an adapter that attaches itself to all contained objects.

Left out: proxies and `RESOLVE` notifications, other adapters, `EDeliver` being false. An adapter is in `EAdapters` at most
once (the list is unique), so whether it is attached is a boolean.
-/

namespace Verif.ContentAdapter

inductive Kind where
  | object | resource | set
deriving DecidableEq, Repr

/-- Objects, resources and resource sets. `contents` is `EContents`, `GetContents` or `GetResources`; `container` and
`resource` are `EInternalContainer` and `EInternalResource` of an object. -/
structure World where
  kind : Nat → Kind
  contents : Nat → List Nat
  container : Nat → Option Nat
  resource : Nat → Option Nat

/-- which notifiers the adapter is attached to -/
abbrev On := Nat → Bool

def put (on : On) (n : Nat) (b : Bool) : On := fun x => if x = n then b else on x

/-- `addAdapter` (ecore/econtentadapter.go 162-169), `EAdapters().Add` calling `SetTarget` (ecore/abstractenotifier.go 54-57,
ecore/econtentadapter.go 42-69). `none`: the depth is not sufficient. -/
def addAdapter (W : World) : Nat → Nat → On → Option On
  | 0, _, _ => none
  | k + 1, n, on => if on n then some on else (W.contents n).foldlM (fun on x => addAdapter W k x on) (put on n true)

/-- The checks of `removeAdapterWithChecks` (ecore/econtentadapter.go 177-193): is the adapter kept? `embedded`: the adapter is
part of another adapter, which is the one that is attached (`SetInterfaces`, 27-29), whereas the checks look for itself. -/
def keeps (W : World) (embedded : Bool) (on : On) (x : Nat) (checkContainer checkResource : Bool) : Bool :=
  W.kind x == .object && !embedded && ((checkResource && (W.resource x).any on) || (checkContainer && (W.container x).any on))

/-- the checks for the contents of a notifier the adapter leaves (ecore/econtentadapter.go 71-89): container and resource -/
def checks : Kind → Bool × Bool
  | .object => (false, true)
  | .resource => (true, false)
  | .set => (false, false)

/-- `removeAdapter` (ecore/econtentadapter.go 171-175), `EAdapters().Remove` calling `UnSetTarget` if the adapter was there
(ecore/abstractenotifier.go 59-66, ecore/econtentadapter.go 71-89) -/
def removeAdapter (W : World) (embedded : Bool) : Nat → Nat → On → Option On
  | 0, _, _ => none
  | k + 1, n, on =>
    if on n then
      (W.contents n).foldlM (fun on x =>
        if keeps W embedded on x (checks (W.kind n)).1 (checks (W.kind n)).2 then some on else removeAdapter W embedded k x on) (put on n false)
    else some on

/-- `removeAdapterWithChecks` (ecore/econtentadapter.go 177-193) -/
def removeWithChecks (W : World) (embedded : Bool) (k : Nat) (x : Nat) (checkContainer checkResource : Bool) (on : On) : Option On :=
  if keeps W embedded on x checkContainer checkResource then some on else removeAdapter W embedded k x on

/-- notifications of containment references, of contents of resources and of resources of resource sets -/
inductive Event where
  | add (p x : Nat)
  | addMany (p : Nat) (xs : List Nat)
  | remove (p x : Nat)
  | removeMany (p : Nat) (xs : List Nat)
  | set (p : Nat) (old new : Option Nat)
  | unset (p : Nat) (old new : Option Nat)

def Event.notifier : Event → Nat
  | .add p _ | .addMany p _ | .remove p _ | .removeMany p _ | .set p _ _ | .unset p _ _ => p

/-- `handleContainment` (ecore/econtentadapter.go 112-160). For a removal the container is checked if the notifier is a
resource, and the resource if the notification has a feature, that is if the notifier is an object. -/
def handle (W : World) (embedded : Bool) (k : Nat) (on : On) : Event → Option On
  | .add _ x => addAdapter W k x on
  | .addMany _ xs => xs.foldlM (fun on x => addAdapter W k x on) on
  | .remove p x => removeWithChecks W embedded k x (W.kind p == .resource) (W.kind p == .object) on
  | .removeMany p xs => xs.foldlM (fun on x => removeWithChecks W embedded k x (W.kind p == .resource) (W.kind p == .object) on) on
  | .set _ old new | .unset _ old new =>
    (old.toList.foldlM (fun on x => removeWithChecks W embedded k x false true on) on).bind fun on => new.toList.foldlM (fun on x => addAdapter W k x on) on

/-- A notification is received if the adapter is attached to the notifier when it is dispatched (ecore/abstractenotifier.go
117-124). -/
def deliver (W : World) (embedded : Bool) (k : Nat) (on : On) (e : Event) : Option On := if on e.notifier then handle W embedded k on e else some on

/-- the notifications of an operation, dispatched when it is done (ecore/notificationchain.go 43-51) -/
def dispatch (W : World) (embedded : Bool) (k : Nat) (es : List Event) (on : On) : Option On := es.foldlM (deliver W embedded k) on

end Verif.ContentAdapter
