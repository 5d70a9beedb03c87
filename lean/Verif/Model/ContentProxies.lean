import Verif.Model.ContentAdapter

/-!
# Content adapters and proxies

`EContentAdapter` (ecore/econtentadapter.go) in trees with proxies: what `Verif.Model.ContentAdapter` leaves out.

`proxy` are the objects that are proxies, `target` those they are resolved to. Simplification: an object is a proxy or not all the time, and what
a resolved object is replaced in is told by the world after it.
-/

namespace Verif.ContentProxies

open ContentAdapter

/-- the objects that are proxies, and what they stand for -/
structure Proxies where
  proxy : Nat → Bool
  target : Nat → Nat

/-- an object of a list that is read -/
def Proxies.resolve (P : Proxies) (x : Nat) : Nat := if P.proxy x then P.target x else x

/-- The contents that `SetTarget` goes over (ecore/econtentadapter.go 42-69): with `resolveProxies` those that are read, each of them being
resolved; otherwise those of the list that does not resolve, without the proxies. Contents of resources and resource sets have no proxies. -/
def walked (P : Proxies) (resolving : Bool) (W : World) : World :=
  { W with contents := fun n => if resolving then (W.contents n).map P.resolve else (W.contents n).filter fun x => !P.proxy x }

/-- The contents that `UnSetTarget` goes over (ecore/econtentadapter.go 71-89): they are read, whatever `resolveProxies` is. -/
def left (P : Proxies) (W : World) : World := { W with contents := fun n => (W.contents n).map P.resolve }

/-- the contents after the adapter was attached: with `resolveProxies` those of the notifiers it is attached to are resolved; the notifications
RESOLVE change nothing, as the adapter is not attached to the proxies -/
def after (P : Proxies) (resolving : Bool) (W : World) (on : On) : World :=
  { W with contents := fun n => if resolving && on n then (W.contents n).map P.resolve else W.contents n }

/-- the adapter is added to a notifier (ecore/econtentadapter.go 42-69, 162-169) -/
def attach (P : Proxies) (resolving : Bool) (W : World) (k n : Nat) (on : On) : Option On := addAdapter (walked P resolving W) k n on

/-- `removeAdapter` (ecore/econtentadapter.go 171-175) -/
def detach (P : Proxies) (embedded : Bool) (W : World) (k n : Nat) (on : On) : Option On := removeAdapter (left P W) embedded k n on

/-- `removeAdapterWithChecks` (ecore/econtentadapter.go 177-193) -/
def detachWithChecks (P : Proxies) (embedded : Bool) (W : World) (k x : Nat) (checkContainer checkResource : Bool) (on : On) : Option On :=
  if keeps W embedded on x checkContainer checkResource then some on else detach P embedded W k x on

/-- `handleContainment` (ecore/econtentadapter.go 112-160), but for RESOLVE -/
def handle (P : Proxies) (resolving embedded : Bool) (W : World) (k : Nat) (on : On) : Event → Option On
  | .add _ x => attach P resolving W k x on
  | .addMany _ xs => xs.foldlM (fun on x => attach P resolving W k x on) on
  | .remove p x => detachWithChecks P embedded W k x (W.kind p == .resource) (W.kind p == .object) on
  | .removeMany p xs => xs.foldlM (fun on x => detachWithChecks P embedded W k x (W.kind p == .resource) (W.kind p == .object) on) on
  | .set _ old new | .unset _ old new =>
    (old.toList.foldlM (fun on x => detachWithChecks P embedded W k x false true on) on).bind fun on =>
      new.toList.foldlM (fun on x => attach P resolving W k x on) on

/-- a notification, if the adapter is attached to the notifier (ecore/abstractenotifier.go 117-124) -/
def deliver (P : Proxies) (resolving embedded : Bool) (W : World) (k : Nat) (on : On) (e : Event) : Option On :=
  if on e.notifier then handle P resolving embedded W k on e else some on

/-- the notifications of an operation (ecore/notificationchain.go 43-51) -/
def dispatch (P : Proxies) (resolving embedded : Bool) (W : World) (k : Nat) (es : List Event) (on : On) : Option On :=
  es.foldlM (deliver P resolving embedded W k) on

/-- The notification RESOLVE of `p`: `x` is replaced by `y` (ecore/econtentadapter.go 114-124). If the adapter is part of another one, that one is
attached, and `Contains(adapter)` is false. -/
def resolved (P : Proxies) (resolving embedded : Bool) (W : World) (k : Nat) (p x y : Nat) (on : On) : Option On :=
  if on p then
    if !embedded && on x then (detach P embedded W k x on).bind (attach P resolving W k y) else some on
  else some on

end Verif.ContentProxies
