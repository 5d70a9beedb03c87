/-!
# Containers that are proxies

`EContainer` of an object whose container is a proxy (ecore/abstracteobject.go 101-121), as when the resource of the container has been unloaded and the object is in a
resource of its own; `EGet` and `EGetResolve` of a container reference (277-288).

Objects are numbers. Simplifications: what a proxy stands for is a parameter (C94 has the resource set), loading its resource has no effect on the objects
here; the values of containment references are shown for the references concerned, unresolved; the two ends of a reference are given as the positions of the features.
-/
set_option autoImplicit false
namespace Verif.ProxyContainer

/-- the value of a containment reference -/
inductive Slot where
  | many (l : List Nat)
  | one (x : Option Nat)
deriving DecidableEq, Repr

/-- a notification: the object that sends it, the number of the feature, and what it tells -/
inductive Note where
  | removed (notifier : Nat) (feature : Int) (old : Nat) (position : Nat)
  | unset (notifier : Nat) (feature : Int) (old : Option Nat)
  | resolved (notifier : Nat) (feature : Int) (old new : Nat)
deriving DecidableEq, Repr

/-- What a proxy stands for (itself if it cannot be found); if an object is observed (`ENotificationRequired`, ecore/abstractenotifier.go 126-129); the opposite of a
container reference of an object, a feature of its container. -/
structure Env where
  resolve : Nat → Nat
  observed : Nat → Bool
  opposite : Nat → Nat → Option Nat

/-- the containers, the numbers of the features they are remembered with, the values of containment references, and the objects that are proxies -/
structure State where
  container : Nat → Option Nat
  featureID : Nat → Int
  value : Nat → Nat → Slot
  proxy : Nat → Bool

/-- `RemoveWithNotification` (ecore/basicenotifyinglist.go 157-166) and `eDynamicPropertiesInverseRemove` (ecore/abstracteobject.go 753-779) of the object `p` -/
def inverseRemove (E : Env) (s : State) (p f o : Nat) : State × List Note :=
  match s.value p f with
  | .many l =>
    if o ∈ l then
      ({ s with value := fun a b => if a = p ∧ b = f then .many (l.eraseIdx (l.idxOf o)) else s.value a b },
        if E.observed p then [.removed p f o (l.idxOf o)] else [])
    else (s, [])
  | .one x =>
    ({ s with value := fun a b => if a = p ∧ b = f then .one none else s.value a b }, if E.observed p then [.unset p f x] else [])

/-- `EBasicRemoveFromContainer` and `EBasicRemoveFromContainerFeature` (ecore/abstracteobject.go 854-877) with `EInverseRemove` (661-667) -/
def removeFromContainer (E : Env) (s : State) (o : Nat) : State × List Note :=
  match s.container o with
  | none => (s, [])
  | some p =>
    if 0 ≤ s.featureID o then
      match E.opposite o (s.featureID o).toNat with
      | none => (s, [])
      | some f => inverseRemove E s p f o
    else inverseRemove E s p (-1 - s.featureID o).toNat o

/-- `EContainer` (ecore/abstracteobject.go 101-121) -/
def eContainer (E : Env) (s : State) (o : Nat) : Option Nat × State × List Note :=
  match s.container o with
  | none => (none, s, [])
  | some p =>
    if s.proxy p then
      let r := E.resolve p
      if r ≠ p then
        let (t, notes) := removeFromContainer E s o
        let id := t.featureID o
        let u := { t with container := fun a => if a = o then some r else t.container a, featureID := fun a => if a = o then id else t.featureID a }
        (some r, u, notes ++ if E.observed o ∧ -1 ≤ id then [.resolved o id p r] else [])
      else (some r, s, [])
    else (some p, s, [])

/-- `EGetResolve` of a container reference (ecore/abstracteobject.go 277-288, 302-306) -/
def getContainer (E : Env) (s : State) (o f : Nat) (resolve : Bool) : Option Nat × State × List Note :=
  if s.featureID o = (f : Int) then
    if resolve then eContainer E s o else (s.container o, s, [])
  else (none, s, [])

end Verif.ProxyContainer
