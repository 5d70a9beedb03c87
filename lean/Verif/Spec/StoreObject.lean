import Verif.Model.StoreObject

/-!
# What an object with a store has to be: a record
-/

namespace Verif.StoreObject.Spec

variable {α : Type}

/-- The store in use, the values in the object, the values in the stores. -/
structure Obj (α : Type) where
  cache : Bool
  store : Option Nat
  own : Nat → Option α
  stores : Nat → Nat → Option α

/-- The value of a feature: transient features are in the object; all others are in the store if there is one. -/
def value (c : Cls) (o : Obj α) (f : Nat) : Option α :=
  match o.store with
  | some s => if c.transient f then o.own f else o.stores s f
  | none => o.own f

/-- the value is set where it is -/
def put (c : Cls) (o : Obj α) (f : Nat) (v : Option α) : Obj α :=
  match o.store with
  | some s =>
    if c.transient f then { o with own := upd o.own f v }
    else { o with stores := upd o.stores s (upd (o.stores s) f v) }
  | none => { o with own := upd o.own f v }

/-- what a call has to do: the cache makes no difference; without a store the object has the values of the store it had -/
def step (c : Cls) (o : Obj α) : Call α → Obj α × Answer α
  | .get f => (o, .value ((value c o f).map .one))
  | .set f v => (put c o f v, .none)
  | .unset f => (put c o f none, .none)
  | .isSet f => (o, .bool (value c o f).isSome)
  | .setCache b => ({ o with cache := b }, .none)
  | .setEStore s => ({ o with store := s, own := if s.isNone then value c o else o.own }, .none)

/-- the record after calls -/
def run (c : Cls) (o : Obj α) : List (Call α) → Obj α
  | [] => o
  | x :: xs => run c (step c o x).1 xs

/-- the answers of calls -/
def answers (c : Cls) (o : Obj α) : List (Call α) → List (Answer α)
  | [] => []
  | x :: xs => (step c o x).2 :: answers c (step c o x).1 xs

/-- a call about a single value -/
def single (c : Cls) : Call α → Prop
  | .get f | .set f _ | .unset f | .isSet f => c.many f = false
  | _ => True

/-- no transient value is set -/
def noTransient (c : Cls) (o : Obj α) : Prop := ∀ f, c.transient f = true → o.own f = none

/-- calls that keep the values: the cache is only changed while no transient value is set or without a store; a store is given while there is no cache and no transient value is set, or at the beginning;
the store is taken away while there is no cache -/
def harmless (c : Cls) (o : Obj α) : Call α → Prop
  | .setCache b => b = o.cache ∨ o.store = none ∨ noTransient c o
  | .setEStore none => o.store = none ∨ o.cache = false
  | .setEStore (some s) => o.store = some s ∨ (o.cache = false ∧ noTransient c o) ∨ (o.cache = true ∧ o.store = none ∧ ∀ f, c.transient f = false → o.own f = none)
  | _ => True

/-! ### The container -/

/-- The store in use, the container that is known, the containers in the stores. -/
structure CObj where
  store : Option Nat
  own : Option (Option Cont)
  stores : Nat → Option Cont

/-- the container: the one that is known, else the one in the store -/
def current (o : CObj) : Option Cont :=
  match o.own with
  | some k => k
  | none =>
    match o.store with
    | some s => o.stores s
    | none => none

/-- the container that is known is put in the store -/
def save (o : CObj) : CObj :=
  match o.store, o.own with
  | some s, some k => { o with stores := upd o.stores s k }
  | _, _ => o

/-- what a call has to do -/
def cstep (o : CObj) : CCall → CObj × Option Cont
  | .set k => (save { o with own := some k }, none)
  | .get => ({ o with own := some (current o) }, current o)
  | .attach s => (if s = o.store then o else save { o with store := s, own := if s.isNone then some (current o) else o.own }, none)
  | .reload => ({ o with own := none }, none)

/-- the record after calls -/
def crun (o : CObj) : List CCall → CObj
  | [] => o
  | x :: xs => crun (cstep o x).1 xs

/-- the answers of calls -/
def canswers (o : CObj) : List CCall → List (Option Cont)
  | [] => []
  | x :: xs => (cstep o x).2 :: canswers (cstep o x).1 xs

/-- the store is not taken away before the container has been read or set -/
def charmless (o : CObj) (x : CCall) : Prop := x = .attach none → o.own.isSome ∨ o.store = none

instance (o : CObj) (x : CCall) : Decidable (charmless o x) := inferInstanceAs (Decidable (_ → _))

end Verif.StoreObject.Spec

namespace Verif.StoreObject

/-- The feature ID is the one of C19: that of the opposite if the containment has one, else the negative one. -/
def proper (p : Opp) (k : Cont) : Prop :=
  if k.featureID ≤ -1 then p.ofContainer k.container (-1 - k.featureID).toNat = none
  else ∃ j, p.ofObject k.featureID.toNat = some j ∧ p.ofContainer k.container j = some k.featureID.toNat

end Verif.StoreObject
