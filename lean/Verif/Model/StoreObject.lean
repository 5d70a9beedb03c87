/-!
# Objects whose values are in a store

`EStoreEObjectImpl` (ecore/estoreeobject_impl.go): the values of the features are in a store, in the object (`properties`), or in both (cache).

A store is what `EStore` (ecore/estore.go) says: a value for each feature of the object, and the container of the object.  The store is only changed through the object.  Lists of many-valued features are objects
with an identity here, their elements are those of C37.  One thread; the mutex is left out.
-/

namespace Verif.StoreObject

variable {α : Type}

/-- The features of the class of the object (by dynamic feature ID). -/
structure Cls where
  transient : Nat → Bool
  many : Nat → Bool

/-- A value: one value, or the list object of a many-valued feature. -/
inductive Val (α : Type) where
  | one (a : α)
  | list (id : Nat)
deriving DecidableEq, Repr

/-- A store: the values of the features of the object (`none`: not set or nil). -/
abbrev Store (α : Type) := Nat → Option (Val α)

/-- The object with the stores of the program.  `props f = none` is nil; an array that is not allocated is one with nil everywhere.  `lists` counts the lists made. -/
structure Obj (α : Type) where
  cache : Bool
  store : Option Nat
  props : Nat → Option (Val α)
  stores : Nat → Store α
  lists : Nat

/-- a function with one value changed -/
def upd {β : Type} (f : Nat → β) (i : Nat) (b : β) : Nat → β := fun j => if j = i then b else f j

/-- `NewEStoreEObjectImpl` (ecore/estoreeobject_impl.go:24-31) in a program with the given stores -/
def new (cache : Bool) (stores : Nat → Store α) : Obj α := ⟨cache, none, fun _ => none, stores, 0⟩

/-- `SetEStore` (ecore/estoreeobject_impl.go:68-99), without the container (see `attach`) -/
def setEStore (c : Cls) (o : Obj α) (s : Option Nat) : Obj α :=
  if s = o.store then o
  else match s, o.store with
  | none, some old =>
    { o with store := none, props := if o.cache then o.props else fun f => if !c.transient f && !c.many f then o.stores old f else o.props f }
  | none, none => { o with store := none }
  | some s, _ => { o with store := some s, props := if o.cache then o.props else fun _ => none }

/-- `SetCache` (ecore/estoreeobject_impl.go:101-118); the cache of the lists is that of C37 -/
def setCache (o : Obj α) (cache : Bool) : Obj α :=
  if o.cache ≠ cache then { o with cache := cache, props := if o.store.isSome then fun _ => none else o.props } else o

/-- `EDynamicIsSet` (ecore/estoreeobject_impl.go:178-190) -/
def isSet (o : Obj α) (f : Nat) : Bool :=
  if (o.props f).isSome then true
  else match o.store with
  | some s => (o.stores s f).isSome
  | none => false

/-- `EDynamicGet` (ecore/estoreeobject_impl.go:192-229) -/
def get (c : Cls) (o : Obj α) (f : Nat) : Obj α × Option (Val α) :=
  match o.props f with
  | some v => (o, some v)
  | none =>
    if c.transient f then (o, none)
    else if c.many f then ({ o with props := upd o.props f (some (.list o.lists)), lists := o.lists + 1 }, some (.list o.lists))
    else match o.store with
    | some s => (if o.cache then { o with props := upd o.props f (o.stores s f) } else o, o.stores s f)
    | none => (o, none)

/-- `EDynamicSet` (ecore/estoreeobject_impl.go:231-254) -/
def set (c : Cls) (o : Obj α) (f : Nat) (v : Option (Val α)) : Obj α :=
  match o.store with
  | some s =>
    if c.transient f then { o with props := upd o.props f v }
    else { o with stores := upd o.stores s (upd (o.stores s) f v), props := if o.cache then upd o.props f v else o.props }
  | none => { o with props := upd o.props f v }

/-- `EDynamicUnset` (ecore/estoreeobject_impl.go:256-268) -/
def unset (c : Cls) (o : Obj α) (f : Nat) : Obj α :=
  match o.store with
  | some s =>
    if c.transient f then { o with props := upd o.props f none }
    else { o with stores := upd o.stores s (upd (o.stores s) f none), props := upd o.props f none }
  | none => { o with props := upd o.props f none }

/-- the calls -/
inductive Call (α : Type) where
  | get (f : Nat)
  | set (f : Nat) (v : Option α)
  | unset (f : Nat)
  | isSet (f : Nat)
  | setCache (b : Bool)
  | setEStore (s : Option Nat)
deriving DecidableEq, Repr

/-- what calls give back -/
inductive Answer (α : Type) where
  | none
  | value (v : Option (Val α))
  | bool (b : Bool)
deriving DecidableEq, Repr

/-- one call -/
def step (c : Cls) (o : Obj α) : Call α → Obj α × Answer α
  | .get f => ((get c o f).1, .value (get c o f).2)
  | .set f v => (set c o f (v.map .one), .none)
  | .unset f => (unset c o f, .none)
  | .isSet f => (o, .bool (isSet o f))
  | .setCache b => (setCache o b, .none)
  | .setEStore s => (setEStore c o s, .none)

/-- the object after calls -/
def run (c : Cls) (o : Obj α) : List (Call α) → Obj α
  | [] => o
  | x :: xs => run c (step c o x).1 xs

/-- the answers of calls -/
def answers (c : Cls) (o : Obj α) : List (Call α) → List (Answer α)
  | [] => []
  | x :: xs => (step c o x).2 :: answers c (step c o x).1 xs

/-! ### The container -/

/-- The features of the classes as far as containers are concerned: the opposite (a feature ID of the class of the object) of a feature of the class of the container, and the opposite (a feature ID of the
class of the container) of a feature of the class of the object. -/
structure Opp where
  ofContainer : Nat → Nat → Option Nat
  ofObject : Nat → Option Nat

/-- A container and the ID of the feature, see ecore/abstracteobject.go: the feature of the object, or `-1 - i` for the feature `i` of the container. -/
structure Cont where
  container : Nat
  featureID : Int
deriving DecidableEq, Repr

/-- The container part of the object: `unitializedContainer` (ecore/estoreeobject_impl.go:16) is `none`; the containers in the stores with their features. -/
structure CObj where
  store : Option Nat
  cont : Option (Option Cont)
  stores : Nat → Option (Nat × Nat)

/-- `setContainerInStore` (ecore/estoreeobject_impl.go:159-176); `none`: the conversion to a reference panics.  Simplification: a feature ID without feature is a panic. -/
def inStore (p : Opp) (o : CObj) : Option CObj :=
  match o.store, o.cont with
  | some s, some (some k) =>
    if k.featureID ≤ -1 then some { o with stores := upd o.stores s (some (k.container, (-1 - k.featureID).toNat)) }
    else match p.ofObject k.featureID.toNat with
    | some j => some { o with stores := upd o.stores s (some (k.container, j)) }
    | none => none
  | some s, some none => some { o with stores := upd o.stores s none }
  | _, _ => some o

/-- `ESetInternalContainer` (ecore/estoreeobject_impl.go:126-129) -/
def setContainer (p : Opp) (o : CObj) (k : Option Cont) : Option CObj := inStore p { o with cont := some k }

/-- `initializeContainerFromStore` (ecore/estoreeobject_impl.go:141-157) -/
def fromStore (p : Opp) (o : CObj) : CObj :=
  match o.cont with
  | some _ => o
  | none =>
    match o.store with
    | none => { o with cont := some none }
    | some s =>
      match o.stores s with
      | none => { o with cont := some none }
      | some (k, i) =>
        match p.ofContainer k i with
        | some j => { o with cont := some (some ⟨k, j⟩) }
        | none => { o with cont := some (some ⟨k, -1 - (i : Int)⟩) }

/-- `EInternalContainer`, `EInternalContainerFeatureID` (ecore/estoreeobject_impl.go:131-139) -/
def container (p : Opp) (o : CObj) : CObj × Option Cont := (fromStore p o, ((fromStore p o).cont).join)

/-- the container when the store is set (ecore/estoreeobject_impl.go:68-99, 82) -/
def attach (p : Opp) (o : CObj) (s : Option Nat) : Option CObj :=
  if s = o.store then some o else inStore p { o with store := s }

/-- what is done with the container; `reload`: another object for the same data of the store is made (ecore/estoreeobject_impl.go:24-36) and gets the store -/
inductive CCall where
  | set (k : Option Cont)
  | get
  | attach (s : Option Nat)
  | reload
deriving DecidableEq, Repr

/-- one call; `none` is a panic -/
def cstep (p : Opp) (o : CObj) : CCall → Option (CObj × Option Cont)
  | .set k => (setContainer p o k).map (·, none)
  | .get => some (container p o)
  | .attach s => (attach p o s).map (·, none)
  | .reload => some ({ o with cont := none }, none)

/-- the answers of calls; `none` is a panic -/
def canswers (p : Opp) (o : CObj) : List CCall → Option (List (Option Cont))
  | [] => some []
  | x :: xs => (cstep p o x).bind fun r => (canswers p r.1 xs).map (r.2 :: ·)

end Verif.StoreObject
