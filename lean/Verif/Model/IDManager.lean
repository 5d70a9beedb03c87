/-
Model of the ID managers: `UniqueIDManager` and `IncrementalIDManager` (ecore/uniqueidmanager.go) and
`EObjectIDManagerImpl` (ecore/eobjectidmanager_impl.go). The mutex is not modelled (each method holds it for its whole body,
so the calls are sequential). Go maps are functions to `Option`. Objects are natural numbers.
-/
namespace Verif.IDManager

/-- `m[k] = v`, or `delete(m, k)` for `none`. -/
def upd {κ β : Type} [DecidableEq κ] (m : κ → Option β) (k : κ) (v : Option β) : κ → Option β :=
  fun x => if x = k then v else m x

/-- The functions a manager is built with (ecore/uniqueidmanager.go:24); `G` is the state captured by the
closures. `ptr` is the address of an object (line 58-60). -/
structure Cfg (ID G : Type) where
  newID : G → ID × G
  isValidID : ID → Bool
  setID : ID → G → G
  ptr : Nat → Nat

/-- ecore/uniqueidmanager.go:13-22. `given` is a ghost: the IDs handed out by `newID` or accepted by `setID`, newest first. -/
structure St (ID G : Type) where
  det : Nat → Option ID
  o2i : Nat → Option ID
  i2o : ID → Option Nat
  gen : G
  given : List ID

/-- The calls. `setID` carries the outcome of `getID(id)` (`none`: error). -/
inductive Op (ID : Type) where
  | register (o : Nat)
  | unRegister (o : Nat)
  | setID (o : Nat) (id : Option ID)
  | clear
  deriving DecidableEq, Repr

section
variable {ID G : Type} [DecidableEq ID]

/-- ecore/uniqueidmanager.go:44-56. -/
def setObjectID (c : Cfg ID G) (s : St ID G) (o : Nat) (newID : ID) : St ID G :=
  let s1 := match s.o2i o with
    | some oldID => { s with i2o := upd s.i2o oldID none }
    | none => s
  if c.isValidID newID then
    { s1 with gen := c.setID newID s1.gen, o2i := upd s1.o2i o (some newID), i2o := upd s1.i2o newID (some o),
              given := newID :: s1.given }
  else { s1 with o2i := upd s1.o2i o none }

/-- ecore/uniqueidmanager.go:62-75. -/
def register (c : Cfg ID G) (s : St ID G) (o : Nat) : St ID G :=
  match s.o2i o with
  | some _ => s
  | none =>
    match s.det (c.ptr o) with
    | some id => setObjectID c { s with det := upd s.det (c.ptr o) none } o id
    | none => let (id, g) := c.newID s.gen; setObjectID c { s with gen := g } o id

/-- ecore/uniqueidmanager.go:77-86. -/
def unRegister (c : Cfg ID G) (s : St ID G) (o : Nat) : St ID G :=
  match s.o2i o with
  | none => s
  | some id => { s with i2o := upd s.i2o id none, o2i := upd s.o2i o none, det := upd s.det (c.ptr o) (some id) }

/-- One call: `SetID` is ecore/uniqueidmanager.go:88-96, `Clear` 36-42. -/
def step (c : Cfg ID G) (s : St ID G) : Op ID → St ID G
  | .register o => register c s o
  | .unRegister o => unRegister c s o
  | .setID o (some id) => setObjectID c s o id
  | .setID _ none => s
  | .clear => { s with det := fun _ => none, o2i := fun _ => none, i2o := fun _ => none }

/-- State after a sequence of calls. -/
def run (c : Cfg ID G) (s : St ID G) : List (Op ID) → St ID G
  | [] => s
  | op :: ops => run c (step c s op) ops

/-- ecore/uniqueidmanager.go:24-34. -/
def init (g : G) : St ID G := ⟨fun _ => none, fun _ => none, fun _ => none, g, []⟩

/-- `GetID` (ecore/uniqueidmanager.go:98-105). -/
def getID (s : St ID G) (o : Nat) : Option ID := s.o2i o

/-- `GetEObject` for an ID that `getID` accepts (ecore/uniqueidmanager.go:107-114). -/
def getEObject (s : St ID G) (id : ID) : Option Nat := s.i2o id

/-- `GetDetachedID` (ecore/uniqueidmanager.go:116-124). -/
def getDetachedID (c : Cfg ID G) (s : St ID G) (o : Nat) : Option ID := s.det (c.ptr o)
end

/-! ### Incremental IDs -/

/-- Conversion of a mathematical integer to int64 (two's complement). -/
def wrap64 (i : Int) : Int := (i + 2 ^ 63) % 2 ^ 64 - 2 ^ 63

/-- The largest int64. -/
def maxInt64 : Int := 2 ^ 63 - 1

/-- ecore/uniqueidmanager.go:184-228: the state of the closures is `currentID`. -/
def incremental (ptr : Nat → Nat) : Cfg Int Int where
  newID cur := (cur, wrap64 (cur + 1))
  isValidID i := decide (i ≥ 0)
  setID id cur := max (wrap64 (id + 1)) cur
  ptr := ptr

/-! ### IDs stored in an attribute -/

/-- ecore/eobjectidmanager_impl.go:16-19, with the ID attribute of each object. -/
structure ESt where
  attr : Nat → String
  o2i : Nat → Option String
  i2o : String → Option Nat

/-- Calls of the manager, and `setAttr`: the program changes the ID attribute of an object directly. -/
inductive EOp where
  | register (o : Nat)
  | unRegister (o : Nat)
  | setID (o : Nat) (id : String)
  | clear
  | setAttr (o : Nat) (id : String)
  deriving DecidableEq, Repr

/-- One call: `Register` ecore/eobjectidmanager_impl.go:33-39, `SetID` 41-65 with a string or nil (= ""), `UnRegister`
67-72, `Clear` 28-31. -/
def estep (s : ESt) : EOp → ESt
  | .register o =>
    let id := s.attr o
    if id.length > 0 then { s with i2o := upd s.i2o id (some o), o2i := upd s.o2i o (some id) } else s
  | .setID o newID =>
    let s1 := { s with attr := fun x => if x = o then newID else s.attr x }
    let oldID := s.o2i o
    let s2 := { s1 with o2i := upd s1.o2i o (if newID.length > 0 then some newID else none) }
    let s3 := match oldID with
      | some old => if old.length > 0 then { s2 with i2o := upd s2.i2o old none } else s2
      | none => s2
    if newID.length > 0 then { s3 with i2o := upd s3.i2o newID (some o) } else s3
  | .unRegister o =>
    match s.o2i o with
    | some id => { s with i2o := upd s.i2o id none, o2i := upd s.o2i o none }
    | none => s
  | .clear => { s with o2i := fun _ => none, i2o := fun _ => none }
  | .setAttr o id => { s with attr := fun x => if x = o then id else s.attr x }

/-- State after a sequence of calls. -/
def erun (s : ESt) : List EOp → ESt
  | [] => s
  | op :: ops => erun (estep s op) ops

/-- A new manager in a program whose objects have the given ID attributes. -/
def einit (attr : Nat → String) : ESt := ⟨attr, fun _ => none, fun _ => none⟩

end Verif.IDManager
