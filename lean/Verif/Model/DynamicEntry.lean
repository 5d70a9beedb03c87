/-
Model of the map entries of classes known at run time (ecore/dynamicemapentry_impl.go): dynamic objects that keep the features "key" and "value" of
their class in fields, and are used by maps for `GetKey`, `SetKey`, `GetValue` and `SetValue`.

Classes and features are numbers, values are numbers or nil. The features are single-valued attributes without default value. A call that panics
changes nothing.
-/
set_option autoImplicit false
namespace Verif.DynamicEntry

/-- A feature: the object, and its name. -/
structure Feature where
  id : Nat
  name : String
  deriving DecidableEq, Repr

/-- A class: `GetInstanceTypeName` and `GetEAllStructuralFeatures`. -/
structure Cls where
  typeName : String
  feats : List Feature
  deriving DecidableEq, Repr

/-- `GetEStructuralFeatureFromName` (ecore/eclass_ext.go:138-156): the last feature with the name. That the table may be older than the names is left to C35: the names are those
in the table. -/
def byName (c : Cls) (n : String) : Option Nat := ((c.feats.filter fun f => f.name = n).getLast?).map (·.id)

/-- `GetFeatureID` (ecore/eclass_ext.go:158-169): the position among all features (C34). -/
def featureID (c : Cls) (f : Nat) : Option Nat := c.feats.findIdx? fun g => g.id = f

/-- `IsMapEntry` (ecore/eclass_ext.go:470-477) -/
def isMapEntry (c : Cls) : Bool :=
  (c.typeName = "java.util.Map.Entry" || c.typeName = "java.util.Map$Entry" || c.typeName = "github.com/masagroup/soft.go/ecore/ecore.EMapEntry") &&
    (byName c "key").isSome && (byName c "value").isSome

/-- `DynamicEMapEntryImpl` (ecore/dynamicemapentry_impl.go:3-7, ecore/dynamiceobject_impl.go:13-17) -/
structure Entry where
  cls : Nat
  key : Option Nat
  value : Option Nat
  props : List (Option Nat)
  deriving DecidableEq, Repr

structure State where
  classes : Nat → Cls
  entries : List Entry

/-- `resizeProperties` (ecore/dynamiceobject_impl.go:84-89) -/
def resize (n : Nat) (ps : List (Option Nat)) : List (Option Nat) := ps.take n ++ List.replicate (n - ps.length) none

/-- What a call answers. -/
inductive Out where
  | done
  | made (e : Nat)
  | val (v : Option Nat)
  | panic
  deriving DecidableEq, Repr

/-- `SetEClass` of an entry (ecore/dynamicemapentry_impl.go:16-20, ecore/dynamiceobject_impl.go:41-46): the values are moved only if the class is another one, the features are
looked up always. -/
def withClass (s : State) (e : Entry) (c : Nat) : Entry :=
  ⟨c, byName (s.classes c) "key", byName (s.classes c) "value",
    if c = e.cls then e.props else resize (s.classes c).feats.length e.props⟩

/-- `EGet(feature)` (ecore/abstracteobject.go:241-275, ecore/dynamiceobject_impl.go:60-62): nil and a feature the class does not have panic, as does a position behind the
values. -/
def eGet (s : State) (i : Nat) (f : Option Nat) : Out :=
  match s.entries[i]?, f with
  | some e, some f =>
    match featureID (s.classes e.cls) f with
    | some p => match e.props[p]? with
      | some v => .val v
      | none => .panic
    | none => .panic
  | _, _ => .panic

/-- `ESet(feature, x)` (ecore/abstracteobject.go:390-416, 471, ecore/dynamiceobject_impl.go:64-66) -/
def eSet (s : State) (i : Nat) (f : Option Nat) (x : Option Nat) : State × Out :=
  match s.entries[i]?, f with
  | some e, some f =>
    match featureID (s.classes e.cls) f with
    | some p =>
      if p < e.props.length then ({ s with entries := s.entries.set i { e with props := e.props.set p x } }, .done) else (s, .panic)
    | none => (s, .panic)
  | _, _ => (s, .panic)

/-- The calls: any change of a class, the factory, `SetEClass`, the four methods of an entry, and `ESet` and `EGet` of the feature of a name. -/
inductive Op where
  | change (c : Nat) (k : Cls)
  | make (c : Nat)
  | setClass (e c : Nat)
  | setKey (e : Nat) (x : Option Nat)
  | setValue (e : Nat) (x : Option Nat)
  | getKey (e : Nat)
  | getValue (e : Nat)
  | set (e : Nat) (n : String) (x : Option Nat)
  | get (e : Nat) (n : String)

/-- One call. `make` is `Create(c).(EMapEntry)` (ecore/efactory_ext.go:31-44, ecore/basiceobjectmap.go:68-70; the class EObject of a new object has no feature); the accessors are
ecore/dynamicemapentry_impl.go:22-36. -/
def step (s : State) : Op → State × Out
  | .change c k => ({ s with classes := fun d => if d = c then k else s.classes d }, .done)
  | .make c =>
    if isMapEntry (s.classes c) then
      ({ s with entries := s.entries ++
          [⟨c, byName (s.classes c) "key", byName (s.classes c) "value", resize (s.classes c).feats.length []⟩] }, .made s.entries.length)
    else (s, .panic)
  | .setClass i c =>
    match s.entries[i]? with
    | some e => ({ s with entries := s.entries.set i (withClass s e c) }, .done)
    | none => (s, .panic)
  | .setKey i x => eSet s i ((s.entries[i]?).bind (·.key)) x
  | .setValue i x => eSet s i ((s.entries[i]?).bind (·.value)) x
  | .getKey i => (s, eGet s i ((s.entries[i]?).bind (·.key)))
  | .getValue i => (s, eGet s i ((s.entries[i]?).bind (·.value)))
  | .set i n x => eSet s i ((s.entries[i]?).bind fun e => byName (s.classes e.cls) n) x
  | .get i n => (s, eGet s i ((s.entries[i]?).bind fun e => byName (s.classes e.cls) n))

def run (s : State) : List Op → State
  | [] => s
  | op :: ops => run (step s op).1 ops

/-- the answers of the calls -/
def answers (s : State) : List Op → List Out
  | [] => []
  | op :: ops => (step s op).2 :: answers (step s op).1 ops

end Verif.DynamicEntry
