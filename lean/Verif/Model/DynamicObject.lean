import Verif.Model.EClass
/-
Model of the objects whose features are known at run time only (ecore/dynamiceobject_impl.go, ecore/reflectiveeobject_impl.go): their values are
in a slice indexed by the position of the feature among all the features of the class, and the container of an object is remembered with
the position of the containment feature.

Objects, classes and features are numbers. Modelled: single and many-valued features, with or without containment, without opposites. Not
modelled: opposites, proxies, resources, maps and notifications (other models). A panic is the value `none`.
-/
set_option autoImplicit false
namespace Verif.DynamicObject

/-- A value: data, or an object. -/
inductive Val where
  | data (n : Nat)
  | obj (i : Nat)
  deriving DecidableEq, Repr

/-- The list of a many-valued feature: the feature ID it was made with (`featureID`, ecore/basiceobjectlist.go:15-30), whether it is a
containment list, and its elements. -/
structure Lst where
  id : Nat
  containment : Bool
  data : List Val
  deriving DecidableEq, Repr

/-- An entry of `properties` (ecore/dynamiceobject_impl.go:16). -/
inductive Slot where
  | empty
  | one (v : Val)
  | many (l : Lst)
  deriving DecidableEq, Repr

/-- The classes: `all c` is `GetEAllStructuralFeatures` of the class, `fid f` the feature ID kept in the feature (`GetFeatureID`, its position in the class which
declares it), `dflt` the default value. What `all` and `fid` are is the subject of C34 and C35. -/
structure Meta where
  all : Nat → List Nat
  fid : Nat → Nat
  many : Nat → Bool
  containment : Nat → Bool
  dflt : Nat → Option Val

/-- An object: `dynamic` tells a `DynamicEObjectImpl` from a `ReflectiveEObjectImpl`. `props` is `properties` (nil until the first access of a
reflective object). `cont` is the container and the position of the containment feature: `containerFeatureID` is
`EOPPOSITE_FEATURE_BASE` minus it (the number kept without a container is not modelled). `contents` are the features kept by the list
`EContents` once it is made (ecore/basiceobject_impl.go:86-93). -/
structure Obj where
  dynamic : Bool
  cls : Nat
  props : Option (List Slot)
  cont : Option (Nat × Nat) := none
  contents : Option (List Nat) := none
  deriving DecidableEq, Repr

structure World where
  m : Meta
  objs : List Obj

/-- ecore/reflectiveeobject_impl.go:63-68 (`getProperties`); the properties of a dynamic object always exist. -/
def touch (m : Meta) (o : Obj) : Obj :=
  match o.props with
  | none => { o with props := some (List.replicate (m.all o.cls).length .empty) }
  | some _ => o

/-- `EDynamicGet` (ecore/dynamiceobject_impl.go:60-62, ecore/reflectiveeobject_impl.go:47-49): an index out of range panics. -/
def access (w : World) (i id : Nat) : Option (World × Slot) :=
  match w.objs[i]? with
  | none => none
  | some o =>
    match ((touch w.m o).props.getD [])[id]? with
    | none => none
    | some s => some ({ w with objs := w.objs.set i (touch w.m o) }, s)

/-- `EDynamicSet` and `EDynamicUnset` (ecore/dynamiceobject_impl.go:64-70, ecore/reflectiveeobject_impl.go:51-57). -/
def write (w : World) (i id : Nat) (s : Slot) : Option World :=
  match w.objs[i]? with
  | none => none
  | some o =>
    let ps := (touch w.m o).props.getD []
    if id < ps.length then some { w with objs := w.objs.set i { touch w.m o with props := some (ps.set id s) } } else none

/-- `EClass().GetFeatureID(feature)` (ecore/eclass_ext.go:158-169); `none` is -1. -/
def classFeatureID (m : Meta) (c f : Nat) : Option Nat :=
  let r := EClass.scan (m.all c) f (m.fid f)
  if 0 ≤ r then some r.toNat else none

/-- `EFeatureID`: of a dynamic object the position in its class (ecore/dynamiceobject_impl.go:76-78, then the panic of
ecore/abstracteobject.go:256, 400, 509, 554), of a reflective one the ID in the feature (ecore/abstracteobject.go:218-227). -/
def featureID (m : Meta) (o : Obj) (f : Nat) : Option Nat :=
  if o.dynamic then classFeatureID m o.cls f
  else if f ∈ m.all o.cls then some (m.fid f) else none

/-- The beginning of `EGet`, `ESet`, `EIsSet`, `EUnset` and of their `FromID` variants (ecore/abstracteobject.go:250-263, 395-408, 503-515, 549-562):
the object, the position and the feature found there. -/
def locate (w : World) (i f : Nat) : Option (Obj × Nat × Nat) :=
  match w.objs[i]? with
  | none => none
  | some o =>
    match featureID w.m o f with
    | none => none
    | some id =>
      match (w.m.all o.cls)[id]? with
      | none => none
      | some g => some (o, id, g)

/-- `ESetInternalContainer`. (Nothing is done for a number which is no object, here and in `putIn`; this does not occur in the code.) -/
def setCont (w : World) (x : Nat) (c : Option (Nat × Nat)) : World :=
  match w.objs[x]? with
  | none => w
  | some o => { w with objs := w.objs.set x { o with cont := c } }

/-- `container.EInverseRemove(x, id)` (ecore/abstracteobject.go:661-667, 725-768): what is at the position is taken out of the container. Without a feature there
`IsMany` is called on nil. -/
def takeOut (w : World) (k id x : Nat) : Option World :=
  match w.objs[k]? with
  | none => none
  | some o =>
    match (w.m.all o.cls)[id]? with
    | none => none
    | some g =>
      match access w k id with
      | none => none
      | some (w, s) =>
        if w.m.many g then
          match s with
          | .many l => write w k id (.many { l with data := l.data.erase (.obj x) })
          | _ => some w
        else write w k id .empty

/-- `x.EInverseAdd(k, EOPPOSITE_FEATURE_BASE - id)` (ecore/abstracteobject.go:650-659, 854-865): out of the former container, then `EBasicSetContainer`. -/
def putIn (w : World) (x k id : Nat) : Option World :=
  match w.objs[x]? with
  | none => some w
  | some o =>
    match o.cont with
    | none => some (setCont w x (some (k, id)))
    | some (k', id') =>
      match takeOut w k' id' x with
      | none => none
      | some w => some (setCont w x (some (k, id)))

def toSlot : Option Val → Slot
  | none => .empty
  | some v => .one v

/-- `x.EInverseRemove` of a former value (ecore/abstracteobject.go:453-455, 588-591): `EBasicSetContainer(nil, ...)`. -/
def release (w : World) : Slot → World
  | .one (.obj x) => setCont w x none
  | _ => w

/-- ecore/abstracteobject.go:456-458 -/
def adopt (w : World) (i id : Nat) : Option Val → Option World
  | some (.obj x) => putIn w x i id
  | _ => some w

/-- `ESet` (ecore/abstracteobject.go:394-499). `id'` is the feature ID asked again from the class (line 452). -/
def eSet (w : World) (i f : Nat) (v : Option Val) : Option World :=
  match locate w i f with
  | none => none
  | some (o, id, g) =>
    match access w i id with
    | none => none
    | some (w, old) =>
      if w.m.containment g then
        if old = toSlot v then some w
        else
          match classFeatureID w.m o.cls g with
          | none => none
          | some id' =>
            match adopt (release w old) i id' v with
            | none => none
            | some w => write w i id (toSlot v)
      else write w i id (toSlot v)

/-- `EUnset` (ecore/abstracteobject.go:548-629). -/
def eUnset (w : World) (i f : Nat) : Option World :=
  match locate w i f with
  | none => none
  | some (_, id, g) =>
    match access w i id with
    | none => none
    | some (w, old) =>
      if w.m.containment g then
        if old = .empty then some w
        else write (release w old) i id .empty
      else write w i id .empty

/-- What `EGet` answers. -/
inductive Got where
  | none
  | one (v : Val)
  | list (l : List Val)
  deriving DecidableEq, Repr

/-- `eDynamicPropertiesCreateList` (ecore/abstracteobject.go:357-392): the list is made with the ID in the feature. -/
def newList (m : Meta) (g : Nat) : Lst := ⟨m.fid g, m.containment g, []⟩

/-- `EGet` (ecore/abstracteobject.go:241-344). -/
def eGet (w : World) (i f : Nat) : Option (World × Got) :=
  match locate w i f with
  | none => none
  | some (_, id, g) =>
    match access w i id with
    | none => none
    | some (w, .one v) => some (w, .one v)
    | some (w, .many l) => some (w, .list l.data)
    | some (w, .empty) =>
      if w.m.many g then (write w i id (.many (newList w.m g))).map fun w => (w, .list [])
      else some (w, match w.m.dflt g with | some v => .one v | none => .none)

/-- `EIsSet` (ecore/abstracteobject.go:502-545). -/
def eIsSet (w : World) (i f : Nat) : Option (World × Bool) :=
  match locate w i f with
  | none => none
  | some (_, id, _) => (access w i id).map fun p => (p.1, p.2 != .empty)

/-- `EGet(f).(EList).Add(v)`: ecore/basicenotifyinglist.go, ecore/basiceobjectlist.go:118-131. The list has each element once. A value which is not a list panics. -/
def add (w : World) (i f : Nat) (v : Val) : Option World :=
  match eGet w i f, locate w i f with
  | some (w, .list data), some (_, id, _) =>
    match access w i id with
    | some (w, .many l) =>
      if v ∈ data then some w
      else
        match write w i id (.many { l with data := l.data ++ [v] }) with
        | none => none
        | some w => if l.containment then adopt w i l.id (some v) else some w
    | _ => none
  | _, _ => none

/-- `EGet(f).(EList).Remove(v)`: ecore/basiceobjectlist.go:133-142. -/
def remove (w : World) (i f : Nat) (v : Val) : Option World :=
  match eGet w i f, locate w i f with
  | some (w, .list data), some (_, id, _) =>
    match access w i id with
    | some (w, .many l) =>
      if v ∈ data then
        match write w i id (.many { l with data := l.data.erase v }) with
        | none => none
        | some w => some (if l.containment then release w (.one v) else w)
      else some w
    | _ => none
  | _, _ => none

/-- `resizeProperties` (ecore/dynamiceobject_impl.go:84-89): `copy` by position. -/
def resize (n : Nat) (ps : List Slot) : List Slot := ps.take n ++ List.replicate (n - ps.length) .empty

/-- `SetEClass` (ecore/dynamiceobject_impl.go:41-46, ecore/reflectiveeobject_impl.go:35-37). -/
def setClass (w : World) (i c : Nat) : Option World :=
  match w.objs[i]? with
  | none => none
  | some o =>
    let o' := if o.dynamic then
        if c = o.cls then o
        else { o with cls := c, props := some (resize (w.m.all c).length (o.props.getD [])) }
      else { o with cls := c }
    some { w with objs := w.objs.set i o' }

/-- `NewDynamicEObjectImpl` (ecore/dynamiceobject_impl.go:20-31; the class EObject has no feature) or `NewReflectiveEObjectImpl`
(ecore/reflectiveeobject_impl.go:20-25), then `SetEClass(c)`. -/
def create (w : World) (dynamic : Bool) (c : Nat) : World :=
  { w with objs := w.objs ++ [⟨dynamic, c, if dynamic then some (resize (w.m.all c).length []) else none, none, none⟩] }

/-- `EContainingFeature` and `EContainer` (ecore/abstracteobject.go:104-119, 173-186): no container, or the container and the feature at the remembered position, nil
if there is none. -/
def holder (w : World) (x : Nat) : Option (Option (Nat × Option Nat)) :=
  match w.objs[x]? with
  | none => none
  | some o =>
    match o.cont with
    | none => some none
    | some (k, id) => (w.objs[k]?).map fun c => some (k, (w.m.all c.cls)[id]?)

/-- The objects found under the features (ecore/econtentslist.go; C15): the unset features are passed over. A value which is not a list under a many-valued
feature panics; a list under a single-valued one would be an element, here the model stops too. -/
def gather (w : World) (i : Nat) : List Nat → Option (World × List Val)
  | [] => some (w, [])
  | f :: fs =>
    match eIsSet w i f with
    | none => none
    | some (w, false) => gather w i fs
    | some (w, true) =>
      match eGet w i f with
      | none => none
      | some (w, g) =>
        match w.m.many f, g with
        | true, .list l => (gather w i fs).map fun p => (p.1, l ++ p.2)
        | false, .one v => (gather w i fs).map fun p => (p.1, v :: p.2)
        | false, .none => gather w i fs
        | _, _ => none

/-- `EContents` and a walk through it (ecore/basiceobject_impl.go:86-93, ecore/eclass_ext.go:324-338). -/
def contents (w : World) (i : Nat) : Option (World × List Val) :=
  match w.objs[i]? with
  | none => none
  | some o =>
    let fs := o.contents.getD ((w.m.all o.cls).filter fun f => w.m.containment f)
    gather { w with objs := w.objs.set i { o with contents := some fs } } i fs

/-- The programs. `classes` is any change of the classes. -/
inductive Op where
  | classes (m : Meta)
  | create (dynamic : Bool) (c : Nat)
  | setClass (i c : Nat)
  | set (i f : Nat) (v : Option Val)
  | unset (i f : Nat)
  | get (i f : Nat)
  | isSet (i f : Nat)
  | add (i f : Nat) (v : Val)
  | remove (i f : Nat) (v : Val)
  | holder (x : Nat)
  | contents (i : Nat)

/-- What a call answers. -/
inductive Out where
  | done
  | got (g : Got)
  | bool (b : Bool)
  | holder (h : Option (Nat × Option Nat))
  | objects (l : List Val)
  deriving DecidableEq, Repr

def step (w : World) : Op → Option (World × Out)
  | .classes m => some ({ w with m := m }, .done)
  | .create d c => some (create w d c, .done)
  | .setClass i c => (setClass w i c).map fun w => (w, .done)
  | .set i f v => (eSet w i f v).map fun w => (w, .done)
  | .unset i f => (eUnset w i f).map fun w => (w, .done)
  | .get i f => (eGet w i f).map fun p => (p.1, .got p.2)
  | .isSet i f => (eIsSet w i f).map fun p => (p.1, .bool p.2)
  | .add i f v => (add w i f v).map fun w => (w, .done)
  | .remove i f v => (remove w i f v).map fun w => (w, .done)
  | .holder x => (holder w x).map fun h => (w, .holder h)
  | .contents i => (contents w i).map fun p => (p.1, .objects p.2)

/-- The answers of the calls; `none` once a call panics. -/
def run (w : World) : List Op → Option (List Out)
  | [] => some []
  | op :: ops =>
    match step w op with
    | none => none
    | some (w, r) => (run w ops).map (r :: ·)

end Verif.DynamicObject
