import Verif.Model.DynamicObject
/-
Specification for C90: an object is a record. It has a value for each single-valued feature and a sequence for each many-valued one; an object is under at most
one containment feature of one object. Nothing is said of positions of features.
-/
set_option autoImplicit false
namespace Verif.Spec.DynamicObject
open Verif.DynamicObject (Val Meta Got Out Op)

structure Rec where
  dynamic : Bool
  cls : Nat
  one : Nat → Option Val := fun _ => none
  many : Nat → List Val := fun _ => []
  /-- the object it is in, and the feature -/
  cont : Option (Nat × Nat) := none
  /-- a feature of the object has been accessed -/
  used : Bool := false
  /-- the contents of the object have been asked -/
  listed : Bool := false

/-- The classes and the objects. -/
structure Heap where
  m : Meta
  recs : List Rec

def upd {α : Type} (f : Nat → α) (k : Nat) (v : α) : Nat → α := fun j => if j = k then v else f j

/-- Change of one object. -/
def Heap.at (h : Heap) (i : Nat) (g : Rec → Rec) : Heap := { h with recs := h.recs.modify i g }

def Heap.use (h : Heap) (i : Nat) : Heap := h.at i fun r => { r with used := true }

/-- The object is in no container any more. -/
def Heap.free (h : Heap) (x : Nat) : Heap := h.at x fun r => { r with cont := none }

/-- The object is taken out of where it is and is put under feature `f` of `i` (which will hold it). -/
def Heap.move (h : Heap) (x i f : Nat) : Heap :=
  let h := match (h.recs[x]?).bind (·.cont) with
    | some (k, f') =>
      h.at k fun r => if h.m.many f' then { r with many := upd r.many f' ((r.many f').erase (.obj x)), used := true }
        else { r with one := upd r.one f' none, used := true }
    | none => h
  h.at x fun r => { r with cont := some (i, f) }

def oneOf (h : Heap) (i f : Nat) : Option Val := (h.recs[i]?).bind fun r => r.one f
def manyOf (h : Heap) (i f : Nat) : List Val := ((h.recs[i]?).map fun r => r.many f).getD []

/-- The value of a single-valued feature is replaced. -/
def Heap.put (h : Heap) (i f : Nat) (v : Option Val) : Heap :=
  let h := h.use i
  if h.m.containment f then
    if oneOf h i f = v then h
    else
      let h := match oneOf h i f with | some (.obj y) => h.free y | _ => h
      let h := match v with | some (.obj x) => h.move x i f | _ => h
      h.at i fun r => { r with one := upd r.one f v, used := true }
  else h.at i fun r => { r with one := upd r.one f v, used := true }

def after (h : Heap) : Op → Heap
  | .classes m => { h with m := m }
  | .create d c => { h with recs := h.recs ++ [{ dynamic := d, cls := c }] }
  | .setClass i c => h.at i fun r => { r with cls := c }
  | .set i f v => h.put i f v
  | .unset i f => h.put i f none
  | .get i _ => h.use i
  | .isSet i _ => h.use i
  | .add i f v =>
    let h := h.use i
    if v ∈ manyOf h i f then h
    else
      let h := h.at i fun r => { r with many := upd r.many f (r.many f ++ [v]), used := true }
      match h.m.containment f, v with
      | true, .obj x => h.move x i f
      | _, _ => h
  | .remove i f v =>
    let h := h.use i
    if v ∈ manyOf h i f then
      let h := h.at i fun r => { r with many := upd r.many f ((r.many f).erase v), used := true }
      match h.m.containment f, v with
      | true, .obj x => h.free x
      | _, _ => h
    else h
  | .holder _ => h
  | .contents i => h.at i fun r => { r with listed := true, used := r.used || (h.m.all r.cls).any h.m.containment }

/-- The objects in an object, feature by feature. -/
def children (m : Meta) (r : Rec) : List Val :=
  ((m.all r.cls).filter fun f => m.containment f).flatMap fun f => if m.many f then r.many f else (r.one f).toList

/-- What a call answers. -/
def answer (h : Heap) : Op → Out
  | .get i f =>
    if h.m.many f then .got (.list (manyOf h i f))
    else match oneOf h i f with
      | some v => .got (.one v)
      | none => match h.m.dflt f with
        | some v => .got (.one v)
        | none => .got .none
  | .isSet i f => .bool (oneOf h i f).isSome
  | .holder x => .holder (((h.recs[x]?).bind (·.cont)).map fun p => (p.1, some p.2))
  | .contents i => .objects (((h.recs[i]?).map (children h.m)).getD [])
  | _ => .done

def answers (h : Heap) : List Op → List Out
  | [] => []
  | op :: ops => answer h op :: answers (after h op) ops

/-! ### The histories -/

/-- Each feature of the class is there once, at the ID kept in the feature or further. For dynamic objects the containment lists, for the others all the features
must be exactly at this ID. -/
def Fits (m : Meta) (dynamic : Bool) (c : Nat) : Prop :=
  (m.all c).Nodup ∧ ∀ f ∈ m.all c, (∃ i : Nat, m.fid f ≤ i ∧ (m.all c)[i]? = some f) ∧
    ((dynamic = false ∨ (m.many f = true ∧ m.containment f = true)) → (m.all c)[m.fid f]? = some f)

/-- The classes of the objects are as before. -/
def Unchanged (m m' : Meta) (c : Nat) : Prop :=
  m'.all c = m.all c ∧ ∀ f ∈ m.all c, m'.fid f = m.fid f ∧ m'.many f = m.many f ∧ m'.containment f = m.containment f

/-- What a program may do in a state. -/
def Ok (h : Heap) : Op → Prop
  | .classes m => ∀ r ∈ h.recs, Unchanged h.m m r.cls
  | .create d c => Fits h.m d c
  | .setClass i c => ∃ r, h.recs[i]? = some r ∧ Fits h.m r.dynamic c ∧
      (c = r.cls ∨ (h.m.all r.cls <+: h.m.all c ∧ r.listed = false ∧ (r.dynamic = true ∨ r.used = false)))
  | .set i f _ => ∃ r, h.recs[i]? = some r ∧ f ∈ h.m.all r.cls ∧ h.m.many f = false
  | .unset i f => ∃ r, h.recs[i]? = some r ∧ f ∈ h.m.all r.cls ∧ h.m.many f = false
  | .get i f => ∃ r, h.recs[i]? = some r ∧ f ∈ h.m.all r.cls
  | .isSet i f => ∃ r, h.recs[i]? = some r ∧ f ∈ h.m.all r.cls ∧ h.m.many f = false
  | .add i f _ => ∃ r, h.recs[i]? = some r ∧ f ∈ h.m.all r.cls ∧ h.m.many f = true
  | .remove i f _ => ∃ r, h.recs[i]? = some r ∧ f ∈ h.m.all r.cls ∧ h.m.many f = true
  | .holder x => x < h.recs.length
  | .contents i => i < h.recs.length

def Allowed : Heap → List Op → Prop
  | _, [] => True
  | h, op :: ops => Ok h op ∧ Allowed (after h op) ops

end Verif.Spec.DynamicObject
