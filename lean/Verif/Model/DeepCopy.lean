import Verif.Model.DeepEqual

/-!
# Copies of objects

`Copy` and `CopyAll` (ecore/ecoreutils.go 149-161) with `deepCopy` (ecore/deepcopy.go).

Objects are dynamic ones (ecore/abstracteobject.go, ecore/dynamiceobject_impl.go) or of generated classes
(e.g. ecore/eclass_impl.go).  Lists have an identity, given by an address.

Left out: resolution of proxies by `EGetResolve` (the references of the world are those it gives), maps, factories that
return nil, resources, adapters and notifications, the numbers of features (see C19, C20: features are where they are meant
to be), setting a container reference (`Copy` never does).  `none` is a panic, or not enough depth.
-/

namespace Verif.DeepCopy

/-- A feature: `isRef` is false for attributes. -/
structure Feature where
  isRef : Bool
  many : Bool
  containment : Bool
  opposite : Option Nat
  changeable : Bool
  derived : Bool
deriving DecidableEq, Repr

/-- The classes: `all c` is `GetEAllStructuralFeatures` of class `c`, `declared c` is `GetEStructuralFeatures` (its
references are `GetEReferences`), `generated c` is true for a generated class. -/
structure Meta where
  feature : Nat → Feature
  all : Nat → List Nat
  declared : Nat → List Nat
  generated : Nat → Bool

/-- `IsContainer` (ecore/estructuralfeature_ext.go 87-96) -/
def Meta.isContainer (M : Meta) (f : Nat) : Bool :=
  match (M.feature f).opposite with
  | some g => (M.feature g).containment
  | none => false

/-- a value of a feature; a list by its address -/
inductive Slot where
  | none
  | value (v : Nat)
  | obj (o : Nat)
  | list (l : Nat)
deriving DecidableEq, Repr

/-- lists of values, lists of references (ecore/basiceobjectlist.go), `NewImmutableEList` -/
inductive LKind where
  | values | refs | immutable
deriving DecidableEq, Repr

structure EList where
  items : List Nat
  kind : LKind
deriving DecidableEq, Repr

/-- The objects and lists, and `objects` of `deepCopy` (ecore/deepcopy.go 12-16).  `container` has the container and the
containment reference. -/
structure World where
  cls : Nat → Nat
  uri : Nat → Option Nat
  slot : Nat → Nat → Slot
  container : Nat → Option (Nat × Nat)
  list : Nat → EList
  nextObj : Nat
  nextList : Nat
  objects : Nat → Option Nat

def setSlot (w : World) (o f : Nat) (s : Slot) : World :=
  { w with slot := fun x g => if x = o ∧ g = f then s else w.slot x g }

def setItems (w : World) (l : Nat) (items : List Nat) : World :=
  { w with list := fun k => if k = l then ⟨items, (w.list l).kind⟩ else w.list k }

def setContainer (w : World) (o : Nat) (c : Option (Nat × Nat)) : World :=
  { w with container := fun x => if x = o then c else w.container x }

/-- a new list, the value of a feature -/
def newList (w : World) (o f : Nat) (l : EList) : World :=
  { w with
    slot := fun x g => if x = o ∧ g = f then .list w.nextList else w.slot x g
    list := fun k => if k = w.nextList then l else w.list k
    nextList := w.nextList + 1 }

/-- `EGet` of a many valued feature: the list is created at the first use (ecore/abstracteobject.go 290-299, 357-388) -/
def getList (M : Meta) (w : World) (o f : Nat) : World × Nat :=
  match w.slot o f with
  | .list l => (w, l)
  | _ => (newList w o f ⟨[], if (M.feature f).isRef then .refs else .values⟩, w.nextList)

/-- the objects or values of a many valued feature -/
def items (w : World) (o f : Nat) : List Nat :=
  match w.slot o f with
  | .list l => (w.list l).items
  | _ => []

/-- `EIsSet` (ecore/abstracteobject.go 501-537, ecore/dynamiceobject_impl.go 84-86; generated: e.g. ecore/eclass_impl.go
471-510, lists are set if they are not empty) -/
def isSet (M : Meta) (w : World) (o f : Nat) : Bool :=
  if M.isContainer f then
    match w.container o with
    | some (_, r) => (M.feature f).opposite == some r
    | none => false
  else
    match w.slot o f with
    | .none => false
    | .list l => !M.generated (w.cls o) || !(w.list l).items.isEmpty
    | _ => true

/-- `EInverseRemove` on `e`, for its reference `g` that is neither containment nor container (ecore/abstracteobject.go
753-779) -/
def inverseRemove (M : Meta) (w : World) (e g o : Nat) : World :=
  if (M.feature g).many then
    match w.slot e g with
    | .list l => if (w.list l).kind = .immutable then w else setItems w l ((w.list l).items.erase o)
    | _ => w
  else setSlot w e g .none

/-- `EBasicRemoveFromContainer` (ecore/abstracteobject.go 854-877) -/
def removeFromContainer (M : Meta) (w : World) (e : Nat) : World :=
  match w.container e with
  | some (p, r) => inverseRemove M w p r e
  | none => w

/-- `EInverseAdd` on the new value `e` of the reference `f` of `o` (ecore/abstracteobject.go 650-736) -/
def inverseAdd (M : Meta) (w : World) (o f e : Nat) : World :=
  if (M.feature f).containment then setContainer (removeFromContainer M w e) e (some (o, f))
  else
    match (M.feature f).opposite with
    | none => w
    | some g =>
      if (M.feature g).many then
        let (w1, l) := getList M w e g
        setItems w1 l ((w1.list l).items ++ [o])
      else
        setSlot (match w.slot e g with
          | .obj x => inverseRemove M w x f e
          | _ => w) e g (.obj o)

/-- `ESet` of a single valued reference to an object (ecore/abstracteobject.go 441-499) -/
def eSet (M : Meta) (w : World) (o f v : Nat) : World :=
  if (M.feature f).containment || (M.feature f).opposite.isSome then
    if w.slot o f = .obj v then w
    else
      let w1 := match w.slot o f with
        | .obj x => if (M.feature f).containment then setContainer w x none else
          match (M.feature f).opposite with
          | some g => inverseRemove M w x g o
          | none => w
        | _ => w
      setSlot (inverseAdd M w1 o f v) o f (.obj v)
  else setSlot w o f (.obj v)

/-- `list.Add` of the list of references `f` of `o` (ecore/abstractelist.go 80-91, ecore/basicenotifyinglist.go 158-170) -/
def add (M : Meta) (o f : Nat) (w : World) (e : Nat) : World :=
  let (w1, l) := getList M w o f
  if e ∈ (w1.list l).items then w1 else inverseAdd M (setItems w1 l ((w1.list l).items ++ [e])) o f e

/-- `ESet` of a containment list with `NewImmutableEList(copies)`.  A generated class clears its list, which is new and
empty here, and adds the copies, `AddAll` one after the other (e.g. ecore/eclass_impl.go 436-446; see C02).  A dynamic object
stores the immutable list (ecore/abstracteobject.go 441-486: the list is not an `EObjectInternal`). -/
def eSetList (M : Meta) (w : World) (o f : Nat) (copies : List Nat) : World :=
  if M.generated (w.cls o) then copies.foldl (add M o f) (getList M w o f).1
  else newList w o f ⟨copies, .immutable⟩

/-- `copyAttribute` (ecore/deepcopy.go 72-76).  The list of a generated class is cleared and filled; a dynamic object
stores the list it is given (ecore/abstracteobject.go 487-498). -/
def copyAttribute (M : Meta) (w : World) (o c f : Nat) : World :=
  if isSet M w o f then
    match w.slot o f with
    | .list l =>
      if M.generated (w.cls c) then
        let (w1, l') := getList M w c f
        setItems w1 l' (w.list l).items
      else setSlot w c f (.list l)
    | s => setSlot w c f s
  else w

/-- `copyAll` (ecore/deepcopy.go 49-56) -/
def copyAll (copy : World → Nat → Option (World × Nat)) : World → List Nat → Option (World × List Nat)
  | w, [] => some (w, [])
  | w, o :: os =>
    match copy w o with
    | none => none
    | some (w1, c) =>
      match copyAll copy w1 os with
      | none => none
      | some (w2, cs) => some (w2, c :: cs)

/-- `copyContainment` (ecore/deepcopy.go 78-89) -/
def copyContainment (M : Meta) (copy : World → Nat → Option (World × Nat)) (w : World) (o c f : Nat) : Option World :=
  if isSet M w o f then
    if (M.feature f).many then (copyAll copy w (items w o f)).map fun r => eSetList M r.1 c f r.2
    else
      match w.slot o f with
      | .obj x => (copy w x).map fun r => eSet M r.1 c f r.2
      | _ => none
  else some w

/-- the body of the loop of `copy` (ecore/deepcopy.go 33-40) -/
def copyFeature (M : Meta) (copy : World → Nat → Option (World × Nat)) (o c : Nat) (w : World) (f : Nat) : Option World :=
  if (M.feature f).changeable && !(M.feature f).derived then
    if !(M.feature f).isRef then some (copyAttribute M w o c f)
    else if (M.feature f).containment then copyContainment M copy w o c f
    else some w
  else some w

/-- `createCopy` (ecore/deepcopy.go 58-62) and the entry in `objects` (29) -/
def create (w : World) (o : Nat) : World :=
  { w with
    cls := fun x => if x = w.nextObj then w.cls o else w.cls x
    uri := fun x => if x = w.nextObj then none else w.uri x
    slot := fun x f => if x = w.nextObj then .none else w.slot x f
    container := fun x => if x = w.nextObj then none else w.container x
    nextObj := w.nextObj + 1
    objects := fun x => if x = o then some w.nextObj else w.objects x }

/-- `copyProxyURI` (ecore/deepcopy.go 64-70) -/
def copyProxyURI (w : World) (o c : Nat) : World :=
  if (w.uri o).isSome then { w with uri := fun x => if x = c then w.uri o else w.uri x } else w

/-- `copy` (ecore/deepcopy.go 26-47), with a bound for the depth -/
def copy (M : Meta) : Nat → World → Nat → Option (World × Nat)
  | 0, _, _ => none
  | n + 1, w, o =>
    let c := w.nextObj
    (((M.all (w.cls o)).foldlM (copyFeature M (copy M n) o c) (create w o)).map fun w => copyProxyURI w o c).map fun w => (w, c)

/-- `target.Insert(index, e)` (ecore/abstractelist.go 110-121) -/
def insert (M : Meta) (w : World) (c f l index e : Nat) : Option World :=
  if index > (w.list l).items.length then none
  else if e ∈ (w.list l).items then some w
  else some (inverseAdd M (setItems w l ((w.list l).items.insertIdx index e)) c f e)

/-- `target.MoveObject(index, e)` (ecore/abstractelist.go 153-161) -/
def moveObject (w : World) (l index e : Nat) : Option World :=
  if e ∉ (w.list l).items ∨ index ≥ (w.list l).items.length then none
  else some (setItems w l (((w.list l).items.erase e).insertIdx index e))

/-- the body of the loop of `copyReference` (ecore/deepcopy.go 120-142): the index follows -/
def copyElement (M : Meta) (c f l : Nat) (s : World × Nat) (e : Nat) : Option (World × Nat) :=
  let (w, index) := s
  match w.objects e with
  | some e' =>
    if (M.feature f).opposite.isSome then
      if e' ∉ (w.list l).items then (insert M w c f l index e').map fun w => (w, index + 1)
      else if index ≠ (w.list l).items.idxOf e' then (moveObject w l index e').map fun w => (w, index + 1)
      else some (w, index + 1)
    else (insert M w c f l index e').map fun w => (w, index + 1)
  | none =>
    if (M.feature f).opposite.isNone then (insert M w c f l index e).map fun w => (w, index + 1)
    else some (w, index)

/-- `target.Clear()`: the list is emptied, the other ends follow (ecore/basicenotifyinglist.go 236-262) -/
def clear (M : Meta) (w : World) (c f l : Nat) : World :=
  match (M.feature f).opposite with
  | some g => (w.list l).items.foldl (fun w e => inverseRemove M w e g c) (setItems w l [])
  | none => setItems w l []

/-- `copyReference` (ecore/deepcopy.go 102-160), `originalReferences` being true -/
def copyReference (M : Meta) (o c : Nat) (w : World) (f : Nat) : Option World :=
  if isSet M w o f then
    if (M.feature f).many then
      let source := items w o f
      let (w1, l) := getList M w c f
      if source = [] then some (clear M w1 c f l)
      else (source.foldlM (copyElement M c f l) (w1, 0)).map (·.1)
    else
      match w.slot o f with
      | .obj x =>
        match w.objects x with
        | some x' => some (eSet M w c f x')
        | none => if (M.feature f).opposite.isNone then some (eSet M w c f x) else some w
      | _ => none
  else some w

/-- the references that `copyReferences` copies (ecore/deepcopy.go 93-96) -/
def crossReferences (M : Meta) (c : Nat) : List Nat :=
  (M.declared c).filter fun f =>
    (M.feature f).isRef && (M.feature f).changeable && !(M.feature f).derived && !(M.feature f).containment && !M.isContainer f

/-- `copyReferences` (ecore/deepcopy.go 91-100); `order` is the order of the iteration of the map `objects` -/
def copyReferences (M : Meta) (order : List Nat) (w : World) : Option World :=
  order.foldlM (fun w o =>
    match w.objects o with
    | none => some w
    | some c => (crossReferences M (w.cls o)).foldlM (copyReference M o c) w) w

/-- `Copy` (ecore/ecoreutils.go 149-154) -/
def copyTop (M : Meta) (order : List Nat) (n : Nat) (w : World) (o : Nat) : Option (World × Nat) :=
  (copy M n { w with objects := fun _ => none } o).bind fun r => (copyReferences M order r.1).map fun w => (w, r.2)

/-- `CopyAll` (ecore/ecoreutils.go 156-161) -/
def copyAllTop (M : Meta) (order : List Nat) (n : Nat) (w : World) (l : List Nat) : Option (World × List Nat) :=
  (copyAll (copy M n) { w with objects := fun _ => none } l).bind fun r => (copyReferences M order r.1).map fun w => (w, r.2)

/-! ### The objects as `Equals` sees them -/

def toMeta (M : Meta) : DeepEqual.Meta where
  features := M.declared
  inherited := fun c => (M.all c).filter (· ∉ M.declared c)
  derived := fun f => (M.feature f).derived
  kind := fun f =>
    match (M.feature f).isRef, (M.feature f).many with
    | false, false => .attr
    | false, true => .attrs
    | true, false => .ref
    | true, true => .refs

/-- `EGet`: values, objects, and the container for a container reference -/
def toHeap (M : Meta) (w : World) : DeepEqual.Heap where
  cls := w.cls
  uri := w.uri
  isSet := isSet M w
  attr := fun o f =>
    match w.slot o f with
    | .value v => some v
    | _ => none
  attrs := fun o f => (items w o f).map some
  ref := fun o f =>
    if M.isContainer f then
      match w.container o with
      | some (p, _) => p
      | none => o
    else
      match w.slot o f with
      | .obj x => x
      | _ => o
  refs := fun o f => if (M.feature f).isRef then items w o f else []

end Verif.DeepCopy
