import Verif.Model.EList

/-!
# Object graphs: containment and opposites of dynamic objects

`ESet`, `EUnset` and the lists of references of dynamic objects (ecore/abstracteobject.go, ecore/dynamiceobject_impl.go,
ecore/basiceobject_impl.go, ecore/basiceobjectlist.go, ecore/basicenotifyinglist.go).

Left out: attributes, maps, proxies (lists of dynamic objects never resolve: ecore/abstracteobject.go 385 passes
`ref.EIsProxy()`), resources, adapters and notifications.  `none` is a panic.
-/

namespace Verif.Graph

/-- A reference: `IsContainment`, `IsMany`, `GetEOpposite` and `GetFeatureID`, its position among the features of
the class that declares it (ecore/eclass_ext.go 390-400). -/
structure Ref where
  containment : Bool
  many : Bool
  opposite : Option Nat
  declId : Nat
deriving DecidableEq, Repr

/-- A metamodel: references by number; `features c` is `GetEAllStructuralFeatures` of class `c`. -/
structure Meta where
  refs : Nat → Ref
  features : Nat → List Nat

/-- `GetEStructuralFeature(featureID)` (ecore/eclass_ext.go 127-133) -/
def Meta.feature (M : Meta) (c : Nat) (id : Int) : Option Nat :=
  if id < 0 then none else (M.features c)[id.toNat]?

/-- the loop of `GetFeatureID` -/
def Meta.find (fs : List Nat) (r : Nat) : Nat → Nat → Int
  | _, 0 => -1
  | i, n + 1 => if fs[i]? = some r then i else Meta.find fs r (i + 1) n

/-- `EClass.GetFeatureID(feature)` (ecore/eclass_ext.go 158-169): search from the position in the declaring class -/
def Meta.featureID (M : Meta) (c r : Nat) : Int :=
  Meta.find (M.features c) r (M.refs r).declId ((M.features c).length - (M.refs r).declId)

/-- `IsContainer` (ecore/estructuralfeature_ext.go 87-96) -/
def Meta.isContainer (M : Meta) (r : Nat) : Bool :=
  match (M.refs r).opposite with
  | some r' => (M.refs r').containment
  | none => false

/-- a value of `properties` (ecore/dynamiceobject_impl.go 16) -/
inductive Slot where
  | none
  | obj (o : Nat)
  | list (l : List Nat)
deriving DecidableEq, Repr

/-- A dynamic object; `slots` by feature ID (`EStaticFeatureCount` is 0, ecore/dynamiceobject_impl.go 52-54);
`container` and `cfid` are those of ecore/basiceobject_impl.go 23-26. -/
structure Obj where
  cls : Nat
  slots : Nat → Slot
  container : Option Nat
  cfid : Int

abbrev World := Nat → Obj

/-- new objects of the given classes -/
def init (cls : Nat → Nat) : World := fun o => ⟨cls o, fun _ => .none, none, -1⟩

/-- `EDynamicSet`, `EDynamicUnset` -/
def setSlot (w : World) (o : Nat) (id : Nat) (v : Slot) : World := fun x =>
  if x = o then ⟨(w o).cls, fun i => if i = id then v else (w o).slots i, (w o).container, (w o).cfid⟩ else w x

/-- `ESetInternalContainer` (ecore/basiceobject_impl.go 107-110); `EBasicSetContainer` (ecore/abstracteobject.go
782-851) without resources and notifications -/
def setContainer (w : World) (o : Nat) (c : Option Nat) (id : Int) : World := fun x =>
  if x = o then ⟨(w o).cls, (w o).slots, c, id⟩ else w x

/-- `o.EInverseRemove(other, id)` (ecore/abstracteobject.go 661-667), `EBasicInverseRemove` 739-751,
`eDynamicPropertiesInverseRemove` 753-779 -/
def inverseRemove (M : Meta) (w : World) (o other : Nat) (id : Int) : Option World :=
  if id ≥ 0 then
    match M.feature (w o).cls id with
    | none => none
    | some f =>
      if (M.refs f).many then
        match (w o).slots id.toNat with
        | .list l => some (setSlot w o id.toNat (.list (l.erase other)))
        | _ => some w
      else if M.isContainer f then some (setContainer w o none (M.featureID (w o).cls f))
      else some (setSlot w o id.toNat .none)
  else some (setContainer w o none id)

/-- `EBasicRemoveFromContainer` and `EBasicRemoveFromContainerFeature` (ecore/abstracteobject.go 854-877) -/
def removeFromContainer (M : Meta) (w : World) (o : Nat) : Option World :=
  if (w o).cfid ≥ 0 then
    match M.feature (w o).cls (w o).cfid with
    | none => some w
    | some f =>
      match (w o).container, (M.refs f).opposite with
      | some c, some f' => inverseRemove M w c o (M.refs f').declId
      | _, _ => some w
  else
    match (w o).container with
    | some c => inverseRemove M w c o (-1 - (w o).cfid)
    | none => some w

/-- `o.EInverseAdd(other, id)` (ecore/abstracteobject.go 650-658), `EBasicInverseAdd` 675-687,
`eDynamicPropertiesInverseAdd` 689-736 -/
def inverseAdd (M : Meta) (w : World) (o other : Nat) (id : Int) : Option World :=
  if id ≥ 0 then
    match M.feature (w o).cls id with
    | none => none
    | some f =>
      if (M.refs f).many then
        match (w o).slots id.toNat with
        | .list l => some (setSlot w o id.toNat (.list (l ++ [other])))
        | .none => some (setSlot w o id.toNat (.list [other]))
        | .obj _ => some w
      else if M.isContainer f then
        (if (w o).container ≠ none then removeFromContainer M w o else some w).map fun w1 =>
          setContainer w1 o (some other) (M.featureID (w o).cls f)
      else
        (match (w o).slots id.toNat with
          | .obj x =>
            if (M.refs f).containment then inverseRemove M w x o (-1 - M.featureID (w o).cls f)
            else
              match (M.refs f).opposite with
              | some f' => inverseRemove M w x o (M.featureID (w x).cls f')
              | none => some w
          | _ => some w).map fun w1 => setSlot w1 o id.toNat (.obj other)
  else (removeFromContainer M w o).map fun w1 => setContainer w1 o (some other) id

/-- the object in a slot (`oldValue.(EObjectInternal)`) -/
def Slot.object : Slot → Option Nat
  | .obj o => some o
  | _ => Option.none

/-- the slot of a value of a single reference -/
def Slot.of : Option Nat → Slot
  | some v => .obj v
  | Option.none => .none

/-- the calls of `EInverseRemove` for the old value in `eDynamicPropertiesSet` and `eDynamicPropertiesUnset`
(ecore/abstracteobject.go 451-454, 462-466 and 584-597) -/
def removeOld (M : Meta) (w : World) (o f : Nat) : Option Nat → Option World
  | none => some w
  | some x =>
    match (M.refs f).opposite with
    | none => inverseRemove M w x o (-1 - M.featureID (w o).cls f)
    | some f' => inverseRemove M w x o (M.featureID (w x).cls f')

/-- the calls of `EInverseAdd` for the new value (ecore/abstracteobject.go 455-458, 467-471) -/
def addNew (M : Meta) (w : World) (o f : Nat) : Option Nat → Option World
  | none => some w
  | some x =>
    match (M.refs f).opposite with
    | none => inverseAdd M w x o (-1 - M.featureID (w o).cls f)
    | some f' => inverseAdd M w x o (M.featureID (w x).cls f')

/-- `ESet(f, v)` with an object or nil (ecore/abstracteobject.go 391-499, ecore/dynamiceobject_impl.go 76-78) -/
def eSet (M : Meta) (w : World) (o f : Nat) (v : Option Nat) : Option World :=
  let id := M.featureID (w o).cls f
  if id < 0 then none
  else if M.isContainer f then
    if v ≠ (w o).container ∨ (v ≠ none ∧ (w o).cfid ≠ id) then do
      let w1 ← if (w o).container ≠ none then removeFromContainer M w o else some w
      let w2 ← match v, (M.refs f).opposite with
        | some c, some f' => inverseAdd M w1 c o (M.featureID (w1 c).cls f')
        | _, _ => some w1
      some (setContainer w2 o v id)
    else some w
  else if (M.refs f).opposite ≠ none ∨ (M.refs f).containment then
    if (w o).slots id.toNat ≠ Slot.of v then do
      let w1 ← removeOld M w o f ((w o).slots id.toNat).object
      let w2 ← addNew M w1 o f v
      some (setSlot w2 o id.toNat (.of v))
    else some w
  else some (setSlot w o id.toNat (.of v))

/-- `EUnset(f)` (ecore/abstracteobject.go 541-629) -/
def eUnset (M : Meta) (w : World) (o f : Nat) : Option World :=
  let id := M.featureID (w o).cls f
  if id < 0 then none
  else if M.isContainer f then
    if (w o).container ≠ none then (removeFromContainer M w o).map fun w1 => setContainer w1 o none id
    else some w
  else if (M.refs f).opposite ≠ none ∨ (M.refs f).containment then
    if (w o).slots id.toNat ≠ .none then
      (removeOld M w o f ((w o).slots id.toNat).object).map fun w1 => setSlot w1 o id.toNat .none
    else some w
  else some (setSlot w o id.toNat .none)

/-- `basicEObjectList.inverseAdd` (ecore/basiceobjectlist.go 121-131); the feature IDs are those given by
`eDynamicPropertiesCreateList` (ecore/abstracteobject.go 357-388): of the declaring classes -/
def listInverseAdd (M : Meta) (w : World) (o f e : Nat) : Option World :=
  match (M.refs f).opposite with
  | some f' => inverseAdd M w e o (M.refs f').declId
  | none => if (M.refs f).containment then inverseAdd M w e o (-1 - (M.refs f).declId) else some w

/-- `basicEObjectList.inverseRemove` (ecore/basiceobjectlist.go 133-143) -/
def listInverseRemove (M : Meta) (w : World) (o f e : Nat) : Option World :=
  match (M.refs f).opposite with
  | some f' => inverseRemove M w e o (M.refs f').declId
  | none => if (M.refs f).containment then inverseRemove M w e o (-1 - (M.refs f).declId) else some w

/-- the loops over the added objects -/
def listInverseAdds (M : Meta) (o f : Nat) : World → List Nat → Option World
  | w, [] => some w
  | w, e :: es => (listInverseAdd M w o f e).bind (listInverseAdds M o f · es)

/-- the loops over the removed objects -/
def listInverseRemoves (M : Meta) (o f : Nat) : World → List Nat → Option World
  | w, [] => some w
  | w, e :: es => (listInverseRemove M w o f e).bind (listInverseRemoves M o f · es)

/-- Calls on the list of a reference. -/
inductive LOp where
  | add (e : Nat)
  | addAll (c : List Nat)
  | insert (i : Nat) (e : Nat)
  | insertAll (i : Nat) (c : List Nat)
  | set (i : Nat) (e : Nat)
  | removeAt (i : Nat)
  | remove (e : Nat)
  | removeRange (i j : Nat)
  | removeAll (c : List Nat)
  | clear
  | move (i j : Nat)
deriving DecidableEq, Repr

/-- the contents of the list of a slot -/
def Slot.data : Slot → List Nat
  | .list l => l
  | _ => []

/-- A call on the list `EGet(f)` of `o` (ecore/abstractelist.go 78-216, ecore/basicenotifyinglist.go 158-332).  The
contents change as sequences do (see C02); the set iteration of `getNonDuplicates` visits all elements.  A list is
created at the first use (ecore/abstracteobject.go 290-299). -/
def listOp (M : Meta) (w : World) (o f : Nat) (op : LOp) : Option World :=
  let id := M.featureID (w o).cls f
  if id < 0 then none
  else
    let data := ((w o).slots id.toNat).data
    let put := fun l => setSlot w o id.toNat (.list l)
    match op with
    | .add e => if e ∈ data then some (put data) else listInverseAdds M o f (put (data ++ [e])) [e]
    | .addAll c =>
      let c' := EList.getNonDuplicates .snapshot data c
      listInverseAdds M o f (put (data ++ c')) c'
    | .insert i e =>
      if i > data.length then none
      else if e ∈ data then some (put data)
      else listInverseAdds M o f (put (data.take i ++ [e] ++ data.drop i)) [e]
    | .insertAll i c =>
      if i > data.length then none
      else
        let c' := EList.getNonDuplicates .snapshot data c
        listInverseAdds M o f (put (data.take i ++ c' ++ data.drop i)) c'
    | .set i e =>
      match data[i]? with
      | none => none
      | some old =>
        if e ∈ data ∧ data.idxOf e ≠ i then none
        else if e = old then some (put data)
        else (listInverseRemoves M o f (put (data.set i e)) [old]).bind fun w1 => listInverseAdds M o f w1 [e]
    | .removeAt i =>
      match data[i]? with
      | none => none
      | some old => listInverseRemoves M o f (put (data.eraseIdx i)) [old]
    | .remove e => if e ∈ data then listInverseRemoves M o f (put (data.erase e)) [e] else some (put data)
    | .removeRange i j =>
      if i ≥ data.length ∨ j > data.length ∨ i > j then none
      else listInverseRemoves M o f (put (data.take i ++ data.drop j)) ((data.take j).drop i)
    | .removeAll c => listInverseRemoves M o f (put (data.filter (· ∉ c))) (data.filter (· ∈ c))
    | .clear => listInverseRemoves M o f (put []) data
    | .move i j =>
      match data[i]? with
      | none => none
      | some e => if j < data.length then some (put ((data.eraseIdx i).insertIdx j e)) else none

/-- Calls on the objects. -/
inductive Op where
  | set (o f : Nat) (v : Option Nat)
  | unset (o f : Nat)
  | list (o f : Nat) (op : LOp)
deriving DecidableEq, Repr

def step (M : Meta) (w : World) : Op → Option World
  | .set o f v => eSet M w o f v
  | .unset o f => eUnset M w o f
  | .list o f op => listOp M w o f op

def run (M : Meta) (w : World) : List Op → Option World
  | [] => some w
  | op :: ops => (step M w op).bind (run M · ops)

/-- `EGet(f)`: the objects it gives (ecore/abstracteobject.go 277-342) -/
def eGet (M : Meta) (w : World) (o f : Nat) : List Nat :=
  if M.isContainer f then
    if (w o).cfid = M.featureID (w o).cls f then (w o).container.toList else []
  else
    match (w o).slots (M.featureID (w o).cls f).toNat with
    | .none => []
    | .obj x => [x]
    | .list l => l

/-- `EContainer()` without proxies (ecore/abstracteobject.go 101-121) -/
def eContainer (w : World) (o : Nat) : Option Nat := (w o).container

/-- `EContainingFeature()` (ecore/abstracteobject.go 174-185) -/
def eContainingFeature (M : Meta) (w : World) (o : Nat) : Option Nat :=
  match (w o).container with
  | none => none
  | some c =>
    if (w o).cfid ≤ -1 then M.feature (w c).cls (-1 - (w o).cfid)
    else (M.feature (w o).cls (w o).cfid).bind fun f => (M.refs f).opposite

/-- `EContainmentFeature()` (ecore/abstracteobject.go 188-212) -/
def eContainmentFeature (M : Meta) (w : World) (o : Nat) : Option Nat :=
  match (w o).container with
  | none => none
  | some c =>
    if (w o).cfid ≤ -1 then M.feature (w c).cls (-1 - (w o).cfid)
    else M.feature (w o).cls (w o).cfid

end Verif.Graph
