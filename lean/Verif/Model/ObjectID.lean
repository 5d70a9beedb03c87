import Verif.Model.Convert

/-!
# IDs of objects

`GetEObjectID` and `SetEObjectID` (ecore/ecoreutils.go), the search of a resource by ID (ecore/eresource_impl.go) and the ID manager that uses the ID
attribute (ecore/eobjectidmanager_impl.go).

Simplifications: classes are those of dynamic packages, so that values are converted as in `Verif.Model.Convert`; the contents of a resource are the list of
its objects in the order of `GetAllContents` (C13); panics are `none`.
-/

namespace Verif.ObjectID

open Verif.Convert

variable {F : Type}

/-- an object: the data type of the ID attribute of its class, if there is one, and the value of the attribute, if it is set -/
structure Obj (F : Type) where
  attr : Option DataType
  value : Option (Value F)

/-- `GetEObjectID` (ecore/ecoreutils.go 16-24) -/
def getID (fl : Floats F) (o : Obj F) : Option Text :=
  match o.attr with
  | none => some []
  | some t => match o.value with
    | none => some []
    | some v => convertDynamic fl t v

/-- `SetEObjectID` (ecore/ecoreutils.go 26-36) -/
def setID (fl : Floats F) (o : Obj F) (id : Text) : Option (Obj F) :=
  match o.attr with
  | none => none
  | some t =>
    if id.length = 0 then some { o with value := none }
    else match createDynamic fl t id with
      | none => none
      | some v => some { o with value := some v }

/-- `EObjectIDManagerImpl` (ecore/eobjectidmanager_impl.go 15-18) -/
structure Manager where
  idOf : Nat → Option Text
  objOf : Text → Option Nat

/-- a resource, the objects it has or had, and its ID manager -/
structure Res (F : Type) where
  obj : Nat → Obj F
  contents : List Nat
  manager : Option Manager

/-- the search without an ID manager (ecore/eresource_impl.go 315-321) -/
def search (fl : Floats F) (obj : Nat → Obj F) (id : Text) : List Nat → Option (Option Nat)
  | [] => some none
  | o :: os => match getID fl (obj o) with
    | none => none
    | some i => if id = i then some (some o) else search fl obj id os

/-- `getObjectByID` (ecore/eresource_impl.go 311-323) -/
def find (fl : Floats F) (r : Res F) (id : Text) : Option (Option Nat) :=
  match r.manager with
  | some m => some (m.objOf id)
  | none => search fl r.obj id r.contents

def setObj (r : Res F) (o : Nat) (x : Obj F) : Res F := { r with obj := fun p => if p = o then x else r.obj p }

/-- `SetEObjectID` of an object of the resource -/
def give (fl : Floats F) (r : Res F) (o : Nat) (id : Text) : Option (Res F) :=
  match setID fl (r.obj o) id with
  | none => none
  | some x => some (setObj r o x)

/-- the maps of `SetID` of the ID manager (ecore/eobjectidmanager_impl.go 48-61) -/
def remember (m : Manager) (o : Nat) (id : Text) : Manager :=
  let old := m.idOf o
  let idOf := fun p => if p = o then (if id.length > 0 then some id else none) else m.idOf p
  let objOf := match old with
    | some i => if i.length > 0 then (fun j => if j = i then none else m.objOf j) else m.objOf
    | none => m.objOf
  let objOf := if id.length > 0 then (fun j => if j = id then some o else objOf j) else objOf
  ⟨idOf, objOf⟩

/-- `SetID` of the ID manager (ecore/eobjectidmanager_impl.go 41-63) -/
def giveManaged (fl : Floats F) (r : Res F) (m : Manager) (o : Nat) (id : Text) : Option (Res F) :=
  match give fl r o id with
  | none => none
  | some r' => some { r' with manager := some (remember m o id) }

/-- texts given to objects one after the other, by the ID manager of the resource -/
def giveAll (fl : Floats F) (r : Res F) : List (Nat × Text) → Option (Res F)
  | [] => some r
  | (o, id) :: l => match r.manager with
    | none => none
    | some m => match giveManaged fl r m o id with
      | none => none
      | some r' => giveAll fl r' l

end Verif.ObjectID
