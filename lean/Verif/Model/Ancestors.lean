import Verif.Model.Graph
/-!
# Taking objects out of a tree and looking upwards

`Remove`, `GetAncestor` and `IsAncestor` (ecore/ecoreutils.go 173-205) over the graphs of Verif.Model.Graph.
-/

namespace Verif.Ancestors
open Verif.Graph

/-- Objects and resources: `resource o` is `EInternalResource`, `contents r` is `GetContents` of the resource `r`. -/
structure State where
  graph : World
  resource : Nat → Option Nat
  contents : Nat → List Nat

/-- The first part of `Remove` (ecore/ecoreutils.go 175-184).  `none` is a panic; the containment feature of an object
with a container is found or `EContainmentFeature` panics (ecore/abstracteobject.go 194-212). -/
def removeFromParent (M : Meta) (w : World) (o : Nat) : Option World :=
  match eContainer w o with
  | none => some w
  | some c =>
    match eContainmentFeature M w o with
    | none => none
    | some f => if (M.refs f).many then listOp M w c f (.remove o) else eUnset M w c f

/-- The second part of `Remove` (ecore/ecoreutils.go 185-187).  The list tells the object that it is in no resource:
`ESetResource(nil)` of an object without container (ecore/abstracteobject.go 140-171). -/
def removeFromResource (s : State) (o : Nat) : State :=
  match s.resource o with
  | none => s
  | some r =>
    { s with
      contents := fun x => if x = r then (s.contents r).erase o else s.contents x
      resource := fun x => if x = o then none else s.resource x }

/-- `Remove` (ecore/ecoreutils.go 173-189). -/
def remove (M : Meta) (s : State) (o : Nat) : Option State :=
  match removeFromParent M s.graph o with
  | none => none
  | some w => some (removeFromResource { s with graph := w } o)

/-- The loop of `GetAncestor` (ecore/ecoreutils.go 191-197).  The outer `none` is no end within `fuel` steps. -/
def getAncestor (w : World) (k : Nat) : Nat → Option Nat → Option (Option Nat)
  | 0, _ => none
  | _ + 1, none => some none
  | fuel + 1, some o => if (w o).cls = k then some (some o) else getAncestor w k fuel (eContainer w o)

/-- The loop of `IsAncestor` (ecore/ecoreutils.go 199-205).  `none` is no end within `fuel` steps. -/
def isAncestor (w : World) (ancestor : Option Nat) : Nat → Option Nat → Option Bool
  | 0, _ => none
  | _ + 1, none => some (none == ancestor)
  | fuel + 1, some o => if some o = ancestor then some true else isAncestor w ancestor fuel (eContainer w o)

end Verif.Ancestors
