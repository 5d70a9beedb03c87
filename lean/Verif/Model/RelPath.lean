import Verif.Model.Fragment
/-!
# Relative paths

`GetURI`, `getRelativeURIFragmentPath` and `GetEObject` (ecore/ecoreutils.go 48-103), over the objects of
Verif.Model.Fragment.
-/

namespace Verif.RelPath
open Verif.Fragment

/-- `EContainer` and `EContainingFeature` of objects, without proxies. -/
structure Parents where
  container : Nat → Option Nat
  feature : Nat → Option Nat

/-- The loop of `getRelativeURIFragmentPath` (ecore/ecoreutils.go 74-89): the last `eObject` and the path.  `none` is a
panic of `EURIFragmentSegment`, or no end within `fuel` steps. -/
def climbTo (W : World) (P : Parents) (ancestor : Option Nat) : Nat → Nat → List Nat → List Str → Option (Nat × List Str)
  | 0, _, _, _ => none
  | fuel + 1, o, visited, path =>
    match P.container o with
    | none => some (o, path)
    | some c =>
      if o ∈ visited then some (o, path)
      else
        match segment W c (P.feature o) o with
        | none => none
        | some s =>
          if ancestor = some c then some (c, s :: path)
          else climbTo W P ancestor fuel c (o :: visited) (s :: path)

/-- `getRelativeURIFragmentPath` (ecore/ecoreutils.go 66-95).  `none` is a panic, or no end. -/
def relativePath (W : World) (P : Parents) (fuel : Nat) (ancestor : Option Nat) (o : Nat) : Option Str :=
  if ancestor = some o then some []
  else
    match climbTo W P ancestor fuel o [] [] with
    | none => none
    | some (x, path) => if some x ≠ ancestor ∧ ancestor ≠ none then none else some (join 47 path)

/-- The loop of `GetEObject` (ecore/ecoreutils.go 97-103): the type assertion panics on nil. -/
def followAll (W : World) : Nat → List Str → Ret
  | o, [] => .obj o
  | o, s :: rest =>
    match forSegment W o s with
    | .obj x => followAll W x rest
    | _ => .panic

/-- `GetEObject` (ecore/ecoreutils.go 97-103). -/
def getObject (W : World) (root : Nat) (path : Str) : Ret := followAll W root (split 47 path)

/-- The fragment of `GetURI` of an object that is no proxy and in no resource (ecore/ecoreutils.go 56-61); `eid` is
`GetEObjectID`. -/
def freeFragment (W : World) (P : Parents) (fuel : Nat) (eid : Nat → Str) (o : Nat) : Option Str :=
  if (eid o).length = 0 then (relativePath W P fuel none o).map (47 :: 47 :: ·)
  else some (eid o)

end Verif.RelPath
