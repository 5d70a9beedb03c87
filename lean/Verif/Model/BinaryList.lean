/-!
# Decoding a many valued reference (ecore/binarydecoder.go, decodeObjects)

Objects are natural numbers. The list is a unique list of objects: `AddAll` and `Move` are those of properties C01 to C03.
-/

namespace Verif.BinaryList

/-- `list.AddAll(objects)` of a unique list (ecore/abstractelist.go:98-108): the objects that are not there yet, each once. -/
def addAll (list : List Nat) : List Nat → List Nat
  | [] => list
  | o :: os => addAll (if o ∈ list then list else list ++ [o]) os

/-- `list.Move(oldIndex, newIndex)` (ecore/abstractelist.go:163-176), `none` being a panic. -/
def move (list : List Nat) (oldIndex newIndex : Nat) : Option (List Nat) :=
  match list[oldIndex]? with
  | none => none
  | some o => if newIndex < list.length then some ((list.eraseIdx oldIndex).insertIdx newIndex o) else none

/-- The variables of ecore/binarydecoder.go:299-329. `existing` is `existingObjects`. -/
structure St where
  list : List Nat
  objects : List Nat
  indices : List Nat
  duplicateCount : Nat
  existing : List (Option Nat)
  deriving DecidableEq, Repr

/-- The loop of ecore/binarydecoder.go:309-322 over `existingObjects` from `j` on: `count` and `j` where the object is found. -/
def findExisting (o : Nat) : Nat → Nat → List (Option Nat) → Option (Nat × Nat)
  | _, _, [] => none
  | count, j, e :: es => if e = some o then some (count, j) else findExisting o (if e.isSome then count + 1 else count) (j + 1) es

/-- The loop of ecore/binarydecoder.go:306-324 for `i`. -/
def stepLoop (s : St) (i : Nat) : Option St :=
  match s.objects[i]? with
  | none => none
  | some o =>
    match findExisting o s.duplicateCount 0 s.existing with
    | some (count, j) =>
      match (if s.duplicateCount ≠ count then move s.list count s.duplicateCount else some s.list) with
      | none => none
      | some list => some { s with list := list, indices := s.indices.set s.duplicateCount i, duplicateCount := s.duplicateCount + 1, existing := s.existing.set j none }
    | none => some { s with objects := s.objects.set (i - s.duplicateCount) o }

/-- The loop of ecore/binarydecoder.go:328-334: `i` and the rest of `indices`. -/
def moves (size : Nat) : Nat → List Nat → List Nat → Option (List Nat)
  | _, [], list => some list
  | i, newPosition :: indices, list =>
    if newPosition ≠ size + i then
      match move list (size + i) newPosition with
      | none => none
      | some list => moves size (i + 1) indices list
    else moves size (i + 1) indices list

/-- ecore/binarydecoder.go:295-336: the list after the objects read are put in it. -/
def decodeObjects (list objects : List Nat) : Option (List Nat) :=
  if list.length = 0 then some (addAll list objects)
  else
    match (List.range objects.length).foldlM stepLoop ⟨list, objects, List.replicate list.length 0, 0, list.map some⟩ with
    | none => none
    | some s => moves (objects.length - list.length) 0 s.indices (addAll s.list s.objects)

end Verif.BinaryList
