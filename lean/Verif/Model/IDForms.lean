import Verif.Model.IDManager
import Verif.Model.Convert

/-!
# The forms of incremental IDs

`SetID` and `GetEObject` of the incremental ID manager take an ID of any type: the
conversion to an int64 (ecore/uniqueidmanager.go:195-222) on top of the manager of
`Verif/Model/IDManager.lean`.

Simplifications: a string is the list of its bytes; `int` and `uint` have 64 bits; all
values of other types are one form.
-/

namespace Verif.IDForms

open Verif.IDManager (St Cfg incremental wrap64)
open Verif.Convert (Text isDigit natOf)

/-- An ID as it is passed: a value of type `any`. -/
inductive Form where
  | nil
  | text (s : Text)
  | uint (bits n : Nat)
  | int (bits : Nat) (i : Int)
  | other
  deriving DecidableEq, Repr

/-- `strconv.ParseInt(v, 10, 64)`; `none` is an error. -/
def parseInt64 (s : Text) : Option Int :=
  let digits := if s.head? = some 45 ∨ s.head? = some 43 then s.tail else s
  if digits = [] ∨ digits.any (fun c => !isDigit c) then none
  else
    let i : Int := if s.head? = some 45 then -(natOf digits : Int) else natOf digits
    if -9223372036854775808 ≤ i ∧ i < 9223372036854775808 then some i else none

/-- The conversion: ecore/uniqueidmanager.go:195-222.  `none` is an error; `int64(v)` of an
unsigned number keeps its bits. -/
def getID : Form → Option Int
  | .nil => some (-1)
  | .text s => parseInt64 s
  | .uint _ n => some (wrap64 n)
  | .int _ i => some i
  | .other => none

/-- `SetID`: ecore/uniqueidmanager.go:88-96; the flag tells if there is an error. -/
def setID (ptr : Nat → Nat) (s : St Int Int) (o : Nat) (f : Form) : St Int Int × Bool :=
  match getID f with
  | some v => (IDManager.setObjectID (incremental ptr) s o v, false)
  | none => (s, true)

/-- `GetEObject`: ecore/uniqueidmanager.go:107-114. -/
def getEObject (s : St Int Int) (f : Form) : Option Nat :=
  match getID f with
  | some v => s.i2o v
  | none => none

/-- `SetID` for each object of a document as it is read (ecore/xmldecoder.go:523-528,
ecore/binarydecoder.go:239-248). -/
def load (ptr : Nat → Nat) (s : St Int Int) : List (Nat × Form) → St Int Int
  | [] => s
  | (o, f) :: l => load ptr (setID ptr s o f).1 l

end Verif.IDForms
