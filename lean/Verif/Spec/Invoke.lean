import Verif.Model.Invoke
/-!
# What calling operations by reflection should do
-/
namespace Verif.Spec.Invoke
open Verif.Invoke

variable {C O : Type}

/-- `k` is the class `d` or inherits from it -/
inductive Inherits (supers : C → List C) : C → C → Prop
  | refl (c : C) : Inherits supers c c
  | up {k c d : C} : c ∈ supers k → Inherits supers c d → Inherits supers k d

/-- the class `k` has the operation `o`, own or inherited -/
def Has (M : Classes C O) (k : C) (o : O) : Prop := ∃ d, Inherits M.supers k d ∧ o ∈ M.own d

/-- the value may be given for a parameter of the type; nil may be given for any object -/
inductive HasType (implements : C → C → Bool) : Ty C → Val C → Prop
  | any (v : Val C) : HasType implements .any v
  | int (i : Int) : HasType implements .int (.int i)
  | string (s : String) : HasType implements .string (.string s)
  | bool (b : Bool) : HasType implements .bool (.bool b)
  | list (i : Nat) : HasType implements .list (.list i)
  | object (c k : C) (i : Nat) : implements k c = true → HasType implements (.object c) (.object k i)
  | nil (c : C) : HasType implements (.object c) .nil

/-- the arguments are those of the parameters -/
def Conforms (implements : C → C → Bool) (ts : List (Ty C)) (vs : List (Val C)) : Prop :=
  ts.length = vs.length ∧ ∀ (i : Nat) t v, ts[i]? = some t → vs[i]? = some v → HasType implements t v

/-- nil is not given for an object -/
def NoNil (ts : List (Ty C)) (vs : List (Val C)) : Prop := ∀ (i : Nat) c, ts[i]? = some (.object c) → vs[i]? ≠ some .nil

/-- Code generated for classes with one super type at most: a struct embeds the one of the super type; its switch has the own operations, numbered
after the inherited ones. `count c` is the number of inherited operations. -/
structure Generated (code : Code C O) (M : Classes C O) (count rank : C → Nat) : Prop where
  supers : ∀ c, M.supers c = (code.embed c).toList
  acyclic : ∀ c d, code.embed c = some d → rank d < rank c
  decl : ∀ o c, o ∈ M.own c → M.decl o = c
  nodup : ∀ c, (M.own c).Nodup
  first : ∀ c, code.embed c = none → count c = 0
  next : ∀ c d, code.embed c = some d → count c = count d + (M.own d).length
  cases : ∀ c id o, (id, o) ∈ code.cases c ↔ ∃ i : Nat, (M.own c)[i]? = some o ∧ id = count c + i

end Verif.Spec.Invoke
