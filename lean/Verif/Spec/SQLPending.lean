import Verif.Model.SQLPending

/-!
# What `Get` and `IsSet` should return
-/

namespace Verif.SQLPending

open SQLScheduler

/-- the calls of the client -/
def apiCalls : List Event → List Api
  | [] => []
  | .api a :: es => a :: apiCalls es
  | _ :: es => apiCalls es

/-- the value stored by the last `Set` or `UnSet` of a feature; `none`: there was none -/
def lastStored (fs : Area → Feature) (k : Area) : List Api → Option Val
  | [] => none
  | .set o f v :: as => (lastStored fs k as).or (if k = ⟨some o, some f⟩ then some v else none)
  | .unSet o f :: as => (lastStored fs k as).or (if k = ⟨some o, some f⟩ then some (fs k).default else none)
  | _ :: as => lastStored fs k as

/-- the results expected for a call after other ones; `none`: nothing is expected because the feature was never set -/
def answer (fs : Area → Feature) (before : List Api) : Api → List (Option Result)
  | .get o f => [(lastStored fs ⟨some o, some f⟩ before).map .value]
  | .isSet o f => [(lastStored fs ⟨some o, some f⟩ before).map fun v => .bool (v ≠ (fs ⟨some o, some f⟩).default)]
  | _ => []

/-- the results expected for all calls -/
def answers (fs : Area → Feature) (before : List Api) : List Api → List (Option Result)
  | [] => []
  | a :: as => answer fs before a ++ answers fs (before ++ [a]) as

/-- the object of a call -/
def Api.object (a : Api) : Option Nat := a.call.object

/-- the value of a call, if it is another object -/
def Api.other (a : Api) : Option Nat := if a.call.value = a.call.object then none else a.call.value

/-- values of a feature of a kind -/
def OfKind : Kind → Val → Prop
  | .bool, .bool _ => True
  | .int, .int _ => True
  | .int64, .int64 _ => True
  | .str, .str _ => True
  | .ref, .obj _ => True
  | .ref, .nil => True
  | _, _ => False

instance (k : Kind) (v : Val) : Decidable (OfKind k v) := by cases k <;> cases v <;> simp only [OfKind] <;> infer_instance

/-- Only single valued features are read and written; values and default values are of the kind of the feature; objects
used as values are not read or written otherwise. -/
structure Simple (fs : Area → Feature) (as : List Api) : Prop where
  calls : ∀ a ∈ as, a ≠ .addRoot ∧ ∀ o c f, a ≠ .setContainer o c f
  values : ∀ o f v, Api.set o f v ∈ as → OfKind (fs ⟨some o, some f⟩).kind v
  defaults : ∀ k, OfKind (fs k).kind (fs k).default
  objects : ∀ a ∈ as, ∀ v, a.other = some v → ∀ b ∈ as, b.object ≠ some v

/-- Features are never set to `nil` or to the default value, and features of type bool or int, or with an object as
default value, are never unset. -/
structure NoDefault (fs : Area → Feature) (as : List Api) : Prop where
  values : ∀ o f v, Api.set o f v ∈ as → v ≠ .nil ∧ v ≠ (fs ⟨some o, some f⟩).default
  defaults : ∀ o f, Api.unSet o f ∈ as → (fs ⟨some o, some f⟩).kind ≠ .bool ∧ (fs ⟨some o, some f⟩).kind ≠ .int ∧ ∀ x, (fs ⟨some o, some f⟩).default ≠ .obj x

end Verif.SQLPending
