import Verif.Model.SQLScheduler

/-!
# Specification of the order of operations
-/

namespace Verif.SQLScheduler

/-- `a` is a part of `b`: `b` is the whole store, or all features of the object of `a`, or `a`. -/
def Within (a b : Area) : Prop := b.obj = none ∨ (a.obj = b.obj ∧ (b.feat = none ∨ a.feat = b.feat))

instance (a b : Area) : Decidable (Within a b) := by unfold Within; infer_instance

/-- What a call touches: the feature of the object, all features of the contents and of the value. -/
def Touches (c : Call) (a : Area) : Prop :=
  a = ⟨c.object, c.feature⟩ ∨ (c.object ≠ none ∧ ∃ o ∈ c.contents, a = ⟨some o, none⟩) ∨
  (c.value ≠ none ∧ c.value ≠ c.object ∧ a = ⟨c.value, none⟩)

/-- something `c` touches is a part of something `d` touches -/
def Covered (c d : Call) : Prop := ∃ a b, Touches c a ∧ Touches d b ∧ Within a b

/-- the two calls touch something in common -/
def Overlap (c d : Call) : Prop := Covered c d ∨ Covered d c

/-- the calls of an execution, in order; the number of an operation is the place of its call -/
def calls : List Label → List Call
  | [] => []
  | .call c :: ls => c :: calls ls
  | _ :: ls => calls ls

/-- the end of an operation -/
def Finished (id : Nat) (ls : List Label) : Prop := ∃ r, Label.finish id r ∈ ls

/-- In the execution `ls`, operation `x` is executed completely before operation `y`: when `y` starts, `x` is at its end
if it has begun, and does not begin later. -/
def InOrder (ls : List Label) (x y : Nat) : Prop :=
  ∀ A B, ls = A ++ Label.start y :: B → Label.start x ∉ B ∧ (Label.start x ∈ A → Finished x A)

/-- no operation is cancelled because of its duration -/
def NoTimeout (ls : List Label) : Prop := ∀ id, Label.timeout id ∉ ls

/-- The object, its contents and the value are different objects; operations on the store have no value. -/
def Plain (c : Call) : Prop :=
  (c.object = none → c.value = none) ∧ c.contents.Nodup ∧ ∀ o ∈ c.contents, some o ≠ c.object ∧ some o ≠ c.value

instance (c : Call) : Decidable (Plain c) := by unfold Plain; infer_instance

/-- no operation panics -/
def NoPanic (ls : List Label) : Prop := ∀ id, Label.finish id .panic ∉ ls

/-- When an operation fails, no operation that touches something in common has been called after it. -/
def FailsAlone (ls : List Label) : Prop :=
  ∀ A i B, ls = A ++ Label.finish i .error :: B → ∀ j c d, i < j → (calls A)[i]? = some c → (calls A)[j]? = some d → ¬ Overlap c d

/-- a step of the goroutine of an operation -/
def Internal : Label → Prop
  | .start _ => True
  | .finish _ _ => True
  | .refuse _ => True
  | _ => False

end Verif.SQLScheduler
