import Verif.Model.EncoderLocks

/-!
# What goroutines that store objects have to write
-/

namespace Verif.EncoderLocks.Spec

/-- `Needs C x y`: encoding `x` makes one encode `y`. -/
inductive Needs (C : Cfg) (x : Nat) : Nat → Prop where
  | self : Needs C x x
  | step (y z : Nat) : Needs C x y → z ∈ C.first y ++ C.before y ++ C.after y → Needs C x z

/-- What is encoded for something is below it: objects contained, classes, super types and packages make no cycles. -/
def Acyclic (C : Cfg) (rank : Nat → Nat) : Prop := ∀ x, ∀ y ∈ C.first x ++ C.before x ++ C.after x, rank y < rank x

/-- a goroutine has done all it had to -/
def Ended (t : Thread) : Prop := t.todo = [] ∧ t.phase = .ready

end Verif.EncoderLocks.Spec
