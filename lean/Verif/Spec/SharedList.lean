import Verif.Model.SharedList
import Verif.Spec.Seq

/-!
# What lists and arrays have to be: separate sequences
-/

namespace Verif.SharedList.Spec

open Verif.EList (Ret)
open Verif.Spec

variable {α : Type} [DecidableEq α]

/-- The sequences of the lists and whether they are unique, and the arrays that have been taken. -/
structure St (α : Type) where
  lists : List (List α × Bool)
  arrays : List (List α)
deriving DecidableEq, Repr

/-- nothing yet -/
def init : St α := ⟨[], []⟩

/-- the elements of a collection -/
def elems (st : St α) : Coll α → List α
  | .lit xs => xs
  | .list m => (st.lists[m]?.map (·.1)).getD []
  | .held k => (st.arrays[k]?).getD []

/-- the call on a sequence, see C02 -/
def opOf (st : St α) : Op α → EList.Op α
  | .add e => .add e
  | .addAll c => .addAll (elems st c)
  | .insert i e => .insert i e
  | .insertAll i c => .insertAll i (elems st c)
  | .move o n => .move [] o n
  | .moveObject n e => .moveObject [] n e
  | .removeAt i => .removeAt i
  | .remove e => .remove e
  | .removeRange f t => .removeRange f t
  | .removeAll c => .removeAll (elems st c)
  | .set i e => .set i e
  | .clear => .clear

/-- one call: it changes one sequence and nothing else -/
def step (st : St α) : Call α → St α × Answer α
  | .new unique xs => ({ st with lists := st.lists ++ [(xs, unique)] }, .none)
  | .adopt unique k =>
    match st.arrays[k]? with
    | some xs => ({ st with lists := st.lists ++ [(xs, unique)] }, .none)
    | none => (st, .none)
  | .toArray l =>
    match st.lists[l]? with
    | some (xs, _) => ({ st with arrays := st.arrays ++ [xs] }, .array xs)
    | none => (st, .none)
  | .op l o =>
    match st.lists[l]? with
    | some (xs, unique) =>
      ({ st with lists := st.lists.set l ((Seq.step unique xs (opOf st o)).1, unique) }, .ret (Seq.step unique xs (opOf st o)).2)
    | none => (st, .none)

/-- the state after calls -/
def run (st : St α) : List (Call α) → St α
  | [] => st
  | c :: cs => run (step st c).1 cs

/-- the answers of calls -/
def answers (st : St α) : List (Call α) → List (Answer α)
  | [] => []
  | c :: cs => (step st c).2 :: answers (step st c).1 cs

/-- the collections that a call is given -/
def collections : Call α → List (Coll α)
  | .op _ (.addAll c) | .op _ (.insertAll _ c) | .op _ (.removeAll c) => [c]
  | _ => []

/-- the call uses an array that the caller holds -/
def usesArray : Call α → Bool
  | .adopt _ _ => true
  | c => (collections c).any fun x => match x with | .held _ => true | _ => false

/-- lists without repetitions are made without repetitions -/
def fair : Call α → Prop
  | .new true xs => xs.Nodup
  | _ => True

instance (c : Call α) : Decidable (fair c) := by
  cases c with
  | new u xs => cases u <;> simp only [fair] <;> infer_instance
  | _ => simp only [fair]; infer_instance

/-- moves past the end of the list, see C03 -/
def movesPastEnd (st : St α) : Call α → Prop
  | .op l o =>
    match st.lists[l]? with
    | some (xs, _) => Seq.movesPastEnd xs (opOf st o)
    | none => False
  | _ => False

instance (st : St α) (c : Call α) : Decidable (movesPastEnd st c) := by
  cases c with
  | op l o => simp only [movesPastEnd]; split <;> infer_instance
  | _ => simp only [movesPastEnd]; infer_instance

/-- the call makes list `l` longer at its end, empties it, or is not about `l` -/
def keepsArray (l : Nat) : Call α → Bool
  | .op m o =>
    m ≠ l || (match o with
      | .add _ | .addAll _ | .clear => true
      | _ => false)
  | _ => true

end Verif.SharedList.Spec
