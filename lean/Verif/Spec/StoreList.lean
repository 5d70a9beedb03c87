import Verif.Model.StoreList
import Verif.Spec.Seq

/-!
# A list backed by a store as a sequence

The specification of C37: what each call gives on the sequence `l` of the elements, without any cache.
-/

namespace Verif.StoreList.Spec

open Verif.EList (Ret Op)
open Verif.Spec

variable {α : Type} [DecidableEq α]

/-- results of list operations -/
def out : Ret α → Out α
  | .panic => .panic
  | .unit => .unit
  | .bool b => .bool b
  | .val a => .val a

/-- the sequence after a call, and what the call returns -/
def step (unique : Bool) (l : List α) : Call α → List α × Out α
  | .op o => ((Seq.step unique l o).1, out (Seq.step unique l o).2)
  | .get i => (l, if 0 ≤ i then match l[i.toNat]? with | some v => .val v | none => .panic else .panic)
  | .indexOf e => (l, .int (if e ∈ l then l.idxOf e else -1))
  | .contains e => (l, .bool (decide (e ∈ l)))
  | .size => (l, .int l.length)
  | .empty => (l, .bool (decide (l = [])))
  | .elements => (l, .list l)
  | .setCache _ => (l, .unit)
  | .setStore _ => (l, .unit)

def run (unique : Bool) : List α → List (Call α) → List α × List (Out α)
  | l, [] => (l, [])
  | l, c :: cs =>
    let r := step unique l c
    let q := run unique r.1 cs
    (q.1, r.2 :: q.2)

/-- Calls that are considered: no move past the end (see C03), no bulk addition that disturbs the iterator of the set (see
C01), and a list is given only stores that have its elements. -/
def ok (unique live : Bool) (l : List α) : Call α → Prop
  | .op o => ¬ Seq.movesPastEnd l o ∧ (unique = true → live = true → Seq.bulkHarmless l o)
  | .setStore (some l') => l' = l
  | _ => True

instance (unique live : Bool) (l : List α) (c : Call α) : Decidable (ok unique live l c) := by
  unfold ok
  split <;> infer_instance

/-- each call of a sequence is considered -/
def Always (unique live : Bool) : List α → List (Call α) → Prop
  | _, [] => True
  | l, c :: cs => ok unique live l c ∧ Always unique live (step unique l c).1 cs

instance decAlways (unique live : Bool) : (l : List α) → (cs : List (Call α)) → Decidable (Always unique live l cs)
  | _, [] => .isTrue trivial
  | l, c :: cs =>
    have := decAlways unique live (step unique l c).1 cs
    inferInstanceAs (Decidable (ok unique live l c ∧ Always unique live (step unique l c).1 cs))

/-- a switch of the cache -/
def isSwitch : Call α → Bool
  | .setCache _ => true
  | _ => false

/-- the results of the calls that are not switches of the cache -/
def answers (cs : List (Call α)) (os : List (Out α)) : List (Out α) :=
  ((cs.zip os).filter fun p => !isSwitch p.1).map (·.2)

end Verif.StoreList.Spec
