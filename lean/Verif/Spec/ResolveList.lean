import Verif.Model.ResolveList
import Verif.Spec.Seq

/-!
# What a list with proxies has to be: the list of the objects that they stand for
-/

namespace Verif.ResolveList.Spec

open Verif.EList (Op Ret)
open Verif.Spec

variable {α : Type} [DecidableEq α]

/-- the elements that a call is given -/
def given : Call α → List α
  | .op (.add e) | .op (.insert _ e) | .op (.moveObject _ _ e) | .op (.remove e) | .op (.set _ e) | .indexOf e | .contains e => [e]
  | .op (.addAll c) | .op (.insertAll _ c) | .op (.removeAll c) => c
  | _ => []

/-- the element at a position, a panic if there is none -/
def at? (s : List α) (i : Int) : Ret α :=
  if 0 ≤ i then
    match s[i.toNat]? with
    | some v => .val v
    | none => .panic
  else .panic

/-- what a call has to do to a sequence without repetitions -/
def step (s : List α) : Call α → List α × Answer α
  | .op o => ((Seq.step true s o).1, .ret (Seq.step true s o).2)
  | .get i => (s, .ret (at? s i))
  | .indexOf e => (s, .index (if e ∈ s then s.idxOf e else -1))
  | .contains e => (s, .yes (e ∈ s))
  | .toArray => (s, .array s)

/-- the sequence after calls -/
def run (s : List α) : List (Call α) → List α
  | [] => s
  | c :: cs => run (step s c).1 cs

/-- the answers of calls -/
def answers (s : List α) : List (Call α) → List (Answer α)
  | [] => []
  | c :: cs => (step s c).2 :: answers (step s c).1 cs

/-- calls that only read -/
def reads : Call α → Bool
  | .op _ => false
  | _ => true

/-- calls whose answer is the object that is taken out -/
def takesOut : Call α → Bool
  | .op (.move _ _ _) | .op (.removeAt _) | .op (.set _ _) => true
  | _ => false

/-- calls that move past the end, see C03 -/
def movesPastEnd (s : List α) : Call α → Prop
  | .op o => Seq.movesPastEnd s o
  | _ => False

/-- what an observer of the notifications has -/
def replay (data : List α) : List (Ev α) → Option (List α)
  | [] => some data
  | ev :: evs => if data[ev.index]? = some ev.old then replay (data.set ev.index ev.new) evs else none

end Verif.ResolveList.Spec
