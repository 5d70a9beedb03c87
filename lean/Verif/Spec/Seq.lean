import Verif.Model.EList
/-
Independent specification of the EList operations as operations on mathematical sequences
(Lean's `List`), used by C01-C03 and C06. It shares only the names of the calls (`Op`) and of
their results (`Ret`) with the model.
-/
namespace Verif.Spec.Seq
open Verif.EList (Op Ret)

variable {α : Type} [DecidableEq α]

/-- The elements of `c` that are not in `seen`, each one once, in the order of their first occurrence. -/
def fresh (seen : List α) : List α → List α
  | [] => []
  | v :: vs => if v ∈ seen then fresh seen vs else v :: fresh (v :: seen) vs

/-- `s` with the elements `c` inserted before position `i`. -/
def insertAllAt (s : List α) (i : Nat) (c : List α) : List α := s.take i ++ c ++ s.drop i

/-- `s` with the element at position `o` taken out and put back so that it ends up at position `n`. -/
def moved (s : List α) (o n : Nat) (x : α) : List α := (s.eraseIdx o).insertIdx n x

/-- `i` is a position of an element of `s`. -/
def validPos (s : List α) (i : Int) : Prop := 0 ≤ i ∧ i < s.length

/-- `i` is a position at which one can insert in `s`. -/
def validGap (s : List α) (i : Int) : Prop := 0 ≤ i ∧ i ≤ s.length

instance (s : List α) (i : Int) : Decidable (validPos s i) := inferInstanceAs (Decidable (_ ∧ _))
instance (s : List α) (i : Int) : Decidable (validGap s i) := inferInstanceAs (Decidable (_ ∧ _))

/-- What a call must do to the sequence `s`, and what it must return. A refused call panics and
leaves the sequence as it is. -/
def step (unique : Bool) (s : List α) : Op α → List α × Ret α
  | .add e => if unique ∧ e ∈ s then (s, .bool false) else (s ++ [e], .bool true)
  | .addAll c =>
    if unique then (s ++ fresh s c, .bool (fresh s c ≠ [])) else (s ++ c, .bool true)
  | .insert i e =>
    if ¬ validGap s i then (s, .panic)
    else if unique ∧ e ∈ s then (s, .bool false)
    else (s.insertIdx i.toNat e, .bool true)
  | .insertAll i c =>
    if ¬ validGap s i then (s, .panic)
    else if unique then (insertAllAt s i.toNat (fresh s c), .bool (fresh s c ≠ []))
    else (insertAllAt s i.toNat c, .bool true)
  | .move _ o n =>
    if validPos s o ∧ validPos s n then
      match s[o.toNat]? with
      | some x => (moved s o.toNat n.toNat x, .val x)
      | none => (s, .panic)
    else (s, .panic)
  | .moveObject _ n e =>
    if e ∈ s ∧ validPos s n then (moved s (s.idxOf e) n.toNat e, .unit) else (s, .panic)
  | .removeAt i =>
    if validPos s i then
      match s[i.toNat]? with
      | some x => (s.eraseIdx i.toNat, .val x)
      | none => (s, .panic)
    else (s, .panic)
  | .remove e => (s.erase e, .bool (e ∈ s))
  | .removeRange f t =>
    if validPos s f ∧ validGap s t ∧ f ≤ t then (s.take f.toNat ++ s.drop t.toNat, .unit)
    else (s, .panic)
  | .removeAll c => (s.filter (· ∉ c), .bool (∃ x ∈ s, x ∈ c))
  | .set i e =>
    if ¬ validPos s i then (s, .panic)
    else if unique ∧ e ∈ s ∧ s[i.toNat]? ≠ some e then (s, .panic)
    else match s[i.toNat]? with
      | some x => (s.set i.toNat e, .val x)
      | none => (s, .panic)
  | .clear => ([], .unit)

/-- Contents after a sequence of calls. -/
def run (unique : Bool) (s : List α) : List (Op α) → List α
  | [] => s
  | op :: ops => run unique (step unique s op).1 ops

/-- Values returned by a sequence of calls. -/
def rets (unique : Bool) (s : List α) : List (Op α) → List (Ret α)
  | [] => []
  | op :: ops => (step unique s op).2 :: rets unique (step unique s op).1 ops

/-- The calls for which the code misbehaves (see C03): moving *past* the end of the list. -/
def movesPastEnd (s : List α) : Op α → Prop
  | .move _ _ n => n = (s.length : Int)
  | .moveObject _ n e => (s.length : Int) ≤ n ∧ e ∈ s
  | _ => False

/-- A bulk addition of `c` for which the set difference is computed correctly even if the external
set iterator is disturbed by removals: `c` has at least as many distinct elements as the list, or at
most one distinct element of `c` already is in the list. -/
def bulkHarmless (s : List α) : Op α → Prop
  | .addAll c => s.length ≤ (fresh [] c).length ∨ ((fresh [] c).filter (· ∈ s)).length ≤ 1
  | .insertAll _ c => s.length ≤ (fresh [] c).length ∨ ((fresh [] c).filter (· ∈ s)).length ≤ 1
  | _ => True

/-- Every call of the sequence satisfies `ok` in the state in which it is made. -/
def Always (unique : Bool) (ok : List α → Op α → Prop) (s : List α) : List (Op α) → Prop
  | [] => True
  | op :: ops => ok s op ∧ Always unique ok (step unique s op).1 ops

instance (s : List α) (op : Op α) : Decidable (movesPastEnd s op) := by
  cases op <;> simp only [movesPastEnd] <;> infer_instance

instance (s : List α) (op : Op α) : Decidable (bulkHarmless s op) := by
  cases op <;> simp only [bulkHarmless] <;> infer_instance

instance decAlways (unique : Bool) (ok : List α → Op α → Prop) [∀ s op, Decidable (ok s op)] (s : List α) :
    (ops : List (Op α)) → Decidable (Always unique ok s ops)
  | [] => .isTrue trivial
  | op :: ops =>
    have := decAlways unique ok (step unique s op).1 ops
    inferInstanceAs (Decidable (ok s op ∧ Always unique ok (step unique s op).1 ops))

end Verif.Spec.Seq
