import Verif.Model.SQLList

/-!
# Sequences

What the operations do when every object has a sequence of values.
-/

namespace Verif.SQLList

variable {V : Type}

/-- the sequence of each object -/
abbrev Seqs (V : Type) := Nat → List V

def put (s : Seqs V) (obj : Nat) (l : List V) : Seqs V := fun o => if o = obj then l else s o

/-- position of the last occurrence -/
def lastIdx [DecidableEq V] (v : V) : List V → Int
  | [] => -1
  | x :: xs => let n := lastIdx v xs; if n ≠ -1 then n + 1 else if x = v then 0 else -1

/-- position of the first occurrence -/
def firstIdx [DecidableEq V] (v : V) : List V → Int
  | [] => -1
  | x :: xs => if x = v then 0 else let n := firstIdx v xs; if n ≠ -1 then n + 1 else -1

/-- one operation on sequences -/
def specStep [DecidableEq V] (s : Seqs V) : Op V → Seqs V × Result V
  | .add obj index v => (put s obj ((s obj).take index ++ v :: (s obj).drop index), .none)
  | .addAll obj index vs => (put s obj ((s obj).take index ++ vs ++ (s obj).drop index), .none)
  | .remove obj index => (put s obj ((s obj).eraseIdx index), .value (s obj)[index]?)
  | .move obj source target =>
    (put s obj (((s obj).eraseIdx source).take target ++ ((s obj)[source]?.toList ++ ((s obj).eraseIdx source).drop target)),
      .value (s obj)[source]?)
  | .set obj index v => (put s obj ((s obj).set index v), .value (s obj)[index]?)
  | .clear obj => (put s obj [], .none)
  | .get obj index => (s, .value (s obj)[index]?)
  | .size obj => (s, .number (s obj).length)
  | .isEmpty obj => (s, .bool (s obj).isEmpty)
  | .contains obj v => (s, .bool (decide (v ∈ s obj)))
  | .indexOf obj v => (s, .number (firstIdx v (s obj)))
  | .lastIndexOf obj v => (s, .number (lastIdx v (s obj)))
  | .toArray obj => (s, .values (s obj))

/-- a history -/
def specRun [DecidableEq V] (s : Seqs V) : List (Op V) → Seqs V × List (Result V)
  | [] => (s, [])
  | op :: ops =>
    let r := specStep s op
    let r' := specRun r.1 ops
    (r'.1, r.2 :: r'.2)

/-- the indexes are valid -/
def Valid (s : Seqs V) : Op V → Prop
  | .add obj index _ => index ≤ (s obj).length
  | .addAll obj index _ => index ≤ (s obj).length
  | .remove obj index => index < (s obj).length
  | .move obj source target => source < (s obj).length ∧ target < (s obj).length
  | .set obj index _ => index < (s obj).length
  | .get obj index => index < (s obj).length
  | _ => True

instance (s : Seqs V) (op : Op V) : Decidable (Valid s op) := by
  cases op <;> simp only [Valid] <;> infer_instance

/-- the indexes of a history are valid -/
def ValidAll [DecidableEq V] (s : Seqs V) : List (Op V) → Prop
  | [] => True
  | op :: ops => Valid s op ∧ ValidAll (specStep s op).1 ops

instance [DecidableEq V] : ∀ (s : Seqs V) (ops : List (Op V)), Decidable (ValidAll s ops)
  | _, [] => isTrue trivial
  | s, op :: ops =>
    have := instDecidableValidAll (specStep s op).1 ops
    inferInstanceAs (Decidable (Valid s op ∧ ValidAll (specStep s op).1 ops))

/-- bulk insertions add at most one value or are at the end -/
def SmallBulk (s : Seqs V) : Op V → Prop
  | .addAll obj index vs => vs.length ≤ 1 ∨ index = (s obj).length
  | _ => True

def SmallBulks [DecidableEq V] (s : Seqs V) : List (Op V) → Prop
  | [] => True
  | op :: ops => SmallBulk s op ∧ SmallBulks (specStep s op).1 ops

/-- what a table holds: for each object its values in the order of `idx` -/
def contents (rows : List (Row V)) : Seqs V := fun obj => (select rows obj).map (·.value)

end Verif.SQLList
