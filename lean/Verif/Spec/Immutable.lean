import Verif.Model.Immutable

/-!
# What immutable collections promise

A list is its elements `d` when it was made, a map moreover the pairs `ps` of keys and values of its entries when it was made.
-/

namespace Verif.Immutable.Spec

/-- comparing `x` with the elements panics -/
def Bad (d : List Val) (x : Val) : Prop := (∃ l, x = .bytes l) ∧ ∃ l, Val.bytes l ∈ d

instance (d x) : Decidable (Bad d x) :=
  decidable_of_iff ((match x with | .bytes _ => true | _ => false) = true ∧ d.any (fun y => match y with | .bytes _ => true | _ => false) = true) (by
    unfold Bad
    constructor
    · rintro ⟨h1, h2⟩
      cases x <;> simp at h1
      simp only [List.any_eq_true] at h2
      obtain ⟨y, hy, h2⟩ := h2
      cases y <;> simp at h2
      exact ⟨⟨_, rfl⟩, _, hy⟩
    · rintro ⟨⟨l, rfl⟩, l', h⟩
      simp only [List.any_eq_true, true_and]
      exact ⟨_, h, rfl⟩)

instance (k : Val) : Decidable (∃ l, k = .bytes l) :=
  match k with
  | .bytes l => isTrue ⟨l, rfl⟩
  | .nil => isFalse (by simp)
  | .num _ => isFalse (by simp)
  | .entry _ => isFalse (by simp)

/-- `get i` -/
def at? (d : List Val) (i : Int) : Ans :=
  match i with
  | .ofNat n => match d[n]? with | some x => .val x | none => .panic
  | .negSucc _ => .panic

/-- `indexOf`: the first position of the element, or -1 -/
def first (d : List Val) (x : Val) : Int :=
  if d.idxOf x < d.length then d.idxOf x else -1

/-- the value of the last pair with the key -/
def last? (ps : List (Val × Val)) (k : Val) : Option Val :=
  ((ps.filter (fun p => p.1 = k)).getLast?).map (·.2)

/-- The answers of a list with the elements `d`. -/
def listReply (d : List Val) : Query → Ans
  | .get i => at? d i
  | .size => .int d.length
  | .empty => .bool (decide (d = []))
  | .contains x => if Bad d x then .panic else .bool (decide (x ∈ d))
  | .indexOf x => if Bad d x then .panic else .int (first d x)
  | .iterate => .vals d
  | .all n => .vals (d.take n)
  | .toArray => .vals d
  | _ => .panic

/-- keys and values of the elements, if they are entries -/
def pairs? (entries : List (Val × Val)) (d : List Val) : Option (List (Val × Val)) :=
  d.mapM (fun x => match x with | .entry e => entries[e]? | _ => none)

/-- the pairs that are not replaced by a later one with the same key -/
def live (ps : List (Val × Val)) : List (Val × Val) := ps.filter (fun p => last? ps p.1 = some p.2)

/-- The answers of a map with the elements `d` and the pairs `ps`, the last one counts; that of `toMap` is below. -/
def mapReply (d : List Val) (ps : List (Val × Val)) : Query → Ans
  | .getValue k => if (∃ l, k = .bytes l) then .panic else .val ((last? ps k).getD .nil)
  | .containsKey k => if (∃ l, k = .bytes l) then .panic else .bool (decide (k ∈ ps.map (·.1)))
  | .containsValue x => if Bad ((live ps).map (·.2)) x then .panic else .bool (decide (x ∈ (live ps).map (·.2)))
  | q => listReply d q

/-- `toMap`: each key once, with the value of its last pair, in any order -/
def MapOf (ps : List (Val × Val)) (a : Ans) : Prop :=
  ∃ m, a = .pairs m ∧ (m.map (·.1)).Nodup ∧ ∀ k x, (k, x) ∈ m ↔ last? ps k = some x

/-- What a caller may do with a slice: `own g` it made itself (`g` the call of `make` it comes from), `out` came from `ToArray` and was at most appended to, `seen` is for
reading. -/
inductive Tag where
  | own (g : Nat)
  | out
  | seen
deriving DecidableEq, Repr

/-- The slices of a program and those it has given to an immutable collection. -/
structure Books where
  tags : List Tag
  given : List Nat
deriving DecidableEq, Repr

def Books.tag (b : Books) (v : Nat) : Tag := (b.tags[v]?).getD .seen

def Books.step (b : Books) : Op → Books
  | .make _ _ => { b with tags := b.tags ++ [.own b.tags.length] }
  | .append v _ _ => { b with tags := b.tags ++ [b.tag v] }
  | .cut v _ _ => { b with tags := b.tags ++ [match b.tag v with | .own g => .own g | _ => .seen] }
  | .ask _ .toArray => { b with tags := b.tags ++ [.out] }
  | .newList v => match b.tag v with | .own g => { b with given := g :: b.given } | _ => b
  | .newMap v => match b.tag v with | .own g => { b with given := g :: b.given } | _ => b
  | _ => b

/-- an own slice that was not given away -/
def Books.Free (b : Books) (v : Nat) : Prop := ∃ g, b.tag v = .own g ∧ g ∉ b.given

instance (b v) : Decidable (Books.Free b v) :=
  decidable_of_iff ((match b.tag v with | .own g => decide (g ∉ b.given) | _ => false) = true) (by
    unfold Books.Free
    cases b.tag v <;> simp)

/-- The discipline: a program writes into its own slices only, it makes a collection of an own slice (or a slice cut from it or appended to it) once and writes into it or appends to it no more.
It may append to what `ToArray` gives. -/
def Books.Allowed (b : Books) : Op → Prop
  | .write v _ _ => b.Free v
  | .append v _ _ => b.tag v = .out ∨ b.Free v
  | .newList v => b.Free v
  | .newMap v => b.Free v
  | _ => True

instance (b op) : Decidable (Books.Allowed b op) := by
  unfold Books.Allowed; split <;> infer_instance

def Books.AllAllowed (b : Books) : List Op → Prop
  | [] => True
  | op :: ops => b.Allowed op ∧ (b.step op).AllAllowed ops

instance instDecidableAllAllowed : (b : Books) → (ops : List Op) → Decidable (b.AllAllowed ops)
  | _, [] => isTrue trivial
  | b, op :: ops => @instDecidableAnd (b.Allowed op) ((b.step op).AllAllowed ops) inferInstance (instDecidableAllAllowed _ ops)

/-- programs that keep the discipline -/
def Careful (ops : List Op) : Prop := Books.AllAllowed ⟨[], []⟩ ops

instance (ops) : Decidable (Careful ops) := inferInstanceAs (Decidable (Books.AllAllowed _ _))

/-- the operation writes into the Go map that `ToMap` of `l` gave -/
def WritesMap (l : Nat) : Op → Prop
  | .putMap l' _ _ => l' = l
  | .delMap l' _ => l' = l
  | _ => False

instance (l op) : Decidable (WritesMap l op) := by
  unfold WritesMap; split <;> infer_instance

end Verif.Immutable.Spec
