/-
Model of the tree iterator (ecore/etreeiterator.go) on a tree of objects that does not change during the iteration.
-/
namespace Verif.Tree

/-- An object with the objects it contains, in order. `id` is the identity of the object. -/
inductive Tree where
  | node (id : Nat) (kids : List Tree)

def Tree.id : Tree → Nat
  | .node i _ => i

def Tree.kids : Tree → List Tree
  | .node _ ks => ks

/-- ecore/etreeiterator.go:12-17. An iterator over children is the list of those it has not yielded yet
(ecore/elistiterator.go, property C05); `data` is the stack with its top first, `none` for the nil slice. -/
structure It where
  object : Tree
  data : Option (List (List Tree))
  root : Bool

/-- ecore/etreeiterator.go:19-21. -/
def newTreeIterator (object : Tree) (root : Bool) : It := ⟨object, none, root⟩

/-- What a call yields; an index out of range or an exhausted iterator panics. -/
inductive Ret where
  | bool (b : Bool)
  | val (id : Nat)
  | panic
  deriving DecidableEq, Repr

/-- ecore/etreeiterator.go:31-35. -/
def hasAnyChildren (it : It) : It × Ret :=
  let current := it.object.kids
  ({ it with data := some (current :: it.data.getD []) }, .bool (!current.isEmpty))

/-- ecore/etreeiterator.go:37-39. -/
def hasMoreChildren (it : It) : Ret :=
  match it.data with
  | none => .bool true
  | some [] => .bool false
  | some (top :: _) => .bool (!top.isEmpty)

/-- ecore/etreeiterator.go:23-29. -/
def hasNext (it : It) : It × Ret :=
  if it.data.isNone && !it.root then hasAnyChildren it else (it, hasMoreChildren it)

/-- The loop of ecore/etreeiterator.go:63-74. -/
def popEmpty : List (List Tree) → List (List Tree)
  | [] => []
  | current :: rest => if current.isEmpty then popEmpty rest else current :: rest

/-- ecore/etreeiterator.go:51-76, on the stack `stack`. -/
def nextOn (it : It) : List (List Tree) → It × Ret
  | [] => (it, .panic)
  | [] :: _ => (it, .panic)
  | (result :: current) :: rest =>
    let iterator := result.kids
    if !iterator.isEmpty then ({ it with data := some (iterator :: current :: rest) }, .val result.id)
    else ({ it with data := some (popEmpty (current :: rest)) }, .val result.id)

/-- ecore/etreeiterator.go:41-77. -/
def next (it : It) : It × Ret :=
  match it.data with
  | none =>
    let it1 := { it with data := some [it.object.kids] }
    if it.root then (it1, .val it.object.id) else nextOn it1 [it.object.kids]
  | some stack => nextOn it stack

/-- Calls on an iterator. -/
inductive Call where
  | hasNext
  | next
  deriving DecidableEq, Repr

/-- Answers of a sequence of calls. -/
def answers (it : It) : List Call → List Ret
  | [] => []
  | .hasNext :: cs => (hasNext it).2 :: answers (hasNext it).1 cs
  | .next :: cs => (next it).2 :: answers (next it).1 cs

end Verif.Tree
