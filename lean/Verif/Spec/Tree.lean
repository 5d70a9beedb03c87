import Verif.Model.Tree
/-
Specification for C13: positions in a tree, and iteration over a fixed sequence.
-/
namespace Verif.Spec.Tree
open Verif.Tree

/-- The object reached from `t` by going to the child of the given index, repeatedly. -/
def at? : Tree → List Nat → Option Nat
  | .node i _, [] => some i
  | .node _ ks, k :: p =>
    match ks[k]? with
    | none => none
    | some c => at? c p

/-- `l` is the sequence of the positions of `t` satisfying `keep`, in lexicographic order: parents before
children, siblings in order, each once. -/
def IsTraversal (t : Tree) (keep : List Nat → Prop) (l : List (List Nat)) : Prop :=
  l.Pairwise (· < ·) ∧ ∀ p, p ∈ l ↔ keep p ∧ (at? t p).isSome

/-- Answers of an iterator over a fixed sequence: `HasNext` tells whether something is left, `Next` yields the next one
and panics when nothing is left. -/
def iterate : List Nat → List Call → List Ret
  | _, [] => []
  | l, .hasNext :: cs => .bool (!l.isEmpty) :: iterate l cs
  | [], .next :: cs => .panic :: iterate [] cs
  | x :: l, .next :: cs => .val x :: iterate l cs

end Verif.Spec.Tree
