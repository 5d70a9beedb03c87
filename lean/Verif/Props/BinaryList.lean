import Verif.Proofs.BinaryList

/-!
# C23: the order of a decoded list
-/

namespace Verif.BinaryList

/-- C23 (partial: only lists that are empty or complete before; see `C23_order_violated`). A list with some of the objects read is filled without panic,
and is in the order of the saved one exactly if nothing, or everything, was in it before. -/
theorem C23_order_partial (list objects : List Nat) (h1 : list.Nodup) (h2 : objects.Nodup) (hsub : ∀ o ∈ list, o ∈ objects) :
    ∃ result : List Nat, decodeObjects list objects = some result ∧ result.Perm objects ∧ (result = objects ↔ list = [] ∨ ∀ o ∈ objects, o ∈ list) := by
  exact order_spec list objects h1 h2 hsub

example : decodeObjects [3, 1, 2] [1, 2, 3] = some [1, 2, 3] := by decide
example : decodeObjects [] [1, 2, 3] = some [1, 2, 3] := by decide

/-- C23 is violated: the object 2 has already added itself to the list. -/
theorem C23_order_violated : decodeObjects [2] [1, 2] = some [2, 1] ∧ decodeObjects [1] [1, 2] = some [2, 1] ∧ decodeObjects [1] [1, 2, 3] = some [3, 1, 2] := by decide

end Verif.BinaryList
