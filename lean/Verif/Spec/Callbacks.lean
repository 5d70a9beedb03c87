import Verif.Model.EList
import Verif.Spec.Seq
/-
Specification for C49: what a subclass learns from the callbacks (`DidAdd`, `DidRemove`, ...) of a list.
-/
namespace Verif.Spec.Callbacks
open Verif.EList

variable {α : Type} [DecidableEq α]

/-- Effect of one callback on a copy of the contents, with all the indexes and old values checked. -/
def apply (s : List α) : CB α → Option (List α)
  | .didAdd i e => if i ≤ s.length then some (s.insertIdx i e) else none
  | .didSet i e o => if s[i]? = some o then some (s.set i e) else none
  | .didRemove i o => if s[i]? = some o then some (s.eraseIdx i) else none
  | .didClear olds => if olds = s then some [] else none
  | .didMove n x o => if s[o]? = some x ∧ n < s.length then some (Seq.moved s o n x) else none
  | .didChange => some s

/-- Effect of a sequence of callbacks. -/
def applyAll (s : List α) : List (CB α) → Option (List α)
  | [] => some s
  | c :: cs =>
    match apply s c with
    | none => none
    | some s' => applyAll s' cs

/-- Effect of one callback on a bag of elements (indexes ignored). -/
def bag (s : List α) : CB α → Option (List α)
  | .didAdd _ e => some (e :: s)
  | .didSet _ e o => if o ∈ s then some (e :: s.erase o) else none
  | .didRemove _ o => if o ∈ s then some (s.erase o) else none
  | .didClear _ => some []
  | .didMove _ _ _ => some s
  | .didChange => some s

/-- Effect of a sequence of callbacks on a bag. -/
def bagAll (s : List α) : List (CB α) → Option (List α)
  | [] => some s
  | c :: cs =>
    match bag s c with
    | none => none
    | some s' => bagAll s' cs

end Verif.Spec.Callbacks
