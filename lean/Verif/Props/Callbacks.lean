import Verif.Proofs.Callbacks
/-
Property C49: the callbacks of a list describe its changes.
-/
namespace Verif.Props
open Verif.EList Verif.Spec

variable {α : Type} [DecidableEq α] [Inhabited α]

/-- **C49** (partial: bulk appends to a non empty list and moves past the end are excluded). A subclass that
applies the callbacks of a call to a copy of the contents, one after the other and using their indexes, gets the new
contents. -/
theorem C49_callbacks_replay_partial (cfg : Cfg) (s : List α) (op : Op α) (hmove : ¬ Seq.movesPastEnd s op)
    (hbulk : ∀ c, op = .addAll c → s = []) :
    Callbacks.applyAll s (step cfg s op).trace = some (step cfg s op).data := by
  refine step_callbacks cfg s op ?_
  cases op with
  | addAll c => exact fun h => h (hbulk c rfl)
  | _ => exact hmove

/-- **C49**, indexes ignored (partial: moves past the end are excluded): the callbacks of every call report each
added, replaced and removed element exactly once. -/
theorem C49_callbacks_bag_partial (cfg : Cfg) (s : List α) (op : Op α) (hmove : ¬ Seq.movesPastEnd s op) :
    ∃ t, Callbacks.bagAll s (step cfg s op).trace = some t ∧ t.Perm (step cfg s op).data :=
  step_bag cfg s op hmove

/-- **C49 violated**: `AddAll([7])` on the list [5] reports the addition at index 0. -/
theorem C49_addAll_index_violated :
    let r := step ⟨false, .snapshot⟩ [5] (.addAll [7])
    r.data = [5, 7] ∧ r.trace = [.didAdd 0 7, .didChange] ∧
    Callbacks.applyAll [5] r.trace = some [7, 5] := by
  decide

/-- Non-vacuity of C49. -/
example : let op : Op Nat := .removeAll [1, 3]
    ¬ Seq.movesPastEnd [1, 2, 3, 1] op ∧ (∀ c, op = .addAll c → [1, 2, 3, 1] = []) ∧
    (step ⟨false, .snapshot⟩ [1, 2, 3, 1] op).trace =
      [.didRemove 3 1, .didChange, .didRemove 2 3, .didChange, .didRemove 0 1, .didChange] := by
  refine ⟨by decide, ?_, by decide⟩
  intro c h; cases h

end Verif.Props
