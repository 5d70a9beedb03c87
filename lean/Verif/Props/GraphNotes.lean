import Verif.Proofs.GraphNotes
import Verif.Props.Graph

/-!
# C72: following an object graph by its notifications
-/

namespace Verif.GraphNotes
open Verif.Graph Verif.Notify

/-- **C72** (partial): from the notifications of an object an observer knows the value of each of its references,
whatever the calls and the objects they are made on: each notification announces as old what the observer already
knows, and after them the observer has what `EGet` gives.  That some objects are observed changes nothing to the
objects.
Missing: the positions announced for several removed objects (`C72_positions_violated`), features whose ID differs
from the one in the declaring class (`C72_inheritance_violated`), `ESet` and `EUnset` of lists. -/
theorem C72_follow_partial (E : Env) (wf : WellFormed E.M) (cls : Nat → Nat) (ops : List Op) (ht : ∀ op ∈ ops, Typed E.M cls op) (w : World)
    (hr : run E.M (init cls) ops = some w) :
    ∃ ns, runN E (init cls) ops = some (w, ns) ∧
      ∀ o f, E.listening o = true → f ∈ E.M.features (cls o) → follow o (E.M.refs f).declId [] ns = some (eGet E.M w o f) := by
  obtain ⟨ns, h1, h2⟩ := runN_ok wf ops _ (good_init E.M cls) ht w hr
  refine ⟨ns, h1, fun o f ho hf => ?_⟩
  have h0 : eGet E.M (init cls) o f = [] := by
    simp only [eGet, init]
    split
    · exact ite_self _
    · rfl
  rw [← h0]
  exact h2 o f ho hf

/-- **C72** (partial): the same for an observer that comes later, and knows the values at this time. -/
theorem C72_join_partial (E : Env) (wf : WellFormed E.M) (cls : Nat → Nat) (before ops : List Op) (hb : ∀ op ∈ before, Typed E.M cls op)
    (ht : ∀ op ∈ ops, Typed E.M cls op) (w0 w : World) (h0 : run E.M (init cls) before = some w0) (hr : run E.M w0 ops = some w) :
    ∃ ns, runN E w0 ops = some (w, ns) ∧
      ∀ o f, E.listening o = true → f ∈ E.M.features (cls o) → follow o (E.M.refs f).declId (eGet E.M w0 o f) ns = some (eGet E.M w o f) := by
  obtain ⟨ns, h1, h2⟩ := runN_ok wf ops _ (good_run wf before _ (good_init E.M cls) hb w0 h0) ht w hr
  refine ⟨ns, h1, fun o f ho hf => ?_⟩
  exact h2 o f ho hf

/-! ## Examples -/

/-- `sample` of C19, observers on objects 1 to 4 -/
def env : Env := ⟨sample, fun o => decide (1 ≤ o ∧ o ≤ 4), fun _ => false⟩

example : ∀ op ∈ sampleOps, Typed sample (fun _ => 0) op := by decide +kernel

/-- 30 notifications; objects 1 and 3 are followed -/
example : (runN env (init fun _ => 0) sampleOps).map (fun s => (s.2.length, (List.range 9).map fun (i : Nat) => follow 1 i [] s.2, (List.range 9).map fun (i : Nat) => follow 3 i [] s.2)) =
    some (30, [some [], some [], some [], some [2], some [], some [], some [], some [3], some []],
      [some [], some [], some [], some [], some [], some [2], some [], some [], some [1]]) := by decide +kernel

/-- three children go to another object: the first one loses them by one notification -/
example : (runN env (init fun _ => 0) [.list 1 1 (.addAll [2, 3, 4, 5]), .list 6 1 (.addAll [2, 3, 4])]).map (fun s =>
      (s.2.filter (fun n => n.notifier = some 1), follow 1 1 [] s.2, followPositions 1 1 [] s.2, eGet sample s.1 1 1)) =
    some ([⟨some 1, 1, .addMany, .nil, .elems [2, 3, 4, 5], 0⟩, ⟨some 1, 1, .removeMany, .elems [2, 3, 4], .ints [0, 1, 2], 0⟩],
      some [5], some [5], [5]) := by decide +kernel

/-- **C72** is violated for an observer that uses positions: three children go to another object, the last one first.
The three are announced with two positions only. -/
theorem C72_positions_violated :
    (runN env (init fun _ => 0) [.list 1 1 (.addAll [2, 3, 4, 5]), .list 6 1 (.addAll [5, 4, 2])]).map (fun s =>
      (s.2.filter (fun n => n.notifier = some 1), follow 1 1 [] s.2, followPositions 1 1 [] s.2, eGet sample s.1 1 1)) =
    some ([⟨some 1, 1, .addMany, .nil, .elems [2, 3, 4, 5], 0⟩, ⟨some 1, 1, .removeMany, .elems [2, 4, 5], .ints [0, 2], 2⟩],
      some [3], none, [3]) := by decide +kernel

/-- class 2 has the references 0 of class 0 and 1 of class 1, which are opposites -/
def crossed : Meta := metaOf [⟨false, false, some 1, 0⟩, ⟨false, false, some 0, 0⟩] [[0], [1], [0, 1]]

/-- **C72** is violated with several super classes: both references of an object change, and only one notification
comes; and the change of the second one is announced with the ID of the first one, which has not changed. -/
theorem C72_inheritance_violated :
    (runN ⟨crossed, fun _ => true, fun _ => false⟩ (init fun _ => 2) [.set 1 1 (some 1)]).map (fun s => (s.2, eGet crossed s.1 1 0, eGet crossed s.1 1 1)) =
      some ([⟨some 1, 0, .set, .nil, .elem 1, -1⟩], [1], [1]) ∧
    (runN ⟨crossed, fun o => decide (o = 1), fun _ => false⟩ (init fun _ => 2) [.set 1 1 (some 2)]).map (fun s => (s.2, eGet crossed s.1 1 0, eGet crossed s.1 1 1)) =
      some ([⟨some 1, 0, .set, .nil, .elem 2, -1⟩], [], [2]) := by decide +kernel

end Verif.GraphNotes
