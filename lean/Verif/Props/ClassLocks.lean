import Verif.Proofs.ClassLocks
/-
C52: concurrent reads of derived lists do not block each other for ever.
-/
set_option autoImplicit false
namespace Verif.ClassLocks
open Verif.Spec

/-- Any number of goroutines, each of them reading any derived lists one after the other, in a hierarchy without cycles, never reach a
deadlock, whatever the interleaving and whatever lists are cached when they are visited. -/
theorem C52_reads_partial (supers : Nat → List Nat) (n : Nat) (ha : Hier.Acyclic supers n) (reads : Nat → List (List Act))
    (hr : ∀ t, ∀ p ∈ reads t, ∃ c, Read supers c p) (sched : List Nat) (s : St)
    (h : run { todo := fun t => (reads t).flatten, owner := fun _ => none } sched = some s) : ¬ Deadlock s := by
  obtain ⟨rank, hrank, _⟩ := ha
  apply good_free rank
  apply good_run rank sched _ s _ h
  exact ⟨fun _ => [], fun t => desc_reads supers rank hrank _ (hr t), by simp, by simp⟩

/-- Class 1 has super type 0. One goroutine reads a derived list of class 1 (not cached) while another one modifies a feature of class 0: the
first one has locked 1 and wants 0, the second one has locked 0 and wants 1. -/
theorem C52_modification_violated :
    let supers : Nat → List Nat := fun c => if c = 1 then [0] else []
    let subs : Nat → List Nat := fun c => if c = 0 then [1] else []
    let reader := [Act.lock 1, .lock 0, .unlock 0, .unlock 1]
    Read supers 1 reader ∧
    ∃ s, run { todo := fun t => if t = 0 then reader else if t = 1 then modified subs 2 0 else [], owner := fun _ => none } [0, 1] = some s ∧ Deadlock s := by
  refine ⟨?_, _, rfl, ⟨0, by simp⟩, ?_⟩
  · refine .miss 1 [[.lock 0, .unlock 0]] rfl ?_
    intro i s t hs ht
    cases i with
    | zero => simp at hs ht; subst hs ht; exact .hit 0
    | succ i => simp at ht
  · intro t
    match t with
    | 0 => rfl
    | 1 => rfl
    | t + 2 => simp [step]

/-- Two goroutines reading the list of class 1, not cached: one of them is blocked, the other one proceeds. -/
example :
    let reader := [Act.lock 1, .lock 0, .unlock 0, .unlock 1]
    let s0 : St := { todo := fun t => if t < 2 then reader else [], owner := fun _ => none }
    ((run s0 [0, 0, 1]).isSome, ((run s0 [0, 0]).map fun s => s.owner 0), (run s0 [0, 0, 0, 0, 1, 1, 1, 1]).isSome) = (false, some (some 0), true) := by decide

end Verif.ClassLocks
