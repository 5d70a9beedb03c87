import Verif.Proofs.Reentrant
/-
Property C86: observers which change the model while they are notified.
-/
namespace Verif.Props
open Verif.Notify Verif.Spec Verif.Reentrant Verif.Spec.Observer

section
variable {α : Type} [DecidableEq α] [Inhabited α]

/-- **C86** (partial: calls which move a child from one notifier to another are left out, and only observers which have no reacting
observer before them are considered).  Whatever the observers do with the lists and values when they are told something, and whatever the user
does: an observer of `n` which is attached behind observers that do nothing is told the changes of `n` in the order in which they
were made, and at each moment at which it is told one, and whenever all calls have returned, applying what it was told gives what `n` shows. -/
theorem C86_first_partial (unique : Bool) (react : Reaction α) (lists : Nat → List α) (values : Nat → Payload α) (adapters : Nat → List Nat)
    (program : List (Act α)) (n a : Nat) (before : List Nat) (ha : Attached (adapters n) a before)
    (hq : ∀ b ∈ before, ∀ l s, react b l s = [])
    (hr : ∀ b l s, ∀ x ∈ react b l s, plain x) (hp : ∀ x ∈ program, plain x)
    (he : ∀ t x, (run unique react (start lists values adapters program) t).stack.head? = some (.act x) →
      ¬ Observer.pastEnd (run unique react (start lists values adapters program) t).w x) (t : Nat) :
    let c := run unique react (start lists values adapters program)
    (about n ((c (t + 1)).w.told a) ≠ about n ((c t).w.told a) →
      about n ((c (t + 1)).w.told a) = about n (c (t + 1)).sent ∧
      notes (lists n, values n) (about n ((c (t + 1)).w.told a)) = some ((c (t + 1)).w.shown n)) ∧
    ((c t).stack = [] →
      about n ((c t).w.told a) = about n (c t).sent ∧
      notes (lists n, values n) (about n ((c t).w.told a)) = some ((c t).w.shown n)) := by
  have inv : ∀ t, Inv (start lists values adapters program) (run unique react (start lists values adapters program) t) n before.length a := by
    intro t
    induction t with
    | zero => exact ⟨rfl, rfl, by simp [run, start], hp, by simp [run, start], rfl, rfl⟩
    | succ t ih => exact inv_step unique react _ _ n a before rfl ha hq hr (he t) ih
  refine ⟨fun h => ?_, fun h => ?_⟩
  · have i := inv t
    have hd := grown unique react (run unique react (start lists values adapters program) t) n a before
      (by rw [i.adapters]; exact ha) i.plainStack i.later h
    have j := inv (t + 1)
    have := j.sent
    rw [show run unique react (start lists values adapters program) (t + 1) = step unique react (run unique react (start lists values adapters program) t) from rfl,
      hd, List.append_nil] at this
    refine ⟨this, ?_⟩
    have k := j.shown
    rw [show run unique react (start lists values adapters program) (t + 1) = step unique react (run unique react (start lists values adapters program) t) from rfl,
      ← this] at k
    exact k
  · have i := inv t
    have := i.sent
    rw [h] at this
    simp only [dueHead, List.append_nil] at this
    refine ⟨this, ?_⟩
    have k := i.shown
    rw [← this] at k
    exact k

/-- **C86** (partial: observers are not attached or detached by observers).  Whatever the observers do with the model when they are told
something, an observer is never told a change of a notifier more often than it was made, and, if no call panicked, it has been told each
change exactly once when all calls have returned. -/
theorem C86_once_partial (unique : Bool) (react : Reaction α) (lists : Nat → List α) (values : Nat → Payload α) (adapters : Nat → List Nat)
    (program : List (Act α)) (n a : Nat) (before : List Nat) (ha : Attached (adapters n) a before)
    (hr : ∀ b l s, ∀ x ∈ react b l s, observed x) (hp : ∀ x ∈ program, observed x) (t : Nat) :
    let c := run unique react (start lists values adapters program) t
    (∀ m, (about n (c.w.told a)).count m ≤ (about n c.sent).count m) ∧
    (c.stack = [] → c.panics = 0 → (about n (c.w.told a)).Perm (about n c.sent)) := by
  have inv : Once (start lists values adapters program) (run unique react (start lists values adapters program) t) n before.length a := by
    induction t with
    | zero => exact ⟨rfl, rfl, by simp [run, start], hp, by simp [run, start], by simp [run, start]⟩
    | succ t ih => exact once_step unique react _ _ n a before rfl ha hr ih
  refine ⟨fun m => ?_, fun h h0 => ?_⟩
  · have := inv.atMost m; omega
  · rw [List.perm_iff_count]
    intro m
    have := inv.once h0 m
    rw [h] at this
    simpa using this

end

/-! ### A case of both, and what is not true -/

/-- Adapter 0 answers the addition of a number below 5 to a list with the addition of that number plus 5, and sets the value of notifier 1. -/
def answer : Reaction Nat := fun a l _ =>
  if a = 0 then
    match l.getLast? with
    | some (n, ⟨_, _, .add, _, .elem x, _⟩) => if x < 5 then [.list n (.op (.add (x + 5))), .put 1 x] else []
    | _ => []
  else []

theorem answer_plain (b : Nat) (l : List (Nat × Notif Nat)) (s : Nat → List Nat × Payload Nat) : ∀ x ∈ answer b l s, plain x := by
  intro x hx
  unfold answer at hx
  repeat' split at hx
  all_goals simp at hx
  rcases hx with rfl | rfl <;> trivial

/-- Notifier 0 is observed by 1, 0 and 2, notifier 1 by 0 -/
def three : Nat → List Nat := fun n => if n = 0 then [1, 0, 2] else if n = 1 then [0] else []

def firsts : List (Act Nat) := [.list 0 (.op (.add 3)), .list 0 (.op (.insert 0 9)), .unset 1]

/-- Non-vacuity of C86: the hypotheses hold for observer 0 of notifier 0, which is behind observer 1 and which reacts. -/
example : Attached (three 0) 0 [1] ∧ (∀ b ∈ [1], ∀ l s, answer b l s = []) ∧ (∀ x ∈ firsts, plain x) ∧
    (∀ t x, (run true answer (start (fun _ => [4]) (fun _ => .nil) three firsts) t).stack.head? = some (.act x) →
      ¬ Observer.pastEnd (run true answer (start (fun _ => [4]) (fun _ => .nil) three firsts) t).w x) := by
  refine ⟨⟨[2], by decide⟩, ?_, by decide, ?_⟩
  · intro b hb l s; simp only [List.mem_singleton] at hb; subst hb; rfl
  · intro t x hx
    let P : Act Nat → Prop := fun x => ∀ w : World Nat, ¬ Observer.pastEnd w x
    have h := (stack_acts true answer P (start (fun _ => [4]) (fun _ => .nil) three firsts)
      (by
        intro b l s x hx
        unfold answer at hx
        repeat' split at hx
        all_goals simp at hx
        rcases hx with rfl | rfl <;> intro w h <;> simp [Observer.pastEnd, Seq.movesPastEnd] at h)
      (by simp [start]) (by
        intro x hx
        simp only [start, firsts, List.mem_cons, List.not_mem_nil, or_false] at hx
        rcases hx with rfl | rfl | rfl <;> intro w h <;> simp [Observer.pastEnd, Seq.movesPastEnd] at h) t).1 x
    exact h (List.mem_of_mem_head? (by simpa using hx)) _

/-- What the case does: observers 1 and 0 of notifier 0 are told the additions of 3, 8 and 9 in this order. -/
example :
    let c := run true answer (start (fun _ => [4]) (fun _ => .nil) three firsts) 40
    c.stack = [] ∧ c.program = [] ∧ c.panics = 0 ∧ c.w.lists 0 = [9, 4, 3, 8] ∧ c.w.values 1 = .nil ∧
      (about 0 (c.w.told 0)).map (fun m => (m.new, m.position)) = [(.elem 3, 1), (.elem 8, 2), (.elem 9, 0)] ∧
      (about 0 (c.w.told 1)).map (fun m => (m.new, m.position)) = [(.elem 3, 1), (.elem 8, 2), (.elem 9, 0)] := by decide +kernel

/-- **C86 violated (1)**: the observer behind a reacting one is told the reaction before the change that caused it: after `Add(3)` it is told that 8
was added at position 2 of the list [4], which is no list it can have; all calls have returned. -/
theorem C86_order_violated :
    let c := run true answer (start (fun _ => [4]) (fun _ => .nil) three [.list 0 (.op (.add 3))]) 40
    c.stack = [] ∧ c.program = [] ∧ c.w.lists 0 = [4, 3, 8] ∧
      (about 0 (c.w.told 2)).map (fun m => (m.new, m.position)) = [(.elem 8, 2), (.elem 3, 1)] ∧
      notes ([4], .nil) (about 0 (c.w.told 2)) = none := by decide +kernel

/-- Adapter 0 answers a SET of the value 1 with setting 2. -/
def correct : Reaction Nat := fun a l _ =>
  if a = 0 then
    match l.getLast? with
    | some (n, ⟨_, _, .set, _, .elem 1, _⟩) => [.put n 2]
    | _ => []
  else []

/-- **C86 violated (2)**: an observer behind one which corrects a value is left with the uncorrected one: the last it is told is
that the value is 1, while the value is 2. -/
theorem C86_value_violated :
    let c := run true correct (start (fun _ => []) (fun _ => .nil) (fun _ => [0, 1]) [.put 0 1]) 20
    c.stack = [] ∧ c.program = [] ∧ c.w.values 0 = .elem 2 ∧
      (c.w.told 1).map (fun x => (x.2.old, x.2.new)) = [(.elem 1, .elem 2), (.nil, .elem 1)] := by decide +kernel

/-- Adapter 0 answers a removal from the list of notifier 0 with the addition of 7 to the list of notifier 1. -/
def fill : Reaction Nat := fun a l _ =>
  if a = 0 then
    match l.getLast? with
    | some (0, ⟨_, _, .remove, _, _, _⟩) => [.list 1 (.op (.add 7))]
    | _ => []
  else []

/-- **C86 violated (3)**: also the only observer of a notifier is told changes in the wrong order, when a child is moved to it from another one which has a
reacting observer. -/
theorem C86_transfer_violated :
    let c := run true fill (start (fun n => if n = 0 then [5] else []) (fun _ => .nil) (fun n => [n]) [.transfer 0 1 5]) 20
    c.stack = [] ∧ c.program = [] ∧ c.w.lists 0 = [] ∧ c.w.lists 1 = [5, 7] ∧
      (about 1 (c.w.told 1)).map (fun m => (m.new, m.position)) = [(.elem 7, 1), (.elem 5, 0)] ∧
      notes ([], .nil) (about 1 (c.w.told 1)) = none := by decide +kernel

/-- Adapter 0 answers an addition with the removal at index 5. -/
def wrong : Reaction Nat := fun a l _ =>
  if a = 0 then
    match l.getLast? with
    | some (n, ⟨_, _, .add, _, _, _⟩) => [.list n (.op (.removeAt 5))]
    | _ => []
  else []

/-- **C86 violated (4)**: a reaction which panics makes the call of the user panic after the change was made, and the observers behind are never told it. -/
theorem C86_panic_violated :
    let c := run true wrong (start (fun _ => []) (fun _ => .nil) (fun _ => [0, 1]) [.list 0 (.op (.add 3)), .put 0 4]) 20
    c.stack = [] ∧ c.program = [] ∧ c.panics = 1 ∧ c.w.lists 0 = [3] ∧
      (c.w.told 1).map (fun x => (x.2.featureID, x.2.new)) = [(1, .elem 4)] := by decide +kernel

/-- Adapter 0 attaches adapter 1 when it is told something for the first time. -/
def invite : Reaction Nat := fun a l _ => if a = 0 ∧ l.length = 1 then [.attach 0 1] else []

/-- **C86 violated (5)**: an observer attached by an observer is told the change which was made before it was attached: it saw the list [3] when it was
attached and is then told that 3 was added at position 0. -/
theorem C86_attached_violated :
    let c := run true invite (start (fun _ => []) (fun _ => .nil) (fun n => if n = 0 then [0] else []) [.list 0 (.op (.add 3))]) 20
    c.stack = [] ∧ c.program = [] ∧ c.w.lists 0 = [3] ∧
      (about 0 (c.w.told 1)).map (fun m => (m.new, m.position)) = [(.elem 3, 0)] ∧
      notes ([3], .nil) (about 0 (c.w.told 1)) = some ([3, 3], .nil) := by decide +kernel

/-- Adapter 0 answers a SET with the SET of the next number. -/
def forever : Reaction Nat := fun _ l _ =>
  match l.getLast? with
  | some (n, ⟨_, _, .set, _, .elem x, _⟩) => [.put n (x + 1)]
  | _ => []

/-- An execution which goes on for ever -/
def Busy (c : Conf Nat) : Prop :=
  c.w.deliver 0 = true ∧ c.w.adapters 0 = [0] ∧
    ((∃ x rest, c.stack = .act (.put 0 x) :: rest) ∨
     (∃ x m rest, c.stack = .visit 0 m 0 :: rest ∧ m.event = .set ∧ m.new = .elem x))

/-- **C86 violated (6)**: an observer that answers each change with another one never lets the call return: whatever the number of steps, the first `ESet` has not
returned (in Go the goroutine's stack overflows, which ends the process). -/
theorem C86_endless_violated (t : Nat) :
    (run true forever (start (fun _ => []) (fun _ => .nil) (fun _ => [0]) [.put 0 0]) (t + 1)).stack ≠ [] := by
  have h : ∀ t, Busy (run true forever (start (fun _ => []) (fun _ => .nil) (fun _ => [0]) [.put 0 0]) (t + 1)) := by
    intro t
    induction t with
    | zero => exact ⟨rfl, rfl, Or.inl ⟨0, [], rfl⟩⟩
    | succ t ih =>
      rw [run]
      revert ih
      generalize run true forever (start (fun _ => []) (fun _ => .nil) (fun _ => [0]) [.put 0 0]) (t + 1) = c
      rintro ⟨hd, ha, ⟨x, rest, hs⟩ | ⟨x, m, rest, hs, he, hn⟩⟩
      · obtain ⟨w, stack, program, sent, panics⟩ := c
        simp only at hd ha hs
        subst hs
        refine ⟨?_, ?_, Or.inr ⟨x, ⟨some 0, 1, .set, w.values 0, .elem x, -1⟩, rest, ?_, rfl, rfl⟩⟩ <;>
          simp [step, change, valueNotif, required, hd, ha]
      · obtain ⟨w, stack, program, sent, panics⟩ := c
        obtain ⟨a1, a2, a3, a4, a5, a6⟩ := m
        simp only at hd ha hs he hn
        subst hs he hn
        refine ⟨?_, ?_, Or.inl ⟨x + 1, .visit 0 ⟨a1, a2, .set, a4, .elem x, a6⟩ 1 :: rest, ?_⟩⟩ <;>
          simp [step, hd, ha, forever]
  rcases (h t).2.2 with ⟨x, rest, hs⟩ | ⟨x, m, rest, hs, _⟩ <;> rw [hs] <;> simp

end Verif.Props
