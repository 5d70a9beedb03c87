import Verif.Proofs.EMap
import Verif.Model.Adapters
/-
Property C46: adapters and their targets.
-/
namespace Verif.Adapters
open Verif.EList Verif.Spec

/-- An adapter has target `n` exactly when it is in the list of `n` (and it is there once). -/
structure Attached (s : St) : Prop where
  iff : ∀ a n, s.target a = some n ↔ a ∈ s.lists n
  once : ∀ n, (s.lists n).Nodup

/-- The call on the adapters of `n` is neither Set nor Clear nor a move past the end, and afterwards no adapter
is attached twice. -/
def okCall (s : St) (n : Nat) (op : Op Nat) : Prop :=
  (match op with | .set _ _ => False | .clear => False | _ => True) ∧ ¬ Seq.movesPastEnd (s.lists n) op ∧
  (step ⟨false, .snapshot⟩ (s.lists n) op).data.Nodup ∧
  ∀ a ∈ (step ⟨false, .snapshot⟩ (s.lists n) op).data, s.target a = none ∨ s.target a = some n

instance (s : St) (n : Nat) (op : Op Nat) : Decidable (okCall s n op) := by
  cases op <;> simp only [okCall] <;> infer_instance

/-- Attachment when the list of `n` is the bag `b`. -/
def Att (s : St) (n : Nat) (b : List Nat) : Prop :=
  (∀ a, s.target a = some n ↔ a ∈ b) ∧ ∀ a m, m ≠ n → (s.target a = some m ↔ a ∈ s.lists m)

theorem callback_lists (n : Nat) (s : St) (c : CB Nat) : (callback n s c).lists = s.lists := by
  cases c <;> simp only [callback, setTarget, unSetTarget]
  repeat' split
  all_goals rfl

theorem callbacks_lists (n : Nat) (s : St) (cs : List (CB Nat)) : (cs.foldl (callback n) s).lists = s.lists := by
  induction cs generalizing s with
  | nil => rfl
  | cons c cs ih => rw [List.foldl_cons, ih, callback_lists]

theorem adds_att (n : Nat) (cs : List (CB Nat)) (s : St) (b t : List Nat) (hk : ∀ c ∈ cs, EMap.addKind c)
    (h : Callbacks.bagAll b cs = some t) (hother : ∀ a ∈ t, ∀ m, s.target a = some m → m = n) (ha : Att s n b) :
    Att (cs.foldl (callback n) s) n t := by
  induction cs generalizing s b with
  | nil => simp only [Callbacks.bagAll, Option.some.injEq] at h; subst h; exact ha
  | cons c cs ih =>
    have hk2 := fun c' hc' => hk c' (List.mem_cons_of_mem _ hc')
    have hk1 := hk c List.mem_cons_self
    cases c with
    | didAdd i e =>
      simp only [Callbacks.bagAll, Callbacks.bag] at h
      have hs := EMap.adds_suffix cs (e :: b) t hk2 h
      have het : e ∈ t := hs.subset List.mem_cons_self
      simp only [List.foldl_cons, callback]
      refine ih (setTarget s e (some n)) (e :: b) hk2 h ?_ ⟨?_, ?_⟩
      · intro a hat m hm
        simp only [setTarget] at hm
        split at hm
        · simpa using hm.symm
        · exact hother a hat m hm
      · intro a
        simp only [setTarget, List.mem_cons]
        split
        · simp [*]
        · rename_i hne; simp only [hne, false_or]; exact ha.1 a
      · intro a m hm
        have hl : (setTarget s e (some n)).lists = s.lists := rfl
        rw [hl]
        simp only [setTarget]
        split
        · rename_i heq; subst heq
          rw [← ha.2 a m hm]
          constructor
          · intro h1; simp only [Option.some.injEq] at h1; exact absurd h1.symm hm
          · intro h1; exact absurd (hother a het m h1) hm
        · exact ha.2 a m hm
    | didMove p x o => simp only [Callbacks.bagAll, Callbacks.bag] at h; exact ih _ _ hk2 h hother ha
    | didChange => simp only [Callbacks.bagAll, Callbacks.bag] at h; exact ih _ _ hk2 h hother ha
    | _ => exact absurd hk1 id

theorem removes_att (n : Nat) (cs : List (CB Nat)) (s : St) (b t : List Nat) (hk : ∀ c ∈ cs, EMap.removeKind c)
    (h : Callbacks.bagAll b cs = some t) (hnd : b.Nodup) (ha : Att s n b) :
    Att (cs.foldl (callback n) s) n t := by
  induction cs generalizing s b with
  | nil => simp only [Callbacks.bagAll, Option.some.injEq] at h; subst h; exact ha
  | cons c cs ih =>
    have hk2 := fun c' hc' => hk c' (List.mem_cons_of_mem _ hc')
    have hk1 := hk c List.mem_cons_self
    cases c with
    | didRemove i o =>
      simp only [Callbacks.bagAll, Callbacks.bag] at h
      by_cases ho : o ∈ b
      · rw [if_pos ho] at h
        simp only [List.foldl_cons]
        have ht : s.target o = some n := (ha.1 o).2 ho
        have hl := callback_lists n s (.didRemove i o)
        have htg : (callback n s (.didRemove i o)).target = fun x => if x = o then none else s.target x := by
          simp only [callback, unSetTarget]
          cases s.deliver n <;> simp [ht, setTarget]
        refine ih _ _ hk2 h (hnd.erase o) ⟨?_, ?_⟩
        · intro a
          rw [htg, hnd.mem_erase_iff]
          simp only
          split
          · rename_i he; simp [he]
          · rename_i he; rw [ha.1 a]; exact ⟨fun h => ⟨he, h⟩, fun h => h.2⟩
        · intro a m hm
          rw [htg, hl]
          simp only
          split
          · rename_i he; subst he
            rw [← ha.2 a m hm, ht]
            simp [Ne.symm hm]
          · exact ha.2 a m hm
      · simp [ho] at h
    | didChange => simp only [Callbacks.bagAll, Callbacks.bag] at h; exact ih _ _ hk2 h hnd ha
    | _ => exact absurd hk1 id

theorem astep_attached (s : St) (n : Nat) (op : Op Nat) (h : Attached s) (hok : okCall s n op) :
    Attached (astep s n op) := by
  obtain ⟨hop, hmove, hnd, hoth⟩ := hok
  obtain ⟨t, ht, hp⟩ := step_bag ⟨false, .snapshot⟩ (s.lists n) op hmove
  have hlists : (astep s n op).lists = fun m => if m = n then (step ⟨false, .snapshot⟩ (s.lists n) op).data
      else s.lists m := by simp only [astep, callbacks_lists]
  have h0 : Att (St.mk (fun m => if m = n then (step ⟨false, .snapshot⟩ (s.lists n) op).data else s.lists m)
      s.target s.deliver s.removing) n (s.lists n) := by
    refine ⟨fun a => h.iff a n, ?_⟩
    intro a m hm
    simp only [hm, if_false]; exact h.iff a m
  have hatt : Att (astep s n op) n t := by
    rcases EMap.step_kind ⟨false, .snapshot⟩ (s.lists n) op with hk | hk | ⟨i, e, o, j, _, hk⟩ | ⟨l, _, hk⟩
    · refine adds_att n _ _ _ _ hk ht ?_ h0
      intro a hat m hm
      rcases hoth a (hp.mem_iff.1 hat) with h1 | h1
      · simp only [h1, reduceCtorEq] at hm
      · simp only [h1, Option.some.injEq] at hm; exact hm.symm
    · exact removes_att n _ _ _ _ hk ht (h.once n) h0
    · subst hk; exact absurd hop id
    · subst hk; exact absurd hop id
  refine ⟨?_, ?_⟩
  · intro a m
    rw [hlists]
    by_cases hm : m = n
    · subst hm; simp only [if_true]; rw [hatt.1 a, hp.mem_iff]
    · have := hatt.2 a m hm
      rw [hlists] at this; exact this
  · intro m
    rw [hlists]
    by_cases hm : m = n
    · simp only [hm, if_true]; exact hnd
    · simp only [hm, if_false]; exact h.once m

/-- Every call of the history is acceptable. -/
def AllOk (s : St) : List (Nat × Op Nat) → Prop
  | [] => True
  | (n, op) :: ops => okCall s n op ∧ AllOk (astep s n op) ops

instance decAllOk : (s : St) → (ops : List (Nat × Op Nat)) → Decidable (AllOk s ops)
  | _, [] => isTrue trivial
  | s, (n, op) :: ops =>
    have := decAllOk (astep s n op) ops
    inferInstanceAs (Decidable (_ ∧ _))

theorem notify_stable (l : List Nat) (k fuel : Nat) (h : l.length - k ≤ fuel) :
    notifyLoop (fun _ l => l) fuel l ⟨k⟩ = l.drop k := by
  induction fuel generalizing k with
  | zero =>
    have : l.length ≤ k := by omega
    simp [notifyLoop, List.drop_eq_nil_of_le this]
  | succ f ih =>
    simp only [notifyLoop, Iter.hasNext, decide_eq_true_eq]
    split
    · rename_i hlt
      have hg : EList.get l k = .val l[k] := by
        simp only [EList.get, goIndex]
        rw [if_neg (by omega), if_pos (by omega)]
        simp [hlt]
      simp only [Iter.next]
      rw [if_neg (by omega)]
      simp only [hg]
      rw [ih (k + 1) (by omega), List.drop_eq_getElem_cons hlt]
    · rename_i hge
      rw [List.drop_eq_nil_of_le (by omega)]

/-- The elements told to be removed. -/
def removedOf : List (CB Nat) → List Nat
  | [] => []
  | .didRemove _ o :: cs => o :: removedOf cs
  | _ :: cs => removedOf cs

theorem removes_removing (n : Nat) (cs : List (CB Nat)) (hk : ∀ c ∈ cs, EMap.removeKind c) : ∀ (s : St) (b t : List Nat),
    Callbacks.bagAll b cs = some t →
      b.Perm (removedOf cs ++ t) ∧
      (cs.foldl (callback n) s).removing = s.removing ++ (if s.deliver n then (removedOf cs).map (·, n) else []) ∧
      ∀ a m, m ≠ n → s.target a = some m → (cs.foldl (callback n) s).target a = some m := by
  induction cs with
  | nil => intro s b t h; simp only [Callbacks.bagAll, Option.some.injEq] at h; subst h; simp [removedOf]
  | cons c cs ih =>
    intro s b t h
    have hk2 := fun c' hc' => hk c' (List.mem_cons_of_mem _ hc')
    have hk1 := hk c List.mem_cons_self
    cases c with
    | didRemove i o =>
      simp only [Callbacks.bagAll, Callbacks.bag] at h
      by_cases ho : o ∈ b
      · rw [if_pos ho] at h
        obtain ⟨h1, h2, h3⟩ := ih hk2 (callback n s (.didRemove i o)) _ _ h
        have hd : (callback n s (.didRemove i o)).deliver = s.deliver := by
          simp only [callback, unSetTarget, setTarget]; repeat' split
          all_goals rfl
        have hr : (callback n s (.didRemove i o)).removing = s.removing ++ (if s.deliver n then [(o, n)] else []) := by
          simp only [callback, unSetTarget, setTarget]; repeat' split
          all_goals simp
        refine ⟨(List.perm_cons_erase ho).trans (h1.cons o), ?_, ?_⟩
        · rw [List.foldl_cons, h2, hd, hr]
          cases s.deliver n <;> simp [removedOf]
        · intro a m hm ha
          rw [List.foldl_cons]
          apply h3 a m hm
          simp only [callback, unSetTarget, setTarget]
          repeat' split
          all_goals first | exact ha | skip
          all_goals
            rename_i hx
            dsimp only
            split
            · subst_vars; simp_all
            · exact ha
      · simp [ho] at h
    | didChange => simp only [Callbacks.bagAll, Callbacks.bag] at h; exact ih hk2 _ _ _ h
    | _ => exact absurd hk1 id

end Verif.Adapters

namespace Verif.Props
open Verif.EList Verif.Adapters

/-- **C46** (partial: no Set, no Clear, no adapter attached twice). After any sequence of calls on the adapter
lists of any number of notifiers, an adapter's target is a notifier exactly when it is in its adapter list. -/
theorem C46_targets_partial (deliver : Nat → Bool) (ops : List (Nat × Op Nat))
    (hok : Adapters.AllOk (Adapters.init deliver) ops) (a n : Nat) :
    (arun (Adapters.init deliver) ops).target a = some n ↔ a ∈ (arun (Adapters.init deliver) ops).lists n := by
  have key : ∀ (ops : List (Nat × Op Nat)) (s : Adapters.St), Attached s → Adapters.AllOk s ops →
      Attached (arun s ops) := by
    intro ops
    induction ops with
    | nil => intro s h _; exact h
    | cons op ops ih => intro s h hok; exact ih _ (astep_attached s op.1 op.2 h hok.1) hok.2
  exact (key ops _ ⟨by simp [Adapters.init], by simp [Adapters.init]⟩ hok).iff a n

/-- Non-vacuity of C46: three adapters on two notifiers. -/
example :
    let ops : List (Nat × Op Nat) := [(0, .addAll [1, 2]), (1, .insert 0 3), (0, .remove 1), (1, .add 1),
      (1, .move [] 0 1), (1, .removeAll [3])]
    Adapters.AllOk (Adapters.init fun _ => true) ops ∧
    (arun (Adapters.init fun _ => true) ops).lists 1 = [1] ∧
    (arun (Adapters.init fun _ => true) ops).target 1 = some 1 ∧
    (arun (Adapters.init fun _ => true) ops).target 3 = none ∧
    (arun (Adapters.init fun _ => true) ops).removing = [(1, 0), (3, 1)] := by
  decide

/-- **C46**, removals: the adapters which a removal takes from the list of `n` receive one REMOVING_ADAPTER notification each if `n` delivers
and none otherwise, and no adapter which has another notifier as target loses it. -/
theorem C46_removals (s : Adapters.St) (n : Nat) (op : Op Nat)
    (hop : (∃ a, op = .remove a) ∨ (∃ i, op = .removeAt i) ∨ (∃ l, op = .removeAll l) ∨ ∃ i j, op = .removeRange i j) :
    ∃ removed, (s.lists n).Perm (removed ++ (astep s n op).lists n) ∧
      (astep s n op).removing = s.removing ++ (if s.deliver n then removed.map (·, n) else []) ∧
      ∀ a m, m ≠ n → s.target a = some m → (astep s n op).target a = some m := by
  have hmove : ¬ Verif.Spec.Seq.movesPastEnd (s.lists n) op := by
    rcases hop with ⟨_, rfl⟩ | ⟨_, rfl⟩ | ⟨_, rfl⟩ | ⟨_, _, rfl⟩ <;> exact id
  obtain ⟨t, ht, hp⟩ := step_bag ⟨false, .snapshot⟩ (s.lists n) op hmove
  have hk : ∀ c ∈ (step ⟨false, .snapshot⟩ (s.lists n) op).trace, EMap.removeKind c := by
    rcases hop with ⟨e, rfl⟩ | ⟨i, rfl⟩ | ⟨l, rfl⟩ | ⟨i, j, rfl⟩ <;> exact EMap.removal_kind _ _ _ trivial
  obtain ⟨h1, h2, h3⟩ := removes_removing n _ hk
    { s with lists := fun m => if m = n then (step ⟨false, .snapshot⟩ (s.lists n) op).data else s.lists m } _ _ ht
  refine ⟨_, ?_, h2, h3⟩
  have hlists : (astep s n op).lists n = (step ⟨false, .snapshot⟩ (s.lists n) op).data := by simp only [astep, callbacks_lists]; simp
  rw [hlists]
  exact h1.trans (hp.append_left _)

/-- **C46**, delivery: when no adapter changes the adapter list during the delivery, a notification is delivered once to
each entry of the adapter list, in order, if the notifier delivers, and to nobody otherwise. -/
theorem C46_delivery (s : Adapters.St) (n fuel : Nat) (hf : (s.lists n).length ≤ fuel) :
    eNotify (fun _ l => l) fuel s n = if s.deliver n then s.lists n else [] := by
  simp only [eNotify]
  split
  · rw [iterator, notify_stable _ 0 fuel (by omega)]; simp
  · rfl

/-- Two adapters are taken from a list of three, of two notifiers one delivers; then a notification reaches who is left. -/
example :
    let s := arun (Adapters.init fun n => n = 0) [(0, .addAll [7, 8, 9]), (1, .addAll [4, 5])]
    ((astep s 0 (.removeRange 0 2)).lists 0 = [9] ∧ (astep s 0 (.removeRange 0 2)).removing.Perm [(7, 0), (8, 0)] ∧
      (astep s 0 (.removeRange 0 2)).target 4 = some 1) ∧
    (astep s 1 (.remove 4)).removing = [] ∧ (astep s 1 (.remove 4)).target 7 = some 0 ∧
    eNotify (fun _ l => l) 3 s 0 = [7, 8, 9] ∧ eNotify (fun _ l => l) 3 s 1 = [] := by decide

/-- **C46 violated (1)**: after `Clear` of the adapter list the adapter still has its target. -/
theorem C46_clear_violated :
    let s := arun (Adapters.init fun _ => true) [(0, .add 7), (0, .clear)]
    s.lists 0 = [] ∧ s.target 7 = some 0 ∧ s.removing = [] := by decide

/-- **C46 violated (2)**: `Set` gives no target to the new adapter and leaves the one of the old adapter. -/
theorem C46_set_violated :
    let s := arun (Adapters.init fun _ => true) [(0, .add 7), (0, .set 0 8)]
    s.lists 0 = [8] ∧ s.target 8 = none ∧ s.target 7 = some 0 := by decide

/-- **C46 violated (3)**: an adapter added twice and removed once is still attached but has no target. -/
theorem C46_twice_violated :
    let s := arun (Adapters.init fun _ => true) [(0, .add 7), (0, .add 7), (0, .remove 7)]
    s.lists 0 = [7] ∧ s.target 7 = none := by decide

/-- **C46 violated (4)**: an adapter which removes itself when notified hides the notification from its successor. -/
theorem C46_self_removal_violated :
    let s := arun (Adapters.init fun _ => true) [(0, .addAll [7, 8, 9])]
    eNotify (fun a l => if a = 7 then l.erase 7 else l) 10 s 0 = [7, 9] := by decide

end Verif.Props
