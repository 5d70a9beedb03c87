import Verif.Proofs.Notify
/-
Properties C06-C08: notifications are enough to mirror a list, merging, chains.
-/
namespace Verif.Props
open Verif.EList Verif.Notify Verif.Spec

variable {α : Type} [DecidableEq α] [Inhabited α]

/-- No call of the sequence is a move past the end of the list (in the state in which it is made). -/
def NoPastEnd (c : NCfg) (s : List α) : List (NOp α) → Prop
  | [] => True
  | op :: ops => ¬ pastEnd s op ∧ NoPastEnd c (nstep c s op).1.data ops

/-- **C06** (partial: moves past the end excluded, see C03). Whatever calls are made on a listened list,
replaying the dispatched notifications on a copy of the initial contents succeeds (every notification
has valid positions and correct old values) and yields the final contents. -/
theorem C06_replay_partial (c : NCfg) (hr : c.required = true) (s : List α) (ops : List (NOp α))
    (hok : NoPastEnd c s ops) :
    Replay.applyAll s (nrun c s ops).2 = some (nrun c s ops).1 := by
  induction ops generalizing s with
  | nil => rfl
  | cons op ops ih =>
    obtain ⟨h1, h2⟩ := hok
    simp only [nrun]
    rw [applyAll_append, nstep_replay c hr s op h1]
    exact ih _ h2

/-- **C06** a call which panics or which refuses the change dispatches nothing, and when nothing is required to be notified nothing is
dispatched: the notifications of a call that leaves the list unchanged leave the copy unchanged. -/
theorem C06_unchanged (c : NCfg) (hr : c.required = true) (s : List α) (op : NOp α) (hok : ¬ pastEnd s op)
    (h : (nstep c s op).1.data = s) : Replay.applyAll s (nstep c s op).2 = some s := by
  rw [nstep_replay c hr s op hok, h]

/-- **C06** a list nobody listens to dispatches nothing. -/
theorem C06_silent (c : NCfg) (hr : c.required = false) (s : List α) (op : NOp α) : (nstep c s op).2 = [] := by
  have he : ∀ (e : Event) (o n : Payload α) (p : Int), emit c e o n p = [] := by intro e o n p; simp [emit, hr]
  cases op with
  | op o =>
    cases o <;> simp only [nstep] <;> (repeat' split) <;>
      simp only [nDoAdd, nDoAddAll, nDoInsert, nDoInsertAll, nDoMove, nDoRemove, nDoRemoveRange, nRemoveAll, nDoSet, nDoClear,
        Notify.returning, Res.andEmit, he] <;>
      (repeat' split) <;> rfl
  | _ => simp only [nstep] <;> (repeat' split) <;> simp only [Res.andEmit, he] <;> (repeat' split) <;> rfl

/-- **C06 violated** for a move past the end with spare capacity: the contents change (and the call panics)
without any notification. -/
theorem C06_move_past_end_violated :
    let c : NCfg := ⟨⟨true, .snapshot⟩, 0, 0, true⟩
    let s : List Nat := [1, 2, 3]
    let r := nstep c s (.op (.move [7] 0 3))
    r.2 = [] ∧ r.1.data = [2, 3, 7] := by decide

example :
    let c : NCfg := ⟨⟨true, .snapshot⟩, 4, 2, true⟩
    let ops : List (NOp Nat) := [.op (.addAll [1, 2, 3]), .op (.removeAll [1, 3, 9]), .op (.insert 0 7),
      .op (.move [] 0 1), .op (.set 0 5), .addWN 8, .op (.removeRange 0 2), .op .clear]
    (nrun c [] ops).1 = [] ∧
    (nrun c [] ops).2.map (·.event) = [.addMany, .removeMany, .add, .move, .set, .add, .removeMany, .remove] ∧
    Replay.applyAll [] (nrun c [] ops).2 = some [] := by decide

/-! ### C07 -/

/-- A plain notification of the removal of one element. -/
def isRemoval (n : Notif α) (x : α) : Prop := n.event = .remove ∧ n.old = .elem x ∧ n.new = .nil

omit [Inhabited α] in
/-- **C07** (removal of one element merged with the removal of another one). If the first notification
describes the change from `s` to `s'` and the second one the change from `s'` to `s''`, the merged one describes the change from
`s` to `s''`: original positions in increasing order with the removed values. -/
theorem C07_merge_two_removals (s s' s'' : List α) (n m : Notif α) (x y : α) (hn : isRemoval n x)
    (hm : isRemoval m y) (hf : n.notifier = m.notifier ∧ n.featureID = m.featureID)
    (h1 : Replay.apply s n = some s') (h2 : Replay.apply s' m = some s'') :
    ∃ nm, merge n m = some (some nm) ∧ nm.event = .removeMany ∧ Replay.apply s nm = some s'' := by
  obtain ⟨hn1, hn2, hn3⟩ := hn
  obtain ⟨hm1, hm2, hm3⟩ := hm
  simp only [Replay.apply, hn1, hn2, hn3] at h1
  simp only [Replay.apply, hm1, hm2, hm3] at h2
  split at h1
  · rename_i c1
    split at h2
    · rename_i c2
      simp only [Option.some.injEq] at h1 h2
      subst h1
      simp only [merge, hn1, hm1, sameFeature, hf, and_self, if_true]
      split
      · rename_i hle
        refine ⟨_, rfl, rfl, ?_⟩
        have hx := c2.2
        rw [List.getElem?_eraseIdx, if_neg (by omega)] at hx
        have e : (m.position + 1).toNat = m.position.toNat + 1 := by omega
        simp only [Replay.apply, hn2, hm2, pairOf, Replay.removeAt]
        rw [if_pos ⟨by omega, by rw [e]; exact hx, by simp⟩]
        simp only
        rw [if_pos ⟨c1.1, c1.2, by simp; omega⟩, e, eraseIdx_comm_aux _ _ _ (by omega), h2]
      · rename_i hle
        refine ⟨_, rfl, rfl, ?_⟩
        have hx := c2.2
        rw [List.getElem?_eraseIdx, if_pos (by omega)] at hx
        simp only [Replay.apply, hn2, hm2, pairOf, Replay.removeAt]
        rw [if_pos ⟨c1.1, c1.2, by simp⟩]
        simp only
        rw [if_pos ⟨c2.1, hx, by simp; omega⟩, h2]
    · simp at h2
  · simp at h1

omit [Inhabited α] in
/-- **C07** (partial: a further removal is merged correctly when the removed element lies behind all the
elements already recorded as removed; `n.position` keeps the smallest position). -/
theorem C07_merge_many_removals_partial (s s' s'' : List α) (n m : Notif α) (ps : List Int) (xs : List α)
    (y : α) (hn : n.event = .removeMany ∧ n.old = .elems xs ∧ n.new = .ints ps) (hm : isRemoval m y)
    (hf : n.notifier = m.notifier ∧ n.featureID = m.featureID)
    (h1 : Replay.apply s n = some s') (h2 : Replay.apply s' m = some s'')
    (hbehind : ∀ p ∈ ps, p < m.position + ps.length) :
    ∃ nm, merge n m = some (some nm) ∧ nm.event = .removeMany ∧ Replay.apply s nm = some s'' := by
  obtain ⟨hn1, hn2, hn3⟩ := hn
  obtain ⟨hm1, hm2, hm3⟩ := hm
  simp only [Replay.apply, hn1, hn2, hn3] at h1
  simp only [Replay.apply, hm1, hm2, hm3] at h2
  split at h2
  · rename_i c2
    simp only [Option.some.injEq] at h2
    have hsh := shiftLoop_all ps xs s s' h1 0 m.position hbehind
    have hlen := removeAt_length ps xs s s' h1
    have ht : tailLoop ps (ps.length + 1) = [] := by unfold tailLoop; simp
    simp only [merge, hn1, hm1, sameFeature, hf, and_self, if_true, hn2, hn3, hm2, hsh, Nat.zero_add]
    refine ⟨_, rfl, rfl, ?_⟩
    simp only [Replay.apply, ht, List.take_length]
    rw [← hlen, List.take_length, List.drop_length, hlen]
    have := removeAt_snoc ps xs s s' m.position y h1 c2.1 c2.2 hbehind
    rw [this, h2]
  · simp at h2

/-- Two removals, the second one before the first one, and both told by one notification. -/
example :
    let n : Notif Nat := ⟨some 0, 3, .remove, .elem 12, .nil, 2⟩
    let m : Notif Nat := ⟨some 0, 3, .remove, .elem 10, .nil, 0⟩
    Replay.apply [10, 11, 12, 13] n = some [10, 11, 13] ∧ Replay.apply [10, 11, 13] m = some [11, 13] ∧
    (merge n m).map (Option.map fun nm => (nm.event, Replay.apply [10, 11, 12, 13] nm)) = some (some (.removeMany, some [11, 13])) := by decide

/-- **C07 violated**: removing the elements of [10,11,12] from the last to the first (positions 2, 1, 0) and merging the three
notifications yields three removed values but only two positions. -/
theorem C07_third_removal_violated :
    let r (x : Nat) (p : Int) : Notif Nat := ⟨some 0, 0, .remove, .elem x, .nil, p⟩
    ∃ nm nm', merge (r 12 2) (r 11 1) = some (some nm) ∧ merge nm (r 10 0) = some (some nm') ∧
      Replay.applyAll [10, 11, 12] [r 12 2, r 11 1, r 10 0] = some [] ∧
      nm'.old = .elems [10, 11, 12] ∧ nm'.new = .ints [0, 1] ∧
      Replay.apply [10, 11, 12] nm' = none := by
  refine ⟨⟨some 0, 0, .removeMany, .elems [11, 12], .ints [1, 2], 1⟩,
    ⟨some 0, 0, .removeMany, .elems [10, 11, 12], .ints [0, 1], 1⟩, by decide, ?_, by decide, rfl, rfl, by decide⟩
  simp [merge, sameFeature, shiftLoop, tailLoop]

/-- **C07** SET/UNSET of a single valued feature: the merged notification has the first old value and the
last new value, i.e. it describes the combined change; it is a SET unless both are UNSET. -/
theorem C07_merge_set (v v' v'' : Payload α) (n m : Notif α)
    (hf : n.notifier = m.notifier ∧ n.featureID = m.featureID)
    (h1 : Replay.applySingle v n = some v') (h2 : Replay.applySingle v' m = some v'') :
    ∃ nm, merge n m = some (some nm) ∧ nm.old = n.old ∧ nm.new = m.new ∧
      Replay.applySingle v nm = some v'' ∧
      (nm.event = .unset ↔ n.event = .unset ∧ m.event = .unset) := by
  obtain ⟨nn, nf, ne, no, nw, np⟩ := n
  obtain ⟨mn, mf, me, mo, mw, mp⟩ := m
  cases ne <;> cases me <;> simp_all [Replay.applySingle, merge, sameFeature]

/-- A value that is set and unset then. -/
example :
    let n : Notif Nat := ⟨some 0, 3, .set, .elem 1, .elem 2, -1⟩
    let m : Notif Nat := ⟨some 0, 3, .unset, .elem 2, .elem 0, -1⟩
    Replay.applySingle (.elem 1) n = some (.elem 2) ∧ Replay.applySingle (.elem 2) m = some (.elem 0) ∧
    (merge n m).map (Option.map fun nm => (nm.event, nm.old, nm.new)) = some (some (.set, .elem 1, .elem 0)) := by decide

/-- **C07 violated**: two SET notifications at different positions of the same list are merged into one, which
describes neither change. -/
theorem C07_list_set_violated :
    let st (o x : Nat) (p : Int) : Notif Nat := ⟨some 0, 0, .set, .elem o, .elem x, p⟩
    ∃ nm, merge (st 1 7 0) (st 2 8 1) = some (some nm) ∧
      Replay.applyAll [1, 2] [st 1 7 0, st 2 8 1] = some [7, 8] ∧
      Replay.apply [1, 2] nm = some [8, 2] := by
  exact ⟨⟨some 0, 0, .set, .elem 1, .elem 8, 0⟩, by decide, by decide, by decide⟩

/-- **C07 violated**: a removal is merged into an earlier one although an addition to the same list lies
between them, so that the dispatched notifications no longer describe the change. -/
theorem C07_across_addition_violated :
    let r (x : Nat) (p : Int) : Notif Nat := ⟨some 0, 0, .remove, .elem x, .nil, p⟩
    let a (x : Nat) (p : Int) : Notif Nat := ⟨some 0, 0, .add, .nil, .elem x, p⟩
    Replay.applyAll [1, 2] [r 1 0, a 5 0, r 5 0] = some [2] ∧
    ∃ c c' c'', chainAdd [] (some (r 1 0)) = some (c, true) ∧ chainAdd c (some (a 5 0)) = some (c', true) ∧
      chainAdd c' (some (r 5 0)) = some (c'', false) ∧
      Replay.applyAll [1, 2] (chainDispatch c'') = none := by
  refine ⟨by decide, _, _, _, by rfl, by rfl, by rfl, by decide⟩

example : ∃ nm, merge (α := Nat) ⟨some 0, 0, .removeMany, .elems [10, 11], .ints [0, 1], 0⟩
    ⟨some 0, 0, .remove, .elem 13, .nil, 1⟩ = some (some nm) ∧ nm.new = .ints [0, 1, 3] := by
  refine ⟨⟨some 0, 0, .removeMany, .elems [10, 11, 13], .ints [0, 1, 3], 0⟩, ?_, rfl⟩
  simp [merge, sameFeature, shiftLoop, tailLoop]

/-! ### C08 -/

/-- Add a sequence of notifications to a chain; `none` if `Merge` panics. -/
def addAllTo (chain : List (Notif α)) : List (Option (Notif α)) → Option (List (Notif α))
  | [] => some chain
  | o :: os =>
    match chainAdd chain o with
    | none => none
    | some (c, _) => addAllTo c os

/-- The notification obtained by letting the first one of a group absorb the others in order. -/
def mergedGroup : List (Notif α) → Option (Notif α)
  | [] => none
  | n :: os => os.foldl (fun acc o => acc.bind fun n => (merge n o).bind id) (some n)

omit [DecidableEq α] [Inhabited α] in
theorem mergedGroup_snoc (g : List (Notif α)) (n o n' : Notif α) (hg : mergedGroup g = some n)
    (hm : merge n o = some (some n')) : mergedGroup (g ++ [o]) = some n' := by
  cases g with
  | nil => simp [mergedGroup] at hg
  | cons a as =>
    simp only [mergedGroup] at hg
    simp only [List.cons_append, mergedGroup, List.foldl_append, hg, List.foldl_cons, List.foldl_nil,
      Option.bind_some, hm]
    rfl

/-- `groups` distributes the notifications `ns`: every one is in exactly one group at exactly one place, groups are ordered by
their first notification, and inside a group the order is that of `ns`. -/
def Distributes (ns : List (Notif α)) (groups : List (List (Notif α))) : Prop :=
  groups.flatten.Perm ns ∧ (groups.filterMap List.head?).Sublist ns ∧ ∀ g ∈ groups, g ≠ [] ∧ g.Sublist ns

omit [DecidableEq α] [Inhabited α] in
theorem addAllTo_groups (ns : List (Notif α)) (os : List (Option (Notif α))) (chain c : List (Notif α))
    (groups : List (List (Notif α))) (hd : Distributes ns groups)
    (hg : groups.map mergedGroup = chain.map some) (h : addAllTo chain os = some c) :
    ∃ groups', Distributes (ns ++ os.filterMap id) groups' ∧ groups'.map mergedGroup = c.map some := by
  induction os generalizing ns chain groups with
  | nil =>
    simp only [addAllTo, Option.some.injEq] at h
    subst h
    exact ⟨groups, by simpa using hd, hg⟩
  | cons o os ih =>
    cases o with
    | none =>
      simp only [addAllTo, chainAdd] at h
      simpa using ih ns chain groups hd hg h
    | some o =>
      simp only [addAllTo, chainAdd] at h
      split at h
      · simp at h
      · rename_i c1 b hc1
        have e : ns ++ (some o :: os).filterMap id = (ns ++ [o]) ++ os.filterMap id := by simp
        rw [e]
        obtain ⟨d1, d2, d3⟩ := hd
        split at hc1
        · simp at hc1
        · rename_i c2 hm
          simp only [Option.some.injEq, Prod.mk.injEq] at hc1
          obtain ⟨rfl, rfl⟩ := hc1
          obtain ⟨a, n, b, n', e1, e2, e3, e4⟩ := mergeInto_true _ _ _ hm
          subst e1 e2
          rw [List.map_append, List.map_eq_append_iff] at hg
          obtain ⟨ga, gb', rfl, hga, hgb'⟩ := hg
          rw [List.map_cons, List.map_eq_cons_iff] at hgb'
          obtain ⟨g, gb, rfl, hgn, hgb⟩ := hgb'
          refine ih (ns ++ [o]) _ (ga ++ (g ++ [o]) :: gb) ⟨?_, ?_, ?_⟩ ?_ h
          · simp only [List.flatten_append, List.flatten_cons] at d1 ⊢
            have p1 : (ga.flatten ++ (g ++ [o] ++ gb.flatten)).Perm (ga.flatten ++ (g ++ gb.flatten) ++ [o]) := by
              rw [List.append_assoc, List.append_assoc]
              refine List.Perm.append_left _ ?_
              rw [List.append_assoc]
              exact List.Perm.append_left _ List.perm_append_comm
            exact p1.trans (d1.append_right [o])
          · have hne : g ≠ [] := (d3 g (by simp)).1
            have : (g ++ [o]).head? = g.head? := by cases g <;> simp_all
            simp only [List.filterMap_append, List.filterMap_cons, this] at d2 ⊢
            exact d2.trans (List.sublist_append_left _ _)
          · intro g' hg'
            simp only [List.mem_append, List.mem_cons] at hg'
            rcases hg' with h' | h' | h'
            · exact ⟨(d3 g' (by simp [h'])).1, (d3 g' (by simp [h'])).2.trans (List.sublist_append_left _ _)⟩
            · subst h'
              exact ⟨by simp, (d3 g (by simp)).2.append (List.Sublist.refl _)⟩
            · exact ⟨(d3 g' (by simp [h'])).1, (d3 g' (by simp [h'])).2.trans (List.sublist_append_left _ _)⟩
          · simp only [List.map_append, List.map_cons, hga, hgb, mergedGroup_snoc g n o n' hgn e3]
        · rename_i c2 hm
          simp only [Option.some.injEq, Prod.mk.injEq] at hc1
          obtain ⟨rfl, rfl⟩ := hc1
          obtain ⟨rfl, e2⟩ := mergeInto_false _ _ _ hm
          refine ih (ns ++ [o]) _ (groups ++ [[o]]) ⟨?_, ?_, ?_⟩ ?_ h
          · simp only [List.flatten_append, List.flatten_cons, List.flatten_nil, List.append_nil]
            exact d1.append_right [o]
          · simp only [List.filterMap_append, List.filterMap_cons, List.head?_cons, List.filterMap_nil]
            exact d2.append (List.Sublist.refl _)
          · intro g' hg'
            simp only [List.mem_append, List.mem_singleton] at hg'
            rcases hg' with h' | h'
            · exact ⟨(d3 g' h').1, (d3 g' h').2.trans (List.sublist_append_left _ _)⟩
            · subst h'; exact ⟨by simp, List.sublist_append_right _ _⟩
          · simp [hg, mergedGroup]

/-- The notification has a notifier and an event type, so that it is delivered. -/
def deliverable (n : Notif α) : Prop := n.notifier ≠ none ∧ n.event ≠ .none

omit [DecidableEq α] [Inhabited α] in
theorem merge_deliverable (n o n' : Notif α) (h : merge n o = some (some n')) (hn : deliverable n) :
    deliverable n' := by
  obtain ⟨nn, nf, ne, no, nw, np⟩ := n
  obtain ⟨mn, mf, me, mo, mw, mp⟩ := o
  obtain ⟨h1, h2⟩ := hn
  simp only at h1 h2
  unfold merge at h
  cases ne <;> cases me <;> simp only [reduceCtorEq] at h <;> (repeat' split at h) <;>
    first
    | (simp only [reduceCtorEq] at h; done)
    | (simp at h; done)
    | (simp only [Option.some.injEq] at h; subst h; exact ⟨h1, by simp⟩)

omit [DecidableEq α] [Inhabited α] in
theorem addAllTo_deliverable (os : List (Option (Notif α))) (chain c : List (Notif α))
    (hc : ∀ n ∈ chain, deliverable n) (ho : ∀ n ∈ os.filterMap id, deliverable n)
    (h : addAllTo chain os = some c) : ∀ n ∈ c, deliverable n := by
  induction os generalizing chain with
  | nil => simp only [addAllTo, Option.some.injEq] at h; subst h; exact hc
  | cons o os ih =>
    cases o with
    | none =>
      simp only [addAllTo, chainAdd] at h
      exact ih chain hc (by simpa using ho) h
    | some o =>
      have ho1 : deliverable o := ho o (by simp)
      have ho2 : ∀ n ∈ os.filterMap id, deliverable n := fun n hn => ho n (by
        simp only [List.filterMap_cons, id]; exact List.mem_cons_of_mem _ hn)
      simp only [addAllTo, chainAdd] at h
      split at h
      · simp at h
      · rename_i c1 b hc1
        refine ih c1 ?_ ho2 h
        split at hc1
        · simp at hc1
        · rename_i c2 hm
          simp only [Option.some.injEq, Prod.mk.injEq] at hc1
          obtain ⟨rfl, rfl⟩ := hc1
          obtain ⟨a, n, b, n', e1, e2, e3, e4⟩ := mergeInto_true _ _ _ hm
          subst e1 e2
          intro m hm
          rcases List.mem_append.1 hm with h' | h'
          · exact hc m (by simp [h'])
          · rcases List.mem_cons.1 h' with h' | h'
            · subst h'; exact merge_deliverable n o m e3 (hc n (by simp))
            · exact hc m (by simp [h'])
        · rename_i c2 hm
          simp only [Option.some.injEq, Prod.mk.injEq] at hc1
          obtain ⟨rfl, rfl⟩ := hc1
          obtain ⟨rfl, e2⟩ := mergeInto_false _ _ _ hm
          intro m hm
          rcases List.mem_append.1 hm with h' | h'
          · exact hc m h'
          · rw [List.mem_singleton.1 h']; exact ho1

omit [DecidableEq α] [Inhabited α] in
/-- **C08** Whatever notifications (nil ones included) are added to a new chain, dispatching it delivers exactly one
notification per group of a distribution of the added ones: each added one belongs to exactly one group, the groups are
delivered in the order of their first notification, and what is delivered for a group is its first notification having absorbed
the others in order. -/
theorem C08_chain (os : List (Option (Notif α))) (c : List (Notif α)) (h : addAllTo [] os = some c)
    (hd : ∀ n ∈ os.filterMap id, deliverable n) :
    ∃ groups, Distributes (os.filterMap id) groups ∧
      groups.map mergedGroup = (chainDispatch c).map some := by
  have hc : chainDispatch c = c := by
    simp only [chainDispatch]
    apply List.filter_eq_self.2
    intro n hn
    obtain ⟨a, b⟩ := addAllTo_deliverable os [] c (by simp) hd h n hn
    simp only [Bool.and_eq_true, bne_iff_ne, ne_eq]
    exact ⟨by cases h : n.notifier <;> simp_all, b⟩
  rw [hc]
  simpa using addAllTo_groups [] os [] c [] ⟨by simp, by simp, by simp⟩ rfl h

omit [DecidableEq α] [Inhabited α] in
/-- **C08** When no notification can absorb a later one, dispatching delivers exactly the added ones, in order. -/
theorem C08_chain_no_merge (os : List (Notif α)) (hm : ∀ n ∈ os, ∀ o ∈ os, merge n o = none)
    (hd : ∀ n ∈ os, n.notifier ≠ none ∧ n.event ≠ .none) :
    ∃ c, addAllTo [] (os.map some) = some c ∧ chainDispatch c = os := by
  have gen : ∀ (pre post : List (Notif α)), (∀ n ∈ pre ++ post, ∀ o ∈ pre ++ post, merge n o = none) →
      addAllTo pre (post.map some) = some (pre ++ post) := by
    intro pre post
    induction post generalizing pre with
    | nil => intro _; simp [addAllTo]
    | cons o post ih =>
      intro hm
      have h0 : ∀ l : List (Notif α), (∀ n ∈ l, merge n o = none) → mergeInto l o = some (l, false) := by
        intro l
        induction l with
        | nil => intro _; rfl
        | cons x xs ihx =>
          intro hx
          simp only [mergeInto, hx x (by simp), ihx (fun n hn => hx n (by simp [hn]))]
      simp only [List.map_cons, addAllTo, chainAdd, h0 pre (fun n hn => hm n (by simp [hn]) o (by simp))]
      rw [ih (pre ++ [o]) (by simpa using hm)]
      simp
  refine ⟨os, by simpa using gen [] os (by simpa using hm), ?_⟩
  simp only [chainDispatch]
  apply List.filter_eq_self.2
  intro n hn
  obtain ⟨a, b⟩ := hd n hn
  simp only [Bool.and_eq_true, bne_iff_ne, ne_eq]
  exact ⟨by cases h : n.notifier <;> simp_all, b⟩

/-- Additions and moves of two objects are told one by one. -/
example :
    let n : Notif Nat := ⟨some 0, 3, .add, .nil, .elem 2, 0⟩
    let m : Notif Nat := ⟨some 1, 3, .move, .ints [2], .elem 4, 0⟩
    (∀ x ∈ [n, m], ∀ y ∈ [n, m], merge x y = none) ∧ (addAllTo [] [some n, some m]).map chainDispatch = some [n, m] := by decide

omit [DecidableEq α] [Inhabited α] in
/-- **C08** A notification used as the head of a chain (linked by `next`) behaves as the chain list. -/
theorem C08_linked (n : Notif α) (next : List (Notif α)) (o : Notif α) :
    linkedAdd n next o = chainAdd (n :: next) (some o) := by
  induction next generalizing n with
  | nil =>
    rw [linkedAdd]
    simp only [chainAdd, mergeInto]
    cases merge n o with
    | none => rfl
    | some x => cases x <;> rfl
  | cons m ms ih =>
    rw [linkedAdd]
    simp only [ih m, chainAdd, mergeInto]
    cases hm : merge n o with
    | none =>
      simp only
      cases hm' : merge m o with
      | none =>
        simp only
        cases hi : mergeInto ms o with
        | none => rfl
        | some x => obtain ⟨c, b⟩ := x; cases b <;> rfl
      | some x => cases x <;> rfl
    | some x => cases x <;> rfl

example :
    let st (f : Int) (o x : Nat) : Notif Nat := ⟨some 0, f, .set, .elem o, .elem x, -1⟩
    addAllTo [] [some (st 1 0 5), none, some (st 2 0 6), some (st 1 5 7)] =
      some [st 1 0 7, st 2 0 6] := by decide

end Verif.Props
