import Verif.Proofs.SQLListErrors

/-!
# C108: A list call that the database refuses does nothing, and tells so
-/
set_option autoImplicit false
namespace Verif.SQLListErrors

/-- While the database works, the calls do and give back what they do and give back for lists in memory. -/
theorem C108_works_partial (ops : List Op) (op : Op) (h : ∀ p ∈ ops ++ [op], p.works) :
    (step (run init ops) op).2 = answer (listOf ops op.object []) op := by
  obtain ⟨h1, h2⟩ := run_works ops init ⟨rfl, rfl⟩ (fun p hp => h p (by simp [hp]))
  rw [(step_works _ h1 op (h op (by simp))).2, h2]
  rfl

def sample : List Op := [.add 1 0 7 false false, .addAll 1 [8, 9, 7] false [], .add 2 0 5 false false, .add 1 1 6 false false, .move 1 0 3 false false, .remove 1 1 false]

example : (∀ p ∈ sample, p.works) ∧ listOf sample 1 [] = [6, 9, 7, 7] ∧ (run init sample).list 1 = [6, 9, 7, 7] ∧ (run init sample).list 2 = [5] := by
  refine ⟨?_, by decide, by decide, by decide⟩
  intro p hp
  simp only [sample, List.mem_cons, List.not_mem_nil, or_false] at hp
  rcases hp with rfl | rfl | rfl | rfl | rfl | rfl <;> simp [Op.works]

/-- Whatever fails, in any state: the call changes the list of its object as it should or not at all, and no other list. -/
theorem C108_atomic_partial (s : State) (op : Op) (hn : ∀ o vs r ws, op ≠ .addAll o vs r ws) :
    ((step s op).1.list op.object = s.list op.object ∨ (step s op).1.list op.object = after (s.list op.object) op) ∧
      ∀ p, p ≠ op.object → (step s op).1.list p = s.list p := by
  cases op with
  | get o i r => exact ⟨Or.inl (by simp [step, doGet, read_list]), fun p _ => by simp [step, doGet, read_list]⟩
  | size o r => exact ⟨Or.inl (by simp [step, doSize, read_list]), fun p _ => by simp [step, doSize, read_list]⟩
  | isEmpty o r => exact ⟨Or.inl (by simp [step, doIsEmpty, read_list]), fun p _ => by simp [step, doIsEmpty, read_list]⟩
  | contains o v r => exact ⟨Or.inl (by simp [step, doContains, read_list]), fun p _ => by simp [step, doContains, read_list]⟩
  | indexOf o v r r' =>
    have : (step s (.indexOf o v r r')).1.list = s.list := by
      simp only [step, doIndexOf]
      split
      · exact read_list s r
      · split
        · exact read_list s r
        · exact (read_list _ r').trans (read_list s r)
    exact ⟨Or.inl (by rw [this]), fun p _ => by rw [this]⟩
  | add o i v r w =>
    simp only [step, doAdd, Op.object]
    split
    · rename_i hr
      rw [read_ok hr]
      split
      · rename_i hi
        simp only at hi ⊢
        split
        · rename_i hw
          rw [write_ok hw]
          exact ⟨Or.inr (by simp only [put_self, after, if_pos hi]; exact insertIdx_eq _ _ _ hi), fun p hp => put_other _ _ _ _ hp⟩
        · exact ⟨Or.inl (by simp [write_list]), fun p _ => by simp [write_list]⟩
      · exact ⟨Or.inl rfl, fun _ _ => rfl⟩
    · exact ⟨Or.inl (by simp [read_list]), fun p _ => by simp [read_list]⟩
  | addAll o vs r ws => exact absurd rfl (hn o vs r ws)
  | remove o i w =>
    simp only [step, doRemove, Op.object]
    split
    · rename_i hw
      rw [write_ok hw]
      exact ⟨Or.inr (by simp only [put_self, after]; exact List.eraseIdx_eq_take_drop_succ _ _), fun p hp => put_other _ _ _ _ hp⟩
    · exact ⟨Or.inl (by simp [write_list]), fun p _ => by simp [write_list]⟩
  | move o i j r w =>
    simp only [Op.object]
    by_cases hr : (read s r).2 = true
    · by_cases hc : (if i < j then j + 1 else j) ≤ (s.list o).length
      · by_cases hw : (write s w).2 = true
        · cases hv : (s.list o)[i]? with
          | none =>
            have e : (step s (.move o i j r w)).1 = s := by simp only [step, doMove, read_ok hr, if_pos hc, write_ok hw, hv, if_true]
            rw [e]; exact ⟨Or.inl rfl, fun _ _ => rfl⟩
          | some v =>
            have e : (step s (.move o i j r w)).1 = s.put o (((s.list o).eraseIdx i).insertIdx j v) := by
              simp only [step, doMove, read_ok hr, if_pos hc, write_ok hw, hv, if_true]
            have hil := (List.getElem?_eq_some_iff.1 hv).1
            have hj : j < (s.list o).length := by split at hc <;> omega
            have hm : j ≤ ((s.list o).eraseIdx i).length := by rw [List.length_eraseIdx]; split <;> omega
            rw [e]
            refine ⟨Or.inr ?_, fun p hp => put_other _ _ _ _ hp⟩
            simp only [put_self, after, hv, if_pos hj]
            rw [insertIdx_eq _ _ _ hm, List.eraseIdx_eq_take_drop_succ]
        · have e : (step s (.move o i j r w)).1 = (write s w).1 := by
            simp only [Bool.not_eq_true] at hw
            simp [step, doMove, read_ok hr, if_pos hc, hw]
          rw [e, write_list]; exact ⟨Or.inl rfl, fun _ _ => rfl⟩
      · have e : (step s (.move o i j r w)).1 = s := by simp only [step, doMove, read_ok hr, if_neg hc, if_true]
        rw [e]; exact ⟨Or.inl rfl, fun _ _ => rfl⟩
    · have e : (step s (.move o i j r w)).1 = (read s r).1 := by
        simp only [Bool.not_eq_true] at hr
        simp [step, doMove, hr]
      rw [e, read_list]; exact ⟨Or.inl rfl, fun _ _ => rfl⟩
  | clear o w =>
    simp only [step, doClear, Op.object]
    split
    · rename_i hw
      rw [write_ok hw]
      exact ⟨Or.inr (by simp [put_self, after]), fun p hp => put_other _ _ _ _ hp⟩
    · exact ⟨Or.inl (by simp [write_list]), fun p _ => by simp [write_list]⟩

example : (step (run init sample) (.move 1 0 2 false true)).1.list 1 = [6, 9, 7, 7] ∧ (step (run init sample) (.move 1 0 2 false false)).1.list 1 = [9, 7, 6, 7] := by decide

/-- `AddAll` at the end: the list is followed by some of the values, the first ones, in their order; no other list changes. -/
theorem C108_addAll_partial (s : State) (o : Nat) (vs : List Nat) (r : Bool) (ws : List Bool) :
    ∃ k ≤ vs.length, (step s (.addAll o vs r ws)).1.list o = s.list o ++ vs.take k ∧ ∀ p, p ≠ o → (step s (.addAll o vs r ws)).1.list p = s.list p := by
  simp only [step, doAddAll]
  split
  · rename_i hr
    rw [read_ok hr]
    exact insertAll_prefix s o vs ws
  · exact ⟨0, by simp, by simp [read_list], fun p _ => by simp [read_list]⟩

/-- Violated: an `AddAll` may stop after any number of values, and the values before stay. -/
theorem C108_addAll_violated (s : State) (h : s.readLeft = false ∧ s.writeLeft = false) (o : Nat) (vs : List Nat) (k : Nat) (hk : k < vs.length) :
    (step s (.addAll o vs false (List.replicate k false ++ [true]))).1.list o = s.list o ++ vs.take k := by
  have key : ∀ (k : Nat) (vs : List Nat) (s : State), Clean s → k < vs.length → (insertAll s o vs (List.replicate k false ++ [true])).list o = s.list o ++ vs.take k := by
    intro k
    induction k with
    | zero =>
      intro vs s h hk
      cases vs with
      | nil => simp at hk
      | cons v vs => simp [insertAll, write]
    | succ k ih =>
      intro vs s h hk
      cases vs with
      | nil => simp at hk
      | cons v vs =>
        simp only [List.replicate_succ, List.cons_append, insertAll, List.headD_cons, List.tail_cons, write_clean h, if_true]
        rw [ih vs _ (put_clean h _ _) (by simpa using hk), put_self]
        simp
  simp only [step, doAddAll, read_clean (s := s) h, if_true]
  exact key k vs s h hk

example : (step (run init sample) (.addAll 1 [1, 2, 3] false [false, false, true])).1.list 1 = [6, 9, 7, 7, 1, 2] := by decide

/-- Violated, in all states: an error of the database is an answer like others. `IndexOf` says that the value is the first one, also for an empty list; `Contains` says that
it is not there; `Size` that there are no values, and `IsEmpty` too; `Get` gives the error as the value; `Remove` gives nil. -/
theorem C108_answers_violated (s : State) (o i v : Nat) :
    (step s (.indexOf o v true false)).2 = .index 0 ∧ (step s (.contains o v true)).2 = .bool false ∧ (step s (.size o true)).2 = .nat 0 ∧
    (step s (.isEmpty o true)).2 = .bool true ∧ (step s (.get o i true)).2 = .error ∧ (step s (.remove o i true)).2 = .val none := by
  simp [step, doIndexOf, doContains, doSize, doIsEmpty, doGet, doRemove, read, write]

/-- Violated: after one call that fails, no list of the table changes any more, whatever is called and although the database works. -/
theorem C108_after_violated (s : State) (o v : Nat) (ops : List Op) : (run (step s (.contains o v true)).1 ops).list = s.list := by
  have h : (step s (.contains o v true)).1.readLeft = true := by simp [step, doContains, read]
  rw [run_stuck ops _ (Or.inl h)]
  exact read_list s true

example : (run (step (run init sample) (.contains 1 7 true)).1 [.add 1 0 3 false false, .clear 1 false, .add 2 0 3 false false]).list 1 = [6, 9, 7, 7] := by decide

/-- Violated: after one call that could not write, no list of the table can be read any more, whatever is called and although the database works: `Get` gives the error as
the value, all lists seem to be empty. -/
theorem C108_reads_violated (s : State) (o i : Nat) (ops : List Op) (o' j : Nat) :
    (step (run (step s (.remove o i true)).1 ops) (.get o' j false)).2 = .error ∧ (step (run (step s (.remove o i true)).1 ops) (.isEmpty o' false)).2 = .bool true := by
  have h : (step s (.remove o i true)).1.writeLeft = true := by simp [step, doRemove, write]
  have h := run_blocked ops _ h
  generalize run (step s (.remove o i true)).1 ops = t at h
  constructor
  · simp [step, doGet, read, h]
  · simp [step, doIsEmpty, read, h]

example : (step (run (step (run init sample) (.remove 2 0 true)).1 [.size 1 false]) (.get 1 0 false)).2 = .error ∧ (run init sample).list 1 = [6, 9, 7, 7] := by decide

end Verif.SQLListErrors
