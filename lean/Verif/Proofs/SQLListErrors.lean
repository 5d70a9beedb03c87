import Verif.Spec.SQLListErrors

/-!
# Lemmas about errors of the database in lists
-/
set_option autoImplicit false
namespace Verif.SQLListErrors

theorem read_list (s : State) (r : Bool) : (read s r).1.list = s.list := by unfold read; split <;> rfl
theorem write_list (s : State) (w : Bool) : (write s w).1.list = s.list := by unfold write; split <;> rfl

theorem put_self (s : State) (o : Nat) (l : List Nat) : (s.put o l).list o = l := by simp [State.put]
theorem put_other (s : State) (o p : Nat) (l : List Nat) (h : p ≠ o) : (s.put o l).list p = s.list p := by simp [State.put, h]

/-- nothing is left in the queue -/
def Clean (s : State) : Prop := s.readLeft = false ∧ s.writeLeft = false

theorem read_clean {s : State} (h : Clean s) : read s false = (s, true) := by simp [read, h.2]
theorem write_clean {s : State} (h : Clean s) : write s false = (s, true) := by simp [write, h.1, h.2]
theorem put_clean {s : State} (h : Clean s) (o : Nat) (l : List Nat) : Clean (s.put o l) := h

theorem insertIdx_eq (l : List Nat) (i v : Nat) (h : i ≤ l.length) : l.insertIdx i v = l.take i ++ v :: l.drop i := by
  induction l generalizing i with
  | nil => simp at h; subst h; rfl
  | cons a l ih =>
    cases i with
    | zero => rfl
    | succ i => simp [List.insertIdx_succ_cons, ih i (by simpa using h)]

theorem put_same (s : State) (o : Nat) : s.put o (s.list o) = s := by
  cases s
  simp only [State.put, State.mk.injEq, and_true]
  funext p
  split
  · rename_i e; rw [e]
  · rfl

theorem insertAll_works (s : State) (h : Clean s) (o : Nat) (vs : List Nat) (ws : List Bool) (hw : ∀ w ∈ ws, w = false) :
    insertAll s o vs ws = s.put o (s.list o ++ vs) := by
  induction vs generalizing s ws with
  | nil => rw [insertAll, List.append_nil, put_same]
  | cons v vs ih =>
    have e : ws.headD false = false := by
      cases ws with
      | nil => rfl
      | cons w ws => exact hw w (by simp)
    have et : ∀ w ∈ ws.tail, w = false := fun w hw' => hw w (List.mem_of_mem_tail hw')
    simp only [insertAll, e, write_clean h, if_true]
    rw [ih _ (put_clean h o _) _ et]
    simp only [State.put, State.mk.injEq, and_true]
    funext p
    split <;> simp

theorem step_works (s : State) (h : Clean s) (op : Op) (hw : op.works) :
    (step s op).1 = s.put op.object (after (s.list op.object) op) ∧ (step s op).2 = answer (s.list op.object) op := by
  cases op with
  | get o i r => simp only [Op.works] at hw; subst hw; simp [step, doGet, read_clean h, after, answer, Op.object, put_same]
  | size o r => simp only [Op.works] at hw; subst hw; simp [step, doSize, read_clean h, after, answer, Op.object, put_same]
  | isEmpty o r =>
    simp only [Op.works] at hw; subst hw
    show (doIsEmpty s o false).1 = s.put o (s.list o) ∧ (doIsEmpty s o false).2 = .bool (decide (s.list o = []))
    simp only [doIsEmpty, read_clean h, put_same, if_true, true_and]
    refine congrArg Out.bool ?_
    rw [Bool.eq_iff_iff]
    simp
  | contains o v r =>
    simp only [Op.works] at hw; subst hw
    show (doContains s o v false).1 = s.put o (s.list o) ∧ (doContains s o v false).2 = .bool (decide (v ∈ s.list o))
    simp only [doContains, read_clean h, put_same, if_true, true_and]
    refine congrArg Out.bool ?_
    rw [Bool.eq_iff_iff]
    simp
  | indexOf o v r r' =>
    simp only [Op.works] at hw; obtain ⟨rfl, rfl⟩ := hw
    by_cases hv : v ∈ s.list o <;> simp [step, doIndexOf, read_clean h, after, answer, Op.object, put_same, hv]
  | add o i v r w =>
    simp only [Op.works] at hw; obtain ⟨rfl, rfl⟩ := hw
    by_cases hi : i ≤ (s.list o).length
    · simp [step, doAdd, read_clean h, write_clean h, after, answer, Op.object, hi, insertIdx_eq _ _ _ hi]
    · simp [step, doAdd, read_clean h, after, answer, Op.object, hi, put_same]
  | addAll o vs r ws =>
    simp only [Op.works] at hw; obtain ⟨rfl, hws⟩ := hw
    simp [step, doAddAll, read_clean h, after, answer, Op.object, insertAll_works s h o vs ws hws]
  | remove o i w =>
    simp only [Op.works] at hw; subst hw
    simp [step, doRemove, write_clean h, after, answer, Op.object, List.eraseIdx_eq_take_drop_succ]
  | move o i j r w =>
    simp only [Op.works] at hw; obtain ⟨rfl, rfl⟩ := hw
    have e : step s (.move o i j false false) = if (if i < j then j + 1 else j) ≤ (s.list o).length then
        match (s.list o)[i]? with
        | some v => (s.put o (((s.list o).eraseIdx i).insertIdx j v), .val (some v))
        | none => (s, .val none)
      else (s, .val none) := by
      simp only [step, doMove, read_clean h, write_clean h, if_true]
      rfl
    rw [e]
    show _ = s.put o (after (s.list o) (.move o i j false false)) ∧ _ = answer (s.list o) (.move o i j false false)
    generalize hL : s.list o = L
    simp only [after, answer]
    cases hi : L[i]? with
    | none =>
      have e1 : s.put o L = s := by rw [← hL, put_same]
      simp only [e1, ite_self]
      exact ⟨trivial, trivial⟩
    | some v =>
      have hil := (List.getElem?_eq_some_iff.1 hi).1
      by_cases hj : j < L.length
      · have hc : (if i < j then j + 1 else j) ≤ L.length := by split <;> omega
        have hm : j ≤ (L.eraseIdx i).length := by rw [List.length_eraseIdx]; split <;> omega
        rw [if_pos hc]
        simp only [hj, if_true, and_true]
        rw [insertIdx_eq _ _ _ hm, List.eraseIdx_eq_take_drop_succ]
      · have hc : ¬ (if i < j then j + 1 else j) ≤ L.length := by split <;> omega
        have e1 : s.put o L = s := by rw [← hL, put_same]
        rw [if_neg hc]
        simp only [hj, if_false, e1, and_self]
  | clear o w => simp only [Op.works] at hw; subst hw; simp [step, doClear, write_clean h, after, answer, Op.object]

theorem run_works (ops : List Op) (s : State) (h : Clean s) (hw : ∀ op ∈ ops, op.works) :
    Clean (run s ops) ∧ ∀ o, (run s ops).list o = listOf ops o (s.list o) := by
  induction ops generalizing s with
  | nil => exact ⟨h, fun _ => rfl⟩
  | cons op ops ih =>
    have hs := (step_works s h op (hw op (by simp))).1
    have hc : Clean (step s op).1 := by rw [hs]; exact put_clean h _ _
    obtain ⟨h1, h2⟩ := ih _ hc (fun p hp => hw p (by simp [hp]))
    refine ⟨h1, fun o => ?_⟩
    simp only [run, listOf]
    rw [h2 o, hs]
    congr 1
    split
    · rename_i e; subst e; exact put_self _ _ _
    · rename_i e; exact put_other _ _ _ _ (Ne.symm e)

theorem read_ok {s : State} {r : Bool} (h : (read s r).2 = true) : read s r = (s, true) := by
  unfold read at h ⊢
  split at h
  · cases h
  · rename_i e; rw [if_neg e]

theorem write_ok {s : State} {w : Bool} (h : (write s w).2 = true) : write s w = (s, true) := by
  unfold write at h ⊢
  split at h
  · cases h
  · rename_i e; rw [if_neg e]

/-- the list after an `AddAll`: some of the values, the first ones -/
theorem insertAll_prefix (s : State) (o : Nat) (vs : List Nat) (ws : List Bool) :
    ∃ k ≤ vs.length, (insertAll s o vs ws).list o = s.list o ++ vs.take k ∧ ∀ p, p ≠ o → (insertAll s o vs ws).list p = s.list p := by
  induction vs generalizing s ws with
  | nil => exact ⟨0, by simp, by simp [insertAll], fun _ _ => rfl⟩
  | cons v vs ih =>
    by_cases hw : (write s (ws.headD false)).2 = true
    · have e := write_ok hw
      obtain ⟨k, hk, h1, h2⟩ := ih (s.put o (s.list o ++ [v])) ws.tail
      refine ⟨k + 1, by simp; omega, ?_, ?_⟩
      · simp only [insertAll, e, if_true, h1, put_self]
        simp
      · intro p hp
        simp only [insertAll, e, if_true, h2 p hp, put_other _ _ _ _ hp]
    · have e : (write s (ws.headD false)).2 = false := by simpa using hw
      refine ⟨0, by simp, ?_, ?_⟩
      · simp only [insertAll, e]
        simp [write_list]
      · intro p _
        simp only [insertAll, e]
        simp [write_list]

/-- a statement that writes is not executed while something is left in the queue -/
theorem write_stuck (s : State) (h : s.readLeft = true ∨ s.writeLeft = true) (w : Bool) : write s w = ({ s with writeLeft := true }, false) := by
  unfold write
  rw [if_pos]
  rcases h with h | h <;> simp [h]

theorem read_left (s : State) (r : Bool) (h : s.readLeft = true ∨ s.writeLeft = true) : (read s r).1.readLeft = true ∨ (read s r).1.writeLeft = true := by
  unfold read
  split
  · exact Or.inl rfl
  · exact h

theorem step_stuck (s : State) (h : s.readLeft = true ∨ s.writeLeft = true) (op : Op) :
    (step s op).1.list = s.list ∧ ((step s op).1.readLeft = true ∨ (step s op).1.writeLeft = true) := by
  have hr := read_left s
  have hl := read_list s
  cases op with
  | get o i r => exact ⟨hl r, hr r h⟩
  | size o r => exact ⟨hl r, hr r h⟩
  | isEmpty o r => exact ⟨hl r, hr r h⟩
  | contains o v r => exact ⟨hl r, hr r h⟩
  | indexOf o v r r' =>
    simp only [step, doIndexOf]
    split
    · exact ⟨hl r, hr r h⟩
    · split
      · exact ⟨hl r, hr r h⟩
      · exact ⟨(read_list _ r').trans (hl r), read_left _ r' (hr r h)⟩
  | add o i v r w =>
    simp only [step, doAdd]
    split
    · split
      · rw [write_stuck _ (hr r h)]; exact ⟨hl r, Or.inr rfl⟩
      · exact ⟨hl r, hr r h⟩
    · exact ⟨hl r, hr r h⟩
  | addAll o vs r ws =>
    simp only [step, doAddAll]
    split
    · cases vs with
      | nil => exact ⟨hl r, hr r h⟩
      | cons v vs => simp only [insertAll]; rw [write_stuck _ (hr r h)]; exact ⟨hl r, Or.inr rfl⟩
    · exact ⟨hl r, hr r h⟩
  | remove o i w => simp only [step, doRemove]; rw [write_stuck _ h]; exact ⟨rfl, Or.inr rfl⟩
  | move o i j r w =>
    simp only [step, doMove]
    generalize (if i < j then j + 1 else j) = t
    split
    · split
      · rw [write_stuck _ (hr r h)]; exact ⟨hl r, Or.inr rfl⟩
      · exact ⟨hl r, hr r h⟩
    · exact ⟨hl r, hr r h⟩
  | clear o w => simp only [step, doClear]; rw [write_stuck _ h]; exact ⟨rfl, Or.inr rfl⟩

theorem run_stuck (ops : List Op) (s : State) (h : s.readLeft = true ∨ s.writeLeft = true) : (run s ops).list = s.list := by
  induction ops generalizing s with
  | nil => rfl
  | cons op ops ih => rw [run, ih _ (step_stuck s h op).2]; exact (step_stuck s h op).1

theorem step_blocked (s : State) (h : s.writeLeft = true) (op : Op) : (step s op).1.writeLeft = true := by
  have hr : ∀ r, read s r = ({ s with readLeft := true }, false) := fun r => by simp [read, h]
  have hw : ∀ w, write s w = ({ s with writeLeft := true }, false) := fun w => write_stuck s (Or.inr h) w
  cases op with
  | get o i r => simp [step, doGet, hr, h]
  | size o r => simp [step, doSize, hr, h]
  | isEmpty o r => simp [step, doIsEmpty, hr, h]
  | contains o v r => simp [step, doContains, hr, h]
  | indexOf o v r r' => simp [step, doIndexOf, hr, h]
  | add o i v r w => simp [step, doAdd, hr, h]
  | addAll o vs r ws => simp [step, doAddAll, hr, h]
  | remove o i w => simp [step, doRemove, hw]
  | move o i j r w => simp [step, doMove, hr, h]
  | clear o w => simp [step, doClear, hw]

theorem run_blocked (ops : List Op) (s : State) (h : s.writeLeft = true) : (run s ops).writeLeft = true := by
  induction ops generalizing s with
  | nil => exact h
  | cons op ops ih => rw [run]; exact ih _ (step_blocked s h op)

end Verif.SQLListErrors
