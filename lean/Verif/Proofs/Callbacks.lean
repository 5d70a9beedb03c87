import Verif.Spec.Callbacks
import Verif.Proofs.EList
set_option linter.unusedSimpArgs false
set_option linter.unusedSectionVars false
namespace Verif.EList
open Verif.Spec

variable {α : Type} [DecidableEq α]

theorem cb_append (s : List α) (a b : List (CB α)) :
    Callbacks.applyAll s (a ++ b) = (Callbacks.applyAll s a).bind (fun s' => Callbacks.applyAll s' b) := by
  induction a generalizing s with
  | nil => rfl
  | cons n ns ih =>
    simp only [List.cons_append, Callbacks.applyAll]
    cases Callbacks.apply s n <;> simp [ih]

theorem didInserts_apply (pre l post : List α) :
    Callbacks.applyAll (pre ++ post) (didInserts pre.length l) = some (pre ++ l ++ post) := by
  induction l generalizing pre with
  | nil => simp [didInserts, Callbacks.applyAll]
  | cons x xs ih =>
    have := ih (pre ++ [x])
    simp only [List.length_append, List.length_cons, List.length_nil, Nat.zero_add] at this
    have e : (pre ++ post).insertIdx pre.length x = pre ++ [x] ++ post := by
      apply List.ext_getElem?; intro j
      simp only [List.getElem?_insertIdx, List.getElem?_append, List.length_append, List.length_cons,
        List.length_nil]
      grind
    simp only [didInserts, Callbacks.applyAll, Callbacks.apply]
    rw [if_pos (by simp)]
    simp only [e, this]
    simp

theorem didRemovesDesc_apply (pre l post : List α) :
    Callbacks.applyAll (pre ++ l ++ post) (didRemovesDesc pre.length l) = some (pre ++ post) := by
  induction l generalizing pre with
  | nil => simp [didRemovesDesc, Callbacks.applyAll]
  | cons x xs ih =>
    have := ih (pre ++ [x])
    simp only [List.length_append, List.length_cons, List.length_nil, Nat.zero_add] at this
    have e : pre ++ [x] ++ xs ++ post = pre ++ x :: xs ++ post := by simp
    rw [e] at this
    simp only [didRemovesDesc, cb_append, this, Option.bind_some, Callbacks.applyAll, Callbacks.apply]
    rw [if_pos (by simp)]
    simp [List.eraseIdx_append_of_lt_length, List.eraseIdx_append_of_length_le]

theorem removeAllLoop_apply (c : List α) (n : Nat) (data : List α) (m : Bool) (h : n ≤ data.length) :
    Callbacks.applyAll data (removeAllLoop c n data m).trace = some (removeAllLoop c n data m).data := by
  induction n generalizing data m with
  | zero => simp [removeAllLoop, Callbacks.applyAll]
  | succ n ih =>
    have hn : n < data.length := h
    have hx : data[n]? = some data[n] := List.getElem?_eq_getElem hn
    simp only [removeAllLoop, goIndex, Int.natCast_nonneg, if_true, Int.toNat_natCast, hx, contains_eq,
      decide_eq_true_eq]
    split
    · have hr : removeAt data n = ⟨data.eraseIdx n, .val data[n], [.didRemove n data[n], .didChange]⟩ := by
        rw [removeAt, if_neg (by omega), doRemove_eq _ _ data[n] (by omega) (by simpa using hx)]
        simp
      rw [hr]
      simp only
      have hl : n ≤ (data.eraseIdx n).length := by rw [List.length_eraseIdx]; split <;> omega
      simp only [List.cons_append, List.nil_append, Callbacks.applyAll, Callbacks.apply, hx, if_true]
      exact ih _ _ hl
    · exact ih data m (by omega)

theorem doMove_trace (data spare : List α) (o n : Int) (x : α) (ho : 0 ≤ o) (hx : data[o.toNat]? = some x)
    (hn : Seq.validPos data n) :
    Callbacks.applyAll data (doMove data spare o n).trace = some (doMove data spare o n).data := by
  have key := doMove_eq data spare o n x ho hx hn
  have hlt : o.toNat < data.length := by
    rcases Nat.lt_or_ge o.toNat data.length with h | h
    · exact h
    · simp [h] at hx
  have hn' := hn
  obtain ⟨hn0, hn1⟩ := hn'
  by_cases hne : o = n
  · subst hne
    have : doMove data spare o o = ⟨data, .val x, []⟩ := by
      simp [doMove, goIndex, ho, hx]
    rw [this]; rfl
  · have ht : (doMove data spare o n).trace = [.didMove n.toNat x o.toNat, .didChange] := by
      have hret := key.2
      simp only [doMove, goIndex, ho, if_true, hx, ne_eq, hne, not_false_eq_true] at hret ⊢
      split at hret
      · simp at hret
      · split at hret
        · simp at hret
        · rename_i h1 _ _ h2
          simp only [h1, h2]
    rw [ht, key.1]
    simp only [Callbacks.applyAll, Callbacks.apply]
    rw [if_pos ⟨hx, by omega⟩]

theorem returning_data (x : Res α) (r : Ret α) :
    (x.returning r).data = x.data ∧ (x.returning r).trace = x.trace := by
  simp only [Res.returning]; split <;> simp

variable [Inhabited α]

/-- Calls whose callbacks do not describe the change exactly: moves past the end, and bulk appends to a non
empty list (wrong index). -/
def badCallbacks (s : List α) : Op α → Prop
  | .addAll _ => s ≠ []
  | op => Seq.movesPastEnd s op

theorem step_callbacks (cfg : Cfg) (s : List α) (op : Op α) (hok : ¬ badCallbacks s op) :
    Callbacks.applyAll s (step cfg s op).trace = some (step cfg s op).data := by
  cases op with
  | add e =>
    simp only [step, add]
    split
    · rfl
    · simp [doAdd, Res.returning, Callbacks.applyAll, Callbacks.apply]
  | addAll c =>
    have hs : s = [] := Classical.byContradiction hok
    subst hs
    have h0 : ∀ (l pre : List α), Callbacks.applyAll pre (didAdds pre.length l) = some (pre ++ l) := by
      intro l
      induction l with
      | nil => intro pre; simp [didAdds, Callbacks.applyAll]
      | cons x xs ih =>
        intro pre
        have := ih (pre ++ [x])
        simp only [List.length_append, List.length_cons, List.length_nil, Nat.zero_add] at this
        simp [didAdds, Callbacks.applyAll, Callbacks.apply, this]
    have h1 : ∀ l : List α, Callbacks.applyAll [] (didAdds 0 l ++ [.didChange]) = some l := by
      intro l
      rw [cb_append]
      have := h0 l []
      simp only [List.length_nil, List.nil_append] at this
      simp [this, Callbacks.applyAll, Callbacks.apply]
    simp only [step, addAll]
    split
    · split
      · rfl
      · simp only [returning_data, doAddAll, List.nil_append]; exact h1 _
    · simp only [returning_data, doAddAll, List.nil_append]; exact h1 _
  | insert i e =>
    simp only [step, insert]
    split
    · rfl
    · split
      · rfl
      · rw [doInsert_eq s i e ⟨by omega, by omega⟩]
        simp only [Res.returning, Callbacks.applyAll, Callbacks.apply]
        rw [if_pos (by omega)]
  | insertAll i c =>
    have key : Seq.validGap s i → ∀ l : List α, 
        Callbacks.applyAll s (didInserts i.toNat l) = some (Seq.insertAllAt s i.toNat l) := by
      rintro ⟨h0, h1⟩ l
      have := didInserts_apply (s.take i.toNat) l (s.drop i.toNat)
      rw [List.take_append_drop] at this
      have e : (s.take i.toNat).length = i.toNat := by simp; omega
      rw [e] at this; exact this
    simp only [step, insertAll]
    split
    · rfl
    · rename_i hi
      split
      · split
        · rfl
        · simp only [returning_data, doInsertAll_eq s i _ ⟨by omega, by omega⟩]; exact key ⟨by omega, by omega⟩ _
      · simp only [returning_data, doInsertAll_eq s i _ ⟨by omega, by omega⟩]; exact key ⟨by omega, by omega⟩ _
  | move sp o n =>
    simp only [badCallbacks, Seq.movesPastEnd] at hok
    simp only [step, move]
    split
    · rfl
    · have hlt : o.toNat < s.length := by omega
      exact doMove_trace s sp o n _ (by omega) (List.getElem?_eq_getElem hlt) ⟨by omega, by omega⟩
  | moveObject sp n e =>
    simp only [badCallbacks, Seq.movesPastEnd] at hok
    simp only [step, moveObject, indexOf_eq]
    by_cases he : e ∈ s
    · have hi : s.idxOf e < s.length := List.idxOf_lt_length_of_mem he
      simp only [he, if_true]
      rw [if_neg (by omega)]
      simp only [returning_data]
      by_cases hn : 0 ≤ n
      · refine doMove_trace s sp _ n _ (by omega) (List.getElem?_eq_getElem (by simpa using hi)) ⟨hn, ?_⟩
        rcases Int.lt_or_le n s.length with h | h
        · exact h
        · exact absurd ⟨h, he⟩ hok
      · rw [doMove_out _ _ _ _ (by omega) (by omega)]; rfl
    · simp only [he, if_false, if_true]; rfl
  | removeAt i =>
    simp only [step, removeAt]
    split
    · rfl
    · have hlt : i.toNat < s.length := by omega
      have hx := List.getElem?_eq_getElem hlt
      rw [doRemove_eq s i _ (by omega) hx]
      simp [Callbacks.applyAll, Callbacks.apply, hlt]
  | remove e =>
    simp only [step, remove, indexOf_eq]
    by_cases he : e ∈ s
    · have hi : s.idxOf e < s.length := List.idxOf_lt_length_of_mem he
      have hx : s[s.idxOf e]? = some e := by
        rw [List.getElem?_eq_getElem hi]; simp
      simp only [he, if_true]
      rw [if_neg (by omega), doRemove_eq s _ e (by omega) (by simpa using hx)]
      simp [Res.returning, Callbacks.applyAll, Callbacks.apply, hx]
    · simp only [he, if_false, if_true]; rfl
  | removeRange f t =>
    simp only [step, removeRange]
    split
    · rfl
    · split
      · rfl
      · split
        · rfl
        · rename_i h1 h2 h3
          rw [doRemoveRange_eq s f t (by omega) (by omega) (by omega)]
          have hft : f.toNat ≤ t.toNat := by omega
          have key := didRemovesDesc_apply (s.take f.toNat) ((s.take t.toNat).drop f.toNat) (s.drop t.toNat)
          have hfl : (s.take f.toNat).length = f.toNat := by simp; omega
          have hs : s.take f.toNat ++ (s.take t.toNat).drop f.toNat ++ s.drop t.toNat = s := by
            have : s.take f.toNat = (s.take t.toNat).take f.toNat := by
              rw [List.take_take, Nat.min_eq_left hft]
            rw [this, List.take_append_drop, List.take_append_drop]
          rw [hfl, hs] at key
          simp [cb_append, key, Callbacks.applyAll, Callbacks.apply]
  | removeAll c => exact removeAllLoop_apply c s.length s false (Nat.le_refl _)
  | set i e =>
    simp only [step, set]
    split
    · rfl
    · split
      · rfl
      · have hlt : i.toNat < s.length := by omega
        have hx := List.getElem?_eq_getElem hlt
        rw [doSet_eq s i e _ (by omega) hx]
        simp [Callbacks.applyAll, Callbacks.apply, hlt]
  | clear => simp [step, clear, doClear, Callbacks.applyAll, Callbacks.apply]

/-! #### bags -/

theorem erase_perm_eraseIdx (s : List α) (i : Nat) (x : α) (h : s[i]? = some x) :
    (s.erase x).Perm (s.eraseIdx i) := by
  obtain ⟨hlt, hx⟩ := List.getElem?_eq_some_iff.1 h
  have p1 : s.Perm (x :: s.erase x) := List.perm_cons_erase (List.mem_of_getElem? h)
  have p2 : (x :: s.eraseIdx i).Perm s := by rw [← hx]; exact cons_eraseIdx_perm s i hlt
  exact (List.perm_cons x).1 (p1.symm.trans p2.symm)

theorem set_perm (s : List α) (i : Nat) (e x : α) (h : s[i]? = some x) :
    (e :: s.erase x).Perm (s.set i e) := by
  obtain ⟨hlt, hx⟩ := List.getElem?_eq_some_iff.1 h
  have hp : (e :: s.eraseIdx i).Perm (s.set i e) := by
    rw [List.set_eq_take_append_cons_drop, if_pos hlt, List.eraseIdx_eq_take_drop_succ]
    exact List.perm_middle.symm
  exact ((erase_perm_eraseIdx s i x h).cons e).trans hp

/-- A callback understood with indexes is understood as a bag. -/
theorem bag_of_apply (s s' t : List α) (cb : CB α) (hp : t.Perm s) (h : Callbacks.apply s cb = some s') :
    ∃ t', Callbacks.bag t cb = some t' ∧ t'.Perm s' := by
  cases cb with
  | didAdd i e =>
    simp only [Callbacks.apply] at h
    split at h
    · rename_i hi
      simp only [Option.some.injEq] at h; subst h
      exact ⟨_, rfl, (hp.cons e).trans (List.perm_insertIdx e s hi).symm⟩
    · simp at h
  | didSet i e o =>
    simp only [Callbacks.apply] at h
    split at h
    · rename_i hi
      simp only [Option.some.injEq] at h; subst h
      have hm : o ∈ t := hp.mem_iff.2 (List.mem_of_getElem? hi)
      refine ⟨e :: t.erase o, by simp [Callbacks.bag, hm], ?_⟩
      exact ((hp.erase o).cons e).trans (set_perm s i e o hi)
    · simp at h
  | didRemove i o =>
    simp only [Callbacks.apply] at h
    split at h
    · rename_i hi
      simp only [Option.some.injEq] at h; subst h
      have hm : o ∈ t := hp.mem_iff.2 (List.mem_of_getElem? hi)
      refine ⟨t.erase o, by simp [Callbacks.bag, hm], ?_⟩
      exact (hp.erase o).trans (erase_perm_eraseIdx s i o hi)
    · simp at h
  | didClear olds =>
    simp only [Callbacks.apply] at h
    split at h
    · simp only [Option.some.injEq] at h; subst h
      exact ⟨[], rfl, List.Perm.refl _⟩
    · simp at h
  | didMove n x o =>
    simp only [Callbacks.apply] at h
    split at h
    · rename_i hc
      simp only [Option.some.injEq] at h; subst h
      refine ⟨t, rfl, hp.trans ?_⟩
      obtain ⟨hlt, hx⟩ := List.getElem?_eq_some_iff.1 hc.1
      have hle : n ≤ (s.eraseIdx o).length := by rw [List.length_eraseIdx]; split <;> omega
      have p1 := List.perm_insertIdx x (s.eraseIdx o) hle
      have p2 : (x :: s.eraseIdx o).Perm s := by rw [← hx]; exact cons_eraseIdx_perm s o hlt
      exact (p1.trans p2).symm
    · simp at h
  | didChange =>
    simp only [Callbacks.apply, Option.some.injEq] at h; subst h
    exact ⟨t, rfl, hp⟩

theorem bagAll_of_applyAll (s s' t : List α) (cbs : List (CB α)) (hp : t.Perm s)
    (h : Callbacks.applyAll s cbs = some s') : ∃ t', Callbacks.bagAll t cbs = some t' ∧ t'.Perm s' := by
  induction cbs generalizing s t with
  | nil =>
    simp only [Callbacks.applyAll, Option.some.injEq] at h; subst h
    exact ⟨t, rfl, hp⟩
  | cons c cs ih =>
    simp only [Callbacks.applyAll] at h
    split at h
    · simp at h
    · rename_i s1 hs1
      obtain ⟨t1, ht1, hp1⟩ := bag_of_apply s s1 t c hp hs1
      obtain ⟨t', ht', hp'⟩ := ih s1 t1 hp1 h
      exact ⟨t', by simp [Callbacks.bagAll, ht1, ht'], hp'⟩

theorem didAdds_bag (l t : List α) (i : Nat) :
    ∃ t', Callbacks.bagAll t (didAdds i l ++ [.didChange]) = some t' ∧ t'.Perm (t ++ l) := by
  induction l generalizing t i with
  | nil => exact ⟨t, rfl, by simp⟩
  | cons x xs ih =>
    obtain ⟨t', h1, h2⟩ := ih (x :: t) (i + 1)
    refine ⟨t', by simp [didAdds, Callbacks.bagAll, Callbacks.bag, h1], h2.trans ?_⟩
    exact List.perm_middle.symm

theorem step_bag (cfg : Cfg) (s : List α) (op : Op α) (hok : ¬ Seq.movesPastEnd s op) :
    ∃ t, Callbacks.bagAll s (step cfg s op).trace = some t ∧ t.Perm (step cfg s op).data := by
  by_cases hb : badCallbacks s op
  · cases op with
    | addAll c =>
      simp only [step, addAll]
      split
      · split
        · exact ⟨s, rfl, by simp [noop]⟩
        · simp only [returning_data, doAddAll]; exact didAdds_bag _ _ _
      · simp only [returning_data, doAddAll]; exact didAdds_bag _ _ _
    | _ => exact absurd hb hok
  · exact bagAll_of_applyAll s _ s _ (List.Perm.refl _) (step_callbacks cfg s op hb)

end Verif.EList
