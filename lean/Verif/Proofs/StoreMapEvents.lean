import Verif.Spec.StoreMap
import Verif.Proofs.StoreList
import Verif.Proofs.EMap

/-! Proofs for C75: the callbacks of a list backed by a store have the effect of those of a plain list. -/

set_option linter.unusedSimpArgs false
set_option linter.unusedSectionVars false
namespace Verif.StoreMap

open Verif.EList (CB Op)
open Verif.EMap (callback)
open Verif.Spec

variable {K V : Type} [DecidableEq K]

/-- the effect of callbacks on the Go map -/
def eff (heap : Nat → K × V) (m : Option (K → Option V)) (t : List (CB Nat)) : Option (K → Option V) :=
  t.foldl (callback heap) m

variable (heap : Nat → K × V)

theorem eff_append (m : Option (K → Option V)) (a b : List (CB Nat)) : eff heap m (a ++ b) = eff heap (eff heap m a) b :=
  List.foldl_append ..

theorem eff_inserts (m : Option (K → Option V)) (i : Nat) (c : List Nat) :
    eff heap m (EList.didInserts i c) = c.foldl (fun m e => EMap.doAdd heap e m) m := by
  induction c generalizing m i with
  | nil => rfl
  | cons e es ih => simp only [EList.didInserts, eff, List.foldl_cons, callback] at ih ⊢; exact ih _ _

theorem eff_adds (m : Option (K → Option V)) (i : Nat) (c : List Nat) :
    eff heap m (EList.didAdds i c) = c.foldl (fun m e => EMap.doAdd heap e m) m := by
  induction c generalizing m i with
  | nil => rfl
  | cons e es ih => simp only [EList.didAdds, eff, List.foldl_cons, callback] at ih ⊢; exact ih _ _

theorem eff_move (m : Option (K → Option V)) (d spare : List Nat) (o n : Int) :
    eff heap m (EList.doMove d spare o n).trace = m := by
  simp only [EList.doMove]
  repeat' split
  all_goals simp [eff, callback]

variable {s : StoreList.St Nat} {l : List Nat} (h : StoreList.Inv s l)
include h

theorem eff_addEvents (m : Option (K → Option V)) (e : Nat) : eff heap m (addEvents s e) = EMap.doAdd heap e m := by
  rcases StoreList.inv_cases h with hs | hs | hs <;> rw [hs] <;> simp [addEvents, EList.doAdd, eff, callback]

theorem eff_insertEvents (m : Option (K → Option V)) (i : Int) (e : Nat) (hi : Seq.validGap l i) :
    eff heap m (insertEvents s i e) = EMap.doAdd heap e m := by
  have hd := EList.doInsert_eq l i e hi
  obtain ⟨h0, h1⟩ := hi
  rcases StoreList.inv_cases h with hs | hs | hs <;> rw [hs] <;>
    simp [insertEvents, hd, eff, callback, StoreList.storeAdd, h0, h1]

theorem eff_insertAllEvents (m : Option (K → Option V)) (i : Int) (c : List Nat) (hi : Seq.validGap l i) :
    eff heap m (doInsertAllEvents s i c) = c.foldl (fun m e => EMap.doAdd heap e m) m := by
  have hd := EList.doInsertAll_eq l i c hi
  obtain ⟨h0, h1⟩ := hi
  by_cases hc : c = []
  · simp [doInsertAllEvents, hc, eff]
  · rw [doInsertAllEvents, if_neg hc, ← eff_inserts heap m i.toNat c]
    rcases StoreList.inv_cases h with hs | hs | hs <;> rw [hs] <;>
      simp [insertAllEvents, hd, StoreList.storeAddAll, h0, h1]

theorem eff_clearEvents (m : Option (K → Option V)) : eff heap m (clearEvents s) = none := by
  rcases StoreList.inv_cases h with hs | hs | hs <;> rw [hs] <;> simp [clearEvents, EList.doClear, eff, callback]

theorem eff_removeEvents (m : Option (K → Option V)) (i : Int) (x : Nat) (h0 : 0 ≤ i) (hx : l[i.toNat]? = some x) :
    eff heap m (removeEvents s i) = EMap.doRemove heap x m := by
  have hd := EList.doRemove_eq l i x h0 hx
  rcases StoreList.inv_cases h with hs | hs | hs <;> rw [hs] <;>
    simp [removeEvents, hd, eff, callback, StoreList.storeRemove, h0, hx]

theorem eff_setEvents (m : Option (K → Option V)) (i : Int) (e x : Nat) (h0 : 0 ≤ i) (hx : l[i.toNat]? = some x) :
    eff heap m (setEvents s i e) = EMap.doAdd heap e (EMap.doRemove heap x m) := by
  have hd := EList.doSet_eq l i e x h0 hx
  rcases StoreList.inv_cases h with hs | hs | hs <;> rw [hs] <;>
    simp [setEvents, hd, eff, callback, StoreList.storeSet, h0, hx]

theorem eff_moveEvents (m : Option (K → Option V)) (spare : List Nat) (o n : Int) :
    eff heap m (moveEvents s spare o n) = m := by
  rcases StoreList.inv_cases h with hs | hs | hs <;> rw [hs] <;> simp only [moveEvents, eff_move]
  split <;> simp [eff, callback]

omit h in
theorem eff_removeEach (c rest : List Nat) (s : StoreList.St Nat) (pre : List Nat) (ps : List Nat)
    (h : StoreList.Inv s (pre ++ rest)) (m : Option (K → Option V)) :
    eff heap m (removeEachEvents s (StoreList.pos c pre.length rest ++ ps)) =
      eff heap ((rest.filter (· ∈ c)).reverse.foldl (fun m e => EMap.doRemove heap e m) m)
        (removeEachEvents (StoreList.upd s (pre ++ rest.filter (· ∉ c))) ps) := by
  induction rest generalizing s pre ps m with
  | nil =>
    simp only [StoreList.pos, List.nil_append, List.filter_nil, List.reverse_nil, List.foldl_nil]
    rw [StoreList.upd_self h]
  | cons v vs ih =>
    have h' : StoreList.Inv s ((pre ++ [v]) ++ vs) := by simpa using h
    simp only [StoreList.pos]
    by_cases hv : v ∈ c
    · rw [if_pos hv, List.append_assoc]
      have := ih s (pre ++ [v]) ([pre.length] ++ ps) h' m
      simp only [List.length_append, List.length_cons, List.length_nil, Nat.zero_add] at this
      rw [this]
      have hinv := StoreList.inv_upd h' (pre ++ [v] ++ vs.filter (· ∉ c))
      have hrm := StoreList.performRemove_eq hinv (pre.length : Int) v (by omega) (by simp)
      have hev := fun m : Option (K → Option V) =>
        eff_removeEvents heap hinv m (pre.length : Int) v (by omega) (by simp)
      simp only [List.cons_append, List.nil_append, removeEachEvents]
      rw [eff_append, hev, hrm]
      simp only [StoreList.upd_upd, Int.toNat_natCast]
      have e1 : (pre ++ [v] ++ vs.filter (· ∉ c)).eraseIdx pre.length = pre ++ (v :: vs).filter (· ∉ c) := by
        simp [List.eraseIdx_append_of_length_le, hv]
      rw [e1]
      simp [hv]
    · rw [if_neg hv]
      have := ih s (pre ++ [v]) ps h' m
      simp only [List.length_append, List.length_cons, List.length_nil, Nat.zero_add] at this
      rw [this]
      simp [hv]

omit h in
theorem eff_removeAllLoop (c : List Nat) (n : Nat) (data : List Nat) (b : Bool) (h : n ≤ data.length)
    (m : Option (K → Option V)) :
    eff heap m (EList.removeAllLoop c n data b).trace =
      ((data.take n).filter (· ∈ c)).reverse.foldl (fun m e => EMap.doRemove heap e m) m := by
  induction n generalizing data b m with
  | zero => simp [EList.removeAllLoop, eff]
  | succ n ih =>
    have hn : n < data.length := h
    have hx : data[n]? = some data[n] := List.getElem?_eq_getElem hn
    have ht : data.take (n + 1) = data.take n ++ [data[n]] := by
      rw [List.take_add_one, hx]; rfl
    simp only [EList.removeAllLoop, EList.goIndex, Int.natCast_nonneg, if_true, Int.toNat_natCast, hx,
      EList.contains_eq, decide_eq_true_eq]
    split
    · rename_i hc
      have hr : EList.removeAt data n = ⟨data.eraseIdx n, .val data[n], [.didRemove n data[n], .didChange]⟩ := by
        rw [EList.removeAt, if_neg (by omega), EList.doRemove_eq _ _ data[n] (by omega) (by simpa using hx)]
        simp
      rw [hr]
      simp only
      have he : data.eraseIdx n = data.take n ++ data.drop (n + 1) := List.eraseIdx_eq_take_drop_succ ..
      have hl : n ≤ (data.eraseIdx n).length := by rw [List.length_eraseIdx]; split <;> omega
      have e1 : (data.eraseIdx n).take n = data.take n := by
        rw [he, List.take_append_of_le_length (by simp; omega), List.take_take]; simp
      have := ih (data.eraseIdx n) true hl (EMap.doRemove heap data[n] m)
      rw [e1] at this
      rw [eff_append]
      have e2 : eff heap m [CB.didRemove n data[n], CB.didChange] = EMap.doRemove heap data[n] m := rfl
      rw [e2, this, ht, List.filter_append]
      simp [hc]
    · rename_i hc
      rw [ih data b (by omega) m, ht, List.filter_append]
      simp [hc]

/-- The callbacks of the list have the effect of those of a plain list. -/
theorem eff_events {cfg : StoreList.Cfg Nat} (hr : ∀ x, cfg.resolve x = x) (m : Option (K → Option V)) (op : Op Nat)
    (hrange : ∀ f t, op = .removeRange f t → s.data = some l) :
    eff heap m (events cfg s op) = eff heap m (EList.step ⟨cfg.unique, cfg.iter⟩ l op).trace := by
  have hsz := h.size
  cases op with
  | add e =>
    simp only [events, EList.step, EList.add, StoreList.contains_eq hr h, EList.contains_eq]
    split
    · simp [EList.noop, eff]
    · rw [eff_addEvents heap h]; simp [EList.doAdd, EList.Res.returning, eff, callback]
  | addAll c =>
    have hg : Seq.validGap l (l.length : Int) := ⟨by omega, by omega⟩
    simp only [events, EList.step, EList.addAll, StoreList.getNonDuplicates_eq hr h, hsz]
    have key : ∀ c : List Nat, eff heap m (EList.Res.returning (EList.doAddAll l c) (.bool true)).trace =
        c.foldl (fun m e => EMap.doAdd heap e m) m := by
      intro c
      simp only [EList.doAddAll, EList.Res.returning, eff_append, eff_adds]
      simp [eff, callback]
    split
    · rw [eff_insertAllEvents heap h m _ _ hg]
      split
      · rename_i hz
        simp [List.length_eq_zero_iff.1 hz, EList.noop, eff]
      · rw [key]
    · rw [eff_insertAllEvents heap h m _ _ hg, key]
  | insert i e =>
    simp only [events, EList.step, EList.insert, StoreList.contains_eq hr h, EList.contains_eq, hsz]
    by_cases hi : i < 0 ∨ i > (l.length : Int)
    · simp [hi, EList.noop]
    · have hg : Seq.validGap l i := ⟨by omega, by omega⟩
      simp only [hi, if_false]
      split
      · simp [EList.noop, eff]
      · rw [eff_insertEvents heap h m i e hg, EList.doInsert_eq l i e hg]
        simp [EList.Res.returning, eff, callback]
  | insertAll i c =>
    simp only [events, EList.step, EList.insertAll, StoreList.getNonDuplicates_eq hr h, hsz]
    by_cases hi : i < 0 ∨ i > (l.length : Int)
    · simp [hi, EList.noop]
    · have hg : Seq.validGap l i := ⟨by omega, by omega⟩
      simp only [hi, if_false]
      have key : ∀ c : List Nat, eff heap m (EList.Res.returning (EList.doInsertAll l i c) (.bool true)).trace =
          c.foldl (fun m e => EMap.doAdd heap e m) m := by
        intro c
        simp only [EList.doInsertAll_eq l i c hg, EList.Res.returning, eff_inserts]
      split
      · rw [eff_insertAllEvents heap h m i _ hg]
        split
        · rename_i hz
          simp [List.length_eq_zero_iff.1 hz, EList.noop, eff]
        · rw [key]
      · rw [eff_insertAllEvents heap h m i _ hg, key]
  | move spare o n =>
    simp only [events, EList.step, EList.move, hsz]
    split
    · simp [EList.noop]
    · rw [eff_moveEvents heap h, eff_move]
  | moveObject spare n e =>
    simp only [events, EList.step, EList.moveObject, StoreList.indexOf_eq hr h]
    split
    · simp [EList.noop]
    · rw [eff_moveEvents heap h]
      simp only [EList.Res.returning]
      split <;> simp [eff_move]
  | removeAt i =>
    simp only [events, EList.step, EList.removeAt, hsz]
    split
    · simp [EList.noop]
    · rename_i hi
      have hx : l[i.toNat]? = some l[i.toNat] := List.getElem?_eq_getElem (StoreList.toNat_lt hi)
      rw [eff_removeEvents heap h m i _ (by omega) hx, EList.doRemove_eq l i _ (by omega) hx]
      rfl
  | remove e =>
    simp only [events, EList.step, EList.remove, StoreList.indexOf_eq hr h]
    split
    · simp [EList.noop]
    · rename_i hi
      rw [EList.indexOf_eq] at hi ⊢
      have he : e ∈ l := by
        by_cases he : e ∈ l
        · exact he
        · simp [he] at hi
      simp only [he, if_true]
      have hx : l[((l.idxOf e : Nat) : Int).toNat]? = some e := by
        have := List.idxOf_lt_length_of_mem he
        simp [List.getElem?_eq_getElem this]
      rw [eff_removeEvents heap h m _ _ (by omega) hx, EList.doRemove_eq l _ _ (by omega) hx]
      rfl
  | removeRange f t =>
    simp only [events, EList.step, EList.removeRange, hsz]
    split
    · simp [EList.noop]
    · split
      · simp [EList.noop]
      · split
        · simp [EList.noop]
        · simp only [removeRangeEvents, hrange f t rfl]
  | removeAll c =>
    simp only [events, EList.step, EList.removeAll, hsz]
    rw [StoreList.removePositions_eq hr h c 0 _ (by simp)]
    have := eff_removeEach heap c l s [] [] (by simpa using h) m
    simp only [List.length_nil, List.append_nil, removeEachEvents] at this
    simp only [List.drop_zero]
    rw [this, eff_removeAllLoop heap c l.length l false (Nat.le_refl _) m]
    simp [eff]
  | set i e =>
    simp only [events, EList.step, EList.set, StoreList.indexOf_eq hr h, hsz]
    by_cases hi : i < 0 ∨ i ≥ (l.length : Int)
    · simp [hi, EList.noop]
    · simp only [hi, if_false]
      have hx : l[i.toNat]? = some l[i.toNat] := List.getElem?_eq_getElem (StoreList.toNat_lt hi)
      have h0 : 0 ≤ i := by omega
      have h1 := eff_setEvents heap h m i e _ h0 hx
      have h2 := EList.doSet_eq l i e _ h0 hx
      cases hu : cfg.unique
      · simp only [Bool.false_eq_true, if_false, Bool.false_and]
        rw [if_neg (by omega), h1, h2]
        rfl
      · simp only [if_true, Bool.true_and]
        by_cases hj : EList.indexOf l e ≥ 0 ∧ EList.indexOf l e ≠ i
        · simp [hj, EList.noop, eff]
        · rw [if_neg hj, if_neg (by simpa using hj), h1, h2]
          rfl
  | clear =>
    simp only [events, EList.step, EList.clear, eff_clearEvents heap h]
    simp [EList.doClear, eff, callback]

end Verif.StoreMap
