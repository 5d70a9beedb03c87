import Verif.Spec.Seq
set_option linter.unusedSimpArgs false
set_option linter.unusedSectionVars false
/-
Lemmas about the list model (helpers of Props/EList.lean).
-/
namespace Verif.EList
open Verif.Spec

variable {α : Type}

theorem goIndex_eq (data : List α) (i : Int) (h : 0 ≤ i) : goIndex data i = data[i.toNat]? := by
  simp [goIndex, h]

section
variable [DecidableEq α]

theorem indexOfFrom_eq (e : α) (i : Nat) (l : List α) :
    indexOfFrom e i l = if e ∈ l then ((i + l.idxOf e : Nat) : Int) else -1 := by
  induction l generalizing i with
  | nil => simp [indexOfFrom]
  | cons v vs ih =>
    by_cases h : v = e
    · simp [indexOfFrom, h]
    · have h' : ¬ e = v := fun x => h x.symm
      have hb : (v == e) = false := by simp [h]
      simp only [indexOfFrom, h, ih, List.mem_cons, h', List.idxOf_cons, hb, cond_false, false_or, if_false]
      split
      · omega
      · rfl

theorem indexOf_eq (e : α) (l : List α) :
    indexOf l e = if e ∈ l then ((l.idxOf e : Nat) : Int) else -1 := by
  simp [indexOf, indexOfFrom_eq]

theorem contains_eq (l : List α) (e : α) : contains l e = decide (e ∈ l) := by
  simp only [contains, indexOf_eq]
  split
  · rename_i h; simp [h]
  · rename_i h; simp [h]

/-! #### getNonDuplicates -/

theorem fresh_congr (s s' c : List α) (h : ∀ x, x ∈ s ↔ x ∈ s') : Seq.fresh s c = Seq.fresh s' c := by
  induction c generalizing s s' with
  | nil => rfl
  | cons v vs ih =>
    simp only [Seq.fresh, h v]
    split
    · exact ih _ _ h
    · rw [ih (v :: s) (v :: s')]; intro x; simp [h x]

theorem hashSetOf_eq (acc c : List α) : hashSetOf acc c = acc ++ Seq.fresh acc c := by
  induction c generalizing acc with
  | nil => simp [hashSetOf, Seq.fresh]
  | cons v vs ih =>
    simp only [hashSetOf, Seq.fresh]
    split
    · exact ih _
    · rw [ih, List.append_assoc, fresh_congr (acc ++ [v]) (v :: acc)]
      · rfl
      · intro x; simp; exact or_comm

theorem mem_fresh (s c : List α) (x : α) : x ∈ Seq.fresh s c ↔ x ∈ c ∧ x ∉ s := by
  induction c generalizing s with
  | nil => simp [Seq.fresh]
  | cons v vs ih =>
    simp only [Seq.fresh]
    split <;> simp [ih] <;> grind

theorem nodup_fresh (s c : List α) : (Seq.fresh s c).Nodup := by
  induction c generalizing s with
  | nil => simp [Seq.fresh]
  | cons v vs ih =>
    simp only [Seq.fresh]
    split
    · exact ih _
    · simp [ih, mem_fresh]

theorem fresh_filter (acc s c : List α) :
    (Seq.fresh acc c).filter (· ∉ s) = Seq.fresh (acc ++ s) c := by
  induction c generalizing acc with
  | nil => simp [Seq.fresh]
  | cons v vs ih =>
    simp only [Seq.fresh, List.mem_append]
    by_cases h1 : v ∈ acc
    · simp only [h1, true_or, if_true, ih]
    · by_cases h2 : v ∈ s
      · simp only [h1, h2, if_false, false_or, if_true]
        rw [List.filter_cons_of_neg (by simp [h2]), ih]
        apply fresh_congr; intro x; simp; grind
      · simp only [h1, h2, if_false, or_self]
        rw [List.filter_cons_of_pos (by simp [h2]), ih]
        rfl

theorem removeEach_eq (set data : List α) (h : set.Nodup) :
    removeEach set data = set.filter (· ∉ data) := by
  induction data generalizing set with
  | nil =>
    simp only [removeEach, List.not_mem_nil, not_false_eq_true, decide_true]
    exact (List.filter_eq_self.2 (by simp)).symm
  | cons v vs ih =>
    rw [removeEach, ih _ (h.erase v), h.erase_eq_filter, List.filter_filter]
    congr 1; funext x; by_cases hx : x = v <;> simp [hx]

theorem pruneSnapshot_eq (data set : List α) :
    pruneSnapshot data set = set.filter (· ∉ data) := by
  induction set with
  | nil => rfl
  | cons v vs ih => 
    simp only [pruneSnapshot, contains_eq, decide_eq_true_eq]
    by_cases h : v ∈ data <;> simp [h, ih]

theorem getNonDuplicates_snapshot (data c : List α) :
    getNonDuplicates .snapshot data c = Seq.fresh data c := by
  have h : hashSetOf [] c = Seq.fresh [] c := by simp [hashSetOf_eq]
  have hf := fresh_filter [] data c
  simp only [List.nil_append] at hf
  simp only [getNonDuplicates, h]
  split
  · rw [removeEach_eq _ _ (nodup_fresh _ _), hf]
  · rw [pruneSnapshot_eq, hf]

theorem pruneLive_none (data set : List α) (i n : Nat) (h : ∀ x ∈ set, x ∉ data) :
    pruneLive data i n set = set := by
  induction set generalizing i n with
  | nil => rfl
  | cons v vs ih =>
    simp only [pruneLive, contains_eq]
    have hv : v ∉ data := h v (by simp)
    simp [hv, ih _ _ (fun x hx => h x (by simp [hx]))]

/-- The live iterator does no harm as long as at most one element has to be removed. -/
theorem pruneLive_eq (data set : List α) (i n : Nat) (hn : i + set.length ≤ n)
    (h : (set.filter (· ∈ data)).length ≤ 1) :
    pruneLive data i n set = set.filter (· ∉ data) := by
  induction set generalizing i n with
  | nil => rfl
  | cons v vs ih =>
    simp only [List.length_cons] at hn
    simp only [pruneLive, contains_eq]
    by_cases hv : v ∈ data
    · simp only [hv, decide_true, List.filter_cons_of_pos, List.length_cons] at h
      have h0 : vs.filter (· ∈ data) = [] := List.eq_nil_of_length_eq_zero (by omega)
      have h1 : ∀ x ∈ vs, x ∉ data := by
        intro x hx hd
        have : x ∈ vs.filter (· ∈ data) := by simp [hx, hd]
        simp [h0] at this
      have h2 : i < n := by omega
      simp only [hv, decide_true, h2, if_true]
      rw [pruneLive_none _ _ _ _ h1, List.filter_cons_of_neg (by simp [hv])]
      exact (List.filter_eq_self.2 (by simpa using h1)).symm
    · have h2 : i < n := by omega
      simp only [hv, decide_false, h2, if_true, Bool.false_eq_true, if_false]
      rw [List.filter_cons_of_neg (by simp [hv])] at h
      rw [List.filter_cons_of_pos (by simp [hv]), ih _ _ (by omega) h]

theorem getNonDuplicates_live (data c : List α)
    (h : (Seq.fresh [] c).length ≥ data.length ∨ ((Seq.fresh [] c).filter (· ∈ data)).length ≤ 1) :
    getNonDuplicates .live data c = Seq.fresh data c := by
  have h0 : hashSetOf [] c = Seq.fresh [] c := by simp [hashSetOf_eq]
  have hf := fresh_filter [] data c
  simp only [List.nil_append] at hf
  simp only [getNonDuplicates, h0]
  split
  · rw [removeEach_eq _ _ (nodup_fresh _ _), hf]
  · rw [pruneLive_eq _ _ _ _ (by simp) (by omega), hf]

/-! #### basic operations -/

theorem doInsert_eq [Inhabited α] (data : List α) (i : Int) (e : α) (h : Seq.validGap data i) :
    doInsert data i e = ⟨data.insertIdx i.toNat e, .unit, [.didAdd i.toNat e, .didChange]⟩ := by
  obtain ⟨h0, h1⟩ := h
  obtain ⟨k, rfl⟩ := Int.eq_ofNat_of_zero_le h0
  have hk : k ≤ data.length := by omega
  simp only [doInsert, goSlice, goCopy, goAssign]
  rw [if_pos (by simp; omega)]
  simp only
  rw [if_pos (by simp; omega)]
  simp only
  rw [if_pos (by simp; omega)]
  simp only [Int.toNat_natCast, Res.mk.injEq, and_true]
  have : (Int.ofNat k + 1).toNat = k + 1 := by simp
  apply List.ext_getElem?
  intro j
  simp only [Int.ofNat_eq_natCast] at *
  simp only [List.getElem?_set, List.getElem?_insertIdx, List.getElem?_append, List.getElem?_take,
    List.getElem?_drop, List.length_append, List.length_take, List.length_drop, List.length_cons,
    List.length_nil, Int.toNat_natCast, this]
  grind

theorem doInsertAll_eq (data : List α) (i : Int) (c : List α) (h : Seq.validGap data i) :
    doInsertAll data i c =
      ⟨Seq.insertAllAt data i.toNat c, .bool (c.length != 0), didInserts i.toNat c⟩ := by
  obtain ⟨h0, h1⟩ := h
  simp only [doInsertAll, goSlice]
  rw [if_pos (by simp; omega), if_pos (by simp; omega)]
  simp [Seq.insertAllAt]

theorem doRemove_eq (data : List α) (i : Int) (x : α) (h0 : 0 ≤ i) (hx : data[i.toNat]? = some x) :
    doRemove data i = ⟨data.eraseIdx i.toNat, .val x, [.didRemove i.toNat x, .didChange]⟩ := by
  obtain ⟨k, rfl⟩ := Int.eq_ofNat_of_zero_le h0
  simp only [Int.toNat_natCast, Int.ofNat_eq_natCast] at *
  have hk : k < data.length := by
    rcases Nat.lt_or_ge k data.length with h | h
    · exact h
    · simp [h] at hx
  simp only [doRemove, goIndex, goSlice, goCopy, Int.natCast_nonneg, if_true, Int.toNat_natCast, hx]
  rw [if_pos (by simp; omega)]
  simp only
  rw [if_pos ⟨trivial, by omega⟩]
  simp only [Res.mk.injEq, and_true]
  have : ((k : Int) + 1).toNat = k + 1 := by omega
  apply List.ext_getElem?
  intro j
  simp only [List.getElem?_take, List.getElem?_eraseIdx, List.getElem?_append, List.getElem?_drop,
    List.length_append, List.length_take, List.length_drop, this, List.append_nil]
  grind

theorem doRemoveRange_eq (data : List α) (f t : Int) (h0 : 0 ≤ f) (h1 : f ≤ t)
    (h2 : t ≤ data.length) :
    doRemoveRange data f t =
      (⟨data.take f.toNat ++ data.drop t.toNat, .unit,
        didRemovesDesc f.toNat ((data.take t.toNat).drop f.toNat) ++ [.didChange]⟩,
        (data.take t.toNat).drop f.toNat) := by
  simp only [doRemoveRange, goSlice, List.append_nil]
  rw [if_pos (by omega), if_pos (by omega), if_pos (by omega)]
  simp

theorem doSet_eq (data : List α) (i : Int) (e x : α) (h0 : 0 ≤ i) (hx : data[i.toNat]? = some x) :
    doSet data i e = ⟨data.set i.toNat e, .val x, [.didSet i.toNat e x, .didChange]⟩ := by
  have hk : i.toNat < data.length := by
    rcases Nat.lt_or_ge i.toNat data.length with h | h
    · exact h
    · simp [h] at hx
  simp only [doSet, goIndex, goAssign, h0, if_true, hx]
  rw [if_pos ⟨trivial, by omega⟩]

theorem doMove_eq (data spare : List α) (o n : Int) (x : α) (ho : 0 ≤ o) (hx : data[o.toNat]? = some x)
    (hn : Seq.validPos data n) :
    (doMove data spare o n).data = Seq.moved data o.toNat n.toNat x ∧
    (doMove data spare o n).ret = .val x := by
  have hk : o.toNat < data.length := by
    rcases Nat.lt_or_ge o.toNat data.length with h | h
    · exact h
    · simp [h] at hx
  obtain ⟨hn0, hn1⟩ := hn
  obtain ⟨o, rfl⟩ := Int.eq_ofNat_of_zero_le ho
  obtain ⟨n, rfl⟩ := Int.eq_ofNat_of_zero_le hn0
  simp only [Int.toNat_natCast, Int.ofNat_eq_natCast] at *
  have e1 : ((o : Int) + 1).toNat = o + 1 := by omega
  have e2 : ((n : Int) + 1).toNat = n + 1 := by omega
  have hx' : data[o] = x := by
    rw [List.getElem?_eq_getElem hk] at hx; exact Option.some.inj hx
  simp only [doMove, goIndex, Int.natCast_nonneg, if_true, Int.toNat_natCast, hx]
  by_cases hne : (o : Int) = n
  · have : o = n := by omega
    subst this
    simp only [ne_eq, not_true_eq_false, if_false, and_true]
    apply List.ext_getElem?
    intro j
    simp only [Seq.moved, List.getElem?_insertIdx, List.getElem?_eraseIdx, List.length_eraseIdx]
    grind
  · simp only [ne_eq, hne, not_false_eq_true, if_true]
    by_cases hlt : (n : Int) < o
    · simp only [hlt, if_true, goSlice]
      rw [if_pos (by simp; omega)]
      simp only [goCopy]
      rw [if_pos (by omega)]
      simp only [goAssign]
      rw [if_pos (by simp; omega)]
      simp only [and_true]
      apply List.ext_getElem?
      intro j
      simp only [Seq.moved, List.getElem?_set, List.getElem?_insertIdx, List.getElem?_eraseIdx,
        List.getElem?_append, List.getElem?_take,
        List.getElem?_drop, List.length_append, List.length_take, List.length_drop, List.length_eraseIdx,
        Int.toNat_natCast, e1, e2]
      grind
    · simp only [hlt, if_false, goSlice]
      rw [if_pos (by simp; omega)]
      simp only [goCopy]
      rw [if_pos (by omega)]
      simp only [goAssign]
      rw [if_pos (by simp; omega)]
      simp only [and_true]
      apply List.ext_getElem?
      intro j
      simp only [Seq.moved, List.getElem?_set, List.getElem?_insertIdx, List.getElem?_eraseIdx,
        List.getElem?_append, List.getElem?_take,
        List.getElem?_drop, List.length_append, List.length_take, List.length_drop, List.length_eraseIdx,
        Int.toNat_natCast, e1, e2]
      grind


theorem removeAllLoop_eq (c : List α) (n : Nat) (data : List α) (m : Bool) (h : n ≤ data.length) :
    (removeAllLoop c n data m).data = (data.take n).filter (· ∉ c) ++ data.drop n ∧
    (removeAllLoop c n data m).ret = .bool (m || decide (∃ x ∈ data.take n, x ∈ c)) := by
  induction n generalizing data m with
  | zero => simp [removeAllLoop]
  | succ n ih =>
    have hn : n < data.length := h
    have hx : data[n]? = some data[n] := List.getElem?_eq_getElem hn
    have ht : data.take (n + 1) = data.take n ++ [data[n]] := by
      rw [List.take_add_one, hx]; rfl
    have hd : data.drop n = data[n] :: data.drop (n + 1) := List.drop_eq_getElem_cons hn
    simp only [removeAllLoop, goIndex, Int.natCast_nonneg, if_true, Int.toNat_natCast, hx, contains_eq,
      decide_eq_true_eq]
    split
    · rename_i hc
      have hr : removeAt data n = ⟨data.eraseIdx n, .val data[n], [.didRemove n data[n], .didChange]⟩ := by
        rw [removeAt, if_neg (by omega), doRemove_eq _ _ data[n] (by omega) (by simpa using hx)]
        simp
      rw [hr]
      simp only
      have he : data.eraseIdx n = data.take n ++ data.drop (n + 1) := List.eraseIdx_eq_take_drop_succ ..
      have hl : n ≤ (data.eraseIdx n).length := by rw [List.length_eraseIdx]; split <;> omega
      have htl : (data.take n).length = n := by simp; omega
      obtain ⟨h1, h2⟩ := ih (data.eraseIdx n) true hl
      have e1 : (data.eraseIdx n).take n = data.take n := by
        rw [he, List.take_append_of_le_length (by omega), List.take_take]; simp
      have e2 : (data.eraseIdx n).drop n = data.drop (n + 1) := by
        rw [he, List.drop_append_of_le_length (by omega), List.drop_of_length_le (by omega)]; simp
      constructor
      · rw [h1, e1, e2, ht, List.filter_append, List.filter_cons_of_neg (by simp [hc])]; simp
      · have hex : ∃ x ∈ data.take (n + 1), x ∈ c := ⟨data[n], by rw [ht]; exact List.mem_append_right _ (by simp), hc⟩
        rw [h2]; simp only [hex, decide_true, Bool.true_or, Bool.or_true]
    · rename_i hc
      obtain ⟨h1, h2⟩ := ih data m (by omega)
      constructor
      · rw [h1, hd, ht, List.filter_append, List.filter_cons_of_pos (by simp [hc])]; simp
      · have hex : (∃ x ∈ data.take (n + 1), x ∈ c) ↔ (∃ x ∈ data.take n, x ∈ c) := by
          rw [ht]
          constructor
          · rintro ⟨x, hx, hxc⟩
            rcases List.mem_append.1 hx with h | h
            · exact ⟨x, h, hxc⟩
            · rw [List.mem_singleton.1 h] at hxc; exact absurd hxc hc
          · rintro ⟨x, hx, hxc⟩
            exact ⟨x, List.mem_append_left _ hx, hxc⟩
        rw [h2]; simp only [hex]

/-- Per call condition under which the refinement holds. -/
def StepOk (cfg : Cfg) (s : List α) (op : Op α) : Prop :=
  ¬ Seq.movesPastEnd s op ∧ (cfg.unique = true → cfg.iter = .live → Seq.bulkHarmless s op)

theorem nonDup (cfg : Cfg) (hu : cfg.unique = true) (s c : List α)
    (h : cfg.unique = true → cfg.iter = .live →
      (s.length ≤ (Seq.fresh [] c).length ∨ ((Seq.fresh [] c).filter (· ∈ s)).length ≤ 1)) :
    getNonDuplicates cfg.iter s c = Seq.fresh s c := by
  cases hi : cfg.iter with
  | snapshot => exact getNonDuplicates_snapshot s c
  | live => exact getNonDuplicates_live s c (h hu hi)

theorem doMove_out (data spare : List α) (o n : Int) (ho : 0 ≤ o) (hn : n < 0) :
    doMove data spare o n = ⟨data, .panic, []⟩ := by
  simp only [doMove]
  split
  · rfl
  · rw [if_pos (by omega), if_pos (by omega)]
    simp only [goSlice]
    rw [if_neg (by omega)]

theorem step_refines [Inhabited α] (cfg : Cfg) (s : List α) (op : Op α)
    (hnd : cfg.unique = true → s.Nodup) (hok : StepOk cfg s op) :
    (step cfg s op).data = (Seq.step cfg.unique s op).1 ∧
    (step cfg s op).ret = (Seq.step cfg.unique s op).2 := by
  obtain ⟨hmv, hbulk⟩ := hok
  cases op with
  | add e =>
    simp only [step, add, Seq.step, contains_eq, Bool.and_eq_true, decide_eq_true_eq]
    split <;> simp [noop, doAdd, Res.returning]
  | addAll c =>
    simp only [step, addAll, Seq.step]
    by_cases hu : cfg.unique = true
    · simp only [hu, if_true, nonDup cfg hu s c hbulk]
      split
      · rename_i h
        have : Seq.fresh s c = [] := List.eq_nil_of_length_eq_zero h
        simp [this, noop]
      · rename_i h
        have : Seq.fresh s c ≠ [] := fun x => h (by simp [x])
        simp [this, doAddAll, Res.returning]
    · simp [hu, doAddAll, Res.returning]
  | insert i e =>
    simp only [step, insert, Seq.step, contains_eq, Bool.and_eq_true, decide_eq_true_eq]
    by_cases hv : Seq.validGap s i
    · have : ¬ (i < 0 ∨ i > (s.length : Int)) := by obtain ⟨a, b⟩ := hv; omega
      simp only [this, hv, not_true_eq_false, if_false]
      split
      · simp [noop]
      · simp [doInsert_eq s i e hv, Res.returning]
    · have : (i < 0 ∨ i > (s.length : Int)) := by
        simp only [Seq.validGap] at hv; omega
      simp [this, hv, noop]
  | insertAll i c =>
    simp only [step, insertAll, Seq.step]
    by_cases hv : Seq.validGap s i
    · have : ¬ (i < 0 ∨ i > (s.length : Int)) := by obtain ⟨a, b⟩ := hv; omega
      simp only [this, hv, not_true_eq_false, if_false]
      by_cases hu : cfg.unique = true
      · simp only [hu, if_true, nonDup cfg hu s c hbulk]
        split
        · rename_i h
          have : Seq.fresh s c = [] := List.eq_nil_of_length_eq_zero h
          simp [this, noop, Seq.insertAllAt]
        · rename_i h
          have : Seq.fresh s c ≠ [] := fun x => h (by simp [x])
          simp [this, doInsertAll_eq s i _ hv, Res.returning]
      · simp [hu, doInsertAll_eq s i _ hv, Res.returning]
    · have : (i < 0 ∨ i > (s.length : Int)) := by
        simp only [Seq.validGap] at hv; omega
      simp [this, hv, noop]
  | move sp o n =>
    simp only [step, move, Seq.step]
    simp only [Seq.movesPastEnd] at hmv
    by_cases hv : Seq.validPos s o ∧ Seq.validPos s n
    · obtain ⟨⟨ho0, ho1⟩, hn⟩ := hv
      have hn' := hn
      obtain ⟨hn0, hn1⟩ := hn'
      have hx : s[o.toNat]? = some (s[o.toNat]'(by omega)) := List.getElem?_eq_getElem _
      rw [if_neg (by omega), if_pos ⟨⟨ho0, ho1⟩, hn⟩]
      simp only [hx]
      exact doMove_eq s sp o n _ ho0 hx hn
    · rw [if_neg hv, if_pos]
      · simp [noop]
      · simp only [Seq.validPos] at hv; omega
  | moveObject sp n e =>
    simp only [step, moveObject, Seq.step, indexOf_eq]
    simp only [Seq.movesPastEnd] at hmv
    by_cases he : e ∈ s
    · have hi : s.idxOf e < s.length := List.idxOf_lt_length_of_mem he
      have hx : s[s.idxOf e]? = some e := by
        rw [List.getElem?_eq_getElem hi]; simp
      simp only [he, if_true, true_and]
      rw [if_neg (by omega)]
      by_cases hv : Seq.validPos s n
      · have := doMove_eq s sp (s.idxOf e : Int) n e (by omega) (by simpa using hx) hv
        simp only [hv, if_true]
        obtain ⟨h1, h2⟩ := this
        simp only [Res.returning, h2, h1, Int.toNat_natCast, and_self]
      · have : n < 0 := by
          simp only [Seq.validPos] at hv
          have : ¬ ((s.length : Int) ≤ n) := fun h => hmv ⟨h, he⟩
          omega
        rw [doMove_out _ _ _ _ (by omega) this]
        simp [hv, Res.returning]
    · simp [he, noop]
  | removeAt i =>
    simp only [step, removeAt, Seq.step]
    by_cases hv : Seq.validPos s i
    · obtain ⟨ho0, ho1⟩ := hv
      have hx : s[i.toNat]? = some (s[i.toNat]'(by omega)) := List.getElem?_eq_getElem _
      rw [if_neg (by omega), if_pos ⟨ho0, ho1⟩, doRemove_eq s i _ ho0 hx]
      simp [hx]
    · rw [if_neg hv, if_pos]
      · simp [noop]
      · simp only [Seq.validPos] at hv; omega
  | remove e =>
    simp only [step, remove, Seq.step, indexOf_eq]
    by_cases he : e ∈ s
    · have hi : s.idxOf e < s.length := List.idxOf_lt_length_of_mem he
      have hx : s[s.idxOf e]? = some e := by
        rw [List.getElem?_eq_getElem hi]; simp
      simp only [he, if_true]
      rw [if_neg (by omega), doRemove_eq s _ e (by omega) (by simpa using hx)]
      simp [Res.returning, List.erase_eq_eraseIdx_of_idxOf]
    · simp [he, noop, List.erase_of_not_mem he]
  | removeRange f t =>
    simp only [step, removeRange, Seq.step]
    by_cases hv : Seq.validPos s f ∧ Seq.validGap s t ∧ f ≤ t
    · obtain ⟨⟨h1, h2⟩, ⟨h3, h4⟩, h5⟩ := hv
      rw [if_neg (by omega), if_neg (by omega), if_neg (by omega), if_pos ⟨⟨h1, h2⟩, ⟨h3, h4⟩, h5⟩,
        doRemoveRange_eq s f t h1 h5 h4]
      simp
    · rw [if_neg hv]
      simp only [Seq.validPos, Seq.validGap] at hv
      split
      · simp [noop]
      · split
        · simp [noop]
        · rw [if_pos (by omega)]; simp [noop]
  | removeAll c =>
    have := removeAllLoop_eq c s.length s false (Nat.le_refl _)
    simp only [step, removeAll, Seq.step]
    simpa using this
  | set i e =>
    simp only [step, set, Seq.step]
    by_cases hv : Seq.validPos s i
    · obtain ⟨ho0, ho1⟩ := hv
      have hi : i.toNat < s.length := by omega
      have hx : s[i.toNat]? = some (s[i.toNat]'hi) := List.getElem?_eq_getElem _
      have hv : Seq.validPos s i := ⟨ho0, ho1⟩
      have hv' : ¬ (i < 0 ∨ i ≥ (s.length : Int)) := by omega
      simp only [hv, hv', not_true_eq_false, if_false]
      have hiff : (cfg.unique && (decide (indexOf s e ≥ 0) && decide (indexOf s e ≠ i))) = true ↔
          (cfg.unique = true ∧ e ∈ s ∧ s[i.toNat]? ≠ some e) := by
        by_cases hu : cfg.unique = true
        · have hnd' := hnd hu
          simp only [hu, Bool.true_and, Bool.and_eq_true, decide_eq_true_eq, true_and, indexOf_eq]
          by_cases he : e ∈ s
          · have hj : s.idxOf e < s.length := List.idxOf_lt_length_of_mem he
            simp only [he, if_true, true_and, hx, ne_eq, Option.some.injEq]
            constructor
            · rintro ⟨_, h⟩ heq
              apply h
              have : s[s.idxOf e] = s[i.toNat] := by simp [heq]
              have := (List.getElem_inj hnd').1 this
              omega
            · intro h
              refine ⟨by omega, fun heq => h ?_⟩
              have : i.toNat = s.idxOf e := by omega
              simp [this]
          · simp [he]
        · simp [hu]
      by_cases hb : cfg.unique = true ∧ e ∈ s ∧ s[i.toNat]? ≠ some e
      · rw [if_pos (hiff.2 hb), if_pos hb]; simp [noop]
      · rw [if_neg (fun h => hb (hiff.1 h)), if_neg hb, doSet_eq s i e _ ho0 hx]
        simp [hx]
    · rw [if_pos hv, if_pos]
      · simp [noop]
      · simp only [Seq.validPos] at hv; omega
  | clear => simp [step, clear, doClear, Seq.step]

theorem cons_eraseIdx_perm (s : List α) (i : Nat) (h : i < s.length) : (s[i] :: s.eraseIdx i).Perm s := by
  have e : s = s.take i ++ s[i] :: s.drop (i + 1) := by
    rw [← List.drop_eq_getElem_cons h, List.take_append_drop]
  rw [List.eraseIdx_eq_take_drop_succ]
  conv => rhs; rw [e]
  exact List.perm_middle.symm

theorem nodup_insertIdx (s : List α) (i : Nat) (e : α) (h : s.Nodup) (he : e ∉ s) (hi : i ≤ s.length) :
    (s.insertIdx i e).Nodup := by
  have : (s.insertIdx i e).Perm (e :: s) := List.perm_insertIdx _ _ hi
  exact this.nodup_iff.2 (by simp [h, he])

/-- The specification keeps a unique sequence free of duplicates. -/
theorem spec_nodup (s : List α) (op : Op α) (h : s.Nodup) : (Seq.step true s op).1.Nodup := by
  cases op with
  | add e =>
    simp only [Seq.step, true_and]
    split
    · exact h
    · rename_i he
      simp [List.nodup_append, h]; intro x hx hxe; exact he (hxe ▸ hx)
  | addAll c =>
    simp only [Seq.step, if_true, List.nodup_append, h, nodup_fresh, true_and, mem_fresh]
    rintro a ha b ⟨_, hb⟩ rfl; exact hb ha
  | insert i e =>
    simp only [Seq.step, true_and]
    split
    · exact h
    · split
      · exact h
      · rename_i h1 h2
        have h1 : Seq.validGap s i := Decidable.not_not.1 h1
        exact nodup_insertIdx s _ e h h2 (by obtain ⟨a, b⟩ := h1; omega)
  | insertAll i c =>
    simp only [Seq.step, if_true]
    split
    · exact h
    · have hp : (Seq.insertAllAt s i.toNat (Seq.fresh s c)).Perm (s ++ Seq.fresh s c) := by
        have e : s = s.take i.toNat ++ s.drop i.toNat := (List.take_append_drop _ _).symm
        unfold Seq.insertAllAt
        conv => rhs; rw [e]
        rw [List.append_assoc, List.append_assoc]
        rw [← e]
        exact List.Perm.append_left _ List.perm_append_comm
      refine hp.nodup_iff.2 ?_
      simp only [List.nodup_append, h, nodup_fresh, true_and, mem_fresh]
      rintro a ha b ⟨_, hb⟩ rfl; exact hb ha
  | move sp o n =>
    simp only [Seq.step]
    split
    · rename_i hv
      split
      · rename_i x hx
        have hlt : o.toNat < s.length := by obtain ⟨⟨a, b⟩, _⟩ := hv; omega
        have hn : n.toNat ≤ (s.eraseIdx o.toNat).length := by
          rw [List.length_eraseIdx]; obtain ⟨⟨a, b⟩, c, d⟩ := hv; split <;> omega
        have hx' : s[o.toNat] = x := by
          rw [List.getElem?_eq_getElem hlt] at hx; exact Option.some.inj hx
        unfold Seq.moved
        have hp := List.perm_insertIdx x (s.eraseIdx o.toNat) hn
        have hp2 : (x :: s.eraseIdx o.toNat).Perm s := by
          rw [← hx']; exact cons_eraseIdx_perm _ _ hlt
        exact (hp.trans hp2).nodup_iff.2 h
      · exact h
    · exact h
  | moveObject sp n e =>
    simp only [Seq.step]
    split
    · rename_i hv
      obtain ⟨he, hv⟩ := hv
      have hlt : s.idxOf e < s.length := List.idxOf_lt_length_of_mem he
      have hn : n.toNat ≤ (s.eraseIdx (s.idxOf e)).length := by
        rw [List.length_eraseIdx]; obtain ⟨a, b⟩ := hv; split <;> omega
      unfold Seq.moved
      have hp := List.perm_insertIdx e (s.eraseIdx (s.idxOf e)) hn
      have hp2 : (e :: s.eraseIdx (s.idxOf e)).Perm s := by
        have := cons_eraseIdx_perm _ _ hlt
        simpa using this
      exact (hp.trans hp2).nodup_iff.2 h
    · exact h
  | removeAt i =>
    simp only [Seq.step]
    split
    · split
      · exact h.sublist (List.eraseIdx_sublist ..)
      · exact h
    · exact h
  | remove e => exact h.erase e
  | removeRange f t =>
    simp only [Seq.step]
    split
    · rename_i hv
      refine h.sublist ?_
      have e : s = s.take f.toNat ++ s.drop f.toNat := (List.take_append_drop _ _).symm
      conv => rhs; rw [e]
      refine List.Sublist.append_left ?_ _
      exact List.drop_sublist_drop_left s (by obtain ⟨a, b, c⟩ := hv; omega)
    · exact h
  | removeAll c => exact h.filter _
  | set i e =>
    simp only [Seq.step, true_and]
    split
    · exact h
    · split
      · exact h
      · rename_i hv hb
        split
        · rename_i x hx
          by_cases he : e ∈ s
          · have : s[i.toNat]? = some e := Classical.byContradiction fun hc => hb ⟨he, hc⟩
            have hset : s.set i.toNat e = s := by
              apply List.ext_getElem?; intro j
              rw [List.getElem?_set]; split
              · split
                · subst_vars; rw [this]
                · subst_vars; simp_all
              · rfl
            rw [hset]; exact h
          · have hv : Seq.validPos s i := Decidable.not_not.1 hv
            have hlt : i.toNat < s.length := by obtain ⟨a, b⟩ := hv; omega
            rw [List.set_eq_take_append_cons_drop, if_pos hlt]
            have hp : (s.take i.toNat ++ e :: s.drop (i.toNat + 1)).Perm (e :: s.eraseIdx i.toNat) := by
              rw [List.eraseIdx_eq_take_drop_succ]; exact List.perm_middle
            refine hp.nodup_iff.2 ?_
            rw [List.nodup_cons]
            exact ⟨fun hm => he (List.mem_of_mem_eraseIdx hm), h.sublist (List.eraseIdx_sublist ..)⟩
        · exact h
  | clear => simp [Seq.step]

end
end Verif.EList

namespace Verif.EList
variable {α : Type}

/-! #### binary search -/

theorem bsLoop_spec {τ : Type} (cmp : α → τ → Int) (data : List α) (t : τ)
    (mono : ∀ i j (hi : i < data.length) (hj : j < data.length), i ≤ j → cmp data[j] t < 0 → cmp data[i] t < 0)
    (i j : Nat) (hij : i ≤ j) (hj : j ≤ data.length)
    (hlo : ∀ k (h : k < data.length), k < i → cmp data[k] t < 0)
    (hhi : ∀ k (h : k < data.length), j ≤ k → ¬ cmp data[k] t < 0) :
    bsLoop cmp data t i j ≤ data.length ∧
    (∀ k (h : k < data.length), k < bsLoop cmp data t i j → cmp data[k] t < 0) ∧
    (∀ k (h : k < data.length), bsLoop cmp data t i j ≤ k → ¬ cmp data[k] t < 0) := by
  fun_induction bsLoop cmp data t i j with
  | case1 i j h m hm =>
    have : m < data.length := by simp only [m]; omega
    simp [this] at hm
  | case2 i j h m x hx hlt ih =>
    have hm : m < data.length := by simp only [m]; omega
    rw [List.getElem?_eq_getElem hm] at hx
    have hx := Option.some.inj hx
    apply ih
    · simp only [m]; omega
    · exact hj
    · intro k hk hkm
      exact mono k m hk hm (by omega) (by rw [hx]; exact hlt)
    · exact hhi
  | case3 i j h m x hx hlt ih =>
    have hm : m < data.length := by simp only [m]; omega
    rw [List.getElem?_eq_getElem hm] at hx
    have hx := Option.some.inj hx
    apply ih
    · simp only [m]; omega
    · omega
    · exact hlo
    · intro k hk hkm hc
      have := mono m k hm hk hkm hc
      rw [hx] at this; exact hlt this
  | case4 i j h =>
    have : i = j := by omega
    subst this
    exact ⟨hj, hlo, hhi⟩

theorem get_nat (data : List α) (i : Nat) (h : i < data.length) : get data i = .val data[i] := by
  simp only [get, goIndex]
  rw [if_neg (by omega), if_pos (by omega)]
  simp [h]

theorem allFrom_eq (data : List α) (i : Nat) : allFrom data i = (data.drop i).map .val := by
  fun_induction allFrom data i with
  | case1 i h ih => rw [ih, get_nat _ _ h, List.drop_eq_getElem_cons h]; rfl
  | case2 i h => rw [List.drop_of_length_le (by omega)]; rfl

end Verif.EList
