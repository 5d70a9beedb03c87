import Verif.Proofs.EList
/-
Properties C01-C05: lists, iterators and binary search.
-/
namespace Verif.Props
open Verif.EList Verif.Spec

variable {α : Type} [DecidableEq α] [Inhabited α]

/-- Neither of the two known defects is exercised by this call: it does not move an element past the end of
the list and, for a unique list whose external set iterator is disturbed by removals, it is not a
bulk addition of several elements already present. -/
def wellBehaved (cfg : Cfg) (s : List α) (op : Op α) : Prop :=
  ¬ Seq.movesPastEnd s op ∧ (cfg.unique = true → cfg.iter = .live → Seq.bulkHarmless s op)

omit [Inhabited α] in
instance (cfg : Cfg) (s : List α) (op : Op α) : Decidable (wellBehaved cfg s op) :=
  inferInstanceAs (Decidable (_ ∧ (_ → _ → _)))

theorem run_refines (cfg : Cfg) (s : List α) (ops : List (Op α))
    (hnd : cfg.unique = true → s.Nodup) (hok : Seq.Always cfg.unique (wellBehaved cfg) s ops) :
    run cfg s ops = Seq.run cfg.unique s ops ∧ runRets cfg s ops = Seq.rets cfg.unique s ops ∧
    (cfg.unique = true → (run cfg s ops).Nodup) := by
  induction ops generalizing s with
  | nil => exact ⟨rfl, rfl, hnd⟩
  | cons op ops ih =>
    obtain ⟨h1, h2⟩ := hok
    obtain ⟨e1, e2⟩ := step_refines cfg s op hnd h1
    simp only [run, Seq.run, runRets, Seq.rets, e1, e2]
    have := ih (Seq.step cfg.unique s op).1 (fun hu => by
      have := hnd hu
      rw [hu]; exact spec_nodup s op this) h2
    exact ⟨this.1, by rw [this.2.1], this.2.2⟩

/-- **C01** (partial: calls exercising the two defects below are excluded). A unique list that starts
without duplicates never gets any, whatever sequence of calls is made. -/
theorem C01_unique_list_nodup_partial (iter : SetIter) (s : List α) (ops : List (Op α)) (h : s.Nodup)
    (hok : Seq.Always true (wellBehaved ⟨true, iter⟩) s ops) :
    (run ⟨true, iter⟩ s ops).Nodup :=
  (run_refines ⟨true, iter⟩ s ops (fun _ => h) hok).2.2 rfl

/-- Contents of the spare capacity after `RemoveRange(f,t)` (Go `append(data[:f], data[t:]...)`,
ecore/basicelist.go:145, shifts the tail left in the same array and leaves the old values behind it):
the last `t - f` slots of the old contents are still there. -/
def staleAfterRemoveRange (data : List α) (f t : Nat) : List α := data.drop (data.length - (t - f))

omit [DecidableEq α] [Inhabited α] in
example (a b c d : α) : staleAfterRemoveRange [a, b, c, d] 0 2 = [c, d] := rfl

/-- **C01 violated (1)**: on the unique list [0,1,2,3], `RemoveRange(0,2)` followed by `Move(1,2)` (which
panics) leaves the list [2,2]: the stale third slot was shifted in before the panic. -/
theorem C01_move_past_end_violated :
    let cfg : Cfg := ⟨true, .snapshot⟩
    let s : List Nat := [0, 1, 2, 3]
    let s1 := (step cfg s (.removeRange 0 2)).data
    let r := step cfg s1 (.move (staleAfterRemoveRange s 0 2) 1 2)
    s.Nodup ∧ s1 = [2, 3] ∧ r.ret = .panic ∧ r.data = [2, 2] ∧ ¬ r.data.Nodup := by
  decide

/-- **C01 violated (2)**, if the external set iterator is the one of gods (stops at the current size): on the
unique list [0,2,8,9], `AddAll([0,1,2])` adds 2 a second time. -/
theorem C01_addAll_live_violated :
    let cfg : Cfg := ⟨true, .live⟩
    let s : List Nat := [0, 2, 8, 9]
    s.Nodup ∧ (step cfg s (.addAll [0, 1, 2])).data = [0, 2, 8, 9, 1, 2] ∧
    ¬ (step cfg s (.addAll [0, 1, 2])).data.Nodup := by
  decide

/-- Non-vacuity of C01: a history with refused, bulk, moving and panicking calls. -/
example :
    let ops : List (Op Nat) := [.add 5, .add 5, .addAll [5, 6, 6, 7], .insert 9 1, .insert 0 8, .move [] 0 2,
      .set 1 8, .set 1 9, .removeAll [6], .moveObject [] (-1) 9]
    Seq.Always true (wellBehaved ⟨true, .live⟩) [] ops ∧ run ⟨true, .live⟩ [] ops = [5, 9, 8, 7] := by
  decide

/-- **C02** (partial: same exclusions as C01). Every sequence of calls changes the contents and returns
values exactly as the operations on mathematical sequences of `Spec/Seq.lean` do; in particular a call with an
index out of range panics and changes nothing. -/
theorem C02_list_refines_sequence_partial (cfg : Cfg) (s : List α) (ops : List (Op α))
    (hnd : cfg.unique = true → s.Nodup) (hok : Seq.Always cfg.unique (wellBehaved cfg) s ops) :
    run cfg s ops = Seq.run cfg.unique s ops ∧ runRets cfg s ops = Seq.rets cfg.unique s ops :=
  ⟨(run_refines cfg s ops hnd hok).1, (run_refines cfg s ops hnd hok).2.1⟩

omit [DecidableEq α] [Inhabited α] in
/-- **C02**, `Get`: the element at the index, or a panic. -/
theorem C02_get (s : List α) (i : Int) :
    (∀ x, EList.get s i = .val x ↔ 0 ≤ i ∧ s[i.toNat]? = some x) ∧
    (EList.get s i = .panic ↔ i < 0 ∨ (s.length : Int) ≤ i) := by
  constructor
  · intro x
    simp only [EList.get, goIndex]
    split
    · rename_i h
      simp only [reduceCtorEq, false_iff, not_and]
      intro h0
      rcases h with h | h
      · omega
      · rw [List.getElem?_eq_none (by omega)]; simp
    · rename_i h
      rw [if_pos (by omega)]
      have : i.toNat < s.length := by omega
      rw [List.getElem?_eq_getElem this]
      simp only [Ret.val.injEq, Option.some.injEq]
      constructor
      · intro hx; exact ⟨by omega, hx⟩
      · exact fun hx => hx.2
  · simp only [EList.get, goIndex]
    split
    · rename_i h; simp only [true_iff]; omega
    · rename_i h
      rw [if_pos (by omega)]
      have : i.toNat < s.length := by omega
      rw [List.getElem?_eq_getElem this]
      simp only [reduceCtorEq, false_iff]
      omega

omit [Inhabited α] in
/-- **C02**, `IndexOf`: the first position of the element, or -1 exactly when it is absent. -/
theorem C02_indexOf (s : List α) (e : α) :
    (indexOf s e = -1 ↔ e ∉ s) ∧
    (∀ i : Nat, indexOf s e = i ↔ s[i]? = some e ∧ ∀ j < i, s[j]? ≠ some e) := by
  rw [indexOf_eq]
  constructor
  · split <;> simp_all
  · intro i
    split
    · rename_i h
      have hi : s.idxOf e < s.length := List.idxOf_lt_length_of_mem h
      constructor
      · intro hh
        have : s.idxOf e = i := by omega
        subst this
        refine ⟨by simp [hi], fun j hj hx => ?_⟩
        have := List.not_of_lt_findIdx (p := (· == e)) (xs := s) (i := j) hj
        rw [List.getElem?_eq_getElem (by omega)] at hx
        simp at this hx
        exact this hx
      · rintro ⟨h1, h2⟩
        have hxi : s[s.idxOf e]? = some e := by simp [hi]
        rcases Nat.lt_trichotomy (s.idxOf e) i with hlt | heq | hgt
        · exact absurd hxi (h2 _ hlt)
        · omega
        · have := List.not_of_lt_findIdx (p := (· == e)) (xs := s) (i := i) hgt
          rw [List.getElem?_eq_getElem (by omega)] at h1
          simp at this h1
          exact absurd h1 this
    · rename_i h
      constructor
      · intro; omega
      · rintro ⟨h1, _⟩
        exact absurd (List.mem_of_getElem? h1) h

omit [Inhabited α] in
/-- **C02**, `Contains`. -/
theorem C02_contains (s : List α) (e : α) : contains s e = true ↔ e ∈ s := by
  simp [contains_eq]

/-- **C02 violated** for `MoveObject` and `Move` past the end: the call panics but the contents changed
(one element lost, another shifted in from the spare capacity). -/
theorem C02_move_object_violated :
    let s : List Nat := [1, 2, 3]
    (step ⟨false, .snapshot⟩ s (.moveObject [7, 7, 7, 7] 5 1)).ret = .panic ∧
    (step ⟨false, .snapshot⟩ s (.moveObject [7, 7, 7, 7] 5 1)).data = [2, 3, 7] := by
  decide

example :
    let ops : List (Op Nat) := [.addAll [3, 3, 4], .insertAll 1 [9, 9], .removeRange 0 2, .remove 3,
      .removeAt 7, .insert 1 2]
    Seq.Always false (wellBehaved ⟨false, .snapshot⟩) [1] ops ∧
    run ⟨false, .snapshot⟩ [1] ops = [9, 2, 3, 4] := by
  decide

/-- **C03** (partial: `newIndex = size` excluded). With both positions inside the list, `Move` returns the element,
puts it at the new position, keeps all the other elements in their order, and moving back restores
the list; with another position (other than the size) it panics and changes nothing. -/
theorem C03_move_partial (cfg : Cfg) (s spare spare' : List α) (o n : Int) :
    (∀ (_ho : 0 ≤ o ∧ o < s.length) (_hn : 0 ≤ n ∧ n < s.length),
      ∃ x, s[o.toNat]? = some x ∧
        let r := step cfg s (.move spare o n)
        r.ret = .val x ∧ r.data[n.toNat]? = some x ∧
        r.data.eraseIdx n.toNat = s.eraseIdx o.toNat ∧
        (step cfg r.data (.move spare' n o)).data = s) ∧
    (n ≠ s.length → ¬ ((0 ≤ o ∧ o < s.length) ∧ 0 ≤ n ∧ n < s.length) →
      (step cfg s (.move spare o n)).ret = .panic ∧ (step cfg s (.move spare o n)).data = s) := by
  constructor
  · rintro ⟨ho0, ho1⟩ ⟨hn0, hn1⟩
    have hlt : o.toNat < s.length := by omega
    have hx : s[o.toNat]? = some s[o.toNat] := List.getElem?_eq_getElem hlt
    refine ⟨s[o.toNat], hx, ?_⟩
    have key := doMove_eq s spare o n _ ho0 hx ⟨hn0, hn1⟩
    have hstep : step cfg s (.move spare o n) = doMove s spare o n := by
      simp only [step, move]; rw [if_neg (by omega)]
    simp only [hstep, key.1, key.2, Seq.moved, true_and]
    have hle : n.toNat ≤ (s.eraseIdx o.toNat).length := by
      rw [List.length_eraseIdx]; split <;> omega
    have hget : ((s.eraseIdx o.toNat).insertIdx n.toNat s[o.toNat])[n.toNat]? = some s[o.toNat] := by
      rw [List.getElem?_insertIdx_self, if_pos hle]
    have hlen : ((s.eraseIdx o.toNat).insertIdx n.toNat s[o.toNat]).length = s.length := by
      rw [List.length_insertIdx, List.length_eraseIdx]; grind
    refine ⟨hget, List.eraseIdx_insertIdx_self .., ?_⟩
    have key2 := doMove_eq _ spare' n o _ hn0 hget ⟨ho0, by rw [hlen]; exact ho1⟩
    have hstep2 : step cfg ((s.eraseIdx o.toNat).insertIdx n.toNat s[o.toNat]) (.move spare' n o)
        = doMove ((s.eraseIdx o.toNat).insertIdx n.toNat s[o.toNat]) spare' n o := by
      simp only [step, move]; rw [if_neg (by rw [hlen]; omega)]
    rw [hstep2, key2.1, Seq.moved, List.eraseIdx_insertIdx_self]
    apply List.ext_getElem?
    intro j
    simp only [List.getElem?_insertIdx, List.getElem?_eraseIdx, List.length_eraseIdx]
    grind
  · intro hne hv
    have : o < 0 ∨ o ≥ (s.length : Int) ∨ n < 0 ∨ n > (s.length : Int) := by omega
    simp only [step, move, this, if_true, noop, and_self]

/-- **C03 violated**: `Move(0, size)` is not refused by the bounds check; it panics later, and with spare capacity
the contents have been changed by then. -/
theorem C03_move_to_size_violated :
    let s : List Nat := [1, 2, 3]
    (step ⟨false, .snapshot⟩ s (.move [7] 0 3)).ret = .panic ∧
    (step ⟨false, .snapshot⟩ s (.move [7] 0 3)).data = [2, 3, 7] ∧
    (step ⟨false, .snapshot⟩ s (.move [] 0 3)).ret = .panic ∧
    (step ⟨false, .snapshot⟩ s (.move [] 0 3)).data = s := by
  decide

example : (step ⟨true, .snapshot⟩ [10, 11, 12, 13] (.move [] 0 2)).data = [11, 12, 10, 13] := by decide

omit [DecidableEq α] [Inhabited α] in
/-- **C04** For a comparison compatible with the list order (if an element is smaller than the target, all
the elements before it are), the search returns the earliest position whose element is not smaller than the target
(every position before is smaller, no position from there on is), and reports found exactly when there is an element there
which compares equal. -/
theorem C04_binarySearch {τ : Type} (cmp : α → τ → Int) (s : List α) (t : τ)
    (sorted : ∀ i j (hi : i < s.length) (hj : j < s.length), i ≤ j → cmp s[j] t < 0 → cmp s[i] t < 0) :
    let (i, found) := binarySearch cmp s t
    i ≤ s.length ∧
    (∀ k (h : k < s.length), k < i ↔ cmp s[k] t < 0) ∧
    (found = true ↔ ∃ h : i < s.length, cmp s[i] t = 0) := by
  obtain ⟨h1, h2, h3⟩ := bsLoop_spec cmp s t sorted 0 s.length (by omega) (by omega)
    (by intros; omega) (by intros; omega)
  simp only [binarySearch]
  refine ⟨h1, fun k h => ⟨h2 k h, fun hc => ?_⟩, ?_⟩
  · rcases Nat.lt_or_ge k (bsLoop cmp s t 0 s.length) with hlt | hge
    · exact hlt
    · exact absurd hc (h3 k h hge)
  · split
    · rename_i hn
      simp only [Bool.false_eq_true, false_iff, not_exists]
      intro h
      simp [h] at hn
    · rename_i x hx
      obtain ⟨h, hxx⟩ := List.getElem?_eq_some_iff.1 hx
      simp [h, hxx]

omit [DecidableEq α] [Inhabited α] in
/-- **C04**, completeness of `found` on a list fully sorted for `cmp`: found exactly when some element equals the target,
and then no earlier position compares equal. -/
theorem C04_binarySearch_found {τ : Type} (cmp : α → τ → Int) (s : List α) (t : τ)
    (sorted : ∀ i j (hi : i < s.length) (hj : j < s.length), i ≤ j → cmp s[j] t < 0 → cmp s[i] t < 0)
    (sorted' : ∀ i j (hi : i < s.length) (hj : j < s.length), i ≤ j → 0 < cmp s[i] t → 0 < cmp s[j] t) :
    ((binarySearch cmp s t).2 = true ↔ ∃ x ∈ s, cmp x t = 0) ∧
    (∀ k (h : k < s.length), k < (binarySearch cmp s t).1 → cmp s[k] t ≠ 0) := by
  have := C04_binarySearch cmp s t sorted
  generalize hb : binarySearch cmp s t = b at *
  obtain ⟨i, found⟩ := b
  obtain ⟨h1, h2, h3⟩ := this
  simp only at h1 h2 h3 ⊢
  refine ⟨⟨fun hf => ?_, ?_⟩, fun k h hk => ?_⟩
  · obtain ⟨h, hc⟩ := h3.1 hf
    exact ⟨_, List.getElem_mem h, hc⟩
  · rintro ⟨x, hx, hc⟩
    obtain ⟨k, hk, rfl⟩ := List.getElem_of_mem hx
    have hge : ¬ k < i := fun hlt => by
      have := (h2 k hk).1 hlt; omega
    have hlen : i < s.length := by omega
    refine h3.2 ⟨hlen, ?_⟩
    have a : ¬ cmp s[i] t < 0 := fun hlt => by
      have := (h2 _ hlen).2 hlt; omega
    have b : ¬ 0 < cmp s[i] t := fun hlt => by
      have := sorted' _ k hlen hk (by omega) hlt; omega
    omega
  · have := (h2 k h).1 hk; omega

example :
    binarySearch (fun a (t : Int) => a - t) [1, 3, 3, 5, 9] 3 = (1, true) ∧
    binarySearch (fun a (t : Int) => a - t) [1, 3, 3, 5, 9] 10 = (5, false) := by
  simp [binarySearch, bsLoop]

/-! ### C05 iterators -/

/-- Calls on an iterator. -/
inductive ICall where
  | hasNext
  | next

/-- Results of a sequence of calls on a model iterator. -/
def iterRun (s : List α) (it : Iter) : List ICall → List (Ret α)
  | [] => []
  | .hasNext :: cs => .bool (it.hasNext s) :: iterRun s it cs
  | .next :: cs => (it.next s).2 :: iterRun s (it.next s).1 cs

/-- Specification: an iterator is the sequence of the elements that remain to be returned. -/
def iterSpec (rest : List α) : List ICall → List (Ret α)
  | [] => []
  | .hasNext :: cs => .bool (!rest.isEmpty) :: iterSpec rest cs
  | .next :: cs =>
    match rest with
    | [] => .panic :: iterSpec [] cs
    | x :: xs => .val x :: iterSpec xs cs

omit [DecidableEq α] [Inhabited α] in
theorem iterRun_drop (s : List α) (k : Nat) (cs : List ICall) :
    iterRun s ⟨k⟩ cs = iterSpec (s.drop k) cs := by
  induction cs generalizing k with
  | nil => rfl
  | cons c cs ih =>
    cases c with
    | hasNext =>
      simp only [iterRun, iterSpec, ih, Iter.hasNext]
      congr 2
      rcases Nat.lt_or_ge k s.length with h | h
      · rw [List.drop_eq_getElem_cons h]; simp [h]
      · rw [List.drop_of_length_le h]; simp; omega
    | next =>
      simp only [iterRun, iterSpec, Iter.next]
      rcases Nat.lt_or_ge k s.length with h | h
      · rw [if_neg (by omega), List.drop_eq_getElem_cons h]
        simp only [ih, get_nat _ _ h]
      · rw [if_pos h, List.drop_of_length_le h]
        simp only [ih, List.drop_of_length_le h]

omit [DecidableEq α] [Inhabited α] in
/-- **C05** Any sequence of `HasNext`/`Next` calls on a fresh iterator behaves as walking once along the list:
`Next` returns the next element (or panics at the end), `HasNext` tells whether one remains and has no effect. -/
theorem C05_iterator (s : List α) (cs : List ICall) : iterRun s iterator cs = iterSpec s cs := by
  simpa [iterator] using iterRun_drop s 0 cs

omit [DecidableEq α] [Inhabited α] in
/-- **C05** Calling `Next` as many times as the list is long yields exactly the list, and `HasNext` then is false. -/
theorem C05_iterator_complete (s : List α) :
    iterRun s iterator (List.replicate s.length .next ++ [.hasNext]) = s.map .val ++ [.bool false] := by
  rw [C05_iterator]
  induction s with
  | nil => rfl
  | cons x xs ih => simp only [List.length_cons, List.replicate_succ, List.cons_append, iterSpec, ih, List.map_cons]

omit [DecidableEq α] [Inhabited α] in
/-- **C05** ranging over `All()` yields exactly the list. -/
theorem C05_all (s : List α) : allFrom s 0 = s.map .val := by simp [allFrom_eq]

example : iterRun [7, 8] iterator [.hasNext, .next, .hasNext, .hasNext, .next, .hasNext, .next] =
    [.bool true, .val 7, .bool true, .bool true, .val 8, .bool false, .panic] := by decide

end Verif.Props
