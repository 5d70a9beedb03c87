import Verif.Spec.SharedList
import Verif.Proofs.EList

/-!
# Proofs about lists and the arrays behind them
-/

namespace Verif.SharedList

open Verif.EList (Ret)
open Verif.Spec

variable {α : Type}

theorem arrOf_set (h : Heap α) (a b : Nat) (x : List α) : arrOf (h.set a x) b = if a = b ∧ a < h.length then x else arrOf h b := by
  simp only [arrOf, List.getElem?_set]
  grind

theorem arrOf_append (h : Heap α) (b : Nat) (x : List α) : arrOf (h ++ [x]) b = if b < h.length then arrOf h b else if b = h.length then x else [] := by
  simp only [arrOf, List.getElem?_append]
  grind

/-- the slice is one of the heap -/
def Ok (h : Heap α) (s : Slice) : Prop := s.arr < h.length ∧ s.len ≤ (arrOf h s.arr).length

/-- no slice gets lost, and those with `P` keep their elements -/
def Keeps (h h' : Heap α) (P : Slice → Prop) : Prop :=
  h.length ≤ h'.length ∧ ∀ t, Ok h t → Ok h' t ∧ (P t → view h' t = view h t)

theorem Keeps.refl (h : Heap α) (P : Slice → Prop) : Keeps h h P := ⟨Nat.le_refl _, fun _ ht => ⟨ht, fun _ => rfl⟩⟩

theorem Keeps.trans {h h' h'' : Heap α} {P Q R : Slice → Prop} (k : Keeps h h' P) (k' : Keeps h' h'' Q) (hp : ∀ t, Ok h t → R t → P t) (hq : ∀ t, Ok h t → R t → Q t) :
    Keeps h h'' R :=
  ⟨Nat.le_trans k.1 k'.1, fun t ht => ⟨(k'.2 t (k.2 t ht).1).1, fun hr => by rw [(k'.2 t (k.2 t ht).1).2 (hq t ht hr), (k.2 t ht).2 (hp t ht hr)]⟩⟩

theorem Keeps.mono {h h' : Heap α} {P Q : Slice → Prop} (k : Keeps h h' P) (hp : ∀ t, Ok h t → Q t → P t) : Keeps h h' Q :=
  ⟨k.1, fun t ht => ⟨(k.2 t ht).1, fun hq => (k.2 t ht).2 (hp t ht hq)⟩⟩

theorem view_length {h : Heap α} {s : Slice} (hs : Ok h s) : (view h s).length = s.len := by
  simp only [view, List.length_take]
  have := hs.2
  omega

theorem over_length (a : List α) (i : Nat) (xs : List α) (hi : i + xs.length ≤ a.length) : (over a i xs).length = a.length := by
  simp only [over, List.length_append, List.length_take, List.length_drop]
  omega

theorem over_get (a : List α) (i : Nat) (xs : List α) (hi : i + xs.length ≤ a.length) (k : Nat) :
    (over a i xs)[k]? = if k < i then a[k]? else if k < i + xs.length then xs[k - i]? else a[k]? := by
  simp only [over, List.append_assoc, List.getElem?_append, List.getElem?_take, List.getElem?_drop, List.length_take]
  grind

/-- a write into an array -/
theorem keeps_write (h : Heap α) (a n : Nat) (x : List α) (hl : x.length = (arrOf h a).length) (hx : ∀ k, k < n → x[k]? = (arrOf h a)[k]?) :
    Keeps h (h.set a x) (fun t => t.arr = a → t.len ≤ n) := by
  refine ⟨by simp, fun t ht => ⟨⟨by simpa using ht.1, ?_⟩, fun hp => ?_⟩⟩
  · rw [arrOf_set]
    have := ht.2
    split
    · rename_i he; rw [hl, he.1]; exact this
    · exact this
  · simp only [view, arrOf_set]
    split
    · rename_i he
      have := hp he.1.symm
      apply List.ext_getElem?
      intro k
      simp only [List.getElem?_take]
      split
      · rw [hx k (by omega), he.1]
      · rfl
    · rfl

theorem keeps_alloc (h : Heap α) (x : List α) : Keeps h (h ++ [x]) (fun _ => True) := by
  refine ⟨by simp, fun t ht => ?_⟩
  have h1 := ht.1
  have he : arrOf (h ++ [x]) t.arr = arrOf h t.arr := by rw [arrOf_append, if_pos h1]
  exact ⟨⟨by simp; omega, by rw [he]; exact ht.2⟩, fun _ => by simp [view, he]⟩

theorem alloc_ok (h : Heap α) (xs : List α) : Ok (alloc h xs).1 (alloc h xs).2 ∧ view (alloc h xs).1 (alloc h xs).2 = xs ∧ (alloc h xs).2.arr = h.length := by
  simp [alloc, Ok, view, arrOf_append]

/-- what a call does to the slice of its list -/
structure Does (h : Heap α) (s : Slice) (h' : Heap α) (s' : Slice) (d : List α) (P : Slice → Prop) : Prop where
  elems : view h' s' = d
  ok : Ok h' s'
  arr : s'.arr = s.arr ∨ h.length ≤ s'.arr
  keeps : Keeps h h' P

variable [Inhabited α]

theorem append_does (grow : Nat → Nat → Nat) (h : Heap α) (s : Slice) (xs : List α) (hs : Ok h s) :
    Does h s (append grow h s xs).1 (append grow h s xs).2 (view h s ++ xs) (fun t => t.arr = s.arr → t.len ≤ s.len) := by
  have h1 := hs.1
  have h2 := hs.2
  unfold append
  split
  · rename_i hf
    have hl := over_length (arrOf h s.arr) s.len xs hf
    refine ⟨?_, ⟨by simpa using h1, ?_⟩, .inl rfl, keeps_write h s.arr s.len _ hl ?_⟩
    · simp only [view, arrOf_set, h1, and_self, if_true]
      apply List.ext_getElem?
      intro k
      simp only [List.getElem?_take, over_get _ _ _ hf, List.getElem?_append, List.length_take]
      grind
    · simp only [arrOf_set, h1, and_self, if_true, hl]
      exact hf
    · intro k hk
      rw [over_get _ _ _ hf, if_pos hk]
  · have hv := view_length hs
    refine ⟨?_, ⟨by simp, ?_⟩, .inr (Nat.le_refl _), (keeps_alloc h _).mono (fun _ _ _ => trivial)⟩
    · simp only [view, arrOf_append, Nat.lt_irrefl, if_false, if_true]
      rw [List.take_append_of_le_length (by simp [view] at hv ⊢; omega)]
      apply List.take_of_length_le
      simp
      omega
    · simp only [arrOf_append, Nat.lt_irrefl, if_false, if_true, List.length_append, hv, List.length_replicate]
      omega

/-- a write into the slice itself -/
theorem write_does (h : Heap α) (s s' : Slice) (x : List α) (hs : Ok h s) (hl : x.length = (arrOf h s.arr).length) (ha : s'.arr = s.arr) (hn : s'.len ≤ x.length) :
    Does h s (h.set s.arr x) s' (x.take s'.len) (fun t => t.arr ≠ s.arr) := by
  have h1 := hs.1
  refine ⟨by simp [view, arrOf_set, ha, h1], ⟨by simpa [ha] using h1, by simp [arrOf_set, ha, h1, hn]⟩, .inl ha, ?_⟩
  exact (keeps_write h s.arr 0 x hl (by simp)).mono (fun t _ ht he => absurd he ht)

theorem Does.of_eq {h : Heap α} {s : Slice} {h' : Heap α} {s' : Slice} {d d' : List α} {P Q : Slice → Prop} (x : Does h s h' s' d P) (hd : d = d') (hp : ∀ t, Ok h t → Q t → P t) :
    Does h s h' s' d' Q := ⟨by rw [x.elems, hd], x.ok, x.arr, x.keeps.mono hp⟩

theorem Does.next {h : Heap α} {s : Slice} {h' : Heap α} {s' : Slice} {d : List α} {h'' : Heap α} {s'' : Slice} {d' : List α} {P Q R : Slice → Prop} (x : Does h s h' s' d P)
    (y : Does h' s' h'' s'' d' Q) (hp : ∀ t, Ok h t → R t → P t) (hq : ∀ t, Ok h t → R t → Q t) : Does h s h'' s'' d' R :=
  ⟨y.elems, y.ok, by have := x.arr; have := y.arr; have := x.keeps.1; omega, x.keeps.trans y.keeps hp hq⟩

theorem copy_does (h : Heap α) (s : Slice) (i : Nat) (xs : List α) (hs : Ok h s) (hi : i ≤ s.len) :
    Does h s (copy h s i xs) s (over (view h s) i (xs.take (s.len - i))) (fun t => t.arr ≠ s.arr) := by
  have h2 := hs.2
  have hf : i + (xs.take (s.len - i)).length ≤ (arrOf h s.arr).length := by simp; omega
  refine (write_does h s s _ hs (over_length _ _ _ hf) rfl (by rw [over_length _ _ _ hf]; exact h2)).of_eq ?_ (fun _ _ ht => ht)
  apply List.ext_getElem?
  intro k
  have hv := view_length hs
  rw [List.getElem?_take, over_get _ _ _ hf, over_get _ _ _ (by rw [hv]; simp; omega)]
  simp only [view, List.getElem?_take]
  simp only [List.length_take] at *
  grind

theorem assign_does (h : Heap α) (s : Slice) (i : Nat) (v : α) (hs : Ok h s) : Does h s (assign h s i v) s ((view h s).set i v) (fun t => t.arr ≠ s.arr) := by
  refine (write_does h s s _ hs (by simp) rfl (by simpa using hs.2)).of_eq ?_ (fun _ _ ht => ht)
  simp [view, List.take_set]

theorem fresh_ne {h h' : Heap α} {s s' t : Slice} {d : List α} {P : Slice → Prop} (x : Does h s h' s' d P) (ht : Ok h t) (hne : t.arr ≠ s.arr) : t.arr ≠ s'.arr := by
  have := x.arr
  have := ht.1
  omega

theorem doInsert_does (grow : Nat → Nat → Nat) (h : Heap α) (s : Slice) (i : Nat) (e : α) (hs : Ok h s) (hi : i ≤ s.len) :
    Does h s (doInsert grow h s i e).1 (doInsert grow h s i e).2 ((view h s).insertIdx i e) (fun t => t.arr ≠ s.arr) := by
  have x := append_does grow h s [default] hs
  have hl : (append grow h s [default]).2.len = s.len + 1 := by unfold append; split <;> simp
  have y := copy_does _ _ (i + 1) ((view (append grow h s [default]).1 (append grow h s [default]).2).drop i) x.ok (by omega)
  have z := assign_does _ _ i e y.ok
  have w := (x.next y (R := fun t => t.arr ≠ s.arr) (fun t _ ht he => absurd he ht) (fun t ht hr => fresh_ne x ht hr)).next z (R := fun t => t.arr ≠ s.arr) (fun _ _ ht => ht)
    (fun t ht hr => fresh_ne x ht hr)
  refine w.of_eq ?_ (fun _ _ ht => ht)
  rw [y.elems, x.elems, hl]
  have hv := view_length hs
  generalize view h s = d at hv
  apply List.ext_getElem?
  intro k
  rw [List.getElem?_set, over_get _ _ _ (by simp; omega)]
  simp only [over, List.length_append, List.length_take, List.length_drop, List.getElem?_append, List.getElem?_take, List.getElem?_drop, List.getElem?_insertIdx]
  simp only [List.length_cons, List.length_nil]
  grind

theorem doInsertAll_does (grow : Nat → Nat → Nat) (h : Heap α) (s c : Slice) (i : Nat) (hs : Ok h s) (hc : Ok h c) (hi : i ≤ s.len) (hcs : c.arr = s.arr → c = s) :
    Does h s (doInsertAll grow h s i c).1 (doInsertAll grow h s i c).2 ((view h s).take i ++ view h c ++ (view h s).drop i)
      (fun t => t.arr ≠ s.arr ∧ (t.arr = c.arr → t.len ≤ c.len)) := by
  have x := append_does grow h c ((view h s).drop i) hc
  have hp : Ok h ⟨s.arr, i⟩ := ⟨hs.1, Nat.le_trans hi hs.2⟩
  have hp' := (x.keeps.2 _ hp).1
  have hpv : view (append grow h c ((view h s).drop i)).1 ⟨s.arr, i⟩ = view h ⟨s.arr, i⟩ :=
    (x.keeps.2 _ hp).2 (fun he => by rw [hcs he.symm]; exact hi)
  have y := append_does grow _ _ (view (append grow h c ((view h s).drop i)).1 (append grow h c ((view h s).drop i)).2) hp'
  refine ⟨?_, y.ok, ?_, ?_⟩
  · rw [doInsertAll, y.elems, hpv, x.elems]
    simp only [view, List.take_take, List.append_assoc, Nat.min_eq_left hi]
  · have := y.arr; have := x.keeps.1; simp only [doInsertAll]; grind
  · exact x.keeps.trans y.keeps (fun t _ ht => ht.2) (fun t _ ht he => absurd he ht.1)

theorem doRemove_does (h : Heap α) (s : Slice) (i : Nat) (hs : Ok h s) (hi : i < s.len) :
    Does h s (doRemove h s i).1 (doRemove h s i).2 ((view h s).eraseIdx i) (fun t => t.arr ≠ s.arr) := by
  have x := copy_does h s i ((view h s).drop (i + 1)) hs (by omega)
  have y := assign_does _ s (s.len - 1) default x.ok
  have w := x.next y (R := fun t => t.arr ≠ s.arr) (fun _ _ ht => ht) (fun _ _ ht => ht)
  have hv := view_length hs
  refine ⟨?_, ⟨w.ok.1, Nat.le_trans (Nat.sub_le _ _) w.ok.2⟩, .inl rfl, w.keeps⟩
  have he : view (doRemove h s i).1 (doRemove h s i).2 = (view (assign (copy h s i ((view h s).drop (i + 1))) s (s.len - 1) default) s).take (s.len - 1) := by
    simp only [doRemove, view, List.take_take]
    congr 1
    omega
  rw [he, w.elems, x.elems]
  generalize view h s = d at hv
  apply List.ext_getElem?
  intro k
  rw [List.getElem?_take, List.getElem?_set, over_get _ _ _ (by simp; omega)]
  simp only [over, List.length_append, List.length_take, List.length_drop, List.getElem?_append, List.getElem?_take, List.getElem?_drop, List.getElem?_eraseIdx]
  grind

theorem doRemoveRange_does (grow : Nat → Nat → Nat) (h : Heap α) (s : Slice) (f t : Nat) (hs : Ok h s) (hf : f ≤ s.len) :
    Does h s (doRemoveRange grow h s f t).1 (doRemoveRange grow h s f t).2 ((view h s).take f ++ (view h s).drop t) (fun t => t.arr ≠ s.arr) := by
  have hp : Ok h ⟨s.arr, f⟩ := ⟨hs.1, Nat.le_trans hf hs.2⟩
  have x := append_does grow h ⟨s.arr, f⟩ ((view h s).drop t) hp
  refine ⟨?_, x.ok, x.arr, x.keeps.mono (fun t _ ht he => absurd he ht)⟩
  rw [doRemoveRange, x.elems]
  simp only [view, List.take_take, Nat.min_eq_left hf]

theorem doClear_does (h : Heap α) (s : Slice) : Does h s (doClear h).1 (doClear h).2 [] (fun _ => True) := by
  obtain ⟨h1, h2, h3⟩ := alloc_ok h ([] : List α)
  exact ⟨h2, h1, .inr (by rw [doClear, h3]; exact Nat.le_refl _), keeps_alloc h []⟩

variable [DecidableEq α]

theorem doMove_does (h : Heap α) (s : Slice) (o n : Int) (hs : Ok h s)
    (hd : (EList.doMove (view h s) ((arrOf h s.arr).drop s.len) o n).data.length = (view h s).length) :
    Does h s (doMove h s o n).1 (doMove h s o n).2.1 (EList.doMove (view h s) ((arrOf h s.arr).drop s.len) o n).data (fun t => t.arr ≠ s.arr) := by
  have hv := view_length hs
  have h2 := hs.2
  have hf : 0 + (EList.doMove (view h s) ((arrOf h s.arr).drop s.len) o n).data.length ≤ (arrOf h s.arr).length := by omega
  refine (write_does h s s _ hs (over_length _ _ _ hf) rfl (by rw [over_length _ _ _ hf]; exact h2)).of_eq ?_ (fun _ _ ht => ht)
  simp only [over, List.take_zero, List.nil_append]
  rw [List.take_append_of_le_length (by omega), List.take_of_length_le (by omega)]

theorem valueAt_eq {h : Heap α} {s : Slice} {i : Nat} (hs : Ok h s) (hi : i < s.len) : ∃ x, (view h s)[i]? = some x ∧ valueAt h s i = .val x := by
  have hv := view_length hs
  have : i < (view h s).length := by omega
  exact ⟨(view h s)[i], List.getElem?_eq_getElem this, by simp [valueAt, List.getElem?_eq_getElem this]⟩

/-- the call only appends to its list or gives it a new array -/
def Appends : Op α → Bool
  | .add _ | .addAll _ | .clear => true
  | _ => false

/-- the slices that a call on the slice `s` has to keep -/
def Apart (s : Slice) (o : Op α) (t : Slice) : Prop := if Appends o then t.arr = s.arr → t.len ≤ s.len else t.arr ≠ s.arr

/-- the call as one of `Verif.EList` -/
def plain (spare : List α) (c : List α) : Op α → EList.Op α
  | .add e => .add e
  | .addAll _ => .addAll c
  | .insert i e => .insert i e
  | .insertAll i _ => .insertAll i c
  | .move o n => .move spare o n
  | .moveObject n e => .moveObject spare n e
  | .removeAt i => .removeAt i
  | .remove e => .remove e
  | .removeRange f t => .removeRange f t
  | .removeAll _ => .removeAll c
  | .set i e => .set i e
  | .clear => .clear

theorem same_does (h : Heap α) (s : Slice) (hs : Ok h s) (P : Slice → Prop) : Does h s h s (view h s) P := ⟨rfl, hs, .inl rfl, Keeps.refl _ _⟩

theorem doMove_length (data spare : List α) (o n : Int) (h : ¬ (data.length : Int) ≤ n) (ho : 0 ≤ o) : (EList.doMove data spare o n).data.length = data.length := by
  by_cases hn : n < 0
  · rw [EList.doMove_out data spare o n ho hn]
  · cases hx : data[o.toNat]? with
    | none => simp [EList.doMove, EList.goIndex_eq _ _ ho, hx]
    | some x =>
      have hl : o.toNat < data.length := (List.getElem?_eq_some_iff.1 hx).1
      rw [(EList.doMove_eq data spare o n x ho hx ⟨by omega, by omega⟩).1, Seq.moved, List.length_insertIdx, List.length_eraseIdx]
      grind

theorem single_does (grow : Nat → Nat → Nat) (unique : Bool) (h : Heap α) (s : Slice) (o : Op α) (hs : Ok h s)
    (hc : Spec.collections (Call.op 0 o) = []) (hm : ¬ Seq.movesPastEnd (view h s) (plain [] [] o)) :
    Does h s (single grow unique h s o).1 (single grow unique h s o).2.1 (EList.step ⟨unique, .snapshot⟩ (view h s) (plain ((arrOf h s.arr).drop s.len) [] o)).data (Apart s o) ∧
    (single grow unique h s o).2.2 = (EList.step ⟨unique, .snapshot⟩ (view h s) (plain ((arrOf h s.arr).drop s.len) [] o)).ret := by
  have hv := view_length hs
  cases o with
  | addAll c => simp [Spec.collections] at hc
  | insertAll i c => simp [Spec.collections] at hc
  | removeAll c => simp [Spec.collections] at hc
  | add e =>
    simp only [single, plain, EList.step, EList.add]
    by_cases hq : (unique && EList.contains (view h s) e) = true
    · simp only [hq, if_true, EList.noop, and_true]
      exact same_does h s hs _
    · simp only [hq, if_false, EList.doAdd, EList.Res.returning, giving, and_true, Bool.false_eq_true]
      exact (append_does grow h s [e] hs).of_eq rfl (fun t _ ht => by simpa [Apart, Appends] using ht)
  | insert i e =>
    simp only [single, plain, EList.step, EList.insert, hv]
    by_cases hb : i < 0 ∨ i > (s.len : Int)
    · simp only [hb, if_true, EList.noop, and_true]
      exact same_does h s hs _
    · simp only [hb, if_false]
      by_cases hq : (unique && EList.contains (view h s) e) = true
      · simp only [hq, if_true, EList.noop, and_true]
        exact same_does h s hs _
      · simp only [hq, if_false, giving]
        rw [EList.doInsert_eq _ _ _ ⟨by omega, by omega⟩]
        simp only [EList.Res.returning, and_true, Bool.false_eq_true, if_false]
        exact (doInsert_does grow h s i.toNat e hs (by omega)).of_eq rfl (fun t _ ht => by simpa [Apart, Appends] using ht)
  | move o n =>
    simp only [single, plain, EList.step, EList.move, hv]
    by_cases hb : o < 0 ∨ o ≥ (s.len : Int) ∨ n < 0 ∨ n > (s.len : Int)
    · simp only [hb, if_true, EList.noop, and_true]
      exact same_does h s hs _
    · simp only [hb, if_false]
      simp only [plain, Seq.movesPastEnd, hv] at hm
      refine ⟨?_, rfl⟩
      exact (doMove_does h s o n hs (doMove_length _ _ _ _ (by rw [hv]; omega) (by omega))).of_eq rfl (fun t _ ht => by simpa [Apart, Appends] using ht)
  | moveObject n e =>
    simp only [single, plain, EList.step, EList.moveObject]
    by_cases hb : EList.indexOf (view h s) e = -1
    · simp only [hb, if_true, EList.noop, and_true]
      exact same_does h s hs _
    · simp only [hb, if_false]
      have hi := EList.indexOf_eq e (view h s)
      simp only [plain, Seq.movesPastEnd, hv] at hm
      have hi0 : 0 ≤ EList.indexOf (view h s) e := by grind
      have hmem : e ∈ view h s := by grind
      refine ⟨?_, ?_⟩
      · refine (doMove_does h s _ n hs (doMove_length _ _ _ _ (by rw [hv]; grind) hi0)).of_eq ?_ (fun t _ ht => by simpa [Apart, Appends] using ht)
        simp only [EList.Res.returning]
        split <;> rfl
      · simp only [EList.Res.returning, doMove]
        split <;> simp_all
  | removeAt i =>
    simp only [single, plain, EList.step, EList.removeAt, hv]
    by_cases hb : i < 0 ∨ i ≥ (s.len : Int)
    · simp only [hb, if_true, EList.noop, and_true]
      exact same_does h s hs _
    · simp only [hb, if_false, giving]
      obtain ⟨x, hx, hx'⟩ := valueAt_eq (i := i.toNat) hs (by omega)
      rw [EList.doRemove_eq _ i x (by omega) hx]
      refine ⟨(doRemove_does h s i.toNat hs (by omega)).of_eq rfl (fun t _ ht => by simpa [Apart, Appends] using ht), hx'⟩
  | remove e =>
    simp only [single, plain, EList.step, EList.remove]
    by_cases hb : EList.indexOf (view h s) e = -1
    · simp only [hb, if_true, EList.noop, and_true]
      exact same_does h s hs _
    · simp only [hb, if_false, giving]
      have hi := EList.indexOf_eq e (view h s)
      have hi0 : 0 ≤ EList.indexOf (view h s) e := by grind
      have hmem : e ∈ view h s := by grind
      have hlt : (EList.indexOf (view h s) e).toNat < s.len := by
        have := List.idxOf_lt_length_of_mem hmem
        grind
      obtain ⟨x, hx, hx'⟩ := valueAt_eq hs hlt
      rw [EList.doRemove_eq _ _ x hi0 hx]
      simp only [EList.Res.returning, and_true]
      exact (doRemove_does h s _ hs hlt).of_eq rfl (fun t _ ht => by simpa [Apart, Appends] using ht)
  | removeRange f t =>
    simp only [single, plain, EList.step, EList.removeRange, hv]
    by_cases hb : f < 0 ∨ f ≥ (s.len : Int)
    · simp only [hb, if_true, EList.noop, and_true]
      exact same_does h s hs _
    · simp only [hb, if_false]
      by_cases hb' : t < 0 ∨ t > (s.len : Int)
      · simp only [hb', if_true, EList.noop, and_true]
        exact same_does h s hs _
      · simp only [hb', if_false]
        by_cases hft : f > t
        · simp only [hft, if_true, EList.noop, and_true]
          exact same_does h s hs _
        · simp only [hft, if_false, giving]
          rw [EList.doRemoveRange_eq _ f t (by omega) (by omega) (by omega)]
          refine ⟨(doRemoveRange_does grow h s f.toNat t.toNat hs (by omega)).of_eq rfl (fun t _ ht => by simpa [Apart, Appends] using ht), rfl⟩
  | set i e =>
    simp only [single, plain, EList.step, EList.set, hv]
    by_cases hb : i < 0 ∨ i ≥ (s.len : Int)
    · simp only [hb, if_true, EList.noop, and_true]
      exact same_does h s hs _
    · simp only [hb, if_false]
      by_cases hq : (unique && (decide (EList.indexOf (view h s) e ≥ 0) && decide (EList.indexOf (view h s) e ≠ i))) = true
      · simp only [hq, if_true, EList.noop, and_true]
        exact same_does h s hs _
      · simp only [hq, if_false, giving]
        obtain ⟨x, hx, hx'⟩ := valueAt_eq (i := i.toNat) hs (by omega)
        rw [EList.doSet_eq _ i e x (by omega) hx]
        refine ⟨(assign_does h s i.toNat e hs).of_eq rfl (fun t _ ht => by simpa [Apart, Appends] using ht), hx'⟩
  | clear =>
    simp only [single, plain, EList.step, EList.clear, EList.doClear, giving, and_true]
    exact (doClear_does h s).of_eq rfl (fun _ _ _ => trivial)

theorem addAll_does (grow : Nat → Nat → Nat) (unique : Bool) (h : Heap α) (s c : Slice) (hs : Ok h s) :
    Does h s (addAll grow unique h s c).1 (addAll grow unique h s c).2.1 (EList.addAll ⟨unique, .snapshot⟩ (view h s) (view h c)).data (fun t => t.arr = s.arr → t.len ≤ s.len) ∧
    (addAll grow unique h s c).2.2 = (EList.addAll ⟨unique, .snapshot⟩ (view h s) (view h c)).ret := by
  cases unique with
  | false =>
    simp only [addAll, EList.addAll, EList.doAddAll, EList.Res.returning, giving, and_true, Bool.false_eq_true, if_false]
    exact append_does grow h s _ hs
  | true =>
    obtain ⟨h1, h2, h3⟩ := alloc_ok h (EList.getNonDuplicates .snapshot (view h s) (view h c))
    have hk : Keeps h (alloc h (EList.getNonDuplicates .snapshot (view h s) (view h c))).1 (fun _ => True) := keeps_alloc h _
    have hlen := view_length h1
    rw [h2] at hlen
    obtain ⟨hs', hsv⟩ := hk.2 s hs
    simp only [addAll, EList.addAll, if_true, nonDuplicates]
    by_cases hz : (EList.getNonDuplicates .snapshot (view h s) (view h c)).length = 0
    · simp only [← hlen, hz, if_true]
      exact ⟨⟨hsv trivial, hs', .inl rfl, hk.mono (fun _ _ _ => trivial)⟩, rfl⟩
    · simp only [← hlen, hz, if_false]
      simp only [EList.doAddAll, EList.Res.returning, giving, and_true, doAddAll]
      have y := append_does grow _ s (view (alloc h (EList.getNonDuplicates .snapshot (view h s) (view h c))).1 (alloc h (EList.getNonDuplicates .snapshot (view h s) (view h c))).2) hs'
      refine ⟨by rw [y.elems, h2, hsv trivial], y.ok, ?_, hk.trans y.keeps (fun _ _ _ => trivial) (fun _ _ ht => ht)⟩
      have := y.arr; have := hk.1
      simp only [alloc] at *
      omega

theorem insertAll_does (grow : Nat → Nat → Nat) (unique : Bool) (h : Heap α) (s c : Slice) (i : Int) (hs : Ok h s) (hc : Ok h c) (hcs : c.arr = s.arr → c = s) :
    Does h s (insertAll grow unique h s i c).1 (insertAll grow unique h s i c).2.1 (EList.insertAll ⟨unique, .snapshot⟩ (view h s) i (view h c)).data
      (fun t => t.arr ≠ s.arr ∧ (t.arr = c.arr → t.len ≤ c.len)) ∧
    (insertAll grow unique h s i c).2.2 = (EList.insertAll ⟨unique, .snapshot⟩ (view h s) i (view h c)).ret := by
  have hv := view_length hs
  by_cases hb : i < 0 ∨ i > (s.len : Int)
  · simp only [insertAll, EList.insertAll, hv, hb, if_true, EList.noop, and_true]
    exact same_does h s hs _
  · have hg : Seq.validGap (view h s) i := ⟨by omega, by omega⟩
    simp only [insertAll, EList.insertAll, hv, hb, if_false]
    cases unique with
    | false =>
      simp only [Bool.false_eq_true, if_false, giving]
      rw [EList.doInsertAll_eq _ _ _ hg]
      simp only [EList.Res.returning, and_true, Seq.insertAllAt]
      exact doInsertAll_does grow h s c i.toNat hs hc (by omega) hcs
    | true =>
      obtain ⟨h1, h2, h3⟩ := alloc_ok h (EList.getNonDuplicates .snapshot (view h s) (view h c))
      have hk : Keeps h (alloc h (EList.getNonDuplicates .snapshot (view h s) (view h c))).1 (fun _ => True) := keeps_alloc h _
      have hlen := view_length h1
      rw [h2] at hlen
      obtain ⟨hs', hsv⟩ := hk.2 s hs
      simp only [if_true, nonDuplicates]
      by_cases hz : (EList.getNonDuplicates .snapshot (view h s) (view h c)).length = 0
      · simp only [← hlen, hz, if_true]
        exact ⟨⟨hsv trivial, hs', .inl rfl, hk.mono (fun _ _ _ => trivial)⟩, rfl⟩
      · simp only [← hlen, hz, if_false]
        rw [EList.doInsertAll_eq _ _ _ hg]
        simp only [EList.Res.returning, giving, and_true, Seq.insertAllAt]
        have hne : (alloc h (EList.getNonDuplicates .snapshot (view h s) (view h c))).2.arr ≠ s.arr := by rw [h3]; have := hs.1; omega
        have y := doInsertAll_does grow _ s (alloc h (EList.getNonDuplicates .snapshot (view h s) (view h c))).2 i.toNat hs' h1 (by omega) (fun he => absurd he hne)
        refine ⟨?_, y.ok, ?_, hk.trans y.keeps (fun _ _ _ => trivial) (fun t ht htp => ⟨htp.1, fun he => ?_⟩)⟩
        · rw [y.elems, h2, hsv trivial]
        · have := y.arr; have := hk.1
          simp only [alloc] at *
          omega
        · have := ht.1; omega

theorem removeAllLoop_does (c : Slice) : ∀ (n : Nat) (h : Heap α) (s : Slice) (m : Bool), Ok h s → Ok h c → c.arr ≠ s.arr → n ≤ s.len →
    Does h s (removeAllLoop false c n h s m).1 (removeAllLoop false c n h s m).2.1 (EList.removeAllLoop (view h c) n (view h s) m).data (fun t => t.arr ≠ s.arr) ∧
    (removeAllLoop false c n h s m).2.2 = (EList.removeAllLoop (view h c) n (view h s) m).ret
  | 0, h, s, m, hs, _, _, _ => ⟨same_does h s hs _, rfl⟩
  | n + 1, h, s, m, hs, hc, hne, hn => by
    have hv := view_length hs
    have hlt : n < (view h s).length := by omega
    have hx : (view h s)[n]? = some (view h s)[n] := List.getElem?_eq_getElem hlt
    have hgo : EList.goIndex (view h s) n = some (view h s)[n] := by simp [EList.goIndex, hx]
    simp only [removeAllLoop, EList.removeAllLoop, hx, hgo, EList.contains_eq, decide_eq_true_eq, Bool.false_eq_true, if_false]
    by_cases hm : (view h s)[n] ∈ view h c
    · simp only [hm, if_true]
      have y := doRemove_does h s n hs (by omega)
      have hkc := y.keeps.2 c hc
      have hr : EList.removeAt (view h s) (n : Int) = ⟨(view h s).eraseIdx n, .val (view h s)[n], [.didRemove n (view h s)[n], .didChange]⟩ := by
        simp only [EList.removeAt]
        rw [if_neg (by omega), EList.doRemove_eq _ _ (view h s)[n] (by omega) (by simpa using hx)]
        simp
      have hl : (doRemove h s n).2.len = s.len - 1 := rfl
      obtain ⟨h1, h2⟩ := removeAllLoop_does c n _ _ true y.ok hkc.1 hne (by omega)
      rw [hkc.2 hne, y.elems] at h1 h2
      rw [hr]
      exact ⟨y.next h1 (fun _ _ ht => ht) (fun _ _ ht => ht), h2⟩
    · simp only [hm, if_false]
      exact removeAllLoop_does c n h s m hs hc hne (by omega)

theorem removeAllLoop_self (c : Slice) : ∀ (n : Nat) (h : Heap α) (s : Slice) (m : Bool), Ok h s → n = s.len →
    Does h s (removeAllLoop true c n h s m).1 (removeAllLoop true c n h s m).2.1 [] (fun t => t.arr ≠ s.arr) ∧ (removeAllLoop true c n h s m).2.2 = .bool (m || decide (n ≠ 0))
  | 0, h, s, m, hs, hn => ⟨⟨List.eq_nil_of_length_eq_zero (by rw [removeAllLoop, view_length hs]; omega), hs, .inl rfl, Keeps.refl _ _⟩, by simp [removeAllLoop]⟩
  | n + 1, h, s, m, hs, hn => by
    have hv := view_length hs
    have hlt : n < (view h s).length := by omega
    have hx : (view h s)[n]? = some (view h s)[n] := List.getElem?_eq_getElem hlt
    simp only [removeAllLoop, hx, if_true, List.getElem_mem]
    have y := doRemove_does h s n hs (by omega)
    have hl : (doRemove h s n).2.len = s.len - 1 := rfl
    obtain ⟨h1, h2⟩ := removeAllLoop_self c n _ _ true y.ok (by omega)
    exact ⟨y.next h1 (fun _ _ ht => ht) (fun _ _ ht => ht), by simp [h2]⟩

/-- the slices of the lists are those of the heap, each list has its own array -/
structure Inv (st : St α) : Prop where
  ok : ∀ (l : Nat) (s : Slice) (u : Bool), st.lists[l]? = some (s, u) → Ok st.heap s
  apart : ∀ (l m : Nat) (s t : Slice) (u v : Bool), st.lists[l]? = some (s, u) → st.lists[m]? = some (t, v) → s.arr = t.arr → l = m

/-- the elements of a collection -/
def elemsOf (st : St α) : Coll α → List α
  | .lit xs => xs
  | .list m => (st.lists[m]?.map fun x => view st.heap x.1).getD []
  | .held k => (st.held[k]?.map fun s => view st.heap s).getD []

/-- no array that the caller holds -/
def noArray : Coll α → Prop
  | .held _ => False
  | _ => True

/-- the slice does not reach further than the lists on its array -/
def Within (st : St α) (t : Slice) : Prop := ∀ (m : Nat) (s : Slice) (u : Bool), st.lists[m]? = some (s, u) → t.arr = s.arr → t.len ≤ s.len

theorem collOf_spec (st : St α) (hi : Inv st) (l : Nat) (s : Slice) (u : Bool) (hl : st.lists[l]? = some (s, u)) (c : Coll α) (hc : noArray c) :
    Keeps st.heap (collOf st l c).1 (fun _ => True) ∧ Ok (collOf st l c).1 (collOf st l c).2.1 ∧ view (collOf st l c).1 (collOf st l c).2.1 = elemsOf st c ∧
    ((collOf st l c).2.2 = true → (collOf st l c).2.1 = s) ∧ ((collOf st l c).2.2 = false → (collOf st l c).2.1.arr ≠ s.arr) ∧
    ∀ t, Ok st.heap t → Within st t → t.arr = (collOf st l c).2.1.arr → t.len ≤ (collOf st l c).2.1.len := by
  have hnew : ∀ xs : List α, Keeps st.heap (alloc st.heap xs).1 (fun _ => True) ∧ Ok (alloc st.heap xs).1 (alloc st.heap xs).2 ∧ view (alloc st.heap xs).1 (alloc st.heap xs).2 = xs ∧
      (alloc st.heap xs).2.arr ≠ s.arr ∧ ∀ t, Ok st.heap t → Within st t → t.arr = (alloc st.heap xs).2.arr → t.len ≤ (alloc st.heap xs).2.len := by
    intro xs
    obtain ⟨h1, h2, h3⟩ := alloc_ok st.heap xs
    exact ⟨keeps_alloc _ _, h1, h2, by rw [h3]; have := (hi.ok l s u hl).1; omega, fun t ht _ he => by have := ht.1; omega⟩
  cases c with
  | held k => exact absurd hc id
  | lit xs =>
    obtain ⟨h1, h2, h3, h4, h5⟩ := hnew xs
    exact ⟨h1, h2, h3, by simp [collOf], fun _ => h4, h5⟩
  | list m =>
    cases hm : st.lists[m]? with
    | none =>
      obtain ⟨h1, h2, h3, h4, h5⟩ := hnew []
      simp only [collOf, hm, elemsOf, Option.map_none, Option.getD_none]
      exact ⟨h1, h2, h3, by simp, fun _ => h4, h5⟩
    | some x =>
      obtain ⟨t, v⟩ := x
      simp only [collOf, hm, elemsOf, Option.map_some, Option.getD_some, decide_eq_true_eq, decide_eq_false_iff_not]
      refine ⟨Keeps.refl _ _, hi.ok m t v hm, trivial, ?_, ?_, fun w _ hw he => hw m t v hm he⟩
      · intro he; subst he; rw [hl] at hm; grind
      · intro he hq; exact he (hi.apart l m s t u v hl hm hq.symm).symm

theorem onList_does (grow : Nat → Nat → Nat) (st : St α) (hi : Inv st) (l : Nat) (s : Slice) (u : Bool) (hl : st.lists[l]? = some (s, u)) (o : Op α)
    (hc : ∀ c ∈ Spec.collections (Call.op l o), noArray c) (x : List α) (hx : ∀ c ∈ Spec.collections (Call.op l o), elemsOf st c = x) (hm : ¬ Seq.movesPastEnd (view st.heap s) (plain [] x o)) :
    Does st.heap s (onList grow st l s u o).1 (onList grow st l s u o).2.1 (EList.step ⟨u, .snapshot⟩ (view st.heap s) (plain ((arrOf st.heap s.arr).drop s.len) x o)).data
      (fun t => Apart s o t ∧ Within st t) ∧
    (onList grow st l s u o).2.2 = (EList.step ⟨u, .snapshot⟩ (view st.heap s) (plain ((arrOf st.heap s.arr).drop s.len) x o)).ret := by
  have hs := hi.ok l s u hl
  have hsingle : Spec.collections (Call.op l o) = [] → (onList grow st l s u o) = single grow u st.heap s o → (∀ sp, plain sp x o = plain sp [] o) →
      Does st.heap s (onList grow st l s u o).1 (onList grow st l s u o).2.1 (EList.step ⟨u, .snapshot⟩ (view st.heap s) (plain ((arrOf st.heap s.arr).drop s.len) x o)).data
      (fun t => Apart s o t ∧ Within st t) ∧
      (onList grow st l s u o).2.2 = (EList.step ⟨u, .snapshot⟩ (view st.heap s) (plain ((arrOf st.heap s.arr).drop s.len) x o)).ret := by
    intro h0 h1 h2
    rw [h1, h2]
    rw [h2] at hm
    have := single_does grow u st.heap s o hs (by cases o <;> simp_all [Spec.collections]) hm
    exact ⟨this.1.of_eq rfl (fun _ _ ht => ht.1), this.2⟩
  cases o with
  | addAll c =>
    obtain ⟨h1, h2, h3, h4, h5, h6⟩ := collOf_spec st hi l s u hl c (hc c (by simp [Spec.collections]))
    have hs' := h1.2 s hs
    have y := addAll_does grow u _ s (collOf st l c).2.1 hs'.1
    rw [hs'.2 trivial, h3, hx c (by simp [Spec.collections])] at y
    refine ⟨⟨y.1.elems, y.1.ok, ?_, h1.trans y.1.keeps (fun _ _ _ => trivial) (fun t _ ht => by simpa [Apart, Appends] using ht.1)⟩, y.2⟩
    have := y.1.arr; have := h1.1; simp only [onList]; omega
  | insertAll i c =>
    obtain ⟨h1, h2, h3, h4, h5, h6⟩ := collOf_spec st hi l s u hl c (hc c (by simp [Spec.collections]))
    have hs' := h1.2 s hs
    have y := insertAll_does grow u _ s (collOf st l c).2.1 i hs'.1 h2 (by
      intro he
      cases hb : (collOf st l c).2.2 with
      | true => exact h4 hb
      | false => exact absurd he (h5 hb))
    rw [hs'.2 trivial, h3, hx c (by simp [Spec.collections])] at y
    refine ⟨⟨y.1.elems, y.1.ok, ?_, h1.trans y.1.keeps (fun _ _ _ => trivial) (fun t hto ht => ⟨by simpa [Apart, Appends] using ht.1, h6 t hto ht.2⟩)⟩, y.2⟩
    have := y.1.arr; have := h1.1; simp only [onList]; omega
  | removeAll c =>
    obtain ⟨h1, h2, h3, h4, h5, h6⟩ := collOf_spec st hi l s u hl c (hc c (by simp [Spec.collections]))
    have hs' := h1.2 s hs
    have hxc := hx c (by simp [Spec.collections])
    have hv := view_length hs
    cases hb : (collOf st l c).2.2 with
    | true =>
      have y := removeAllLoop_self (collOf st l c).2.1 s.len _ s false hs'.1 rfl
      have hself : x = view st.heap s := by rw [← hxc, ← h3, h4 hb]; exact hs'.2 trivial
      have he := EList.removeAllLoop_eq x (view st.heap s).length (view st.heap s) false (Nat.le_refl _)
      simp only [onList, hb, plain, EList.step, EList.removeAll]
      refine ⟨⟨?_, y.1.ok, ?_, h1.trans y.1.keeps (fun _ _ _ => trivial) (fun t _ ht => by simpa [Apart, Appends] using ht.1)⟩, ?_⟩
      · rw [y.1.elems, he.1, hself]
        simp
      · have := y.1.arr; have := h1.1; omega
      · rw [y.2, he.2, hself, ← hv]
        simp only [Bool.false_or, List.take_length, Ret.bool.injEq, decide_eq_decide]
        constructor
        · intro hne
          obtain ⟨z, hz⟩ := List.exists_mem_of_length_pos (Nat.pos_of_ne_zero hne)
          exact ⟨z, hz, hz⟩
        · rintro ⟨z, hz, _⟩ h0
          rw [List.length_eq_zero_iff] at h0
          rw [h0] at hz
          simp at hz
    | false =>
      have y := removeAllLoop_does (collOf st l c).2.1 s.len _ s false hs'.1 h2 (h5 hb) (Nat.le_refl _)
      rw [h3, hxc, hs'.2 trivial] at y
      simp only [onList, hb, plain, EList.step, EList.removeAll, hv]
      refine ⟨⟨y.1.elems, y.1.ok, ?_, h1.trans y.1.keeps (fun _ _ _ => trivial) (fun t _ ht => by simpa [Apart, Appends] using ht.1)⟩, y.2⟩
      have := y.1.arr; have := h1.1; omega
  | add e => exact hsingle rfl rfl (fun _ => rfl)
  | insert i e => exact hsingle rfl rfl (fun _ => rfl)
  | move a b => exact hsingle rfl rfl (fun _ => rfl)
  | moveObject n e => exact hsingle rfl rfl (fun _ => rfl)
  | removeAt i => exact hsingle rfl rfl (fun _ => rfl)
  | remove e => exact hsingle rfl rfl (fun _ => rfl)
  | removeRange f t => exact hsingle rfl rfl (fun _ => rfl)
  | set i e => exact hsingle rfl rfl (fun _ => rfl)
  | clear => exact hsingle rfl rfl (fun _ => rfl)

/-- the lists are the sequences -/
structure Rel (st : St α) (sp : Spec.St α) : Prop where
  lists : sp.lists = st.lists.map fun x => (view st.heap x.1, x.2)
  inv : Inv st
  nodup : ∀ (l : Nat) (s : Slice), st.lists[l]? = some (s, true) → (view st.heap s).Nodup

theorem elems_rel {st : St α} {sp : Spec.St α} (hr : Rel st sp) (c : Coll α) (hc : noArray c) : Spec.elems sp c = elemsOf st c := by
  cases c with
  | lit xs => rfl
  | held k => exact absurd hc id
  | list m => simp only [Spec.elems, elemsOf, hr.lists, List.getElem?_map, Option.map_map]; rfl

/-- the spare capacity is nothing that the specification knows of -/
theorem spec_plain (unique : Bool) (d spare : List α) (sp : Spec.St α) (o : Op α) (x : List α) (l : Nat) (hx : ∀ c ∈ Spec.collections (Call.op l o), Spec.elems sp c = x) :
    Seq.step unique d (plain spare x o) = Seq.step unique d (Spec.opOf sp o) := by
  cases o <;> first | rfl | (have := hx _ (by simp only [Spec.collections]; exact List.mem_singleton.2 rfl); simp only [plain, Spec.opOf, this])

theorem moves_plain (d spare : List α) (sp : Spec.St α) (o : Op α) (x : List α) : Seq.movesPastEnd d (plain spare x o) ↔ Seq.movesPastEnd d (Spec.opOf sp o) := by
  cases o <;> exact Iff.rfl

theorem noArray_of {l : Nat} {o : Op α} (hu : Spec.usesArray (Call.op l o) = false) : ∀ c ∈ Spec.collections (Call.op l o), noArray c := by
  intro c hc
  simp only [Spec.usesArray, List.any_eq_false] at hu
  have := hu c hc
  cases c <;> simp_all [noArray]

theorem exists_coll (l : Nat) (sp : Spec.St α) (o : Op α) : ∃ x, ∀ c ∈ Spec.collections (Call.op l o), Spec.elems sp c = x := by
  cases o with
  | addAll c => exact ⟨Spec.elems sp c, by simp [Spec.collections]⟩
  | insertAll i c => exact ⟨Spec.elems sp c, by simp [Spec.collections]⟩
  | removeAll c => exact ⟨Spec.elems sp c, by simp [Spec.collections]⟩
  | _ => exact ⟨[], by simp [Spec.collections]⟩

/-- what a call on a list does -/
theorem op_does (grow : Nat → Nat → Nat) {st : St α} {sp : Spec.St α} (hr : Rel st sp) (l : Nat) (s : Slice) (u : Bool) (hl : st.lists[l]? = some (s, u)) (o : Op α)
    (hu : Spec.usesArray (Call.op l o) = false) (hm : ¬ Spec.movesPastEnd sp (Call.op l o)) :
    Does st.heap s (onList grow st l s u o).1 (onList grow st l s u o).2.1 (Seq.step u (view st.heap s) (Spec.opOf sp o)).1 (fun t => Apart s o t ∧ Within st t) ∧
    (onList grow st l s u o).2.2 = (Seq.step u (view st.heap s) (Spec.opOf sp o)).2 := by
  obtain ⟨x, hx⟩ := exists_coll l sp o
  have hsl : sp.lists[l]? = some (view st.heap s, u) := by rw [hr.lists, List.getElem?_map, hl]; rfl
  simp only [Spec.movesPastEnd, hsl] at hm
  have hna := noArray_of hu
  have y := onList_does grow st hr.inv l s u hl o hna x (fun c hc => by rw [← elems_rel hr c (hna c hc)]; exact hx c hc) (by rw [moves_plain (sp := sp)]; exact hm)
  have z := EList.step_refines ⟨u, .snapshot⟩ (view st.heap s) (plain ((arrOf st.heap s.arr).drop s.len) x o)
    (fun h => by simp only at h; subst h; exact hr.nodup l s hl) ⟨by rw [moves_plain (sp := sp)]; exact hm, fun _ h => by simp at h⟩
  simp only [spec_plain u (view st.heap s) ((arrOf st.heap s.arr).drop s.len) sp o x l hx] at z
  rw [z.1, z.2] at y
  exact y

theorem rel_step (grow : Nat → Nat → Nat) {st : St α} {sp : Spec.St α} (hr : Rel st sp) (c : Call α) (hu : Spec.usesArray c = false) (hf : Spec.fair c) (hm : ¬ Spec.movesPastEnd sp c) :
    Rel (step grow st c).1 (Spec.step sp c).1 ∧ (step grow st c).2 = (Spec.step sp c).2 := by
  cases c with
  | adopt u k => simp [Spec.usesArray] at hu
  | new u xs =>
    obtain ⟨h1, h2, h3⟩ := alloc_ok st.heap xs
    have hk : Keeps st.heap (alloc st.heap xs).1 (fun _ => True) := keeps_alloc _ _
    have hview : ∀ (l : Nat) (s : Slice) (v : Bool), st.lists[l]? = some (s, v) → view (alloc st.heap xs).1 s = view st.heap s := fun l s v hl => (hk.2 s (hr.inv.ok l s v hl)).2 trivial
    refine ⟨⟨?_, ⟨?_, ?_⟩, ?_⟩, rfl⟩
    · simp only [step, Spec.step, List.map_append, List.map_cons, List.map_nil, h2, hr.lists]
      congr 1
      apply List.map_congr_left
      intro x hx
      obtain ⟨l, hl⟩ := List.mem_iff_getElem?.1 hx
      rw [hview l x.1 x.2 hl]
    · intro l s v hl
      simp only [step, List.getElem?_append] at hl
      split at hl
      · exact (hk.2 s (hr.inv.ok l s v hl)).1
      · have : s = (alloc st.heap xs).2 := by
          cases hh : l - st.lists.length with
          | zero => simp [hh] at hl; exact hl.1.symm
          | succ n => simp [hh] at hl
        subst this; exact h1
    · intro l m s t v w hl hm' he
      have key : ∀ (l : Nat) (s : Slice) (v : Bool), (st.lists ++ [((alloc st.heap xs).2, u)])[l]? = some (s, v) →
          (st.lists[l]? = some (s, v) ∧ s.arr < st.heap.length) ∨ (l = st.lists.length ∧ s.arr = st.heap.length) := by
        intro l s v hl
        rw [List.getElem?_append] at hl
        split at hl
        · exact .inl ⟨hl, (hr.inv.ok l s v hl).1⟩
        · cases hh : l - st.lists.length with
          | zero => simp [hh] at hl; exact .inr ⟨by omega, by rw [← hl.1, h3]⟩
          | succ n => simp [hh] at hl
      have k1 := key l s v hl
      have k2 := key m t w hm'
      rcases k1 with k1 | k1 <;> rcases k2 with k2 | k2
      · exact hr.inv.apart l m s t v w k1.1 k2.1 he
      · omega
      · omega
      · omega
    · intro l s hl
      simp only [step, List.getElem?_append] at hl
      split at hl
      · simp only [step]; rw [hview l s true hl]; exact hr.nodup l s hl
      · cases hh : l - st.lists.length with
        | zero =>
          simp [hh] at hl
          obtain ⟨hl1, hl2⟩ := hl
          subst hl1; subst hl2
          simp only [step]; rw [h2]; exact hf
        | succ n => simp [hh] at hl
  | toArray l =>
    cases hl : st.lists[l]? with
    | none =>
      have hsl : sp.lists[l]? = none := by rw [hr.lists, List.getElem?_map, hl]; rfl
      simp only [step, Spec.step, hl, hsl]
      exact ⟨hr, trivial⟩
    | some x =>
      obtain ⟨s, u⟩ := x
      have hsl : sp.lists[l]? = some (view st.heap s, u) := by rw [hr.lists, List.getElem?_map, hl]; rfl
      simp only [step, Spec.step, hl, hsl, and_true]
      exact ⟨hr.lists, ⟨hr.inv.ok, hr.inv.apart⟩, hr.nodup⟩
  | op l o =>
    cases hl : st.lists[l]? with
    | none =>
      have hsl : sp.lists[l]? = none := by rw [hr.lists, List.getElem?_map, hl]; rfl
      simp only [step, Spec.step, hl, hsl]
      exact ⟨hr, trivial⟩
    | some x =>
      obtain ⟨s, u⟩ := x
      have hsl : sp.lists[l]? = some (view st.heap s, u) := by rw [hr.lists, List.getElem?_map, hl]; rfl
      obtain ⟨y, hret⟩ := op_does grow hr l s u hl o hu hm
      have hll : l < st.lists.length := (List.getElem?_eq_some_iff.1 hl).1
      simp only [step, Spec.step, hl, hsl]
      generalize onList grow st l s u o = r at y hret
      have key : ∀ (m : Nat) (t : Slice) (v : Bool), (st.lists.set l (r.2.1, u))[m]? = some (t, v) → (m = l ∧ t = r.2.1 ∧ v = u) ∨ (m ≠ l ∧ st.lists[m]? = some (t, v)) := by
        intro m t v ht
        rw [List.getElem?_set] at ht
        by_cases hml : l = m
        · simp only [hml, if_true] at ht
          split at ht
          · left; grind
          · simp at ht
        · simp only [hml, if_false] at ht
          right; exact ⟨fun h => hml h.symm, ht⟩
      have hother : ∀ (m : Nat) (t : Slice) (v : Bool), m ≠ l → st.lists[m]? = some (t, v) → Ok r.1 t ∧ view r.1 t = view st.heap t ∧ t.arr < st.heap.length ∧ t.arr ≠ s.arr := by
        intro m t v hml ht
        have hne : t.arr ≠ s.arr := fun he => hml (hr.inv.apart m l t s v u ht hl he)
        obtain ⟨h1, h2⟩ := y.keeps.2 t (hr.inv.ok m t v ht)
        refine ⟨h1, h2 ⟨?_, ?_⟩, (hr.inv.ok m t v ht).1, hne⟩
        · simp only [Apart]; split
          · exact fun he => absurd he hne
          · exact hne
        · intro k q w hq he
          have := hr.inv.apart m k t q v w ht hq he
          subst this; rw [ht] at hq; grind
      refine ⟨⟨?_, ⟨?_, ?_⟩, ?_⟩, by rw [hret]⟩
      · apply List.ext_getElem?
        intro m
        simp only [List.getElem?_map, List.getElem?_set, hr.lists, List.length_map]
        by_cases hml : l = m
        · simp only [hml, if_true]
          subst hml
          simp [hll, y.elems]
        · simp only [hml, if_false]
          cases hm' : st.lists[m]? with
          | none => rfl
          | some z =>
            obtain ⟨t, v⟩ := z
            simp only [Option.map_some, (hother m t v (fun h => hml h.symm) hm').2.1]
      · intro m t v ht
        rcases key m t v ht with ⟨_, h2, _⟩ | ⟨h1, h2⟩
        · subst h2; exact y.ok
        · exact (hother m t v h1 h2).1
      · intro m k t q v w ht hq he
        have := y.arr
        rcases key m t v ht with ⟨h1, h2, _⟩ | ⟨h1, h2⟩ <;> rcases key k q w hq with ⟨h1', h2', _⟩ | ⟨h1', h2'⟩
        · omega
        · have := hother k q w h1' h2'
          subst h2; omega
        · have := hother m t v h1 h2
          subst h2'; omega
        · exact hr.inv.apart m k t q v w h2 h2' he
      · intro m t ht
        rcases key m t true ht with ⟨_, h2, h3⟩ | ⟨h1, h2⟩
        · subst h2
          subst h3
          rw [y.elems]
          exact EList.spec_nodup _ _ (hr.nodup l s hl)
        · rw [(hother m t true h1 h2).2.1]
          exact hr.nodup m t h2

/-- the array has been taken from list `l`, nobody else has it -/
def Track (st : St α) (l : Nat) (t : Slice) : Prop :=
  Ok st.heap t ∧ ∀ (m : Nat) (s : Slice) (u : Bool), st.lists[m]? = some (s, u) → t.arr = s.arr → m = l ∧ t.len ≤ s.len

theorem seq_appends (u : Bool) (d : List α) (sp : Spec.St α) (o : Op α) (h : Appends o = true) (hc : o ≠ .clear) : d.length ≤ (Seq.step u d (Spec.opOf sp o)).1.length := by
  cases o <;> simp_all only [Appends, Spec.opOf, Seq.step, Bool.false_eq_true] <;> (try contradiction) <;> split <;> simp

theorem track_step (grow : Nat → Nat → Nat) {st : St α} {sp : Spec.St α} (hr : Rel st sp) (c : Call α) (hu : Spec.usesArray c = false) (hm : ¬ Spec.movesPastEnd sp c) (l : Nat) (t : Slice)
    (ht : Track st l t) (hk : Spec.keepsArray l c = true) : Track (step grow st c).1 l t ∧ view (step grow st c).1.heap t = view st.heap t := by
  obtain ⟨h0, h1⟩ := ht
  cases c with
  | adopt u k => simp [Spec.usesArray] at hu
  | new u xs =>
    have hk : Keeps st.heap (alloc st.heap xs).1 (fun _ => True) := keeps_alloc _ _
    obtain ⟨_, _, h3⟩ := alloc_ok st.heap xs
    refine ⟨⟨(hk.2 t h0).1, ?_⟩, (hk.2 t h0).2 trivial⟩
    intro m s v hl he
    simp only [step, List.getElem?_append] at hl
    split at hl
    · exact h1 m s v hl he
    · cases hh : m - st.lists.length with
      | zero =>
        simp [hh] at hl
        have := h0.1
        rw [he, ← hl.1, h3] at this
        omega
      | succ n => simp [hh] at hl
  | toArray m =>
    simp only [step]
    split
    · exact ⟨⟨h0, h1⟩, rfl⟩
    · exact ⟨⟨h0, h1⟩, rfl⟩
  | op m o =>
    cases hl : st.lists[m]? with
    | none => simp only [step, hl]; exact ⟨⟨h0, h1⟩, trivial⟩
    | some x =>
      obtain ⟨s, u⟩ := x
      obtain ⟨y, _⟩ := op_does grow hr m s u hl o hu hm
      simp only [step, hl]
      have hap : m = l → Appends o = true := by
        intro he
        subst he
        cases o <;> simp_all [Spec.keepsArray, Appends]
      have hs := hr.inv.ok m s u hl
      have hclear : o = .clear → (onList grow st m s u o).2.1.arr = st.heap.length := by
        intro he; subst he; rfl
      have hlen : Appends o = true → o ≠ .clear → s.len ≤ (onList grow st m s u o).2.1.len := by
        intro ha hne
        have := seq_appends u (view st.heap s) sp o ha hne
        rw [← y.elems, view_length y.ok, view_length hs] at this
        exact this
      generalize onList grow st m s u o = r at y hclear hlen
      refine ⟨⟨(y.keeps.2 t h0).1, ?_⟩, (y.keeps.2 t h0).2 ⟨?_, fun k q v hq he => (h1 k q v hq he).2⟩⟩
      · intro k q v hq he
        rw [List.getElem?_set] at hq
        split at hq
        · rename_i hmk
          split at hq
          · simp only [Option.some.injEq, Prod.mk.injEq] at hq
            obtain ⟨hq1, hq2⟩ := hq
            subst hq1
            have ha := y.arr
            have h01 := h0.1
            have hsame : t.arr = s.arr := by omega
            obtain ⟨h2, h3⟩ := h1 m s u hl hsame
            refine ⟨by omega, ?_⟩
            have := hap h2
            by_cases hcl : o = .clear
            · have := hclear hcl; omega
            · have := hlen (hap h2) hcl; omega
          · simp at hq
        · exact h1 k q v hq he
      · by_cases hml : m = l
        · simp only [Apart, hap hml, if_true]
          exact fun he => (h1 m s u hl he).2
        · have hne : t.arr ≠ s.arr := fun he => hml (h1 m s u hl he).1
          simp only [Apart]; split
          · exact fun he => absurd he hne
          · exact hne

end Verif.SharedList
