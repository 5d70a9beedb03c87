import Verif.Proofs.UnresolvedView
/-!
# C97: The unresolved view of a list is the list as it stands

`GetUnResolvedList` gives a list that shows the proxies themselves: no call on it resolves anything. It is the same list: what is changed through
one is changed in the other, and an object is in it once.

Proved for any calls on the view, and for any calls on both if no object is added through the view of which the list has a proxy. Without this the
list shows an object twice. The view of a list with a store refuses what the list takes when its feature is not unique.
-/
namespace Verif.Props
open Verif.UnresolvedView Verif.UnresolvedView.Spec
open Verif.ResolveList (Call Answer)
open Verif.ResolveList.Spec (reads movesPastEnd given takesOut)

variable {α : Type} [DecidableEq α] [Inhabited α]

/-- Whatever is called on the view, no proxy is resolved. -/
theorem C97_silent (res : α → α) : ∀ (calls : List (Call α)) (data : List α), events res data (calls.map .view) = []
  | [], _ => rfl
  | c :: cs, data => by
    simp only [List.map_cons, events, both, call_events, List.nil_append]
    exact C97_silent res cs _

/-- Reading through the view leaves the list as it is and tells the objects as they are. -/
theorem C97_reads (data : List α) (c : Call α) (hr : reads c = true) :
    (call data c).1 = data ∧ (call data c).2.1 = (Verif.ResolveList.Spec.step data c).2 :=
  ⟨(by cases c <;> first | rfl | cases hr), congrArg Prod.snd (reads_seq data c hr)⟩

/-- Any calls on the view are those of a sequence without repetitions, of the objects as they are: contents and answers. -/
theorem C97_view_partial (res : α → α) : ∀ (calls : List (Call α)) (data : List α), data.Nodup →
    (∀ (k : Nat) (c : Call α), calls[k]? = some c → ¬movesPastEnd (Verif.ResolveList.Spec.run data (calls.take k)) c) →
    run res data (calls.map .view) = Verif.ResolveList.Spec.run data calls ∧
    answers res data (calls.map .view) = Verif.ResolveList.Spec.answers data calls
  | [], _, _, _ => ⟨rfl, rfl⟩
  | c :: cs, data, hn, hm => by
    have h1 := call_seq data c hn (by have := hm 0 c rfl; simpa [Verif.ResolveList.Spec.run] using this)
    have h2 : (call data c).1 = (Verif.ResolveList.Spec.step data c).1 := congrArg Prod.fst h1
    have h3 : (call data c).2.1 = (Verif.ResolveList.Spec.step data c).2 := congrArg Prod.snd h1
    have ih := C97_view_partial res cs (Verif.ResolveList.Spec.step data c).1 (Verif.ResolveList.nodup_step c hn) (fun k d hk => by
      have := hm (k + 1) d (by simpa using hk)
      simpa [Verif.ResolveList.Spec.run] using this)
    simp only [List.map_cons, run, answers, both, Verif.ResolveList.Spec.run, Verif.ResolveList.Spec.answers, h2, h3]
    exact ⟨ih.1, by rw [ih.2]⟩

theorem run_take_succ (res : α → α) : ∀ (calls : List (Either α)) (data : List α) (k : Nat) (c : Either α), calls[k]? = some c →
    run res data (calls.take (k + 1)) = (both res (run res data (calls.take k)) c).1
  | [], _, _, _, h => by simp at h
  | x :: xs, data, 0, c, h => by
    simp only [List.getElem?_cons_zero, Option.some.injEq] at h
    simp [run, h]
  | x :: xs, data, k + 1, c, h => by
    simp only [List.getElem?_cons_succ] at h
    simpa [run] using run_take_succ res xs (both res data x).1 k c h

theorem answers_at (res : α → α) : ∀ (calls : List (Either α)) (data : List α) (k : Nat) (c : Either α), calls[k]? = some c →
    (answers res data calls)[k]? = some (both res (run res data (calls.take k)) c).2.1
  | [], _, _, _, h => by simp at h
  | x :: xs, data, 0, c, h => by
    simp only [List.getElem?_cons_zero, Option.some.injEq] at h
    simp [run, answers, h]
  | x :: xs, data, k + 1, c, h => by
    simp only [List.getElem?_cons_succ] at h
    simpa [run, answers] using answers_at res xs (both res data x).1 k c h

/-- Any calls on the list and its view: at every moment the list shows no object twice; a call on the view is a call on the sequence of the
objects as they are, and a call on the list one on the sequence of those that they stand for, whatever was called before on either. The answers are
those too, but for the object that a call on the list takes out (C64). -/
theorem C97_together_partial {res : α → α} (hres : ∀ v, res (res v) = res v) (calls : List (Either α)) (data : List α) (hn : (data.map res).Nodup)
    (hl : ∀ c, .list c ∈ calls → ∀ e ∈ given c, res e = e)
    (hv : ∀ (k : Nat) (c : Call α), calls[k]? = some (.view c) → Apart res (run res data (calls.take k)) c)
    (hm : ∀ (k : Nat) (c : Call α), calls[k]? = some (.list c) ∨ calls[k]? = some (.view c) → ¬movesPastEnd (run res data (calls.take k)) c ∧
      ¬movesPastEnd ((run res data (calls.take k)).map res) c) :
    (∀ k, ((run res data (calls.take k)).map res).Nodup) ∧
    (∀ (k : Nat) (c : Call α), calls[k]? = some (.view c) →
      run res data (calls.take (k + 1)) = (Verif.ResolveList.Spec.step (run res data (calls.take k)) c).1 ∧
      (answers res data calls)[k]? = some (Verif.ResolveList.Spec.step (run res data (calls.take k)) c).2) ∧
    ∀ (k : Nat) (c : Call α), calls[k]? = some (.list c) →
      (run res data (calls.take (k + 1))).map res = (Verif.ResolveList.Spec.step ((run res data (calls.take k)).map res) c).1 ∧
      (takesOut c = false → (answers res data calls)[k]? = some (Verif.ResolveList.Spec.step ((run res data (calls.take k)).map res) c).2) := by
  have main : ∀ k, ((run res data (calls.take k)).map res).Nodup := by
    intro k
    induction k with
    | zero => simpa [run] using hn
    | succ k ih =>
      cases hk : calls[k]? with
      | none =>
        have hle : calls.length ≤ k := List.getElem?_eq_none_iff.mp hk
        rw [List.take_of_length_le hle] at ih
        rw [List.take_of_length_le (by omega)]
        exact ih
      | some c =>
        rw [run_take_succ res calls data k c hk]
        cases c with
        | list c =>
          have := (Verif.ResolveList.call_view hres (run res data (calls.take k)) c (hl c (List.mem_of_getElem? hk)) ih (hm k c (.inl hk)).2).1
          simp only [both]
          rw [this]
          exact Verif.ResolveList.nodup_step c ih
        | view c => exact call_nodup _ c ih (hv k c hk) (hm k c (.inr hk)).1
  refine ⟨main, fun k c hk => ?_, fun k c hk => ?_⟩
  · rw [run_take_succ res calls data k _ hk, answers_at res calls data k _ hk]
    have h := call_seq _ c (nodup_of_map (main k)) (hm k c (.inr hk)).1
    exact ⟨congrArg Prod.fst h, congrArg some (congrArg Prod.snd h)⟩
  · rw [run_take_succ res calls data k _ hk, answers_at res calls data k _ hk]
    have h := Verif.ResolveList.call_view hres _ c (hl c (List.mem_of_getElem? hk)) (main k) (hm k c (.inl hk)).2
    exact ⟨h.1, fun ht => congrArg some (h.2 ht)⟩

/-- The list has a proxy of an object: the object is refused by the list, but taken by its view; the list shows it twice then. -/
theorem C97_add_violated {res : α → α} (hres : ∀ v, res (res v) = res v) (data : List α) (p : α) (hp : p ∈ data) (hnot : res p ∉ data) :
    (ResolveList.call res data (.op (.add (res p)))).2.1 = .ret (.bool false) ∧
    run res data [.view (.op (.add (res p)))] = data ++ [res p] ∧
    2 ≤ List.count (res p) ((run res data [.view (.op (.add (res p)))]).map res) := by
  have h1 : (call data (.op (.add (res p)))).1 = data ++ [res p] := by
    simp [call, step, EList.contains_eq, hnot, ResolveList.plain, EList.doAdd, EList.Res.returning]
  refine ⟨?_, by simpa [run, both] using h1, ?_⟩
  · have h2 : (ResolveList.look res (res p) 0 data).2.1 ≠ -1 := by
      have := ResolveList.look_index (hres p) data 0
      have hm : res p ∈ data.map res := List.mem_map_of_mem hp
      simp only [this, if_pos hm]
      omega
    simp [ResolveList.call, ResolveList.step, h2]
  · have h3 : run res data [.view (.op (.add (res p)))] = data ++ [res p] := by simpa [run, both] using h1
    rw [h3, List.map_append, List.count_append]
    have : 0 < List.count (res p) (data.map res) := List.count_pos_iff.mpr (List.mem_map_of_mem hp)
    have h4 : List.count (res p) ([res p].map res) = 1 := by simp [hres p]
    omega

/-- A list with a store whose feature is not unique takes an object again; its view refuses it. -/
theorem C97_store_violated (data : List α) (e : α) (he : e ∈ data) :
    (storeAdd false data e).data = data ++ [e] ∧ (storeAdd false data e).ret = .bool true ∧
    (storeViewAdd data e).data = data ∧ (storeViewAdd data e).ret = .bool false := by
  have : EList.contains data e = true := by simpa [EList.contains_eq] using he
  simp [storeAdd, storeViewAdd, EList.add, this, EList.doAdd, EList.Res.returning, EList.noop]

/-! ### Concrete cases: 100, 101, ... are proxies of 0, 1, ... -/

/-- what a number stands for -/
def standsFor (v : Nat) : Nat := v % 100

example : ∀ v, standsFor (standsFor v) = standsFor v := fun v => by simp [standsFor]

/-- read through the view, add and move there, read through the list, remove a proxy through the view -/
def exCalls : List (Either Nat) :=
  [.view (.get 0), .view (.op (.addAll [7, 108])), .view (.op (.move [] 0 2)), .list (.get 0), .list (.op (.remove 7)), .view (.indexOf 108),
   .view (.op (.remove 108))]

example : run standsFor [101, 102, 3] exCalls = [2, 3, 1] := by decide +kernel
example : answers standsFor [101, 102, 3] exCalls =
    [.ret (.val 101), .ret (.bool true), .ret (.val 101), .ret (.val 2), .ret (.bool true), .index 3, .ret (.bool true)] := by decide +kernel
example : ∀ k < 7, ((run standsFor [101, 102, 3] (exCalls.take k)).map standsFor).Nodup := by decide +kernel
-- the hypotheses of `C97_together_partial`
example : Apart standsFor [101, 102, 3] (.op (.addAll [7, 108])) := by decide
example : ¬Apart standsFor [101, 102, 3] (.op (.add 1)) := by decide
-- two proxies of an object are two objects for the view
example : run standsFor [101] [.view (.op (.add 201))] = [101, 201] := by decide +kernel
example : run standsFor [101, 2] [.view (.op (.add 1)), .list .toArray] = [1, 2, 1] := by decide +kernel

end Verif.Props
