import Verif.Proofs.ResolveList

/-!
# C64: a list shows its proxies as the objects they stand for
-/

namespace Verif.ResolveList

open Verif.ResolveList.Spec

variable {α : Type} [DecidableEq α] [Inhabited α] {res : α → α}

/-- **C64** (partial): a list with proxies behaves as the list of the objects that they stand for: after any calls with objects that are not proxies it shows what the sequence without repetitions
of these objects is after the calls, and the answers are the same.
Missing: the answers of `RemoveAt`, `Set` and `Move` (`C64_removed_violated`), calls with proxies (`C64_add_violated`, `C64_addAll_violated`, `C64_removeAll_violated`), moves past the
end (C03), the iterator of the hash set (C01). -/
theorem C64_view_partial (hres : ∀ v, res (res v) = res v) : ∀ (calls : List (Call α)) (data : List α), (data.map res).Nodup →
    (∀ c ∈ calls, ∀ e ∈ given c, res e = e) → (∀ (k : Nat) (c : Call α), calls[k]? = some c → ¬ movesPastEnd (Spec.run (data.map res) (calls.take k)) c) →
    (run res data calls).map res = Spec.run (data.map res) calls ∧ (Spec.run (data.map res) calls).Nodup ∧
    ∀ (k : Nat) (c : Call α), calls[k]? = some c → takesOut c = false → (answers res data calls)[k]? = (Spec.answers (data.map res) calls)[k]?
  | [], data, hn, _, _ => ⟨rfl, hn, by simp⟩
  | c :: cs, data, hn, hp, hm => by
    obtain ⟨h1, h2⟩ := call_view hres data c (hp c (by simp)) hn (by have := hm 0 c rfl; simpa [Spec.run] using this)
    have hn' : ((call res data c).1.map res).Nodup := by rw [h1]; exact nodup_step c hn
    obtain ⟨h3, h4, h5⟩ := C64_view_partial hres cs (call res data c).1 hn' (fun d hd => hp d (by simp [hd])) (by
      intro k d hd
      have := hm (k + 1) d (by simpa using hd)
      simpa [Spec.run, h1] using this)
    refine ⟨by simp only [run, Spec.run, h3, h1], by rw [h1] at h4; exact h4, ?_⟩
    intro k d hd ht
    cases k with
    | zero =>
      simp only [List.getElem?_cons_zero, Option.some.injEq] at hd
      subst hd
      simp only [answers, Spec.answers, List.getElem?_cons_zero, h2 ht]
    | succ k =>
      simp only [List.getElem?_cons_succ] at hd
      simp only [answers, Spec.answers, List.getElem?_cons_succ, h5 k d hd ht, h1]

/-- **C64**: reading changes nothing that is shown; an observer of the notifications RESOLVE has the same list; each of them tells of an object that was a proxy and is now
replaced by the object it stands for; reading again notifies nothing. -/
theorem C64_reads (hres : ∀ v, res (res v) = res v) (data : List α) (c : Call α) (hr : reads c = true) :
    replay data (call res data c).2.2 = some (call res data c).1 ∧ (call res data c).1.map res = data.map res ∧
    (∀ ev ∈ (call res data c).2.2, ev.new = res ev.old ∧ ev.new ≠ ev.old) ∧ (call res (call res data c).1 c).2.2 = [] := by
  obtain ⟨⟨h1, h2, _, h4⟩, h5⟩ := read_resolves hres data c hr
  exact ⟨h1, h2, h4, h5⟩

/-- the objects 100, 101, ... are proxies of 0, 1, ... -/
def sampleRes (v : Nat) : Nat := v % 100

theorem sample_res (v : Nat) : sampleRes (sampleRes v) = sampleRes v := by simp [sampleRes]

def sampleCalls : List (Call Nat) :=
  [.op (.add 7), .indexOf 4, .op (.add 3), .op (.insertAll 1 [2, 9, 5, 9]), .get 0, .op (.set 2 8), .op (.moveObject [] 0 1), .contains 2, .op (.removeAll [5, 6]), .toArray]

example : (([101, 102, 103, 104] : List Nat).map sampleRes).Nodup ∧ (∀ c ∈ sampleCalls, ∀ e ∈ given c, sampleRes e = e) := by decide +kernel

example : run sampleRes [101, 102, 103, 104] sampleCalls = [1, 9, 8, 2, 3, 4, 7] := by decide +kernel

example : answers sampleRes [101, 102, 103, 104] sampleCalls = [.ret (.bool true), .index 3, .ret (.bool false), .ret (.bool true), .ret (.val 1), .ret (.val 5), .ret .unit, .yes true,
    .ret (.bool false), .array [1, 9, 8, 2, 3, 4, 7]] := by decide +kernel

/-- only what is before the object is resolved -/
example : call sampleRes [101, 2, 103, 104] (.indexOf 3) = ([1, 2, 3, 104], .index 2, [⟨0, 101, 1⟩, ⟨2, 103, 3⟩]) := by decide +kernel

/-- a proxy of an object of the list is added, and the list shows the object twice -/
theorem C64_add_violated : (call sampleRes [1] (.op (.add 101))).1 = [1, 101] ∧ run sampleRes [1] [.op (.add 101), .toArray] = [1, 1] := by decide +kernel

/-- a proxy that is in the list is added again by `AddAll` (`Add` refuses it) -/
theorem C64_addAll_violated : (call sampleRes [101] (.op (.add 101))).1 = [101] ∧ (call sampleRes [101] (.op (.addAll [101]))).1 = [1, 101] := by decide +kernel

/-- a proxy that is in the list is removed by `RemoveAll` or not, depending on the order of the objects to remove -/
theorem C64_removeAll_violated : (call sampleRes [101] (.op (.removeAll [101, 5]))).1 = [] ∧ (call sampleRes [101] (.op (.removeAll [5, 101]))).1 = [1] := by decide +kernel

/-- `RemoveAt` gives the proxy, not the object that the list shows -/
theorem C64_removed_violated : (call sampleRes [101] (.get 0)).2.1 = .ret (.val 1) ∧ (call sampleRes [101] (.op (.removeAt 0))).2.1 = .ret (.val 101) := by decide +kernel

end Verif.ResolveList
