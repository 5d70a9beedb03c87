import Verif.Proofs.StoreList

/-!
# C37: lists backed by a store, with and without cache
-/

namespace Verif.StoreList

open Verif.EList (Op SetIter)

variable {α : Type} [DecidableEq α]

/-- **C37** (part): a list, backed by a store or not, answers every sequence of calls as the sequence of its elements does,
whatever switches of the cache and changes of the store are among them.  Missing: proxies, moves past the end, bulk additions
that disturb the iterator of the set, stores with other elements. -/
theorem C37_sequence_partial [Inhabited α] (cfg : Cfg α) (hr : ∀ x : α, cfg.resolve x = x) (st : Option (List α))
    (hnd : cfg.unique = true → (st.getD []).Nodup) (cs : List (Call α))
    (hok : Spec.Always cfg.unique (decide (cfg.iter = .live)) (st.getD []) cs) :
    (run cfg (init st) cs).2 = (Spec.run cfg.unique (st.getD []) cs).2 :=
  (run_refines hr (inv_init st) cs hnd hok).2

/-- **C37** (part): the results do not depend on the cache: two sequences of calls that differ by switches of the cache only
have the same results, and leave the same elements in the store. -/
theorem C37_cache_partial [Inhabited α] (cfg : Cfg α) (hr : ∀ x : α, cfg.resolve x = x) (st : Option (List α))
    (hnd : cfg.unique = true → (st.getD []).Nodup) (cs cs' : List (Call α))
    (hsame : cs.filter (!Spec.isSwitch ·) = cs'.filter (!Spec.isSwitch ·))
    (hok : Spec.Always cfg.unique (decide (cfg.iter = .live)) (st.getD []) cs) :
    Spec.answers cs (run cfg (init st) cs).2 = Spec.answers cs' (run cfg (init st) cs').2 ∧
      ∀ l l' : List α, (run cfg (init st) cs).1.store = some l → (run cfg (init st) cs').1.store = some l' → l = l' := by
  have hok' : Spec.Always cfg.unique (decide (cfg.iter = .live)) (st.getD []) cs' := by
    rw [← always_filter, ← hsame, always_filter]
    exact hok
  obtain ⟨a, b⟩ := run_refines hr (inv_init st) cs hnd hok
  obtain ⟨a', b'⟩ := run_refines hr (inv_init st) cs' hnd hok'
  obtain ⟨c, d⟩ := spec_answers cfg.unique (st.getD []) cs
  obtain ⟨c', d'⟩ := spec_answers cfg.unique (st.getD []) cs'
  have e : (Spec.run cfg.unique (st.getD []) cs).1 = (Spec.run cfg.unique (st.getD []) cs').1 := by
    rw [← c, ← c', hsame]
  refine ⟨by rw [b, b', ← d, ← d', hsame], ?_⟩
  intro l l' h h'
  rw [e] at a
  have h1 := a.store
  have h2 := a'.store
  rw [h] at h1
  rw [h'] at h2
  simp_all

/-- **C37** (part): `Size` is the number of elements of the store, and with a cache the cache has the elements of the
store. -/
theorem C37_size_partial [Inhabited α] (cfg : Cfg α) (hr : ∀ x : α, cfg.resolve x = x) (st : Option (List α))
    (hnd : cfg.unique = true → (st.getD []).Nodup) (cs : List (Call α))
    (hok : Spec.Always cfg.unique (decide (cfg.iter = .live)) (st.getD []) cs) (l : List α)
    (hl : (run cfg (init st) cs).1.store = some l) :
    (step cfg (run cfg (init st) cs).1 .size).2 = .int l.length ∧
      (step cfg (run cfg (init st) cs).1 .elements).2 = .list l := by
  obtain ⟨a, -⟩ := run_refines hr (inv_init st) cs hnd hok
  have h1 := a.store
  rw [hl] at h1
  have h1 : l = (Spec.run cfg.unique (st.getD []) cs).1 := by simpa using h1
  rw [← h1] at a
  refine ⟨?_, ?_⟩
  · simp [step, a.size]
  · simp [step, elements_eq hr a]

/-! ### The hypotheses are met -/

/-- a list of references without proxies -/
def plain : Cfg Nat := ⟨true, .live, id⟩

/-- operations with the cache switched on and off, the store given up and given back -/
def calls : List (Call Nat) :=
  [.op (.add 4), .setCache true, .op (.insert 0 5), .op (.addAll [5, 6]), .get 1, .op (.move [] 0 3), .setCache false, .indexOf 5,
   .op (.removeAll [2, 3]), .setStore none, .op (.set 0 9), .setStore (some [9, 5, 4, 6]), .op (.removeRange 1 2), .setCache true,
   .op (.remove 6), .op (.removeAt 7), .elements, .size]

example : Spec.Always true (decide (plain.iter = .live)) [1, 2, 3] calls := by decide

example : (run plain (init (some [1, 2, 3])) calls).2.drop 14 = [.bool true, .panic, .list [9, 4], .int 2] ∧
    (run plain (init (some [1, 2, 3])) calls).1 = ⟨some [9, 4], some [9, 4], true, 2⟩ := by decide

example : (calls.filter (!Spec.isSwitch ·)).length = 15 := by decide

/-! ### What does not hold -/

/-- A list that is given another store keeps its size: `Size` is not the number of elements of the store, and with a cache
the elements are those of the store before. -/
theorem C37_store_violated :
    (run plain (init (some [1, 2, 3])) [.setStore (some [7]), .size, .get 2]).2 = [.unit, .int 3, .panic] ∧
    (run plain (init (some [1, 2, 3])) [.setCache true, .setStore (some [7]), .elements]).2 =
      [.unit, .unit, .list [1, 2, 3]] := by decide

/-- a list of references with a proxy: 10 is a proxy of 1 -/
def proxies : Cfg Nat := ⟨false, .live, fun x => if x = 10 then 1 else x⟩

/-- With proxies, the position of an object depends on the cache: without it, an object is found before a proxy for it is;
with it, the first element that is the object or a proxy for it is found. -/
theorem C37_proxy_violated :
    (run proxies (init (some [10, 1])) [.indexOf 1]).2 = [.int 1] ∧
    (run proxies (init (some [10, 1])) [.setCache true, .indexOf 1]).2 = [.unit, .int 0] ∧
    (run proxies (init (some [10])) [.get 0, .indexOf 10, .op (.removeAt 0)]).2 = [.val 1, .int 0, .val 10] ∧
    (run proxies (init (some [10])) [.setCache true, .get 0, .indexOf 10, .op (.removeAt 0)]).2 =
      [.unit, .val 1, .int (-1), .val 1] := by decide

/-- A move past the end panics with and without cache; with it, the elements of the cache have changed before, and differ from
those of the store. -/
theorem C37_move_violated :
    (run plain (init (some [1, 2, 3])) [.op (.move [8] 0 3), .elements]).2 = [.panic, .list [1, 2, 3]] ∧
    (run plain (init (some [1, 2, 3])) [.setCache true, .op (.move [8] 0 3), .elements]).2 =
      [.unit, .panic, .list [2, 3, 8]] ∧
    (run plain (init (some [1, 2, 3])) [.setCache true, .op (.move [8] 0 3), .setCache false, .elements]).2 =
      [.unit, .panic, .unit, .list [1, 2, 3]] := by decide

end Verif.StoreList
