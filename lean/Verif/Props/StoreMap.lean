import Verif.Proofs.StoreMap

/-!
# C75: a map with a store is a finite map, with or without cache
-/

namespace Verif.Props

open Verif.StoreMap
open Verif.EMap (MOp)
open Verif.Spec

variable {K V : Type} [DecidableEq K] [Inhabited V] [DecidableEq V]

/-- **C75** (partial: the factory makes entries that can have a cache). A map is made on a store that has entries with
distinct keys, or without store. Whatever map calls and switches of the cache come then, each call answers what the history of the
map calls requires, the entries of the store being `Put`s made before. -/
theorem C75_answers_partial (cfg : Cfg) (hp : cfg.provider = true) (store : Option (List Nat)) (heap : Nat → K × V)
    (next : Nat) (hk : ((store.getD []).map fun i => (heap i).1).Nodup) (hn : ∀ i ∈ store.getD [], i < next)
    (cs : List (Call K V)) (hc : ∀ c ∈ cs, Spec.plain c) :
    (run cfg (init store heap next) cs).2 = Spec.answers (Spec.puts heap store) cs :=
  (run_answers cfg hp (init_inv store heap next hk hn) _ (init_says store heap next hk) cs hc).1

/-- **C75** (partial, as above), contents: the entries read by iterating over the map are the bindings the history leaves,
one entry for each key, and `ContainsValue` says whether a key has the value. -/
theorem C75_entries_partial (cfg : Cfg) (hp : cfg.provider = true) (store : Option (List Nat)) (heap : Nat → K × V)
    (next : Nat) (hk : ((store.getD []).map fun i => (heap i).1).Nodup) (hn : ∀ i ∈ store.getD [], i < next)
    (cs : List (Call K V)) (hc : ∀ c ∈ cs, Spec.plain c) :
    let s := (run cfg (init store heap next) cs).1
    let h := Spec.puts heap store ++ Spec.history cs
    (∀ k v, (k, v) ∈ entries cfg s ↔ FMap.lookup none k h = some v) ∧ ((entries cfg s).map (·.1)).Nodup ∧
    ∀ v, (step cfg s (.containsValue v)).2 = .bool true ↔ ∃ k, FMap.lookup none k h = some v := by
  obtain ⟨_, l, hi, hs⟩ := run_answers cfg hp (init_inv store heap next hk hn) _ (init_says store heap next hk) cs hc
  have he := entries_eq cfg hi.list
  have h1 : ∀ k v, (k, v) ∈ entries cfg (run cfg (init store heap next) cs).1 ↔
      FMap.lookup none k (Spec.puts heap store ++ Spec.history cs) = some v := by
    intro k v; rw [he]; exact (hs k v).symm
  refine ⟨h1, ?_, ?_⟩
  · rw [he]
    have := hi.map.nodup
    simpa [EMap.keys, EMap.entries, Function.comp_def] using this
  · intro v
    simp only [step, hi.free, Bool.false_eq_true, if_false, Out.bool.injEq, List.any_eq_true, decide_eq_true_eq]
    constructor
    · rintro ⟨⟨k, v'⟩, hm, rfl⟩; exact ⟨k, (h1 k v').1 hm⟩
    · rintro ⟨k, hm⟩; exact ⟨(k, v), (h1 k v).2 hm, rfl⟩

/-- A store with two entries; the cache is switched on and off between the calls. -/
example :
    let heap : Nat → Nat × Nat := fun i => (i + 1, 10 * (i + 1))
    let cs : List (Call Nat Nat) := [.map (.getValue 2), .map (.put 3 30), .setCache true, .map (.getValue 3),
      .map (.put 1 11), .map (.removeKey 2), .setCache false, .map (.getValue 1), .map (.containsKey 2), .map .clear,
      .map (.toMapAt 1)]
    ([0, 1].map fun i => (heap i).1).Nodup ∧ (∀ c ∈ cs, Spec.plain c) ∧
    (run ⟨true, .live, true⟩ (init (some [0, 1]) heap 2) cs).2 =
      [.val 20, .unit, .unit, .val 30, .unit, .val 20, .unit, .val 11, .bool false, .unit, .opt none] := by
  decide

/-- **C75** (partial: `Always`), with calls of the list API on the entries, changes of store, and entries made elsewhere:
lookups agree with the entries read by iterating over the map. -/
theorem C75_lookups_partial (cfg : Cfg) (hp : cfg.provider = true) (hu : cfg.unique = true) (store : Option (List Nat))
    (heap : Nat → K × V) (next : Nat) (hk : ((store.getD []).map fun i => (heap i).1).Nodup)
    (hn : ∀ i ∈ store.getD [], i < next) (cs : List (Call K V))
    (hok : Spec.Always cfg (init store heap next) cs) (k : K) :
    let s := (run cfg (init store heap next) cs).1
    ((step cfg s (.map (.containsKey k))).2 = .bool true ↔ ∃ v, (k, v) ∈ entries cfg s) ∧
    (∀ v, (step cfg s (.map (.toMapAt k))).2 = .opt (some v) ↔ (k, v) ∈ entries cfg s) ∧
    (∀ v, (k, v) ∈ entries cfg s → (step cfg s (.map (.getValue k))).2 = .val v) ∧
    ((∀ v, (k, v) ∉ entries cfg s) → (step cfg s (.map (.getValue k))).2 = .val default) := by
  intro s
  obtain ⟨l, hi⟩ : ∃ l, Inv s l := run_inv cfg hp hu (init_inv store heap next hk hn) cs hok
  have ha := (EMap.initDataMap_spec (abs s l) hi.map).2.1
  have he := entries_eq cfg hi.list
  have hini := (initDataMap_eq cfg hi.list).1
  have hm : ∀ v, (initDataMap cfg s).2 k = some v ↔ (k, v) ∈ entries cfg s := by
    intro v; rw [hini, he, ha k v, EMap.mem_entries]
  have hf := hi.free
  refine ⟨?_, ?_, ?_, ?_⟩
  · simp only [step, hf, Bool.false_and, Bool.false_eq_true, if_false, mapStep, Out.bool.injEq,
      Option.isSome_iff_exists]
    exact exists_congr hm
  · intro v
    simp only [step, hf, Bool.false_and, Bool.false_eq_true, if_false, mapStep, Out.opt.injEq]
    exact hm v
  · intro v hv; simp [step, hf, mapStep, (hm v).2 hv]
  · intro hno
    have : (initDataMap cfg s).2 k = none := by
      cases h : (initDataMap cfg s).2 k with
      | none => rfl
      | some v => exact absurd ((hm v).1 h) (hno v)
    simp [step, hf, mapStep, this]

/-- Entries made elsewhere are added, replaced and removed after a lookup, with and without cache, and the store is
removed. -/
example :
    let heap : Nat → Nat × Nat := fun i => (i + 1, 10 * (i + 1))
    let cs : List (Call Nat Nat) := [.map (.getValue 2), .map (.newEntry 3 30), .map (.list (.addAll [2, 0])),
      .map (.newEntry 5 50), .map (.list (.set 0 3)), .setCache true, .map (.getValue 5),
      .map (.list (.removeRange 1 2)), .setStore none, .map (.list (.move [] 1 0)), .map (.list (.removeAll [3, 7]))]
    Spec.Always ⟨true, .live, true⟩ (init (some [0, 1]) heap 2) cs ∧
    entries ⟨true, .live, true⟩ (run ⟨true, .live, true⟩ (init (some [0, 1]) heap 2) cs).1 = [(3, 30)] ∧
    (step ⟨true, .live, true⟩ (run ⟨true, .live, true⟩ (init (some [0, 1]) heap 2) cs).1
      (.map (.containsKey 5))).2 = .bool false := by
  decide

/-- **C75 violated (1)**: when the factory makes the entries that the library provides, `Put` of a new key panics, whatever
the map. -/
theorem C75_factory_violated (cfg : Cfg) (hp : cfg.provider = false) (s : St K V) (hf : s.locked = false) (k : K) (v : V)
    (hk : ∀ e ∈ entries cfg s, e.1 ≠ k) : step cfg s (.map (.put k v)) = (s, .panic) := by
  have : getEntryForKey cfg s k = none := by
    simp only [getEntryForKey, List.find?_eq_none, decide_eq_true_eq]
    intro i hi
    exact hk (s.heap i) (List.mem_map.2 ⟨i, hi, rfl⟩)
  simp [step, hf, mapStep, this, hp]

/-- **C75 violated (2)**: without a cache `RemoveRange` panics after it has removed the first entry from the store, and does
not release the list: the next calls never return. -/
theorem C75_removeRange_violated :
    let heap : Nat → Nat × Nat := fun i => (i + 1, 10 * (i + 1))
    let r := run ⟨true, .live, true⟩ (init (some [0, 1, 2]) heap 3)
      [.map (.list (.removeRange 0 2)), .map (.put 4 40), .map (.getValue 2), .setCache true]
    r.2 = [.list .panic, .hang, .hang, .hang] ∧ r.1.list.store = some [1, 2] := by
  decide

/-- The same call with a cache. -/
example :
    let heap : Nat → Nat × Nat := fun i => (i + 1, 10 * (i + 1))
    let r := run ⟨true, .live, true⟩ (init (some [0, 1, 2]) heap 3)
      [.setCache true, .map (.list (.removeRange 0 2)), .map (.put 4 40), .map (.getValue 2), .setCache false]
    r.2 = [.unit, .list .unit, .unit, .val 0, .unit] ∧ r.1.list.store = some [2, 3] := by
  decide

/-- **C75 violated (3)**: a map that is given another store after a lookup goes on answering with the entries of the first. -/
theorem C75_store_violated :
    let heap : Nat → Nat × Nat := fun i => (i + 1, 10 * (i + 1))
    let s := (run ⟨true, .live, true⟩ (init (some [0]) heap 2) [.map (.getValue 1), .setStore (some [1])]).1
    entries ⟨true, .live, true⟩ s = [(2, 20)] ∧
    (step ⟨true, .live, true⟩ s (.map (.getValue 1))).2 = .val 10 ∧
    (step ⟨true, .live, true⟩ s (.map (.containsKey 2))).2 = .bool false := by
  decide

/-- **C75 violated (4)**: when the feature is not unique, an entry can be twice in the map; once one of the two is removed, the key
is not found though its entry is there. -/
theorem C75_unique_violated :
    let heap : Nat → Nat × Nat := fun i => (i + 1, 10 * (i + 1))
    let s := (run ⟨false, .live, true⟩ (init (some [0]) heap 1) [.map (.list (.add 0)), .map (.getValue 1),
      .map (.list (.removeAt 1))]).1
    entries ⟨false, .live, true⟩ s = [(1, 10)] ∧
    (step ⟨false, .live, true⟩ s (.map (.containsKey 1))).2 = .bool false := by
  decide

/-- **C75 violated (5)**: what the caller writes to the Go map that `ToMap` gives is found by lookups until the cache is
switched, and no entry has it. -/
theorem C75_toMap_violated (cfg : Cfg) (s : St K V) (hf : s.locked = false) (k : K) (v : V) :
    let s' := (step cfg s (.writeToMap k v)).1
    (step cfg s' (.map (.getValue k))).2 = .val v ∧ entries cfg s' = entries cfg s := by
  simp only [step, hf, Bool.false_and, Bool.false_eq_true, if_false]
  cases hm : s.mapData <;> simp [initDataMap, hm, hf, mapStep, EMap.mapPut, entries, ids]

end Verif.Props
