import Verif.Proofs.EMap
/-
Properties C09 and C10: maps.
-/
namespace Verif.Props
open Verif.EList Verif.EMap Verif.Spec

variable {K V : Type} [DecidableEq K] [Inhabited K] [Inhabited V]

omit [DecidableEq K] in
theorem init_inv : EMap.Inv (EMap.init : St K V) :=
  ⟨by simp [EMap.init, EMap.keys], by simp [EMap.init], by simp [EMap.init]⟩

omit [DecidableEq K] in
theorem init_says [DecidableEq K] : Says (EMap.init : St K V) (fun k => FMap.lookup none k []) := by
  intro k v; simp [EMap.init, entries, FMap.lookup]

/-- **C09**. On a new map, every call of a sequence of map calls answers what the history before it requires: the value
of the last `Put` of the key not followed by `RemoveKey` of that key or `Clear` (lookups, whenever they happen,
do not count). -/
theorem C09_answers (it : SetIter) (ops : List (MOp K V)) (h : ∀ op ∈ ops, FMap.mapCall op) :
    manswers it EMap.init ops = FMap.answers [] ops :=
  (run_says it EMap.init [] ops init_inv h init_says).2.2

/-- **C09**, contents: after any sequence of map calls the entries seen by iterating the map are exactly the bindings
the history leaves, with one entry per key. -/
theorem C09_entries (it : SetIter) (ops : List (MOp K V)) (h : ∀ op ∈ ops, FMap.mapCall op) :
    let s := mrun it EMap.init ops
    (∀ k v, (k, v) ∈ entries s ↔ FMap.lookup none k ops = some v) ∧ ((entries s).map (·.1)).Nodup := by
  have h1 := run_says it EMap.init [] ops init_inv h init_says
  refine ⟨fun k v => (h1.2.1 k v).symm, ?_⟩
  have := h1.1.nodup
  simpa [EMap.keys, entries, Function.comp_def] using this

/-- **C09**, `ContainsValue`. -/
theorem C09_containsValue [DecidableEq V] (it : SetIter) (ops : List (MOp K V)) (h : ∀ op ∈ ops, FMap.mapCall op)
    (v : V) :
    containsValue (mrun it EMap.init ops) v = true ↔ ∃ k, FMap.lookup none k ops = some v := by
  have h1 := (C09_entries it ops h).1
  simp only [containsValue, List.any_eq_true, decide_eq_true_eq]
  constructor
  · rintro ⟨⟨k, v'⟩, hm, rfl⟩; exact ⟨k, (h1 k v').1 hm⟩
  · rintro ⟨k, hk⟩; exact ⟨(k, v), (h1 k v).2 hk, rfl⟩

/-- Non-vacuity of C09, and what the answers look like. -/
example :
    let ops : List (MOp Nat Nat) := [.put 1 10, .getValue 1, .put 2 20, .put 1 11, .getValue 1, .removeKey 2,
      .containsKey 2, .clear, .containsKey 1, .put 2 5, .toMapAt 2]
    (∀ op ∈ ops, FMap.mapCall op) ∧
    manswers .live EMap.init ops = [.unit, .val 10, .unit, .unit, .val 11, .val 20, .bool false, .unit, .bool false,
      .unit, .opt (some 5)] := by
  decide

/-- Every call of the history is acceptable: list calls on entries do not create two entries with the same key,
use existing entry objects and do not move past the end; `SetValue` is not called directly on an entry of
the map. Map calls are always acceptable. -/
def AllOk (it : SetIter) (s : St K V) : List (MOp K V) → Prop
  | [] => True
  | op :: ops => okCall it s op ∧ AllOk it (mstep it s op).1 ops

instance decAllOk (it : SetIter) : (s : St K V) → (ops : List (MOp K V)) → Decidable (AllOk it s ops)
  | _, [] => isTrue trivial
  | s, op :: ops =>
    have := decAllOk it (mstep it s op).1 ops
    inferInstanceAs (Decidable (_ ∧ _))

omit [Inhabited K] in
theorem run_inv (it : SetIter) (s : St K V) (ops : List (MOp K V)) (h : EMap.Inv s) (hok : AllOk it s ops) :
    EMap.Inv (mrun it s ops) := by
  induction ops generalizing s with
  | nil => exact h
  | cons op ops ih => exact ih _ (mstep_inv it s op h hok.1) hok.2

/-- **C10** (partial: `AllOk`). After any mix of map calls and list calls on the entries, the lookups of a key agree
with the entries seen by iterating the map. -/
theorem C10_lookups_agree_partial (it : SetIter) (ops : List (MOp K V)) (hok : AllOk it EMap.init ops) (k : K) :
    let s := mrun it EMap.init ops
    ((mstep it s (.containsKey k)).2 = .bool true ↔ ∃ v, (k, v) ∈ entries s) ∧
    (∀ v, (mstep it s (.toMapAt k)).2 = .opt (some v) ↔ (k, v) ∈ entries s) ∧
    (∀ v, (k, v) ∈ entries s → (mstep it s (.getValue k)).2 = .val v) ∧
    ((∀ v, (k, v) ∉ entries s) → (mstep it s (.getValue k)).2 = .val default) := by
  intro s
  have hi : EMap.Inv s := run_inv it _ ops init_inv hok
  have ha := (initDataMap_spec s hi).2.1
  have hm : ∀ v, (initDataMap s).2 k = some v ↔ (k, v) ∈ entries s := by
    intro v; rw [ha k v, mem_entries]
  refine ⟨?_, ?_, ?_, ?_⟩
  · simp only [mstep, Ans.bool.injEq, Option.isSome_iff_exists]
    exact exists_congr hm
  · intro v; simp only [mstep, Ans.opt.injEq]; exact hm v
  · intro v hv; simp [mstep, (hm v).2 hv]
  · intro hno
    have : (initDataMap s).2 k = none := by
      cases h : (initDataMap s).2 k with
      | none => rfl
      | some v => exact absurd ((hm v).1 h) (hno v)
    simp [mstep, this]

/-- Non-vacuity of C10: entries are created outside, added, replaced and removed through the list API after the
lazily built map exists. -/
example :
    let ops : List (MOp Nat Nat) := [.put 1 10, .getValue 1, .newEntry 2 20, .newEntry 3 30, .list (.addAll [1, 2]),
      .newEntry 2 21, .list (.set 1 3), .list (.removeAt 0), .list (.move [] 0 1), .put 2 22]
    AllOk .snapshot EMap.init ops ∧ entries (mrun .snapshot EMap.init ops) = [(3, 30), (2, 22)] := by
  decide

/-- **C10 violated (1)**: two entries with the same key are accepted by the list; removing one of them makes the key
invisible to lookups although the other entry is still in the map. -/
theorem C10_same_key_violated :
    let ops : List (MOp Nat Nat) := [.newEntry 1 10, .newEntry 1 11, .list (.add 0), .list (.add 1), .getValue 1,
      .list (.remove 1)]
    let s := mrun .snapshot EMap.init ops
    entries s = [(1, 10)] ∧ (mstep .snapshot s (.containsKey 1)).2 = .bool false ∧
    (mstep .snapshot s (.getValue 1)).2 = .val 0 := by
  decide

/-- **C10 violated (2)**: after a lookup, `SetValue` on an entry of the map changes the entry but not the answer of
`GetValue`. -/
theorem C10_entry_setValue_violated :
    let ops : List (MOp Nat Nat) := [.put 1 10, .getValue 1, .entrySetValue 0 11]
    let s := mrun .snapshot EMap.init ops
    entries s = [(1, 11)] ∧ (mstep .snapshot s (.getValue 1)).2 = .val 10 := by
  decide

end Verif.Props
