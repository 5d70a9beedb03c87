import Verif.Model.StoreMap
import Verif.Spec.FMap
import Verif.Spec.StoreList

/-!
# A map with a store as a finite map

The specification of C75.  A history is the list of the map calls made so far; the entries found in the store count as
`Put`s made before.
-/

namespace Verif.StoreMap.Spec

open Verif.EMap (MOp)
open Verif.Spec

variable {K V : Type} [DecidableEq K]

/-- what a call on a map answers -/
def out : EMap.Ans V → Out V
  | .unit => .unit
  | .val v => .val v
  | .bool b => .bool b
  | .opt v => .opt v
  | .list r => .list (StoreList.Spec.out r)

/-- the calls of the map API, and switches of the cache -/
def plain : Call K V → Prop
  | .map op => FMap.mapCall op
  | .setCache _ => True
  | _ => False

instance (c : Call K V) : Decidable (plain c) := by
  cases c <;> simp only [plain] <;> infer_instance

/-- the history made by calls: a switch of the cache leaves no trace -/
def history : List (Call K V) → List (MOp K V)
  | [] => []
  | .map op :: cs => op :: history cs
  | _ :: cs => history cs

/-- the answers required of a sequence of calls coming after the history `h` -/
def answers [Inhabited V] (h : List (MOp K V)) : List (Call K V) → List (Out V)
  | [] => []
  | .map op :: cs => out (FMap.answer h op) :: answers (h ++ [op]) cs
  | _ :: cs => .unit :: answers h cs

/-- the entries of a store as `Put`s -/
def puts (heap : Nat → K × V) (store : Option (List Nat)) : List (MOp K V) :=
  (store.getD []).map fun i => .put (heap i).1 (heap i).2

/-- Calls that are considered when entries are also reached through the list: list calls use entries that exist, do not
make two entries with the same key, do not move past the end (see C03), do not disturb the iterator of the set (see C01),
and remove a range only with a cache or without a store; `SetValue` is not called on an entry of the map; a map is given only
stores that have its entries; nothing is written to the Go map that `ToMap` gives. -/
def ok (cfg : Cfg) (s : St K V) : Call K V → Prop
  | .map (.list op) =>
    StoreList.Spec.ok true (decide (cfg.iter = .live)) (ids cfg s) (.op op) ∧
    (((Seq.step true (ids cfg s) op).1.map fun i => (s.heap i).1).Nodup) ∧
    (∀ i ∈ (Seq.step true (ids cfg s) op).1, i < s.next) ∧
    (match op with
     | .removeRange _ _ => s.list.cache = true ∨ s.list.store = none
     | _ => True)
  | .map (.entrySetValue i _) => i ∉ ids cfg s
  | .setStore (some l) => l = ids cfg s
  | .writeToMap _ _ => False
  | _ => True

instance (cfg : Cfg) (s : St K V) (c : Call K V) : Decidable (ok cfg s c) := by
  unfold ok
  split
  · have : ∀ op : EList.Op Nat, Decidable (match op with
        | .removeRange _ _ => s.list.cache = true ∨ s.list.store = none
        | _ => True) := by
      intro op; split <;> infer_instance
    infer_instance
  all_goals infer_instance

/-- each call of a sequence is considered -/
def Always [Inhabited V] [DecidableEq V] (cfg : Cfg) (s : St K V) : List (Call K V) → Prop
  | [] => True
  | c :: cs => ok cfg s c ∧ Always cfg (step cfg s c).1 cs

instance decAlways [Inhabited V] [DecidableEq V] (cfg : Cfg) :
    (s : St K V) → (cs : List (Call K V)) → Decidable (Always cfg s cs)
  | _, [] => .isTrue trivial
  | s, c :: cs =>
    have := decAlways cfg (step cfg s c).1 cs
    inferInstanceAs (Decidable (ok cfg s c ∧ Always cfg (step cfg s c).1 cs))

end Verif.StoreMap.Spec
