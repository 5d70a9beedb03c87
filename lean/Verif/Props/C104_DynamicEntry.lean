import Verif.Proofs.DynamicEntry

/-!
# C104: The key and value of a map entry are its features of these names
-/

namespace Verif.DynamicEntry

/-- entry classes: features 0 "key", 1 "value", 2 "note" in this order, in class 1 "value" before "key" -/
def classes : Nat → Cls
  | 0 => ⟨"java.util.Map.Entry", [⟨0, "key"⟩, ⟨1, "value"⟩, ⟨2, "note"⟩]⟩
  | 1 => ⟨"java.util.Map.Entry", [⟨4, "value"⟩, ⟨3, "key"⟩]⟩
  | _ => ⟨"", []⟩

/-- As long as the features called "key" and "value" of the classes stay the same, and whatever else is done, also other changes of the classes and `SetEClass`: `GetKey` is
`EGet` of the feature "key", `SetKey` is `ESet` of it, and so for "value". -/
theorem C104_names_partial (c : Nat → Cls) (ops : List Op) (h : SameNames c ops) (e : Nat) (x : Option Nat) :
    step (run ⟨c, []⟩ ops) (.getKey e) = step (run ⟨c, []⟩ ops) (.get e "key") ∧
      step (run ⟨c, []⟩ ops) (.setKey e x) = step (run ⟨c, []⟩ ops) (.set e "key" x) ∧
      step (run ⟨c, []⟩ ops) (.getValue e) = step (run ⟨c, []⟩ ops) (.get e "value") ∧
      step (run ⟨c, []⟩ ops) (.setValue e x) = step (run ⟨c, []⟩ ops) (.set e "value" x) := by
  have hf := run_fresh ops ⟨c, []⟩ (fun i e he => by simp at he) h
  obtain ⟨h1, h2⟩ := fresh_same _ hf e
  simp only [step, h1, h2, and_self]

/-- two entries, a new feature in front, and another class -/
def tame : List Op :=
  [.make 0, .make 1, .setKey 0 (some 5), .change 0 ⟨"java.util.Map.Entry", [⟨7, "other"⟩, ⟨0, "key"⟩, ⟨1, "value"⟩]⟩, .setClass 1 0, .setKey 1 (some 6),
    .setValue 1 (some 8)]

example : SameNames classes tame := by simp [SameNames, tame, named, classes]

example : (answers ⟨classes, []⟩ (tame ++ [.getKey 1, .get 1 "key", .getValue 1, .get 1 "value", .getKey 0])) =
    [.made 0, .made 1, .done, .done, .done, .done, .done, .val (some 6), .val (some 6), .val (some 8), .val (some 8), .val none] := by decide

/-- After `SetEClass`, also with the class the entry has, this is so in any state. -/
theorem C104_refreshed (s : State) (e c : Nat) (x : Option Nat) (h : e < s.entries.length) :
    step (step s (.setClass e c)).1 (.getKey e) = step (step s (.setClass e c)).1 (.get e "key") ∧
      step (step s (.setClass e c)).1 (.setKey e x) = step (step s (.setClass e c)).1 (.set e "key" x) ∧
      step (step s (.setClass e c)).1 (.getValue e) = step (step s (.setClass e c)).1 (.get e "value") ∧
      step (step s (.setClass e c)).1 (.setValue e x) = step (step s (.setClass e c)).1 (.set e "value" x) := by
  have he : s.entries[e]? = some s.entries[e] := by simp [h]
  have hs : (step s (.setClass e c)).1 = { s with entries := s.entries.set e (withClass s s.entries[e] c) } := by simp only [step, he]
  rw [hs]
  simp only [step, List.getElem?_set_self h, Option.bind_some, withClass, and_self]

/-- Entries used by their methods are pairs, independent of each other: what is got is what was set last, nothing panics but calls of what is not an entry; also if the
classes get further features in the meantime. -/
theorem C104_pairs_partial (c : Nat → Cls) (ops : List Op) (h : Pairs c ops) : answers ⟨c, []⟩ ops = pairAnswers [] ops :=
  pairs_sim ops ⟨c, []⟩ [] ⟨rfl, fun i e p he => by simp at he⟩ h

def calls : List Op :=
  [.make 0, .make 1, .setKey 0 (some 5), .setValue 0 (some 6), .setKey 1 (some 7),
    .change 0 ⟨"", [⟨0, "key"⟩, ⟨1, "value"⟩, ⟨2, "note"⟩, ⟨9, "more"⟩]⟩, .getKey 0, .getValue 0, .getKey 1, .getValue 1, .setKey 0 none, .getKey 0]

example : Pairs classes calls := by
  simp only [Pairs, calls, EntryClass, classes, and_true]
  exact ⟨by decide, by decide, ⟨[⟨9, "more"⟩], by decide, by decide⟩, by decide⟩

example : answers ⟨classes, []⟩ calls =
    [.made 0, .made 1, .done, .done, .done, .done, .val (some 5), .val (some 6), .val (some 7), .val none, .done, .val none] := by decide

/-- Violated: after another feature of the class is the one called "key", `GetKey` still is the one that was. -/
theorem C104_renamed_violated :
    answers ⟨classes, []⟩ [.make 0, .setKey 0 (some 5), .set 0 "note" (some 6),
      .change 0 ⟨"java.util.Map.Entry", [⟨0, "old"⟩, ⟨1, "value"⟩, ⟨2, "key"⟩]⟩, .get 0 "key", .getKey 0] =
    [.made 0, .done, .done, .done, .val (some 6), .val (some 5)] := by decide

/-- Violated: a feature put in front of the others, and the key is lost and the value has become what the key was. -/
theorem C104_moved_violated :
    answers ⟨classes, []⟩ [.make 0, .setKey 0 (some 5), .setValue 0 (some 6),
      .change 0 ⟨"java.util.Map.Entry", [⟨7, "other"⟩, ⟨0, "key"⟩, ⟨1, "value"⟩, ⟨2, "note"⟩]⟩, .getKey 0, .getValue 0] =
    [.made 0, .done, .done, .done, .val (some 6), .val none] := by decide

/-- Violated: with a class that has the features in another order, key and value are exchanged. -/
theorem C104_class_violated :
    answers ⟨classes, []⟩ [.make 0, .setKey 0 (some 5), .setValue 0 (some 6), .setClass 0 1, .getKey 0, .getValue 0] =
    [.made 0, .done, .done, .done, .val (some 6), .val (some 5)] := by decide

/-- Violated, for all classes and entries: an entry whose key feature is taken out of its class panics, although the class may have another feature "key". -/
theorem C104_removed_violated (s : State) (e : Nat) (o : Entry) (f : Nat) (x : Option Nat) (he : s.entries[e]? = some o) (hk : o.key = some f)
    (hf : ∀ g ∈ (s.classes o.cls).feats, g.id ≠ f) : (step s (.getKey e)).2 = .panic ∧ step s (.setKey e x) = (s, .panic) := by
  have : featureID (s.classes o.cls) f = none := by
    simp only [featureID, List.findIdx?_eq_none_iff, decide_eq_false_iff_not]
    exact hf
  simp only [step, eGet, eSet, he, Option.bind_some, hk, this, and_self]

example : answers ⟨classes, []⟩ [.make 0, .setKey 0 (some 5), .change 0 ⟨"java.util.Map.Entry", [⟨8, "key"⟩, ⟨1, "value"⟩, ⟨2, "note"⟩]⟩, .getKey 0, .get 0 "key"] =
    [.made 0, .done, .done, .panic, .val (some 5)] := by decide

end Verif.DynamicEntry
