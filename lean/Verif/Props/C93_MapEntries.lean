import Verif.Proofs.MapEntries

/-!
# C93: an entry of a map of objects is in the map of its container and in no other

The specification (`Spec/MapEntries.lean`) has entries that are in one place: who comes into a place leaves the one they were in.  The maps of the code do not let their entries go.
-/

namespace Verif.MapEntries

instance (s : Spec.State) (op : Op) : Decidable (s.Allowed op) := by
  have h : ∀ c : Option Place, Decidable (∀ o, c ≠ some ⟨o, true⟩) := fun c => match c with
    | none => isTrue (fun o h => by cases h)
    | some ⟨o, true⟩ => isFalse (fun h => h o rfl)
    | some ⟨o, false⟩ => isTrue (fun o' h => by cases h)
  have := h
  cases op <;> unfold Spec.State.Allowed <;> infer_instance

instance decAllAllowed (s : Spec.State) : ∀ ops, Decidable (s.AllAllowed ops)
  | [] => isTrue trivial
  | op :: ops => by
    have := decAllAllowed (s.step op).1 ops
    unfold Spec.State.AllAllowed; infer_instance

/-- In programs that bring only entries from outside of maps into a map or a list, all calls answer as in the specification: entries are in one place, their container is the owner of it, maps and
lists have the entries that came and did not go. -/
theorem C93_places_partial (ops : List Op) (ha : Spec.init.AllAllowed ops) : answers init ops = (Spec.init.run ops).2 :=
  (rel_run rel_init ops ha).2

/-- After such a program an entry is in the contents of a place if and only if this place is its container, and not two times. -/
theorem C93_one_place_partial (ops : List Op) (ha : Spec.init.AllAllowed ops) (p : Place) :
    ∃ l, answer ops (.contents p) = .list l ∧ l.Nodup ∧ ∀ e, e ∈ l ↔ answer ops (.container e) = .place (some p) := by
  have h := (rel_run rel_init ops ha).1
  exact ⟨_, rfl, h.agree.nodup p, fun e => by rw [h.agree.mem e p]; simp [answer, step]⟩

/-- After any program the container of an entry has it. -/
theorem C93_container_partial (ops : List Op) (e : Nat) (p : Place) (h : answer ops (.container e) = .place (some p)) :
    ∃ l, answer ops (.contents p) = .list l ∧ e ∈ l :=
  ⟨_, rfl, inPlace_run ops e p (by simpa [answer, step] using h)⟩

/-- The code does not meet the full property.  After any program: an entry of a map that is added to another map or to a list is in both; the other place is its container. -/
theorem C93_both_violated (ops : List Op) (o e : Nat) (p : Place) (l : List Nat) (hp : p ≠ ⟨o, true⟩) (hl : answer ops (.contents ⟨o, true⟩) = .list l) (he : e ∈ l)
    (ha : answer ops (.add p e) = .bool true) :
    answer (ops ++ [.add p e]) (.contents ⟨o, true⟩) = .list l ∧
    (∃ l', answer (ops ++ [.add p e]) (.contents p) = .list l' ∧ e ∈ l') ∧
    answer (ops ++ [.add p e]) (.container e) = .place (some p) := by
  have hs : run init (ops ++ [.add p e]) = (step (run init ops) (.add p e)).1 := by rw [run_append]; rfl
  obtain ⟨hn, hadd⟩ := add_true ha
  rw [hadd] at hs
  simp only [answer, step, Ans.list.injEq] at hl
  refine ⟨?_, ⟨_, rfl, ?_⟩, ?_⟩
  · simp only [answer, step, hs, inverseAdd_map]
    simp [State.setList, Ne.symm hp, hl]
  · rw [hs]
    rcases mem_add hn with h | h
    · exact h
    · exact absurd (inPlace_run ops _ _ h) hn
  · simp only [answer, step, hs, inverseAdd_container]

/-- When such an entry is removed from the first map, it has no container, though it is in the other place. -/
theorem C93_orphan_violated (ops : List Op) (o e : Nat) (p : Place) (l : List Nat) (hp : p ≠ ⟨o, true⟩) (hl : answer ops (.contents ⟨o, true⟩) = .list l) (he : e ∈ l)
    (ha : answer ops (.add p e) = .bool true) :
    answer (ops ++ [.add p e]) (.remove ⟨o, true⟩ e) = .bool true ∧
    answer (ops ++ [.add p e, .remove ⟨o, true⟩ e]) (.container e) = .place none ∧
    ∃ l', answer (ops ++ [.add p e, .remove ⟨o, true⟩ e]) (.contents p) = .list l' ∧ e ∈ l' := by
  obtain ⟨h1, ⟨l', h2, h2m⟩, h3⟩ := C93_both_violated ops o e p l hp hl he ha
  simp only [answer, step, Ans.list.injEq] at h1 h2
  have hm : e ∈ (run init (ops ++ [.add p e])).lists ⟨o, true⟩ := by rw [h1]; exact he
  have hs : run init (ops ++ [.add p e, .remove ⟨o, true⟩ e]) = (remove (run init (ops ++ [.add p e])) ⟨o, true⟩ e).1 := by
    rw [show ops ++ [Op.add p e, .remove ⟨o, true⟩ e] = (ops ++ [.add p e]) ++ [.remove ⟨o, true⟩ e] by simp, run_append _ (ops ++ [Op.add p e])]; rfl
  refine ⟨?_, ?_, ⟨_, rfl, ?_⟩⟩
  · simp only [answer, step, remove, hm, if_true]
  · simp only [answer, step, hs, remove, hm, if_true]
    simp [inverseRemove, State.setContainer]
  · rw [hs]
    simp only [remove, hm, if_true]
    simp only [inverseRemove, State.setContainer, State.setList, hp, if_false, h2]
    exact h2m

/-- And a `Put` with its key in the other map, when that had no entry, gives the new value in the first map too. -/
theorem C93_value_violated (ops : List Op) (o o' e k x y : Nat) (l : List Nat) (ho : o' ≠ o) (hl : answer ops (.contents ⟨o, true⟩) = .list l) (he : e ∈ l)
    (hk : answer ops (.entry e) = .pair k x) (hemp : answer ops (.contents ⟨o', true⟩) = .list []) (ha : answer ops (.add ⟨o', true⟩ e) = .bool true) :
    answer (ops ++ [.add ⟨o', true⟩ e, .put o' k y]) (.contents ⟨o, true⟩) = .list l ∧
    answer (ops ++ [.add ⟨o', true⟩ e, .put o' k y]) (.entry e) = .pair k y := by
  have hp : (⟨o', true⟩ : Place) ≠ ⟨o, true⟩ := by simpa using ho
  have hs : run init (ops ++ [.add ⟨o', true⟩ e]) = (step (run init ops) (.add ⟨o', true⟩ e)).1 := by rw [run_append]; rfl
  obtain ⟨hn, hadd⟩ := add_true ha
  rw [hadd] at hs
  have h1 := (C93_both_violated ops o e ⟨o', true⟩ l hp hl he ha).1
  simp only [answer, step, Ans.list.injEq] at h1 hemp hk
  have hk' : ((run init (ops ++ [.add ⟨o', true⟩ e])).entries e).key = k := by
    rw [hs]
    have : ∀ (s : State) q, ((inverseAdd s e q).entries e).key = (s.entries e).key := by
      intro s q
      unfold inverseAdd
      cases (s.entries e).container with
      | none => simp [State.setContainer]
      | some r => simp only [State.setContainer, if_true]; unfold inverseRemoveOwner; split <;> rfl
    rw [this]
    simp only [Ans.pair.injEq] at hk
    exact hk.1
  have hl' : (run init (ops ++ [.add ⟨o', true⟩ e])).lists ⟨o', true⟩ = [e] := by
    rw [hs, inverseAdd_map]; simp [State.setList, hemp]
  have hf : entryForKey (run init (ops ++ [.add ⟨o', true⟩ e])) o' k = some e := by
    simp [entryForKey, hl', hk']
  have hs2 : run init (ops ++ [.add ⟨o', true⟩ e, .put o' k y]) = (step (run init (ops ++ [.add ⟨o', true⟩ e])) (.put o' k y)).1 := by
    rw [show ops ++ [Op.add ⟨o', true⟩ e, .put o' k y] = (ops ++ [.add ⟨o', true⟩ e]) ++ [.put o' k y] by simp, run_append _ (ops ++ [Op.add ⟨o', true⟩ e])]; rfl
  constructor
  · simp only [answer, step, hs2, hf, h1]
  · simp only [answer, step, hs2, hf, if_true, hk']

/-! ## Cases -/

/-- a program with entries that come from a list -/
def sample : List Op :=
  [.put 0 7 70, .newEntry 8 80, .add ⟨1, false⟩ 1, .add ⟨0, true⟩ 1, .contents ⟨1, false⟩, .contents ⟨0, true⟩, .container 1, .put 0 8 81, .entry 1,
   .newEntry 9 90, .set ⟨0, true⟩ 0 2, .container 0, .insert ⟨1, false⟩ 0 0, .insert ⟨2, false⟩ 0 0, .contents ⟨1, false⟩, .removeKey 0 8, .removeAt ⟨0, true⟩ 0, .container 2,
   .clear ⟨2, false⟩, .container 0]

example : Spec.init.AllAllowed sample := by decide
example : answers init sample =
    [.unit, .obj 1, .bool true, .bool true, .list [], .list [0, 1], .place (some ⟨0, true⟩), .unit, .pair 8 81,
     .obj 2, .obj 0, .place none, .bool true, .bool true, .list [], .value (some 81), .obj 2, .place none, .unit, .place none] := by decide

example : answer [.put 0 7 70] (.contents ⟨0, true⟩) = .list [0] ∧ answer [.put 0 7 70] (.add ⟨1, true⟩ 0) = .bool true ∧ answer [.put 0 7 70] (.contents ⟨1, true⟩) = .list [] ∧
    answer [.put 0 7 70] (.entry 0) = .pair 7 70 ∧ answer [.put 0 7 70] (.container 0) = .place (some ⟨0, true⟩) := by decide

/-- the specification lets the entry go -/
example : (Spec.init.run [.put 0 7 70, .add ⟨1, true⟩ 0, .contents ⟨0, true⟩, .contents ⟨1, true⟩]).2 = [.unit, .bool true, .list [], .list [0]] := by decide

end Verif.MapEntries
