import Verif.Proofs.DynamicObject
import Verif.Spec.EClass
/-
C90: objects whose features are known at run time behave as records.
-/
set_option autoImplicit false
namespace Verif.DynamicObject
open Verif.Spec Verif.Spec.DynamicObject

/-- **C90** (partial: see `Ok` and `Fits` in the specification for what is excluded: many-valued features are not set, unset or asked `EIsSet`, the classes of existing objects do
not change, a class is replaced only by one whose features begin with the same ones and before the contents are asked, no feature is inherited twice, and containment lists are at the ID
kept in the feature). Whatever objects are made and whatever calls follow, each call answers what records answer: no value of a feature is seen under another one, and
an object put under a feature of an object says so until it is put elsewhere. -/
theorem C90_records_partial (m : Meta) (ops : List Op) (hok : Allowed ⟨m, []⟩ ops) : run ⟨m, []⟩ ops = some (answers ⟨m, []⟩ ops) :=
  run_ok ops ⟨rfl, rfl, by intro i o r h; simp at h⟩ hok

/-- The IDs kept in the features: position in the class which declares them (C34). -/
def Numbered (m : Meta) (supers own : Nat → List Nat) : Prop :=
  ∀ c i f : Nat, (own c)[i]? = some f → m.fid f = ((supers c).flatMap m.all).length + i

theorem rank_ind {supers : Nat → List Nat} {n : Nat} (ha : Hier.Acyclic supers n) {P : Nat → Prop}
    (h : ∀ c, (∀ s ∈ supers c, P s) → P c) (c : Nat) : P c := by
  obtain ⟨rank, hr, _⟩ := ha
  induction e : rank c using Nat.strongRecOn generalizing c with
  | _ n ih => exact h c fun s hs => ih (rank s) (by have := hr c s hs; omega) s rfl

theorem flatMap_pos {l : List Nat} {g : Nat → List Nat} {s f i : Nat} (hs : s ∈ l) (hi : (g s)[i]? = some f) :
    ∃ j, i ≤ j ∧ (l.flatMap g)[j]? = some f := by
  induction l with
  | nil => simp at hs
  | cons a l ih =>
    rw [List.flatMap_cons]
    rcases List.mem_cons.1 hs with rfl | hs
    · exact ⟨i, Nat.le_refl _, by rw [List.getElem?_append_left (List.getElem?_eq_some_iff.1 hi).1]; exact hi⟩
    · obtain ⟨j, h1, h2⟩ := ih hs
      exact ⟨(g a).length + j, by omega, by rw [List.getElem?_append_right (by omega)]; simpa using h2⟩

/-- In any hierarchy a feature is at the ID kept in it or further. -/
theorem further {m : Meta} {supers own : Nat → List Nat} {n : Nat} (ha : Hier.Acyclic supers n) (hi : Hier.Inherits supers own m.all)
    (hn : Numbered m supers own) (c f : Nat) (hf : f ∈ m.all c) : ∃ i : Nat, m.fid f ≤ i ∧ (m.all c)[i]? = some f := by
  revert hf
  refine rank_ind ha (P := fun c => f ∈ m.all c → ∃ i : Nat, m.fid f ≤ i ∧ (m.all c)[i]? = some f) ?_ c
  intro c ih hf
  have e := hi c
  rw [e, List.mem_append, List.mem_flatMap] at hf
  rcases hf with ⟨s, hs, hf⟩ | hf
  · obtain ⟨i, h1, h2⟩ := ih s hs hf
    obtain ⟨j, h3, h4⟩ := flatMap_pos (g := m.all) hs h2
    exact ⟨j, by omega, by rw [e, List.getElem?_append_left (List.getElem?_eq_some_iff.1 h4).1]; exact h4⟩
  · obtain ⟨i, h1⟩ := List.getElem?_of_mem hf
    refine ⟨_, Nat.le_of_eq (hn c i f h1), ?_⟩
    rw [e, List.getElem?_append_right (by omega)]
    simpa using h1

/-- **C90**, where it applies: in a hierarchy in which each class has at most one super type and each feature is declared once, all classes suit both sorts of objects, and the
features of a class begin with those of each of its super types. -/
theorem C90_single_inheritance_partial (m : Meta) (supers own : Nat → List Nat) (n : Nat) (ha : Hier.Acyclic supers n) (hi : Hier.Inherits supers own m.all)
    (hn : Numbered m supers own) (h1 : ∀ c, (supers c).length ≤ 1) (h2 : ∀ c, (own c).Nodup) (h3 : ∀ c d f, f ∈ own c → f ∈ own d → c = d) :
    (∀ d c, Fits m d c) ∧ ∀ c c', Hier.Reaches supers c' c → m.all c <+: m.all c' := by
  have hpre : ∀ c s, s ∈ supers c → m.all c = m.all s ++ own c := by
    intro c s hs
    have hl := h1 c
    have e := hi c
    cases hc : supers c with
    | nil => rw [hc] at hs; simp at hs
    | cons a t =>
      rw [hc] at hl hs
      have ht : t = [] := by simpa using hl
      subst ht
      simp only [List.mem_singleton] at hs
      subst hs
      rw [e, hc]; simp
  have hnil : ∀ c, supers c = [] → m.all c = own c := by
    intro c hc; rw [hi c, hc]; simp
  have hin : ∀ c f, f ∈ m.all c → ∃ d, f ∈ own d ∧ Hier.Reaches supers c d := by
    intro c f
    refine rank_ind ha (P := fun c => f ∈ m.all c → ∃ d, f ∈ own d ∧ Hier.Reaches supers c d) ?_ c
    intro c ih hf
    rw [hi c, List.mem_append, List.mem_flatMap] at hf
    rcases hf with ⟨s, hs, hf⟩ | hf
    · obtain ⟨d, a, b⟩ := ih s hs hf
      exact ⟨d, a, .up hs b⟩
    · exact ⟨c, hf, .refl c⟩
  have hirr : ∀ c s, s ∈ supers c → ¬ Hier.Reaches supers s c := by
    obtain ⟨rank, hr, _⟩ := ha
    have hle : ∀ a b, Hier.Reaches supers a b → rank b ≤ rank a := by
      intro a b h
      induction h with
      | refl => exact Nat.le_refl _
      | up h _ ih => have := hr _ _ h; omega
    intro c s hs hh
    have := hle s c hh
    have := hr c s hs
    omega
  have hnd : ∀ c, (m.all c).Nodup := by
    intro c
    refine rank_ind ha (P := fun c => (m.all c).Nodup) ?_ c
    intro c ih
    cases hc : supers c with
    | nil => rw [hnil c hc]; exact h2 c
    | cons s t =>
      have hs : s ∈ supers c := by rw [hc]; simp
      rw [hpre c s hs, List.nodup_append]
      refine ⟨ih s hs, h2 c, ?_⟩
      rintro a ha' b hb rfl
      obtain ⟨d, x, y⟩ := hin s a ha'
      have := h3 d c a x hb
      subst this
      exact hirr d s hs y
  have hat : ∀ c f, f ∈ m.all c → (m.all c)[m.fid f]? = some f := by
    intro c f
    refine rank_ind ha (P := fun c => f ∈ m.all c → (m.all c)[m.fid f]? = some f) ?_ c
    intro c ih hf
    cases hc : supers c with
    | nil =>
      rw [hnil c hc] at hf ⊢
      obtain ⟨i, hi'⟩ := List.getElem?_of_mem hf
      have := hn c i f hi'
      rw [hc] at this
      simp at this
      rw [this]; exact hi'
    | cons s t =>
      have hs : s ∈ supers c := by rw [hc]; simp
      have ht : t = [] := by
        have := h1 c; rw [hc] at this
        simpa using this
      have e := hpre c s hs
      rw [e, List.mem_append] at hf
      rcases hf with hf | hf
      · have := ih s hs hf
        rw [e, List.getElem?_append_left (List.getElem?_eq_some_iff.1 this).1]
        exact this
      · obtain ⟨i, hi'⟩ := List.getElem?_of_mem hf
        have := hn c i f hi'
        rw [hc, ht] at this
        simp at this
        rw [e, this, List.getElem?_append_right (by omega)]
        simpa using hi'
  refine ⟨fun d c => ⟨hnd c, fun f hf => ⟨further ha hi hn c f hf, fun _ => hat c f hf⟩⟩, ?_⟩
  intro c c' h
  induction h with
  | refl => exact List.prefix_refl _
  | up h _ ih => exact ih.trans ⟨_, (hpre _ _ h).symm⟩

/-! ### Cases -/

/-- Class 0 has the features 1 (data, default 9), 2 (containment); class 1 has two more: 3 (containment list), 4 (list). -/
def M : Meta := ⟨fun c => if c = 0 then [1, 2] else [1, 2, 3, 4], fun f => f - 1, fun f => f == 3 || f == 4, fun f => f == 2 || f == 3,
  fun f => if f = 1 then some (.data 9) else none⟩

def someOps : List Op := [.create true 0, .create true 0, .get 0 1, .set 0 1 (some (.data 5)), .set 0 2 (some (.obj 1)), .setClass 0 1, .get 0 1, .holder 1, .contents 0,
  .add 0 3 (.obj 1), .get 0 2, .holder 1, .contents 0, .isSet 0 1, .unset 0 1, .isSet 0 1, .add 0 4 (.data 6), .get 0 4, .remove 0 3 (.obj 1), .holder 1]

/-- A concrete case of C90: an object which gets the class with more features keeps its values. -/
example : run ⟨M, []⟩ someOps = some [.done, .done, .got (.one (.data 9)), .done, .done, .done, .got (.one (.data 5)), .holder (some (0, some 2)), .objects [.obj 1],
    .done, .got .none, .holder (some (0, some 3)), .objects [.obj 1], .bool true, .done, .bool false, .done, .got (.list [.data 6]), .done, .holder none] := by
  decide +kernel

/-- The classes of the case suit. -/
theorem M_fits (d : Bool) (c : Nat) : Fits M d c := by
  unfold Fits M
  by_cases hc : c = 0
  · subst hc
    refine ⟨by decide, fun f hf => ?_⟩
    simp at hf
    rcases hf with rfl | rfl
    · exact ⟨⟨0, by decide, rfl⟩, fun _ => rfl⟩
    · exact ⟨⟨1, by decide, rfl⟩, fun _ => rfl⟩
  · simp only [if_neg hc]
    refine ⟨by decide, fun f hf => ?_⟩
    simp at hf
    rcases hf with rfl | rfl | rfl | rfl
    · exact ⟨⟨0, by decide, rfl⟩, fun _ => rfl⟩
    · exact ⟨⟨1, by decide, rfl⟩, fun _ => rfl⟩
    · exact ⟨⟨2, by decide, rfl⟩, fun _ => rfl⟩
    · exact ⟨⟨3, by decide, rfl⟩, fun _ => rfl⟩

/-- The history of the case is allowed. -/
example : Allowed ⟨M, []⟩ someOps :=
  ⟨M_fits _ _, M_fits _ _, ⟨_, rfl, by decide⟩, ⟨_, rfl, by decide, by decide⟩, ⟨_, rfl, by decide, by decide⟩,
    ⟨_, rfl, M_fits _ _, Or.inr ⟨⟨[3, 4], rfl⟩, rfl, Or.inl rfl⟩⟩, ⟨_, rfl, by decide⟩, (show (1 : Nat) < 2 by decide), (show (0 : Nat) < 2 by decide), ⟨_, rfl, by decide, by decide⟩, ⟨_, rfl, by decide⟩,
    (show (1 : Nat) < 2 by decide), (show (0 : Nat) < 2 by decide), ⟨_, rfl, by decide, by decide⟩, ⟨_, rfl, by decide, by decide⟩, ⟨_, rfl, by decide, by decide⟩, ⟨_, rfl, by decide, by decide⟩, ⟨_, rfl, by decide⟩,
    ⟨_, rfl, by decide, by decide⟩, (show (1 : Nat) < 2 by decide), trivial⟩

/-! ### Violations -/

/-- Classes without lists: the features of the classes are given, the IDs too. -/
def plain (all : Nat → List Nat) (fid : Nat → Nat) : Meta := ⟨all, fid, fun _ => false, fun f => f == 7 || f == 8, fun _ => none⟩

/-- A feature added to a class of which an object exists: each access of it panics. -/
theorem C90_added_feature_violated :
    run ⟨plain (fun _ => [1]) (fun f => f - 1), []⟩ [.create true 0, .set 0 1 (some (.data 5)), .classes (plain (fun _ => [1, 2]) (fun f => f - 1)), .get 0 2] = none ∧
    run ⟨plain (fun _ => [1]) (fun f => f - 1), []⟩ [.create true 0, .set 0 1 (some (.data 5)), .classes (plain (fun _ => [1, 2]) (fun f => f - 1)), .isSet 0 2] = none := by
  decide +kernel

/-- The same for the objects which are not resized: they panic once they were accessed before. -/
theorem C90_reflective_class_violated :
    run ⟨M, []⟩ [.create false 0, .setClass 0 1, .set 0 1 (some (.data 5)), .get 0 4] = some [.done, .done, .done, .got (.list [])] ∧
    run ⟨M, []⟩ [.create false 0, .set 0 1 (some (.data 5)), .setClass 0 1, .get 0 4] = none := by decide +kernel

/-- A feature removed from a class (or a super type given to it): the value of another feature is seen. -/
theorem C90_removed_feature_violated :
    run ⟨plain (fun _ => [1, 2]) (fun f => f - 1), []⟩ [.create true 0, .set 0 1 (some (.data 5)), .set 0 2 (some (.data 6)),
      .classes (plain (fun _ => [2]) (fun _ => 0)), .get 0 2] = some [.done, .done, .done, .done, .got (.one (.data 5))] := by decide +kernel

/-- `SetEClass` to a class which orders the features differently: each feature has the value of the other one. -/
theorem C90_setClass_violated :
    run ⟨plain (fun c => if c = 0 then [1, 2] else [3, 1, 2]) (fun f => if f = 3 then 0 else f - 1), []⟩
      [.create true 0, .set 0 1 (some (.data 5)), .set 0 2 (some (.data 6)), .setClass 0 1, .get 0 1, .get 0 3, .isSet 0 2] =
      some [.done, .done, .done, .done, .got (.one (.data 6)), .got (.one (.data 5)), .bool false] := by decide +kernel

/-- `SetEClass` to a class without the containment feature: the object is not found any more, but its container is still there, without a feature, and it cannot be put anywhere
else. -/
theorem C90_orphan_violated :
    run ⟨plain (fun c => if c = 0 then [7] else []) (fun _ => 0), []⟩
      [.create true 0, .create true 0, .create true 0, .set 0 7 (some (.obj 1)), .setClass 0 1, .contents 0, .holder 1] =
      some [.done, .done, .done, .done, .done, .objects [], .holder (some (0, none))] ∧
    run ⟨plain (fun c => if c = 0 then [7] else []) (fun _ => 0), []⟩
      [.create true 0, .create true 0, .create true 0, .set 0 7 (some (.obj 1)), .setClass 0 1, .set 2 7 (some (.obj 1))] = none := by decide +kernel

/-- Class 2 inherits feature 1 (data) from class 0 and feature 3 (containment list) from class 1; each is the first one of its class. -/
def two : Meta := ⟨fun c => if c = 0 then [1] else if c = 1 then [3] else [1, 3], fun _ => 0, fun f => f == 3, fun f => f == 3, fun _ => none⟩

/-- Two super types: an object in the containment list of the second one says it is under a feature of the first one. When it goes to another container it stays in the list, and the
value of the feature of the first one is lost. -/
theorem C90_two_super_types_violated :
    run ⟨two, []⟩ [.create true 2, .create true 2, .create true 2, .set 0 1 (some (.data 5)), .add 0 3 (.obj 1), .holder 1, .add 2 3 (.obj 1), .get 0 3, .get 2 3, .get 0 1] =
      some [.done, .done, .done, .done, .done, .holder (some (0, some 1)), .done, .got (.list [.obj 1]), .got (.list [.obj 1]), .got .none] := by decide +kernel

/-- Reflective objects: setting a feature of the second super type sets the one of the first super type. -/
theorem C90_reflective_super_types_violated :
    run ⟨plain (fun c => if c = 0 then [1] else if c = 1 then [2] else [1, 2]) (fun _ => 0), []⟩
      [.create false 2, .set 0 1 (some (.data 5)), .set 0 2 (some (.data 6)), .get 0 1] = some [.done, .done, .done, .got (.one (.data 6))] := by decide +kernel

/-- A containment feature inherited twice (from a class which is super type of two super types): the contents are there twice. -/
theorem C90_inherited_twice_violated :
    run ⟨plain (fun c => if c = 3 then [7, 7] else [7]) (fun _ => 0), []⟩ [.create true 3, .create true 0, .set 0 7 (some (.obj 1)), .contents 0] =
      some [.done, .done, .done, .objects [.obj 1, .obj 1]] := by decide +kernel

/-- Contents asked before `SetEClass`: they lack the objects under the features of the new class, or asking them again panics. -/
theorem C90_contents_violated :
    run ⟨plain (fun c => if c = 0 then [7] else [7, 8]) (fun f => f - 7), []⟩
      [.create true 0, .create true 0, .contents 0, .setClass 0 1, .set 0 8 (some (.obj 1)), .contents 0] = some [.done, .done, .objects [], .done, .done, .objects []] ∧
    run ⟨plain (fun c => if c = 0 then [7] else []) (fun f => f - 7), []⟩ [.create true 0, .contents 0, .setClass 0 1, .contents 0] = none := by decide +kernel

/-- Reading the list of an unset feature makes it set. -/
theorem C90_read_is_set_violated :
    run ⟨M, []⟩ [.create true 1, .isSet 0 4, .get 0 4, .isSet 0 4] = some [.done, .bool false, .got (.list []), .bool true] := by decide +kernel

end Verif.DynamicObject
