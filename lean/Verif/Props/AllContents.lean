import Verif.Proofs.AllContents

/-!
# C14: typed traversal
-/

namespace Verif.AllContents

/-- C14, soundness (partial: nothing is said here about objects that are missed). Whatever the metamodel is, cycles of
classes included, if contained objects have the type of the reference that holds them, `EAllContentsWithClass(o, c)` gives
only objects contained in `o` of class `c`, each of them at most once. -/
theorem C14_sound_partial (M : Meta) (depth n : Nat) (o : Tree) (c : Nat) (ys : List Tree) (ht : Typed M o)
    (h : allContentsWithClass M depth n o c = some ys) : ys.Subperm ((below o).filter fun x => x.cls = c) := by
  simp only [allContentsWithClass, Option.bind_eq_some_iff] at h
  obtain ⟨T, hT, hc⟩ := h
  obtain ⟨h1, h2, h3⟩ := newTable_sound hT
  rw [collect_eq hc]
  exact visit_subperm h1 h2 h3 _ o (Nat.le_refl _) ht

/-- C14, termination (partial). The traversal itself always ends. -/
theorem C14_terminates_partial (T : Table) (o : Tree) : ∃ n ys, ∀ m ≥ n, collect T m [⟨o, o.cls, [], none, none⟩] = some ys := by
  obtain ⟨n, hn⟩ := collect_visit T o o.cls
  exact ⟨n, _, hn⟩

/-- C14, exactness. Missing (see the violations): the class of `o` itself, classes in cycles, objects with several
containment references where some are unset, instances of subclasses of the type of their reference. -/
theorem C14_complete_partial (M : Meta) (rank : Nat → Nat) (hM : Ranked M rank) (o : Tree) (c : Nat) (hne : o.cls ≠ c) (ht : Typed M o)
    (hf : Full M o) (depth : Nat) (hd : rank o.cls < depth) :
    ∃ n ys, (∀ m ≥ n, allContentsWithClass M depth m o c = some ys) ∧ ys.Perm ((below o).filter fun x => x.cls = c) := by
  obtain ⟨T, hT, hdone⟩ := newTable_complete (e := c) hM hd hne
  obtain ⟨h1, h2, h3⟩ := newTable_sound hT
  obtain ⟨n, hn⟩ := collect_visit T o o.cls
  refine ⟨n, visit T o o.cls, fun m hm => ?_, visit_perm h1 h2 h3 _ o (Nat.le_refl _) ht hf hdone⟩
  simp only [allContentsWithClass, hT, Option.bind_some, hn m hm]

/-! ### A library: a library (0) has shelves (reference 10) and people (reference 11); a shelf (1) has books (reference 12);
a book (2) has pages (reference 13); people are of class 3, pages of class 4. -/

def library : Meta where
  containments c := match c with | 0 => [10, 11] | 1 => [12] | 2 => [13] | _ => []
  type r := match r with | 10 => 1 | 11 => 3 | 12 => 2 | 13 => 4 | _ => 9

theorem library_ranked : Ranked library (fun c => match c with | 0 => 3 | 1 => 2 | 2 => 1 | _ => 0) := by
  intro c
  match c with
  | 0 => decide
  | 1 => decide
  | 2 => decide
  | n + 3 => exact ⟨by simp [library], by simp [library]⟩

/-- a library with two shelves, two books, one page and one person -/
def sample : Tree :=
  .node 1 0 0 [.node 2 1 10 [.node 3 2 12 [.node 4 4 13 []], .node 5 2 12 []], .node 6 3 11 [], .node 7 1 10 []]

example : Typed library sample ∧ Full library sample := by
  simp [sample, library, Typed, TypedAll, Full, FullAll, Tree.ref, Tree.cls]

/-- its books and its pages -/
example : (allContentsWithClass library 4 20 sample 2).map (·.map Tree.id) = some [3, 5] ∧
    ((below sample).filter fun x => x.cls = 2).map Tree.id = [3, 5] ∧
    (allContentsWithClass library 4 20 sample 4).map (·.map Tree.id) = some [4] := by decide

/-! ### Violations -/

/-- C14, violated: the reference picked first is unset (no people), the shelves are never looked at. -/
theorem C14_unset_violated :
    ∃ (M : Meta) (o : Tree) (c : Nat), Typed M o ∧ o.cls ≠ c ∧ allContentsWithClass M 5 20 o c = some [] ∧ ((below o).filter fun x => x.cls = c).map Tree.id = [3] := by
  refine ⟨{ containments := fun c => match c with | 0 => [10, 11] | _ => [], type := fun _ => 2 }, .node 1 0 0 [.node 3 2 10 []], 2, ?_, by decide, by rfl, by decide⟩
  simp [Typed, TypedAll, Tree.ref, Tree.cls]

/-- C14, violated: folders in a folder, the class of the object itself is asked for. -/
theorem C14_start_class_violated :
    ∃ (M : Meta) (o : Tree) (c : Nat), Typed M o ∧ Full M o ∧ allContentsWithClass M 5 20 o c = some [] ∧ ((below o).filter fun x => x.cls = c).map Tree.id = [2] := by
  refine ⟨{ containments := fun c => match c with | 0 => [10] | _ => [], type := fun _ => 0 }, .node 1 0 0 [.node 2 0 10 []], 0, ?_, ?_, by rfl, by decide⟩
  · simp [Typed, TypedAll, Tree.ref, Tree.cls]
  · simp [Full, FullAll]

/-- C14, violated: classes 0 and 1 contain each other, and 1 contains 2. The transition from 1 to 0 is dropped when it is met
before the one to 2. -/
theorem C14_cycle_violated :
    ∃ (M : Meta) (o : Tree) (c : Nat), Typed M o ∧ Full M o ∧ o.cls ≠ c ∧
      (allContentsWithClass M 5 40 o c).map (·.map Tree.id) = some [4] ∧ ((below o).filter fun x => x.cls = c).map Tree.id = [4, 8, 7] := by
  refine ⟨{ containments := fun c => match c with | 0 => [10] | 1 => [11, 12] | _ => [], type := fun r => match r with | 10 => 1 | 11 => 0 | _ => 2 },
    .node 1 0 0 [.node 2 1 10 [.node 4 2 12 [], .node 3 0 11 [.node 5 1 10 [.node 8 2 12 [], .node 6 0 11 [.node 9 1 10 [.node 7 2 12 [], .node 10 0 11 []]]]]]],
    2, ?_, ?_, by decide, by decide, by decide⟩
  · simp [Typed, TypedAll, Tree.ref, Tree.cls]
  · simp [Full, FullAll, Tree.ref]

/-- C14, violated: an object whose class is a subclass of the type of the reference that holds it is given although it is of
another class, and one of the class asked for is missed in a reference of a more general type. -/
theorem C14_subclass_violated :
    ∃ (M : Meta) (o : Tree) (general special : Nat), general ≠ special ∧
      (allContentsWithClass M 5 20 o general).map (·.map Tree.cls) = some [special] ∧
      allContentsWithClass M 5 20 o special = some [] ∧ ((below o).filter fun x => x.cls = special).map Tree.id = [2] :=
  ⟨{ containments := fun c => match c with | 0 => [10] | _ => [], type := fun _ => 1 }, .node 1 0 0 [.node 2 5 10 []], 1, 5, by decide, by decide, by rfl, by decide⟩

end Verif.AllContents
