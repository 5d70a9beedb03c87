import Verif.Spec.IDRefs

namespace Verif.IDRefs

theorem split_ne (s : Text) : split s ≠ [] := by
  cases s with
  | nil => simp [split]
  | cons c s =>
    simp only [split]
    split
    · simp
    · split <;> simp

theorem split_plain (a : Text) (h : ' ' ∉ a) : split a = [a] := by
  induction a with
  | nil => rfl
  | cons c a ih =>
    simp only [List.mem_cons, not_or] at h
    simp only [split, ih h.2, show ¬ c = ' ' from fun e => h.1 e.symm, if_false]

theorem split_append (a b : Text) (h : ' ' ∉ a) : split (a ++ ' ' :: b) = a :: split b := by
  induction a with
  | nil => simp [split]
  | cons c a ih =>
    simp only [List.mem_cons, not_or] at h
    simp only [List.cons_append, split, ih h.2, show ¬ c = ' ' from fun e => h.1 e.symm, if_false]

theorem split_write (r : Res) (l : List Nat) (hl : l ≠ []) (h : ∀ o ∈ l, ' ' ∉ fragment r o) : split (write r l) = l.map (getIDRef r) := by
  have hr : ∀ o ∈ l, ' ' ∉ getIDRef r o := fun o ho => by
    simp only [getIDRef, List.mem_cons, not_or]
    exact ⟨by decide, h o ho⟩
  induction l with
  | nil => exact absurd rfl hl
  | cons o l ih =>
    cases l with
    | nil => simp only [write, List.map_cons, List.map_nil]; exact split_plain _ (hr o (by simp))
    | cons p l =>
      simp only [write]
      rw [split_append _ _ (hr o (by simp)), ih (by simp) (fun q hq => h q (by simp [hq])) (fun q hq => hr q (by simp [hq]))]
      rfl

theorem classify_ref (f : Text) : classify ('#' :: f) = .loc f := by
  simp [classify, index, List.findIdx?_cons]

theorem find_unique (r : Res) (o : Nat) (ho : o ∈ r.contents) (hu : ∀ p ∈ r.contents, r.id p = r.id o → p = o) : byID r (r.id o) = some o := by
  simp only [byID]
  cases h : r.contents.find? (fun p => r.id o = r.id p) with
  | none =>
    rw [List.find?_eq_none] at h
    simpa using h o ho
  | some p =>
    have h1 := List.mem_of_find?_eq_some h
    have h2 := List.find?_some h
    simp only [decide_eq_true_eq] at h2
    rw [hu p h1 h2.symm]

theorem byID_sound (r : Res) (i : Text) (o : Nat) (h : byID r i = some o) : r.id o = i := by
  have := List.find?_some h
  simp only [decide_eq_true_eq] at this
  exact this.symm

theorem getEObject_plain (r : Res) (f : Text) (h1 : f.head? ≠ some '/') (h2 : f.getLast? ≠ some '?') : getEObject r f = some (byID r f) := by
  simp [getEObject, h1, h2]

/-- whatever is found for something that is not a path has a different ID or this one -/
theorem getEObject_short (r : Res) (f : Text) (o : Nat) (h1 : f.head? ≠ some '/') (h : getEObject r f = some (some o)) : r.id o <+: f := by
  simp only [getEObject, h1, if_false] at h
  split at h
  · split at h
    · split at h
      · cases h
      · split at h
        · simp only [Option.some.injEq] at h; rw [byID_sound r _ o h]; exact List.take_prefix _ _
        · simp only [Option.some.injEq] at h; rw [byID_sound r _ o h]; exact List.prefix_refl _
    · simp only [Option.some.injEq] at h; rw [byID_sound r _ o h]; exact List.prefix_refl _
  · simp only [Option.some.injEq] at h; rw [byID_sound r _ o h]; exact List.prefix_refl _

theorem lastIndex_append (c : Char) (x y : Text) (h : c ∉ y) : lastIndex c (x ++ c :: y) = some x.length := by
  have hy : lastIndex c y = none := by
    induction y with
    | nil => rfl
    | cons d y ih =>
      simp only [List.mem_cons, not_or] at h
      simp only [lastIndex, ih h.2, show ¬ d = c from fun e => h.1 e.symm, if_false]
  induction x with
  | nil => simp [lastIndex, hy]
  | cons d x ih => simp [lastIndex, ih]

/-- the part of a text up to the first space -/
theorem first_space (t : Text) (h : ' ' ∈ t) : ∃ a b, t = a ++ ' ' :: b ∧ ' ' ∉ a := by
  induction t with
  | nil => cases h
  | cons c t ih =>
    by_cases hc : c = ' '
    · exact ⟨[], t, by simp [hc], by simp⟩
    · have : ' ' ∈ t := by
        rcases List.mem_cons.1 h with e | e
        · exact absurd e.symm hc
        · exact e
      obtain ⟨a, b, e, hn⟩ := ih this
      exact ⟨c :: a, b, by simp [e], by simp only [List.mem_cons, not_or]; exact ⟨fun e => hc e.symm, hn⟩⟩

end Verif.IDRefs
