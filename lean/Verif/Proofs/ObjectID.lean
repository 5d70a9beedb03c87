import Verif.Spec.ObjectID
import Verif.Props.Convert

/-!
# Proofs about IDs of objects
-/

namespace Verif.ObjectID

open Verif.Convert Verif.Convert.Spec

variable {F : Type}

theorem create_named (fl : Floats F) (n : String) (s : Text) (v : Value F) (h : createDynamic fl (.named n) s = some v) :
    HasName (fun x => ∃ s, x = fl.parse64 s) (fun x => ∃ s, x = fl.parse32 s) n v ∨ (v = .bytes s ∧ n ∈ ["byte[]", "[]byte"]) := by
  simp only [createDynamic] at h
  split at h
  · simp only [Option.some.injEq] at h; subst h; exact .inl ⟨by assumption, _, rfl⟩
  split at h
  · simp only [Option.some.injEq] at h; subst h; exact .inl ⟨by assumption, _, rfl⟩
  split at h
  · simp only [Option.some.injEq] at h; subst h; exact .inl ⟨by assumption, parseInt_range _ _⟩
  split at h
  · simp only [Option.some.injEq] at h; subst h; exact .inl ⟨by assumption, parseUint_range _ _⟩
  split at h
  · simp only [Option.some.injEq] at h; subst h; exact .inl ⟨by assumption, parseInt_range _ _⟩
  split at h
  · simp only [Option.some.injEq] at h; subst h; exact .inl ⟨by assumption, parseInt_range _ _⟩
  split at h
  · simp only [Option.some.injEq] at h; subst h; exact .inl ⟨by assumption, parseInt_range _ _⟩
  split at h
  · simp only [Option.some.injEq] at h; subst h; exact .inl ⟨by assumption, parseInt_range _ _⟩
  split at h
  · simp only [Option.some.injEq] at h; subst h; exact .inl (by assumption)
  split at h
  · simp only [Option.some.injEq] at h; subst h; exact .inl (by assumption)
  split at h
  · simp only [Option.some.injEq] at h; subst h; exact .inr ⟨rfl, by assumption⟩
  · simp at h

/-- the search finds the first -/
theorem search_some (fl : Floats F) (obj : Nat → Obj F) (id : Text) (l : List Nat) (o : Nat) :
    search fl obj id l = some (some o) ↔ ∃ a b, l = a ++ o :: b ∧ HasID fl (obj o) id ∧ ∀ p ∈ a, ∃ i, HasID fl (obj p) i ∧ i ≠ id := by
  induction l with
  | nil => simp [search]
  | cons p l ih =>
    simp only [search]
    cases hp : getID fl (obj p) with
    | none =>
      simp only [reduceCtorEq, false_iff]
      rintro ⟨a, b, e, h1, h2⟩
      cases a with
      | nil =>
        simp only [List.nil_append, List.cons.injEq] at e
        rw [HasID, ← e.1, hp] at h1
        cases h1
      | cons x a =>
        simp only [List.cons_append, List.cons.injEq] at e
        obtain ⟨i, hi, -⟩ := h2 x (by simp)
        rw [HasID, ← e.1, hp] at hi
        cases hi
    | some i =>
      by_cases hi : id = i
      · simp only [hi, if_true, Option.some.injEq]
        constructor
        · rintro rfl
          exact ⟨[], l, rfl, hp, by simp⟩
        · rintro ⟨a, b, e, h1, h2⟩
          cases a with
          | nil => simp only [List.nil_append, List.cons.injEq] at e; exact e.1
          | cons x a =>
            simp only [List.cons_append, List.cons.injEq] at e
            obtain ⟨j, hj, hne⟩ := h2 x (by simp)
            rw [HasID, ← e.1, hp] at hj
            simp only [Option.some.injEq] at hj
            exact absurd hj.symm hne
      · simp only [hi, if_false, ih]
        constructor
        · rintro ⟨a, b, rfl, h1, h2⟩
          refine ⟨p :: a, b, rfl, h1, fun q hq => ?_⟩
          rcases List.mem_cons.1 hq with rfl | hq
          · exact ⟨i, hp, fun e => hi e.symm⟩
          · exact h2 q hq
        · rintro ⟨a, b, e, h1, h2⟩
          cases a with
          | nil =>
            simp only [List.nil_append, List.cons.injEq] at e
            rw [HasID, ← e.1, hp] at h1
            simp only [Option.some.injEq] at h1
            exact absurd h1.symm hi
          | cons x a =>
            simp only [List.cons_append, List.cons.injEq] at e
            exact ⟨a, b, e.2, h1, fun q hq => h2 q (by simp [hq])⟩

theorem search_none (fl : Floats F) (obj : Nat → Obj F) (id : Text) (l : List Nat) :
    search fl obj id l = some none ↔ ∀ p ∈ l, ∃ i, HasID fl (obj p) i ∧ i ≠ id := by
  induction l with
  | nil => simp [search]
  | cons p l ih =>
    simp only [search, List.forall_mem_cons]
    cases hp : getID fl (obj p) with
    | none => simp [HasID, hp]
    | some i =>
      by_cases hi : id = i
      · simp [HasID, hp, hi]
      · simp only [hi, if_false, ih]
        constructor
        · intro h; exact ⟨⟨i, hp, fun e => hi e.symm⟩, h⟩
        · intro h; exact h.2

theorem give_eq (fl : Floats F) (r r' : Res F) (o : Nat) (id : Text) (h : give fl r o id = some r') :
    ∃ x, setID fl (r.obj o) id = some x ∧ r'.obj o = x ∧ (∀ p, p ≠ o → r'.obj p = r.obj p) ∧ r'.contents = r.contents ∧ r'.manager = r.manager := by
  simp only [give] at h
  cases hs : setID fl (r.obj o) id with
  | none => rw [hs] at h; cases h
  | some x =>
    rw [hs] at h
    simp only [Option.some.injEq] at h
    subst h
    exact ⟨x, rfl, by simp [setObj], fun p hp => by simp [setObj, hp], rfl, rfl⟩

theorem formatInt_ne (i : Int) : formatInt i ≠ [] := by
  simp only [formatInt]
  split
  · simp
  · obtain ⟨c, s, h, -⟩ := formatNat_head i.natAbs
    rw [h]; simp

end Verif.ObjectID
