import Verif.Proofs.ProxyContainer

/-!
# C107: A container that is a proxy is replaced by the object it stands for
-/
set_option autoImplicit false
namespace Verif.ProxyContainer

/-- The container is a proxy that stands for another object: this object is given and is the container from now on, with the same feature; the proxy does not have the
object any more, it has its other ones in their order; other objects keep their containers and values; asking again gives the same object and changes nothing. -/
theorem C107_resolved (E : Env) (s : State) (o p f : Nat) (h : ContainedIn E s o p f) (hp : s.proxy p = true) (hr : E.resolve p ≠ p)
    (hq : s.proxy (E.resolve p) = false) : ∃ t notes, eContainer E s o = (some (E.resolve p), t, notes) ∧
      t.container o = some (E.resolve p) ∧ t.featureID = s.featureID ∧ (∀ a, a ≠ o → t.container a = s.container a) ∧
      ¬ (t.value p f).has o ∧ (∀ l, s.value p f = .many l → t.value p f = .many (l.filter (fun x => x ≠ o))) ∧
      (∀ a b, ¬ (a = p ∧ b = f) → t.value a b = s.value a b) ∧
      eContainer E t o = (some (E.resolve p), t, []) := by
  have hrest := inverseRemove_rest E s p f o
  have hval := inverseRemove_value h
  have he : eContainer E s o = (some (E.resolve p), { (inverseRemove E s p f o).1 with
      container := fun a => if a = o then some (E.resolve p) else (inverseRemove E s p f o).1.container a,
      featureID := fun a => if a = o then (inverseRemove E s p f o).1.featureID o else (inverseRemove E s p f o).1.featureID a },
      (inverseRemove E s p f o).2 ++ if E.observed o ∧ -1 ≤ (inverseRemove E s p f o).1.featureID o then
        [.resolved o ((inverseRemove E s p f o).1.featureID o) p (E.resolve p)] else []) := by
    unfold eContainer
    rw [h.container]
    simp only [hp, if_true, if_pos hr, remove_eq h]
  generalize inverseRemove E s p f o = z at *
  refine ⟨_, _, he, ?_, ?_, ?_, hval.1, hval.2.1, hval.2.2, ?_⟩
  · simp
  · funext a
    simp only
    split
    · rename_i e; subst e; rw [hrest.2.1]
    · rw [hrest.2.1]
  · intro a ha
    simp [ha, hrest.1]
  · unfold eContainer
    simp [hrest.2.2, hq]

/-- A container that is no proxy, or a proxy that stands for nothing that can be found: it is given as it is, and nothing changes. -/
theorem C107_unchanged (E : Env) (s : State) (o : Nat) (h : ∀ p, s.container o = some p → s.proxy p = false ∨ E.resolve p = p) :
    eContainer E s o = (s.container o, s, []) := by
  unfold eContainer
  cases hc : s.container o with
  | none => rfl
  | some p =>
    rcases h p hc with e | e
    · simp [e]
    · simp [e]

/-- The notifications: the proxy tells that the object was taken out, if it is observed; the object tells that its container reference was resolved, if it is
observed and has such a reference; there is no other one. -/
theorem C107_notes_partial (E : Env) (s : State) (o p f : Nat) (h : ContainedIn E s o p f) (hp : s.proxy p = true) (hr : E.resolve p ≠ p)
    (h0 : s.featureID o ≠ -1) : ∃ t first last, eContainer E s o = (some (E.resolve p), t, first ++ last) ∧
      (E.observed p = false → first = []) ∧ (E.observed p = true → first.length = 1) ∧
      (∀ n ∈ first, (∃ i, n = .removed p f o i ∧ ∃ l, s.value p f = .many l ∧ l[i]? = some o) ∨ n = .unset p f (some o)) ∧
      (last = [.resolved o (s.featureID o) p (E.resolve p)] ∨ last = []) ∧
      (last ≠ [] ↔ E.observed o = true ∧ ∃ i : Nat, s.featureID o = i) := by
  have hrest := inverseRemove_rest E s p f o
  have hn := inverseRemove_notes (E := E) (s := s) h.has
  refine ⟨(eContainer E s o).2.1, (inverseRemove E s p f o).2, if E.observed o ∧ -1 ≤ s.featureID o then [.resolved o (s.featureID o) p (E.resolve p)] else [], ?_, hn.1, hn.2.1, hn.2.2, ?_, ?_⟩
  · unfold eContainer
    rw [h.container]
    simp only [hp, if_true, if_pos hr, remove_eq h, hrest.2.1]
  · split
    · exact Or.inl rfl
    · exact Or.inr rfl
  · constructor
    · intro e
      split at e
      · rename_i h1
        exact ⟨h1.1, (s.featureID o).toNat, by omega⟩
      · exact absurd rfl e
    · rintro ⟨h1, i, h2⟩
      rw [if_pos ⟨h1, by omega⟩]
      simp

/-- A container reference: the proxy itself without resolution, as `EContainer` with it; nothing if the object is in another feature. -/
theorem C107_reference (E : Env) (s : State) (o f : Nat) :
    (s.featureID o = f → getContainer E s o f true = eContainer E s o ∧ getContainer E s o f false = (s.container o, s, [])) ∧
    (s.featureID o ≠ f → ∀ b, getContainer E s o f b = (none, s, [])) := by
  constructor
  · intro e
    simp [getContainer, e]
  · intro e b
    simp [getContainer, e]

/-- object 1 in the reference 2 of the proxy 0, which stands for 5; the references have no opposites -/
def exEnv : Env := ⟨fun a => if a = 0 then 5 else a, fun _ => true, fun _ _ => none⟩
def exState : State := ⟨fun a => if a = 1 ∨ a = 3 then some 0 else none, fun a => if a = 1 ∨ a = 3 then -3 else -1,
  fun a b => if a = 0 ∧ b = 2 then .many [3, 1] else .many [], fun a => a = 0⟩

example : ContainedIn exEnv exState 1 0 2 where
  container := rfl
  has := by show 1 ∈ [3, 1]; decide
  once := by intro l e; cases e; decide
  feature := Or.inl rfl

example : (eContainer exEnv exState 1).1 = some 5 ∧ (eContainer exEnv exState 1).2.1.value 0 2 = .many [3] ∧
    (eContainer exEnv exState 1).2.1.container 3 = some 0 ∧ (eContainer exEnv exState 1).2.2 = [.removed 0 2 1 1] := by decide

/-- the same with a container reference 0 that is opposite of the reference 2 -/
def exEnv' : Env := { exEnv with opposite := fun _ i => if i = 0 then some 2 else none }
def exState' : State := { exState with featureID := fun _ => 0 }

example : ContainedIn exEnv' exState' 1 0 2 where
  container := rfl
  has := by show 1 ∈ [3, 1]; decide
  once := by intro l e; cases e; decide
  feature := Or.inr ⟨0, rfl, rfl⟩

example : (getContainer exEnv' exState' 1 0 true).2.2 = [.removed 0 2 1 1, .resolved 1 0 0 5] ∧ (getContainer exEnv' exState' 1 0 false).1 = some 0 := by decide

/-- Contrary to the claim, an object in the first feature of its container, without a container reference, tells that the feature -1 was resolved, which no class has:
for every such object that is observed. -/
theorem C107_first_violated (E : Env) (s : State) (o p : Nat) (h : ContainedIn E s o p 0) (hp : s.proxy p = true) (hr : E.resolve p ≠ p)
    (hf : s.featureID o = -1) (ho : E.observed o = true) : .resolved o (-1) p (E.resolve p) ∈ (eContainer E s o).2.2 := by
  have hrest := inverseRemove_rest E s p 0 o
  unfold eContainer
  rw [h.container]
  simp only [hp, if_true, if_pos hr, remove_eq h, hrest.2.1, hf, ho]
  simp

/-- object 1 in the reference 0 of the proxy 0 -/
def exFirst : State := ⟨fun a => if a = 1 then some 0 else none, fun _ => -1, fun a b => if a = 0 ∧ b = 0 then .one (some 1) else .one none, fun a => a = 0⟩

example : ContainedIn exEnv exFirst 1 0 0 where
  container := rfl
  has := rfl
  once := by intro l e; cases e
  feature := Or.inl rfl

example : (eContainer exEnv exFirst 1).2.2 = [.unset 0 0 (some 1), .resolved 1 (-1) 0 5] := by decide

/-- Contrary to the claim, the new container need not have the object: its values are not looked at nor changed. -/
theorem C107_absent_violated (E : Env) (s : State) (o p f : Nat) (h : ContainedIn E s o p f) (hp : s.proxy p = true) (hr : E.resolve p ≠ p)
    (hq : s.proxy (E.resolve p) = false) (ha : ∀ b, ¬ (s.value (E.resolve p) b).has o) :
    ∃ t notes, eContainer E s o = (some (E.resolve p), t, notes) ∧ t.container o = some (E.resolve p) ∧ ∀ b, ¬ (t.value (E.resolve p) b).has o := by
  obtain ⟨t, notes, h1, h2, _, _, _, _, h7, _⟩ := C107_resolved E s o p f h hp hr hq
  refine ⟨t, notes, h1, h2, ?_⟩
  intro b
  rw [h7 _ b (fun e => hr e.1)]
  exact ha b

example : ¬ (exState.value 5 2).has 1 ∧ (eContainer exEnv exState 1).2.1.container 1 = some 5 ∧ (eContainer exEnv exState 1).2.1.value 5 2 = .many [] :=
  ⟨by simp [exState, Slot.has], by decide, by decide⟩

end Verif.ProxyContainer
