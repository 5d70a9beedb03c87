import Verif.Spec.ProxyContainer

/-!
# Lemmas about containers that are proxies
-/
set_option autoImplicit false
namespace Verif.ProxyContainer

theorem remove_eq {E : Env} {s : State} {o p f : Nat} (h : ContainedIn E s o p f) : removeFromContainer E s o = inverseRemove E s p f o := by
  unfold removeFromContainer
  rw [h.container]
  rcases h.feature with e | ⟨i, e, e'⟩
  · have h1 : ¬ (0 : Int) ≤ -1 - (f : Int) := by omega
    have h2 : (-1 - (-1 - (f : Int))).toNat = f := by omega
    simp only [e, if_neg h1, h2]
  · have h1 : (0 : Int) ≤ (i : Int) := by omega
    simp only [e, if_pos h1, Int.toNat_natCast, e']

/-- the object is taken out, other objects stay, in their order -/
theorem inverseRemove_value {E : Env} {s : State} {o p f : Nat} (h : ContainedIn E s o p f) :
    ¬ ((inverseRemove E s p f o).1.value p f).has o ∧
    (∀ l, s.value p f = .many l → (inverseRemove E s p f o).1.value p f = .many (l.filter (fun x => x ≠ o))) ∧
    (∀ a b, ¬ (a = p ∧ b = f) → (inverseRemove E s p f o).1.value a b = s.value a b) := by
  have hh := h.has
  unfold inverseRemove
  cases hv : s.value p f with
  | many l =>
    rw [hv] at hh
    have ho : o ∈ l := hh
    have hn := h.once l hv
    have he : l.eraseIdx (l.idxOf o) = l.filter (fun x => x ≠ o) := by
      rw [← List.erase_eq_eraseIdx_of_idxOf rfl, hn.erase_eq_filter]
      congr 1
      funext x
      by_cases e : x = o <;> simp [e]
    simp only [if_pos ho]
    refine ⟨?_, ?_, ?_⟩
    · simp [Slot.has, he]
    · intro l' e
      cases e
      simp [he]
    · intro a b hab
      simp [hab]
  | one x =>
    refine ⟨?_, ?_, ?_⟩
    · simp [Slot.has]
    · intro l' e
      cases e
    · intro a b hab
      simp [hab]

theorem inverseRemove_rest (E : Env) (s : State) (p f o : Nat) :
    (inverseRemove E s p f o).1.container = s.container ∧ (inverseRemove E s p f o).1.featureID = s.featureID ∧ (inverseRemove E s p f o).1.proxy = s.proxy := by
  unfold inverseRemove
  split
  · split <;> exact ⟨rfl, rfl, rfl⟩
  · exact ⟨rfl, rfl, rfl⟩

theorem inverseRemove_notes {E : Env} {s : State} {o p f : Nat} (h : (s.value p f).has o) :
    (E.observed p = false → (inverseRemove E s p f o).2 = []) ∧ (E.observed p = true → (inverseRemove E s p f o).2.length = 1) ∧
    ∀ n ∈ (inverseRemove E s p f o).2, (∃ i, n = .removed p f o i ∧ ∃ l, s.value p f = .many l ∧ l[i]? = some o) ∨ n = .unset p f (some o) := by
  unfold inverseRemove
  cases hv : s.value p f with
  | many l =>
    rw [hv] at h
    have ho : o ∈ l := h
    simp only [if_pos ho]
    refine ⟨by intro e; simp [e], by intro e; simp [e], ?_⟩
    intro n hn
    left
    refine ⟨l.idxOf o, ?_, l, rfl, ?_⟩
    · split at hn
      · simpa using hn
      · simp at hn
    · rw [List.getElem?_eq_some_iff]
      exact ⟨List.idxOf_lt_length_of_mem ho, List.getElem_idxOf _⟩
  | one x =>
    rw [hv] at h
    have hx : x = some o := h
    subst hx
    refine ⟨by intro e; simp [e], by intro e; simp [e], ?_⟩
    intro n hn
    right
    simp only at hn
    by_cases e : E.observed p = true
    · simpa [e] using hn
    · simp [e] at hn

end Verif.ProxyContainer
