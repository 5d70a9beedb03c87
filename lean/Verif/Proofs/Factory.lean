import Verif.Model.Factory

/-!
# Proofs about factories
-/

namespace Verif.Factory

theorem ite_some {p : Prop} [Decidable p] {k : Kind} {r : Option Obj} {o : Obj}
    (h : (if p then some (new k) else r) = some o) : (p ∧ o = new k) ∨ r = some o := by
  by_cases hp : p
  · rw [if_pos hp] at h
    exact Or.inl ⟨hp, (Option.some.inj h).symm⟩
  · rw [if_neg hp] at h
    exact Or.inr h

/-- The factory of Ecore goes by the ID alone. -/
theorem ecoreCreate_some {c : Class} {o : Obj} (h : ecoreCreate c = some o) :
    ∃ k : Kind, k.abstract = false ∧ k.id = c.id ∧ o = new k := by
  unfold ecoreCreate at h
  simp only at h
  iterate 15
    rcases ite_some h with ⟨hi, ho⟩ | h
    · exact ⟨_, by rfl, by rw [hi]; rfl, ho⟩
  exact absurd h (by simp)

theorem ecoreCreate_id {c : Class} {k : Kind} (hk : k.abstract = false) (h : c.id = k.id) :
    ecoreCreate c = some (new k) := by
  unfold ecoreCreate
  rw [h]
  cases k <;> first | rfl | exact absurd hk (by decide)

theorem id_inj {k l : Kind} (h : k.id = l.id) : k = l := by
  cases k <;> cases l <;> first | rfl | exact absurd h (by decide)

end Verif.Factory
