import Verif.Proofs.Factory

/-!
# C111: A factory creates objects of the class it is asked for, or refuses

`none` is a panic.  `c` is any class: of Ecore or not, in a package or not, with any ID.
-/

namespace Verif.Factory

/-- A dynamic factory creates an object exactly for classes of its own package that are not
abstract; the object is of the class, and a map entry exactly if the class is one for
entries. -/
theorem C111_dynamic (p : Option Package) (c : Class) (o : Obj) :
    create p c = some o ↔
      c.package = p ∧ c.abstract = false ∧ o.cls = c ∧ o.entry = c.entry := by
  obtain ⟨oc, oe⟩ := o
  unfold create
  by_cases hp : p = c.package
  · cases ha : c.abstract <;> cases he : c.entry <;> simp [hp] <;> grind
  · simp [hp]
    intro h
    exact absurd h.symm hp

example : create (some (.other 4)) (.other 7 (some 4) 0 false true) =
    some ⟨.other 7 (some 4) 0 false true, true⟩ ∧
    create (some (.other 4)) (.other 7 (some 5) 0 false true) = none := by decide

/-- The factory of Ecore creates, for classes of Ecore, an object exactly if the class is
not abstract, and it is of that class. -/
theorem C111_ecore_partial (c : Class) (hc : c.package = some .ecore) (o : Obj) :
    ecoreCreate c = some o ↔ c.abstract = false ∧ o.cls = c ∧ o.entry = c.entry := by
  cases c with
  | other i p d a e => cases p <;> simp [Class.package] at hc
  | ecore k =>
    constructor
    · intro h
      obtain ⟨l, ha, hl, rfl⟩ := ecoreCreate_some h
      have : l = k := id_inj hl
      subst this
      exact ⟨ha, rfl, rfl⟩
    · rintro ⟨ha, h1, h2⟩
      rw [ecoreCreate_id (c := .ecore k) ha rfl]
      obtain ⟨oc, oe⟩ := o
      simp only at h1 h2
      subst h1 h2
      rfl

example : ecoreCreate (.ecore .reference) = some ⟨.ecore .reference, false⟩ ∧
    ecoreCreate (.ecore .classifier) = none := by decide

/-- Both factories never give an object of an abstract class. -/
theorem C111_abstract (p : Option Package) (c : Class) (o : Obj)
    (h : create p c = some o ∨ ecoreCreate c = some o) : o.cls.abstract = false := by
  rcases h with h | h
  · have := (C111_dynamic p c o).mp h
    rw [this.2.2.1]
    exact this.2.1
  · obtain ⟨k, ha, _, rfl⟩ := ecoreCreate_some h
    exact ha

example : ∃ o, create none (.other 1 none (-1) false false) = some o := ⟨_, rfl⟩

/-- Violated: the factory of Ecore does not look at the package.  For every class of
another package, abstract or not, that has the ID of a class of Ecore that is not abstract,
it creates an object of the class of Ecore, and never one of the class it is asked for. -/
theorem C111_foreign_violated (c : Class) (hc : c.package ≠ some .ecore) :
    (∀ k : Kind, k.abstract = false → c.id = k.id →
      ∃ o, ecoreCreate c = some o ∧ o.cls = .ecore k) ∧
    ∀ o, ecoreCreate c = some o → o.cls ≠ c := by
  constructor
  · intro k hk h
    exact ⟨new k, ecoreCreate_id hk h, rfl⟩
  · intro o h he
    obtain ⟨k, _, _, rfl⟩ := ecoreCreate_some h
    exact hc (by rw [← he]; rfl)

/-- the second class of a package, which is abstract -/
example : ecoreCreate (.other 7 (some 4) 1 true false) = some ⟨.ecore .annotation, false⟩ := by
  decide

end Verif.Factory
