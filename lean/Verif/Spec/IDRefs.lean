import Verif.Model.IDRefs

/-!
# Fragments that can be written and read
-/

namespace Verif.IDRefs

/-- the object has an ID of its own that is not taken for something else: no space, no slash in front, no question mark at the end -/
def PlainID (r : Res) (o : Nat) : Prop :=
  r.id o ≠ [] ∧ ' ' ∉ r.id o ∧ (r.id o).head? ≠ some '/' ∧ (r.id o).getLast? ≠ some '?' ∧ ∀ p ∈ r.contents, r.id p = r.id o → p = o

/-- the object has no ID, and a path that leads to it -/
def PlainPath (r : Res) (o : Nat) : Prop :=
  r.id o = [] ∧ ' ' ∉ r.pathOf o ∧ (r.pathOf o).head? = some '/' ∧ r.atPath (r.pathOf o) = some o

end Verif.IDRefs
