import Verif.Model.XMLDecl

/-!
# The declaration of an XML document: what is expected
-/
set_option autoImplicit false
namespace Verif.XMLDecl

/-- a version number or the name of an encoding: letters, digits, full stop, hyphen, underscore -/
def Name (s : List Nat) : Prop :=
  ∀ b ∈ s, (48 ≤ b ∧ b ≤ 57) ∨ (65 ≤ b ∧ b ≤ 90) ∨ (97 ≤ b ∧ b ≤ 122) ∨ b = 45 ∨ b = 46 ∨ b = 95

instance (s : List Nat) : Decidable (Name s) := by unfold Name; infer_instance

/-- the numbers are those of characters -/
def Characters (text : List Nat) : Prop := ∀ c ∈ text, c < 55296 ∨ (57344 ≤ c ∧ c < 1114112)

instance (text : List Nat) : Decidable (Characters text) := by unfold Characters; infer_instance

end Verif.XMLDecl
