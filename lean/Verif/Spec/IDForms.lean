import Verif.Model.IDForms
import Verif.Spec.Convert

/-!
# The number that a form of an ID stands for
-/

namespace Verif.IDForms

/-- A value that Go's types allow. -/
def Form.Valid : Form → Prop
  | .uint b n => b ∈ [8, 16, 32, 64] ∧ n < 2 ^ b
  | .int b i => b ∈ [8, 16, 32, 64] ∧ Convert.Spec.Signed b i
  | _ => True

/-- The form stands for the number: an integer of any type for itself, a text for the
number it shows. -/
def Form.Writes : Form → Int → Prop
  | .text s, v => Convert.Spec.Denotes s v
  | .uint _ n, v => v = n
  | .int _ i, v => v = i
  | .nil, _ | .other, _ => False

end Verif.IDForms
