import Verif.Model.RelPath
import Verif.Spec.Fragment
/-!
# Which objects have a relative path
-/

namespace Verif.RelPath.Spec
open Verif.Fragment

/-- `o` is properly held by its container `c` (the conditions of C26 and C27). -/
def Child (W : World) (P : Parents) (c o : Nat) : Prop :=
  P.container o = some c ∧ ∃ f : Nat, P.feature o = some f ∧ Held W c f o ∧ (W.elem c = true → Addressable W c o)

/-- `o` is somewhere below `a`, each object on the way being properly held. -/
inductive Below (W : World) (P : Parents) (a : Nat) : Nat → Prop where
  | child (o : Nat) : Child W P a o → Below W P a o
  | step (o c : Nat) : Child W P c o → Below W P a c → Below W P a o

end Verif.RelPath.Spec
