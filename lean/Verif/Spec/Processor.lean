import Verif.Model.Processor

/-!
# What users expect of a processor
-/

namespace Verif.Processor

/-- the operation may create a resource with the URI -/
def Op.makes (u : Nat) : Op → Prop
  | .load v | .saveObject v _ | .resolve _ v => v = u
  | .loadReader _ => u = star
  | _ => False

/-- a resource with these contents -/
def Has (s : St) (r : Nat) (d : Doc) : Prop := ∃ x, s.res[r]? = some x ∧ x.doc = some d

/-- the resource set of a resource -/
def In (s : St) (r set : Nat) : Prop := ∃ x, s.res[r]? = some x ∧ x.set = set

end Verif.Processor
