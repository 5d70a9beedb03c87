import Verif.Model.ProxyContainer

/-!
# Containers that are proxies: what is expected
-/
set_option autoImplicit false
namespace Verif.ProxyContainer

/-- the objects a containment reference has -/
def Slot.has : Slot → Nat → Prop
  | .many l, o => o ∈ l
  | .one x, o => x = some o

/-- the object is in the feature `f` of the container `p`: `p` has it there once, and it is remembered as the feature itself or as its opposite -/
structure ContainedIn (E : Env) (s : State) (o p f : Nat) : Prop where
  container : s.container o = some p
  has : (s.value p f).has o
  once : ∀ l, s.value p f = .many l → l.Nodup
  feature : s.featureID o = -1 - (f : Int) ∨ ∃ i : Nat, s.featureID o = i ∧ E.opposite o i = some f

end Verif.ProxyContainer
