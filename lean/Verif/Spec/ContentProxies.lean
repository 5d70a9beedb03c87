import Verif.Model.ContentProxies
import Verif.Spec.ContentAdapter

/-!
# What a content adapter should be attached to when there are proxies
-/

namespace Verif.ContentProxies

open ContentAdapter

/-- the tree without proxies and what is below them -/
inductive WithoutProxies (P : Proxies) (W : World) (t : Nat) : Nat → Prop where
  | refl : WithoutProxies P W t t
  | step (p x : Nat) : WithoutProxies P W t p → x ∈ W.contents p → P.proxy x = false → WithoutProxies P W t x

/-- the tree with the objects that the proxies stand for -/
inductive WithTargets (P : Proxies) (W : World) (t : Nat) : Nat → Prop where
  | refl : WithTargets P W t t
  | object (p x : Nat) : WithTargets P W t p → x ∈ W.contents p → P.proxy x = false → WithTargets P W t x
  | target (p x : Nat) : WithTargets P W t p → x ∈ W.contents p → P.proxy x = true → WithTargets P W t (P.target x)

/-- there is no proxy below `x` -/
def NoneBelow (P : Proxies) (W : World) (x : Nat) : Prop := ∀ y, Below W x y → y ≠ x → P.proxy y = false

end Verif.ContentProxies
