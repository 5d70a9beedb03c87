import Verif.Model.XMLRefs
import Verif.Spec.Graph

/-!
# What documents say about references
-/

namespace Verif.XMLRefs

open Graph

/-- A consistent graph: no value twice, one value at most for a single valued reference, objects of the right type, and both
ends of opposites say the same. -/
structure Consistent (M : Meta) (cls : Nat → Nat) (saved : Nat → Nat → List Nat) : Prop where
  nodup : ∀ a r, (saved a r).Nodup
  single : ∀ a r, (M.refs r).many = false → (saved a r).length ≤ 1
  typed : ∀ a r b, b ∈ saved a r → r ∈ M.features (cls a) ∧ Fits M cls r b
  symm : ∀ a r b r', (M.refs r).opposite = some r' → (b ∈ saved a r ↔ a ∈ saved b r')

/-- A document of a graph: every object once, with the attributes the encoder writes; the elements in a containment
reference of an object are its values, in order, and come after the element of this object; the values of references are
objects of the document. -/
structure Document (E : Env) (cls : Nat → Nat) (saved : Nat → Nat → List Nat) (doc : List Elem) : Prop where
  once : (doc.map Elem.obj).Nodup
  real : ∀ e ∈ doc, e.proxy = none
  attrs : ∀ e ∈ doc, e.attrs = attributes E cls saved e.obj
  places : ∀ a r, (E.M.refs r).containment = true → (doc.filter fun e => e.place = some (a, r)).map Elem.obj = saved a r
  inside : ∀ pre e post a r, doc = pre ++ e :: post → e.place = some (a, r) → (E.M.refs r).containment = true ∧ a ∈ pre.map Elem.obj
  closed : ∀ e ∈ doc, ∀ r, E.transient r = false → ∀ b ∈ saved e.obj r, b ∈ doc.map Elem.obj

/-- `b` comes before `a` in the document -/
def before (doc : List Elem) (b a : Nat) : Bool := (doc.map Elem.obj).idxOf b < (doc.map Elem.obj).idxOf a

/-- A reference whose order comes from one end only: a list that is not a containment, whose opposite, if any, is single
valued or not saved. -/
def OneSided (E : Env) (r : Nat) : Prop :=
  (E.M.refs r).many = true ∧ (E.M.refs r).containment = false ∧
    ∀ r', (E.M.refs r).opposite = some r' → (E.M.refs r').many = false ∨ E.transient r' = true

/-- A document whose references are of the right types.  The object a proxy stands for has the features of the proxy. -/
structure TypedDocument (M : Meta) (cls : Nat → Nat) (doc : List Elem) : Prop where
  attrs : ∀ e ∈ doc, ∀ p ∈ e.attrs, p.1 ∈ M.features (cls e.obj) ∧ ∀ x ∈ p.2, Fits M cls p.1 x
  places : ∀ e ∈ doc, ∀ a r, e.place = some (a, r) → r ∈ M.features (cls a) ∧ Fits M cls r e.obj
  proxies : ∀ e ∈ doc, ∀ x, e.proxy = some (some x) → ∀ f ∈ M.features (cls e.obj), f ∈ M.features (cls x)

end Verif.XMLRefs
