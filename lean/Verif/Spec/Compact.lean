import Verif.Model.Compact

/-!
# Specification of object storage

A plain record with one member for each thing stored; each operation writes its own member.
-/

namespace Verif.Compact.Spec

open Verif.Compact

/-- an object just created: nothing stored, notifications delivered, no container feature -/
def init : View := ⟨none, true, none, none, false, none, none, none, -1, none, none⟩

/-- what a plain object stores after an operation -/
def step (v : View) : Op → View
  | .setClass c => { v with eClass := c }
  | .setDeliver b => { v with deliver := b }
  | .adapters fresh => { v with adapters := some (v.adapters.getD fresh) }
  | .setProxyURI u => { v with proxyURI := u, isProxy := u.isSome }
  | .contents fresh => { v with contents := some (v.contents.getD fresh) }
  | .crossReferences fresh => { v with crossReferences := some (v.crossReferences.getD fresh) }
  | .setContainer c id => { v with container := c, containerFeatureID := id }
  | .setResource r => { v with resource := r }
  | .setProperties p => { v with properties := p }

/-- the record after a sequence of operations -/
def run : List Op → View := List.foldl step init

end Verif.Compact.Spec
