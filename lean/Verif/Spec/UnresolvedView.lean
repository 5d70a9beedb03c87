import Verif.Model.UnresolvedView
import Verif.Spec.ResolveList

/-!
# What the view without resolving has to be: the sequence of the objects as they are
-/

namespace Verif.UnresolvedView.Spec

open Verif.EList (Op)
open Verif.ResolveList (Call)

variable {α : Type} [DecidableEq α]

/-- the objects that a call may put into the list -/
def adds : Call α → List α
  | .op (.add e) | .op (.insert _ e) | .op (.set _ e) => [e]
  | .op (.addAll c) | .op (.insertAll _ c) => c
  | _ => []

/-- an object that the call may put into the list is in it already, or stands for none of those that the list shows; and two of them stand for
different objects -/
def Apart (res : α → α) (data : List α) (c : Call α) : Prop :=
  (∀ e ∈ adds c, e ∈ data ∨ res e ∉ data.map res) ∧ ∀ a ∈ adds c, ∀ b ∈ adds c, res a = res b → a = b

instance (res : α → α) (data : List α) (c : Call α) : Decidable (Apart res data c) := inferInstanceAs (Decidable (_ ∧ _))

end Verif.UnresolvedView.Spec
