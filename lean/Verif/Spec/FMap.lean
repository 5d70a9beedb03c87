import Verif.Model.EMap
/-
Specification for C09/C10: finite maps as functions.
-/
namespace Verif.Spec.FMap
open Verif.EMap

variable {K V : Type} [DecidableEq K]

/-- What a history says about key `k`, given what was known before it: the value of the last `Put` of `k`
which is not followed by `RemoveKey(k)` or `Clear`. -/
def lookup (before : Option V) (k : K) : List (MOp K V) → Option V
  | [] => before
  | .put k' v :: h => lookup (if k' = k then some v else before) k h
  | .removeKey k' :: h => lookup (if k' = k then none else before) k h
  | .clear :: h => lookup none k h
  | _ :: h => lookup before k h

/-- The call belongs to the map API. -/
def mapCall : MOp K V → Prop
  | .newEntry _ _ | .list _ | .entrySetValue _ _ => False
  | _ => True

instance (op : MOp K V) : Decidable (mapCall op) := by cases op <;> simp only [mapCall] <;> infer_instance

/-- What a call of the map API must answer after the history `h`. -/
def answer [Inhabited V] (h : List (MOp K V)) : MOp K V → Ans V
  | .getValue k => .val ((lookup none k h).getD default)
  | .removeKey k => .val ((lookup none k h).getD default)
  | .containsKey k => .bool (lookup none k h).isSome
  | .toMapAt k => .opt (lookup none k h)
  | _ => .unit

/-- Answers required of a sequence of calls coming after the history `h`. -/
def answers [Inhabited V] (h : List (MOp K V)) : List (MOp K V) → List (Ans V)
  | [] => []
  | op :: ops => answer h op :: answers (h ++ [op]) ops

end Verif.Spec.FMap
