import Verif.Model.SQLListErrors

/-!
# Lists in the SQL store: what the calls do when the database works
-/
set_option autoImplicit false
namespace Verif.SQLListErrors

/-- no statement of the call fails -/
def Op.works : Op → Prop
  | .get _ _ r => r = false
  | .size _ r => r = false
  | .isEmpty _ r => r = false
  | .contains _ _ r => r = false
  | .indexOf _ _ r r' => r = false ∧ r' = false
  | .add _ _ _ r w => r = false ∧ w = false
  | .addAll _ _ r ws => r = false ∧ ∀ w ∈ ws, w = false
  | .remove _ _ w => w = false
  | .move _ _ _ r w => r = false ∧ w = false
  | .clear _ w => w = false

/-- the object of the call -/
def Op.object : Op → Nat
  | .get o _ _ | .size o _ | .isEmpty o _ | .contains o _ _ | .indexOf o _ _ _ | .add o _ _ _ _ | .addAll o _ _ _ | .remove o _ _ | .move o _ _ _ _ | .clear o _ => o

/-- the list after the call; calls with a wrong index do nothing -/
def after (l : List Nat) : Op → List Nat
  | .add _ i v _ _ => if i ≤ l.length then l.take i ++ v :: l.drop i else l
  | .addAll _ vs _ _ => l ++ vs
  | .remove _ i _ => l.take i ++ l.drop (i + 1)
  | .move _ i j _ _ =>
    match l[i]? with
    | some v => if j < l.length then let m := l.take i ++ l.drop (i + 1); m.take j ++ v :: m.drop j else l
    | none => l
  | .clear _ _ => []
  | _ => l

/-- what the call gives back for a list -/
def answer (l : List Nat) : Op → Out
  | .get _ i _ => .val l[i]?
  | .size _ _ => .nat l.length
  | .isEmpty _ _ => .bool (l = [])
  | .contains _ v _ => .bool (v ∈ l)
  | .indexOf _ v _ _ => .index (if v ∈ l then l.idxOf v else -1)
  | .remove _ i _ => .val l[i]?
  | .move _ i j _ _ => .val (if j < l.length then l[i]? else none)
  | _ => .done

/-- the list of an object after some calls -/
def listOf : List Op → Nat → List Nat → List Nat
  | [], _, l => l
  | op :: ops, o, l => listOf ops o (if op.object = o then after l op else l)

end Verif.SQLListErrors
