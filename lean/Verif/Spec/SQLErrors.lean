import Verif.Model.SQLErrors

/-!
# Columns of a database that does not fail
-/

namespace Verif.SQLErrors

def Op.feature : Op → Nat
  | .get _ f _ => f
  | .set _ f _ _ _ _ => f
  | .isSet _ f _ => f
  | .unset _ f _ => f

/-- the database executes the statements of the call -/
def Op.works : Op → Prop
  | .get _ _ r => r = false
  | .set _ _ _ needResult r w => (needResult = true → r = false) ∧ w = false
  | .isSet _ _ r => r = false
  | .unset _ _ w => w = false

/-- the value a call gives to the feature of an object -/
def Op.gives (E : Env) (o f : Nat) : Op → Option Val
  | .set p g v _ _ _ => if p = o ∧ g = f then some v else none
  | .unset p g _ => if p = o ∧ g = f then some (E.dflt f) else none
  | _ => none

/-- the value after some calls: the one of the last call that gives one, or the default -/
def last (E : Env) (ops : List Op) (o f : Nat) : Val := ((ops.filterMap (Op.gives E o f)).getLast?).getD (E.dflt f)

/-- what a call has to give back, after the calls `before` -/
def expected (E : Env) (before : List Op) : Op → Out
  | .get o f _ => .val (last E before o f)
  | .set o f _ needResult _ _ => if needResult then .val (last E before o f) else .done
  | .isSet o f _ => .bool (last E before o f != E.dflt f)
  | .unset _ _ _ => .done

end Verif.SQLErrors
