import Verif.Model.ObjectID
import Verif.Spec.Convert

/-!
# IDs that identify
-/

namespace Verif.ObjectID

open Verif.Convert Verif.Convert.Spec

variable {F : Type}

/-- the object has the ID -/
def HasID (fl : Floats F) (o : Obj F) (id : Text) : Prop := getID fl o = some id

/-- the IDs of all objects of the resource can be read -/
def Readable (fl : Floats F) (r : Res F) : Prop := ∀ o ∈ r.contents, ∃ id, HasID fl (r.obj o) id

/-- types of numbers, truth values and texts whose values the type of the attribute can have -/
def texts : List String := ["string", "java.lang.String"]

def numbers : List String := ["int", "java.lang.Integer", "int64", "java.lang.Long", "java.math.BigInteger", "long"]

end Verif.ObjectID
