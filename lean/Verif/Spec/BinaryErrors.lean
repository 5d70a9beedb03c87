import Verif.Model.BinaryErrors

/-!
# Damages of a document
-/

namespace Verif.BinaryErrors

open Binary

variable {D : Type}

/-- items of types that msgpack does not convert: a number where a string or bytes were, a string or bytes where a number was -/
inductive Clash : Tok D → Tok D → Prop where
  | intStr (i : Int) (s : String) : Clash (.int i) (.str s)
  | intBytes (i : Int) (b : List Nat) : Clash (.int i) (.bytes b)
  | strInt (s : String) (i : Int) : Clash (.str s) (.int i)
  | bytesInt (b : List Nat) (i : Int) : Clash (.bytes b) (.int i)

/-- `x` is a damaged continuation of a stream that goes on with `t`: the end of the stream, or an item of another type -/
def Damaged (t : Tok D) (x : List (Tok D)) : Prop := x = [] ∨ ∃ t' x', x = t' :: x' ∧ Clash t t'

end Verif.BinaryErrors
