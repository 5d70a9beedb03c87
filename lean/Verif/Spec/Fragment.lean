import Verif.Model.Fragment

/-!
# Specification for C26 and C27: which fragments lead back to their object
-/

namespace Verif.Fragment

/-- The characters that are kept by escaping: letters, digits and `-_.~$&+:=@`. -/
def Plain (c : UInt8) : Prop := c ∈ bytes "abcdefghijklmnopqrstuvwxyzABCDEFGHIJKLMNOPQRSTUVWXYZ0123456789-_.~$&+:=@"

instance (c : UInt8) : Decidable (Plain c) := inferInstanceAs (Decidable (c ∈ _))

/-- Value of decimal digits. -/
def value (ds : Str) : Nat := ds.foldl (fun a d => 10 * a + (d.toNat - 48)) 0

/-- A string that is an int: digits, with a sign or not. -/
def IsInt (s : Str) : Prop :=
  ∃ ds : Str, ds ≠ [] ∧ (∀ d ∈ ds, 48 ≤ d ∧ d ≤ 57) ∧
    ((s = ds ∨ s = 43 :: ds) ∧ value ds < 2 ^ 63 ∨ s = 45 :: ds ∧ value ds ≤ 2 ^ 63)

/-- A name that ends with a dot and an int. -/
def Numbered (name : Str) : Prop := ∃ base num : Str, name = base ++ 46 :: num ∧ IsInt num

/-- The objects that come before `o` in the contents of `c`. -/
def Earlier (W : World) (c o x : Nat) : Prop := ∃ l r : List Nat, W.contents c = l ++ o :: r ∧ o ∉ l ∧ x ∈ l

/-- The values of the features of `c` are coherent for its content `o`, held by the feature `f`: the name of `f` is the name of one feature, has
no slash and, if the value is single, no dot. -/
structure Held (W : World) (c f o : Nat) : Prop where
  mem : f ∈ W.feats c
  unique : ∀ g ∈ W.feats c, W.fname g = W.fname f → g = f
  slash : 47 ∉ W.fname f
  single : W.many f = false → W.val c f = .obj o ∧ 46 ∉ W.fname f
  many : W.many f = true → ∃ l : List Nat, W.val c f = .list l ∧ o ∈ l ∧ l.length < 2 ^ 63

/-- A content of a model element whose segment leads back to it (C27). -/
def Addressable (W : World) (c o : Nat) : Prop :=
  o ∈ W.contents c ∧ (W.contents c).length < 2 ^ 63 ∧
  match W.kind o with
  | .named name => (∀ b ∈ name, Plain b) ∧ name.head? ≠ some 64 ∧ ((∃ x : Nat, Earlier W c o x ∧ W.kind x = W.kind o) ∨ ¬ Numbered name)
  | .annotation _ => ∃ x : Nat, Earlier W c o x ∧ W.kind x = W.kind o
  | .plain => True

/-- `o` is in the containment tree of the resource, each object of the way being properly held by its container. -/
inductive InTree (W : World) (R : Resource) : Nat → Prop where
  | root (o : Nat) : R.inside o = true → o ∈ R.roots → InTree W R o
  | child (o c f : Nat) : R.inside o = false → R.container o = some c → R.feature o = some f → Held W c f o → (W.elem c = true → Addressable W c o) →
      InTree W R c → InTree W R o

/-- `o` is in the contents of the resource or of an object that is. -/
inductive Visited (W : World) (R : Resource) : Nat → Prop where
  | root (o : Nat) : o ∈ R.roots → Visited W R o
  | child (o c : Nat) : Visited W R c → o ∈ W.contents c → Visited W R o

/-- An ID that is not taken for a path or cut: no slash first, and no question mark last unless it is the only one, the character
before it excepted, of at least two characters. -/
structure ProperID (id : Str) : Prop where
  ne : id ≠ []
  slash : id.head? ≠ some 47
  mark : ∀ s : Str, id = s ++ [63] → s ≠ [] ∧ 63 ∉ s.dropLast

end Verif.Fragment
