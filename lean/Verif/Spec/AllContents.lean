import Verif.Model.AllContents

/-!
# The contained objects of a class
-/

namespace Verif.AllContents

mutual
/-- the objects contained in an object, directly or not -/
def below : Tree → List Tree
  | .node _ _ _ kids => belowAll kids

def belowAll : List Tree → List Tree
  | [] => []
  | k :: ks => k :: below k ++ belowAll ks
end

/-- what `EAllContentsWithClass(o, c)` should give, in any order -/
def expected (o : Tree) (c : Nat) : List Tree := (below o).filter fun x => x.cls = c

mutual
/-- Every contained object is held by a containment reference of the class of its container, and its class is the type of
the reference. -/
def Typed (M : Meta) : Tree → Prop
  | .node _ c _ kids => TypedAll M c kids

def TypedAll (M : Meta) (c : Nat) : List Tree → Prop
  | [] => True
  | k :: ks => (k.ref ∈ M.containments c ∧ k.cls = M.type k.ref ∧ Typed M k) ∧ TypedAll M c ks
end

mutual
/-- Every object has at most one containment reference, or a value for each of them. -/
def Full (M : Meta) : Tree → Prop
  | .node _ c _ kids => ((M.containments c).length ≤ 1 ∨ ∀ r ∈ M.containments c, ∃ k ∈ kids, k.ref = r) ∧ FullAll M kids

def FullAll (M : Meta) : List Tree → Prop
  | [] => True
  | k :: ks => Full M k ∧ FullAll M ks
end

/-- no class contains itself, directly or not: classes have ranks that decrease -/
def Ranked (M : Meta) (rank : Nat → Nat) : Prop := ∀ c, (M.containments c).Nodup ∧ ∀ r ∈ M.containments c, rank (M.type r) < rank c

end Verif.AllContents
