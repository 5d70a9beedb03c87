/-
Model of the stack of namespace declarations of the XML reader and writer (ecore/xmlnamespaces.go).
-/
namespace Verif.XMLNamespaces

/-- ecore/xmlnamespaces.go:14-19. `currentContext` is -1 outside of all elements. -/
structure St where
  namespaces : List (String × String) := []
  contexts : List Nat := []
  namespacesSize : Nat := 0
  currentContext : Int := -1
  deriving DecidableEq, Repr

/-- `l[i]` in Go; `none` is a panic. -/
def at? {α : Type} (l : List α) (i : Int) : Option α := if 0 ≤ i then l[i.toNat]? else none

/-- ecore/xmlnamespaces.go:28-35; `none` is a panic. -/
def pushContext (n : St) : Option St :=
  let c := n.currentContext + 1
  if c ≥ n.contexts.length then some { n with currentContext := c, contexts := n.contexts ++ [n.namespacesSize] }
  else if 0 ≤ c then some { n with currentContext := c, contexts := n.contexts.set c.toNat n.namespacesSize }
  else none

/-- ecore/xmlnamespaces.go:37-42: the state and the declarations which disappear; `none` is a panic. -/
def popContext (n : St) : Option (St × List (String × String)) :=
  match at? n.contexts n.currentContext with
  | none => none
  | some size =>
    if size ≤ n.namespacesSize ∧ n.namespacesSize ≤ n.namespaces.length then
      some ({ n with namespacesSize := size, currentContext := n.currentContext - 1 },
        (n.namespaces.take n.namespacesSize).drop size)
    else none

/-- The loop of ecore/xmlnamespaces.go:45-51: look for the prefix below `i`, down to `bottom` (exclusive). The outer `none` is a
panic. -/
def findPrefix (namespaces : List (String × String)) (bottom : Nat) (pre : String) : Nat → Option (Option Nat)
  | 0 => some none
  | i + 1 =>
    if i + 1 > bottom then
      match namespaces[i]? with
      | none => none
      | some p => if p.1 = pre then some (some i) else findPrefix namespaces bottom pre i
    else some none

/-- ecore/xmlnamespaces.go:44-59: the state and the returned value; `none` is a panic. Line 56 really writes at `namespacesSize` after
the increment. -/
def declarePrefix (n : St) (pre uri : String) : Option (St × Bool) :=
  match at? n.contexts n.currentContext with
  | none => none
  | some bottom =>
    match findPrefix n.namespaces bottom pre n.namespacesSize with
    | none => none
    | some (some i) => some ({ n with namespaces := n.namespaces.set i (pre, uri) }, true)
    | some none =>
      let size := n.namespacesSize + 1
      if size > n.namespaces.length then some ({ n with namespacesSize := size, namespaces := n.namespaces ++ [(pre, uri)] }, false)
      else if size < n.namespaces.length then
        some ({ n with namespacesSize := size, namespaces := n.namespaces.set size (pre, uri) }, false)
      else none

/-- ecore/xmlnamespaces.go:61-69 and 71-79: the last declaration satisfying a test, below `i`. A read out of range cannot
happen (`namespacesSize ≤ len(namespaces)`) and gives none here. -/
def lookup (namespaces : List (String × String)) (test : String × String → Bool) : Nat → Option (String × String)
  | 0 => none
  | i + 1 =>
    match namespaces[i]? with
    | none => none
    | some p => if test p then some p else lookup namespaces test i

/-- ecore/xmlnamespaces.go:61-69. -/
def getPrefix (n : St) (uri : String) : Option String := (lookup n.namespaces (fun p => p.2 == uri) n.namespacesSize).map (·.1)

/-- ecore/xmlnamespaces.go:71-79. -/
def getURI (n : St) (pre : String) : Option String := (lookup n.namespaces (fun p => p.1 == pre) n.namespacesSize).map (·.2)

inductive Op where
  | push
  | pop
  | declare (pre uri : String)
  deriving DecidableEq, Repr

def step (n : St) : Op → Option St
  | .push => pushContext n
  | .pop => (popContext n).map (·.1)
  | .declare pre uri => (declarePrefix n pre uri).map (·.1)

/-- State after a sequence of calls; `none` is a panic. -/
def run (n : St) : List Op → Option St
  | [] => some n
  | op :: ops => match step n op with
    | none => none
    | some n => run n ops

end Verif.XMLNamespaces
