/-!
# Structural equality of objects

`Equals` and `EqualsAll` (ecore/ecoreutils.go 163-171) with `deepEqual` (ecore/deepequal.go).

Left out: resolution of proxies by `EGet` (the references of the heap are those `EGet` gives), features that are neither
attributes nor references (they panic).
-/

namespace Verif.DeepEqual

/-- attribute or reference, single or many -/
inductive Kind where
  | attr | attrs | ref | refs
deriving DecidableEq, Repr

/-- The classes: `features c` is `GetEStructuralFeatures` of class `c`, the features it declares itself; `inherited c` are
those of its super types. -/
structure Meta where
  features : Nat → List Nat
  inherited : Nat → List Nat
  derived : Nat → Bool
  kind : Nat → Kind

/-- The objects. `uri` is `EProxyURI`; the values of features are those `EGet` gives when `EIsSet` is true, a reference then
has an object, an attribute can be nil. -/
structure Heap where
  cls : Nat → Nat
  uri : Nat → Option Nat
  isSet : Nat → Nat → Bool
  attr : Nat → Nat → Option Nat
  attrs : Nat → Nat → List (Option Nat)
  ref : Nat → Nat → Nat
  refs : Nat → Nat → List Nat

/-- `objects` (ecore/deepequal.go 14-16) -/
abbrev Matched := Nat → Option Nat

/-- both entries of a match (ecore/deepequal.go 56-57, 67-68, 86-87) -/
def record (m : Matched) (a b : Nat) : Matched := fun x => if x = b then some a else if x = a then some b else m x

/-- ecore/deepequal.go 91-92 -/
def forget (m : Matched) (a b : Nat) : Matched := fun x => if x = b then none else if x = a then none else m x

/-- A loop that stops at the first `false` (ecore/deepequal.go 89-95, 105-111); `none`: the depth is not sufficient. -/
def allM {α : Type} (f : α → Matched → Option (Bool × Matched)) : List α → Matched → Option (Bool × Matched)
  | [], m => some (true, m)
  | x :: xs, m =>
    match f x m with
    | none => none
    | some (false, m') => some (false, m')
    | some (true, m') => allM f xs m'

/-- `equalsObjectList` (ecore/deepequal.go 100-113) -/
def equalsList (eq : Nat → Nat → Matched → Option (Bool × Matched)) (l1 l2 : List Nat) (m : Matched) : Option (Bool × Matched) :=
  if l1.length ≠ l2.length then some (false, m) else allM (fun p : Nat × Nat => eq p.1 p.2) (l1.zip l2) m

/-- `equalsAttribute` of a single attribute (ecore/deepequal.go 144-160) -/
def equalsAttr (v1 v2 : Option Nat) : Bool :=
  match v1 with
  | none => v2.isNone
  | some x =>
    match v2 with
    | none => false
    | some y => x == y

/-- `equalsPrimitiveList` (ecore/deepequal.go 115-128) -/
def equalsPrims : List (Option Nat) → List (Option Nat) → Bool
  | [], [] => true
  | x :: xs, y :: ys => x == y && equalsPrims xs ys
  | _, _ => false

/-- `equalsFeature`, `equalsAttribute` and `equalsReference` (ecore/deepequal.go 130-171) -/
def equalsFeature (M : Meta) (H : Heap) (eq : Nat → Nat → Matched → Option (Bool × Matched)) (a b f : Nat) (m : Matched) : Option (Bool × Matched) :=
  if H.isSet a f && H.isSet b f then
    match M.kind f with
    | .attr => some (equalsAttr (H.attr a f) (H.attr b f), m)
    | .attrs => some (equalsPrims (H.attrs a f) (H.attrs b f), m)
    | .ref => eq (H.ref a f) (H.ref b f) m
    | .refs => equalsList eq (H.refs a f) (H.refs b f) m
  else some (H.isSet a f == H.isSet b f, m)

/-- `equals` of two objects (ecore/deepequal.go 24-98) -/
def equalsObj (M : Meta) (H : Heap) : Nat → Nat → Nat → Matched → Option (Bool × Matched)
  | 0, _, _, _ => none
  | n + 1, a, b, m =>
    match m a with
    | some a' => some (a' == b, m)
    | none =>
      match m b with
      | some b' => some (b' == a, m)
      | none =>
        if a = b then some (true, record m a b)
        else if (H.uri a).isSome then
          if H.uri a = H.uri b then some (true, record m a b) else some (false, m)
        else if (H.uri b).isSome then some (false, m)
        else if H.cls a ≠ H.cls b then some (false, m)
        else
          match allM (equalsFeature M H (equalsObj M H n) a b) ((M.features (H.cls a)).filter fun f => !M.derived f) (record m a b) with
          | some (false, m') => some (false, forget m' a b)
          | r => r

/-- `Equals` (ecore/ecoreutils.go 163-166, ecore/deepequal.go 26-33) -/
def equals (M : Meta) (H : Heap) (n : Nat) (a b : Option Nat) : Option Bool :=
  match a, b with
  | none, b => some b.isNone
  | some _, none => some false
  | some a, some b => (equalsObj M H n a b fun _ => none).map (·.1)

/-- `EqualsAll` (ecore/ecoreutils.go 168-171) -/
def equalsAll (M : Meta) (H : Heap) (n : Nat) (l1 l2 : List Nat) : Option Bool :=
  (equalsList (equalsObj M H n) l1 l2 fun _ => none).map (·.1)

end Verif.DeepEqual
