import Verif.Model.EList
/-
Model of the adapters of notifiers: `notifierAdapterList` and `ENotify` (ecore/abstractenotifier.go) with adapters
built on `AbstractEAdapter` (ecore/abstracteadapter.go). Notifiers and adapters are natural numbers.
-/
namespace Verif.Adapters
open Verif.EList

/-- The adapter list of each notifier, the target of each adapter, the deliver flag of each notifier, and the
REMOVING_ADAPTER notifications received so far (adapter, notifier). -/
structure St where
  lists : Nat → List Nat
  target : Nat → Option Nat
  deliver : Nat → Bool
  removing : List (Nat × Nat)

/-- `SetTarget` (ecore/abstracteadapter.go:27-29). -/
def setTarget (s : St) (a : Nat) (t : Option Nat) : St :=
  { s with target := fun x => if x = a then t else s.target x }

/-- `UnSetTarget` (ecore/abstracteadapter.go:31-35). -/
def unSetTarget (s : St) (a n : Nat) : St :=
  if s.target a = some n then setTarget s a none else s

/-- Callbacks of `notifierAdapterList`: `DidAdd` (ecore/abstractenotifier.go:54-57), `DidRemove` (59-66); the others
are the empty ones of `BasicEList`. -/
def callback (n : Nat) (s : St) : CB Nat → St
  | .didAdd _ a => setTarget s a (some n)
  | .didRemove _ a =>
    let s1 := if s.deliver n then { s with removing := s.removing ++ [(a, n)] } else s
    unSetTarget s1 a n
  | _ => s

/-- A list call on the adapters of notifier `n` (the list is not unique: ecore/abstractenotifier.go:45-52). -/
def astep (s : St) (n : Nat) (op : Op Nat) : St :=
  let r := step ⟨false, .snapshot⟩ (s.lists n) op
  r.trace.foldl (callback n) { s with lists := fun m => if m = n then r.data else s.lists m }

/-- State after a sequence of list calls on adapter lists. -/
def arun (s : St) : List (Nat × Op Nat) → St
  | [] => s
  | (n, op) :: ops => arun (astep s n op) ops

/-- A program with no adapter attached. -/
def init (deliver : Nat → Bool) : St := ⟨fun _ => [], fun _ => none, deliver, []⟩

/-- The loop of `ENotify` (ecore/abstractenotifier.go:117-124): the iterator keeps a cursor into the live list;
`react a l` is what `NotifyChanged` of adapter `a` makes of the adapter list `l`. `fuel` bounds the number of
deliveries looked at (adapters may add adapters for ever). -/
def notifyLoop (react : Nat → List Nat → List Nat) : Nat → List Nat → Iter → List Nat
  | 0, _, _ => []
  | fuel + 1, l, it =>
    if it.hasNext l then
      match it.next l with
      | (it', .val a) => a :: notifyLoop react fuel (react a l) it'
      | _ => []
    else []

/-- ecore/abstractenotifier.go:117-124: the adapters called, in order. -/
def eNotify (react : Nat → List Nat → List Nat) (fuel : Nat) (s : St) (n : Nat) : List Nat :=
  if s.deliver n then notifyLoop react fuel (s.lists n) iterator else []

end Verif.Adapters
