/-!
# Containment across resources

Lists and references that contain objects and resolve proxies: an object may be in its own resource and in a container of another one. The list
of the container has a proxy until it is read.

Lists are `basicEObjectList` with `containment`, `inverse` and `proxies` set and no opposite (ecore/basiceobjectlist.go), with `AbstractEList` and
`BasicENotifyingList` below. Single references are those of dynamic properties (ecore/abstracteobject.go). An object has one list and one single
reference; all resolve proxies. Objects are numbers. What a proxy resolves to does not change.

Left out: notifications, `Attached` and `Detached` of resources (C79), `AddAll`, `InsertAll`, `RemoveAll`, `RemoveRange`, `Move`, containers that are
proxies. Calls that panic leave the state as it is at that moment.
-/

namespace Verif.CrossContainment

/-- The list or the single reference of an object. -/
inductive Ref where
  | list
  | one
deriving DecidableEq, Repr

/-- The objects: `data` of the lists, values of the single references, `EInternalContainer` with its feature, `EInternalResource`; the contents of
the resources. -/
structure St where
  kids : Nat → List Nat
  one : Nat → Option Nat
  cont : Nat → Option (Nat × Ref)
  res : Nat → Option Nat
  roots : Nat → List Nat

/-- Nothing is contained. -/
def init : St := ⟨fun _ => [], fun _ => none, fun _ => none, fun _ => none, fun _ => []⟩

/-- a function with one value changed -/
def upd {β : Type} (f : Nat → β) (i : Nat) (b : β) : Nat → β := fun j => if j = i then b else f j

/-- `EResolveProxy` (ecore/abstracteobject.go:670-672): `tgt p` is the object a proxy `p` resolves to, `none` for what is no proxy or is not found -/
def stand (tgt : Nat → Option Nat) (o : Nat) : Nat := (tgt o).getD o

/-- `EBasicSetContainer` (ecore/abstracteobject.go:782-851): the containment resolves proxies, so the object stays in its resource (lines 792-800). -/
def setCont (s : St) (o : Nat) (k : Option (Nat × Ref)) : St := { s with cont := upd s.cont o k }

/-- `resolve` of a list at an index (ecore/basiceobjectlist.go:94-112): the object is put at the place of the proxy; the proxy has no container then;
the object gets the owner as container if it has none. -/
def resolveAt (tgt : Nat → Option Nat) (s : St) (a i : Nat) : St :=
  match (s.kids a)[i]? with
  | none => s
  | some p =>
    if stand tgt p = p then s
    else
      let s := { s with kids := upd s.kids a ((s.kids a).set i (stand tgt p)) }
      let s := setCont s p none
      if s.cont (stand tgt p) = none then setCont s (stand tgt p) (some (a, .list)) else s

/-- the loop of `IndexOf` (ecore/basiceobjectlist.go:72-79) from the index `i` on, `n` elements -/
def scan (tgt : Nat → Option Nat) (a x : Nat) : Nat → Nat → St → St × Option Nat
  | 0, _, s => (s, none)
  | n + 1, i, s =>
    match (s.kids a)[i]? with
    | none => (s, none)
    | some v =>
      if v = x then (s, some i)
      else if stand tgt v = x then (resolveAt tgt s a i, some i)
      else scan tgt a x n (i + 1) (resolveAt tgt s a i)

/-- `IndexOf` (ecore/basiceobjectlist.go:72-79) -/
def indexOf (tgt : Nat → Option Nat) (s : St) (a x : Nat) : St × Option Nat := scan tgt a x (s.kids a).length 0 s

/-- `ToArray` (ecore/basiceobjectlist.go:85-92): from the last one to the first one -/
def toArray (tgt : Nat → Option Nat) (s : St) (a : Nat) : Nat → St
  | 0 => s
  | n + 1 => toArray tgt (resolveAt tgt s a n) a n

/-- `EBasicRemoveFromContainer` (ecore/abstracteobject.go:854-864): `RemoveWithNotification` of a list (ecore/basicenotifyinglist.go:157-166), or the
single reference is unset (ecore/abstracteobject.go:753-777) -/
def leave (tgt : Nat → Option Nat) (s : St) (o : Nat) : St :=
  match s.cont o with
  | some (b, .list) =>
    match indexOf tgt s b o with
    | (s, some i) => { s with kids := upd s.kids b ((s.kids b).eraseIdx i) }
    | (s, none) => s
  | some (b, .one) => { s with one := upd s.one b none }
  | none => s

/-- `EInverseAdd` (ecore/abstracteobject.go:650-658) by a containment reference without opposite -/
def enter (tgt : Nat → Option Nat) (s : St) (o a : Nat) (r : Ref) : St := setCont (leave tgt s o) o (some (a, r))

/-- `Add` (ecore/abstractelist.go:76-83, ecore/basicenotifyinglist.go:175-181) -/
def add (tgt : Nat → Option Nat) (s : St) (a x : Nat) : St :=
  match indexOf tgt s a x with
  | (s, some _) => s
  | (s, none) => enter tgt { s with kids := upd s.kids a (s.kids a ++ [x]) } x a .list

/-- `Insert` (ecore/abstractelist.go:98-108, ecore/basicenotifyinglist.go:188-193) -/
def insert (tgt : Nat → Option Nat) (s : St) (a i x : Nat) : St :=
  if (s.kids a).length < i then s
  else match indexOf tgt s a x with
  | (s, some _) => s
  | (s, none) => enter tgt { s with kids := upd s.kids a ((s.kids a).insertIdx i x) } x a .list

/-- `RemoveAt` (ecore/abstractelist.go:144-150, ecore/basicenotifyinglist.go:255-264): the container of the object is nil then, whatever it was
(`EInverseRemove`, ecore/abstracteobject.go:661-667) -/
def removeAt (s : St) (a i : Nat) : St :=
  match (s.kids a)[i]? with
  | none => s
  | some v => setCont { s with kids := upd s.kids a ((s.kids a).eraseIdx i) } v none

/-- `Remove` (ecore/abstractelist.go:153-161) -/
def remove (tgt : Nat → Option Nat) (s : St) (a x : Nat) : St :=
  match indexOf tgt s a x with
  | (s, some i) => removeAt s a i
  | (s, none) => s

/-- `Set` (ecore/abstractelist.go:200-212, ecore/basicenotifyinglist.go:217-227) -/
def set (tgt : Nat → Option Nat) (s : St) (a i x : Nat) : St :=
  if (s.kids a).length ≤ i then s
  else match indexOf tgt s a x with
  | (s, r) =>
    if r.isSome ∧ r ≠ some i then s
    else match (s.kids a)[i]? with
    | none => s
    | some old =>
      let s := { s with kids := upd s.kids a ((s.kids a).set i x) }
      if x = old then s else enter tgt (setCont s old none) x a .list

/-- `Clear` (ecore/basicenotifyinglist.go:229-248) -/
def clear (s : St) (a : Nat) : St := (s.kids a).foldl (fun s v => setCont s v none) { s with kids := upd s.kids a [] }

/-- Reading a single reference (ecore/abstracteobject.go:277-342): the object found leaves its container and gets the owner as container. -/
def getOne (tgt : Nat → Option Nat) (s : St) (a : Nat) : St :=
  match s.one a with
  | none => s
  | some p =>
    if stand tgt p = p then s
    else enter tgt (setCont { s with one := upd s.one a (some (stand tgt p)) } p none) (stand tgt p) a .one

/-- `EInverseRemove` of the former value, if any -/
def drop (s : St) : Option Nat → St
  | none => s
  | some old => setCont s old none

/-- Setting a single reference, `none` is unsetting it (ecore/abstracteobject.go:441-485, 567-604) -/
def setOne (tgt : Nat → Option Nat) (s : St) (a : Nat) (x : Option Nat) : St :=
  if s.one a = x then s
  else match x with
  | none => { drop s (s.one a) with one := upd s.one a none }
  | some x =>
    let s := enter tgt (drop s (s.one a)) x a .one
    { s with one := upd s.one a (some x) }

/-- Adding to the contents of a resource (ecore/eresource_impl.go:79-87, ecore/abstracteobject.go:139-172): the containment resolves proxies, so the
object stays in its container (lines 152-165). -/
def addRoot (s : St) (r x : Nat) : St :=
  if x ∈ s.roots r then s
  else
    let roots := upd s.roots r (s.roots r ++ [x])
    match s.res x with
    | none => { s with roots := roots, res := upd s.res x (some r) }
    | some q => { s with roots := upd roots q ((roots q).erase x), res := upd s.res x (some r) }

/-- Removing from the contents of a resource (ecore/eresource_impl.go:89-97, ecore/abstracteobject.go:139-172) -/
def removeRoot (s : St) (r x : Nat) : St :=
  if x ∈ s.roots r then { s with roots := upd s.roots r ((s.roots r).erase x), res := upd s.res x none } else s

/-- The calls. -/
inductive Op where
  | get (a i : Nat)
  | indexOf (a x : Nat)
  | toArray (a : Nat)
  | add (a x : Nat)
  | insert (a i x : Nat)
  | removeAt (a i : Nat)
  | remove (a x : Nat)
  | set (a i x : Nat)
  | clear (a : Nat)
  | getOne (a : Nat)
  | setOne (a : Nat) (x : Option Nat)
  | addRoot (r x : Nat)
  | removeRoot (r x : Nat)
deriving DecidableEq, Repr

/-- one call -/
def step (tgt : Nat → Option Nat) (s : St) : Op → St
  | .get a i => resolveAt tgt s a i
  | .indexOf a x => (indexOf tgt s a x).1
  | .toArray a => toArray tgt s a (s.kids a).length
  | .add a x => add tgt s a x
  | .insert a i x => insert tgt s a i x
  | .removeAt a i => removeAt s a i
  | .remove a x => remove tgt s a x
  | .set a i x => set tgt s a i x
  | .clear a => clear s a
  | .getOne a => getOne tgt s a
  | .setOne a x => setOne tgt s a x
  | .addRoot r x => addRoot s r x
  | .removeRoot r x => removeRoot s r x

/-- the state after calls -/
def run (tgt : Nat → Option Nat) (s : St) (ops : List Op) : St := ops.foldl (step tgt) s

/-- `EResource` (ecore/abstracteobject.go:128-136); `none`: the recursion is deeper than the fuel -/
def eResource : Nat → St → Nat → Option (Option Nat)
  | 0, _, _ => none
  | n + 1, s, o =>
    match s.res o with
    | some r => some (some r)
    | none =>
      match s.cont o with
      | none => some none
      | some (a, _) => if a = o then some none else eResource n s a

end Verif.CrossContainment
