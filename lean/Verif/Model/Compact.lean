/-!
# Compact object storage

`CompactEObjectImpl` keeps container, resource, adapters, proxy URI, class,
contents, cross references and properties in one `any`: nothing when no field
is present, the value itself when one is, a slice ordered by field otherwise.
Which fields are present is a bit set in the low bits of `flags`; the high bits
hold the container feature ID.
-/

namespace Verif.Compact

/-- The non nil values put in a field.  `nilURI` is the `any` made from a nil `*URI`, which is
not a nil `any` (ecore/compacteobject_impl.go 204-206); every other value is a number naming it. -/
inductive Val where
  | ref (n : Nat)
  | nilURI
deriving DecidableEq, Repr

/-- `storage any` (ecore/compacteobject_impl.go 16-20): nil, a value, or a `[]any`.
Simplification: a field value that would itself be a `[]any` is a `val` here. -/
inductive Storage where
  | nil
  | val (v : Val)
  | slice (l : List Val)
deriving DecidableEq, Repr

/-- ecore/compacteobject_impl.go 16-20, with the extra member of `CompactEObjectContainer`
(ecore/compacteobject_container.go 12-15). -/
structure St where
  storage : Storage
  flags : BitVec 64
  container : Option Val
deriving DecidableEq, Repr

/-! The flags of ecore/compacteobject_impl.go 22-35, as positions of their bit. -/

/-- `container_flag = 1 << 1` (line 24), also `first_flag` (line 33) -/
def containerFlag : Nat := 1
/-- `resource_flag = 1 << 2` (line 25) -/
def resourceFlag : Nat := 2
/-- `adapters_flag = 1 << 3` (line 26) -/
def adaptersFlag : Nat := 3
/-- `proxy_flag = 1 << 4` (line 27) -/
def proxyFlag : Nat := 4
/-- `class_flag = 1 << 5` (line 28) -/
def classFlag : Nat := 5
/-- `contents_flag = 1 << 6` (line 29) -/
def contentsFlag : Nat := 6
/-- `cross_flag = 1 << 7` (line 30) -/
def crossFlag : Nat := 7
/-- `properties_flag = 1 << 8` (line 31), also `last_flag` (line 34) -/
def propertiesFlag : Nat := 8

/-- the bits from `first_flag` to `last_flag`, which make `fields_mask` (lines 32-34) -/
def allBits : List Nat := [1, 2, 3, 4, 5, 6, 7, 8]

/-- `Initialize` (ecore/compacteobject_impl.go 37-39): `deliver_flag | (-1)<<16` -/
def init : St := ⟨.nil, 1#64 ||| (BitVec.ofInt 64 (-1) <<< 16), none⟩

/-- `hasField` (ecore/compacteobject_impl.go 41-43) -/
def hasField (s : St) (field : Nat) : Bool := s.flags.getLsbD field

/-- the first loop of `fieldIndex` (ecore/compacteobject_impl.go 73-77) over the bits given -/
def countSet (flags : BitVec 64) : List Nat → Nat
  | [] => 0
  | b :: bs => (if flags.getLsbD b then 1 else 0) + countSet flags bs

/-- `fieldIndex` (ecore/compacteobject_impl.go 72-90); `none` is -1 -/
def fieldIndex (s : St) (field : Nat) : Option Nat :=
  let result := countSet s.flags (allBits.filter (· < field))
  if result = 0 then
    if (allBits.filter (field < ·)).any (fun b => s.flags.getLsbD b) then some 0 else none
  else some result

/-- `getField` (ecore/compacteobject_impl.go 45-55).  The outer `none` is a panic: a type
assertion to `[]any` that fails or an index out of range.  Where the code would hand out a
`[]any` as the value of a field, whose type assertion panics in every caller, the result is a
panic as well. -/
def getField (s : St) (field : Nat) : Option (Option Val) :=
  if hasField s field then
    match fieldIndex s field with
    | none =>
      match s.storage with
      | .nil => some none
      | .val v => some (some v)
      | .slice _ => none
    | some i =>
      match s.storage with
      | .slice l => l[i]?.map some
      | _ => none
  else some none

/-- `bits.OnesCount(uint(o.flags & fields_mask))` (ecore/compacteobject_impl.go 93, 118) -/
def fieldCount (s : St) : Nat := countSet s.flags allBits

/-- the copy loop of `addField` (ecore/compacteobject_impl.go 103-112) over the bits left; the
source index is the number of values already consumed from `src`.  Simplification: the result
slice is built by appending rather than by filling `fieldCount+1` positions; the proofs show
that exactly so many are appended. -/
def addLoop (flags : BitVec 64) (field : Nat) (value : Val) : List Nat → List Val → Option (List Val)
  | [], _ => some []
  | b :: bs, src =>
    if b = field then (addLoop flags field value bs src).map (value :: ·)
    else if flags.getLsbD b then
      match src with
      | [] => none
      | x :: src => (addLoop flags field value bs src).map (x :: ·)
    else addLoop flags field value bs src

/-- `addField` (ecore/compacteobject_impl.go 92-115) -/
def addField (s : St) (field : Nat) (value : Val) : Option St :=
  let flags := s.flags ||| (1#64 <<< field)
  match fieldCount s with
  | 0 => some ⟨.val value, flags, s.container⟩
  | 1 =>
    match s.storage with
    | .val v => some ⟨.slice (if fieldIndex s field = some 0 then [value, v] else [v, value]), flags, s.container⟩
    | _ => none
  | _ =>
    match s.storage with
    | .slice l => (addLoop s.flags field value allBits l).map fun r => ⟨.slice r, flags, s.container⟩
    | _ => none

/-- the copy loop of `removeField` (ecore/compacteobject_impl.go 130-139) -/
def removeLoop (flags : BitVec 64) (field : Nat) : List Nat → List Val → Option (List Val)
  | [], _ => some []
  | b :: bs, src =>
    if b = field then removeLoop flags field bs (src.drop 1)
    else if flags.getLsbD b then
      match src with
      | [] => none
      | x :: src => (removeLoop flags field bs src).map (x :: ·)
    else removeLoop flags field bs src

/-- `removeField` (ecore/compacteobject_impl.go 117-142) -/
def removeField (s : St) (field : Nat) : Option St :=
  let flags := s.flags &&& ~~~(1#64 <<< field)
  match fieldCount s with
  | 1 => some ⟨.nil, flags, s.container⟩
  | 2 =>
    match s.storage with
    | .slice l => (l[if fieldIndex s field = some 0 then 1 else 0]?).map fun v => ⟨.val v, flags, s.container⟩
    | _ => none
  | _ =>
    match s.storage with
    | .slice l => (removeLoop s.flags field allBits l).map fun r => ⟨.slice r, flags, s.container⟩
    | _ => none

/-- `setField` (ecore/compacteobject_impl.go 57-70) -/
def setField (s : St) (field : Nat) (value : Option Val) : Option St :=
  if hasField s field then
    match value with
    | none => removeField s field
    | some v =>
      match fieldIndex s field with
      | none => some { s with storage := .val v }
      | some i =>
        match s.storage with
        | .slice l => if i < l.length then some { s with storage := .slice (l.set i v) } else none
        | _ => none
  else
    match value with
    | none => some s
    | some v => addField s field v

/-- The two kinds of objects: `CompactEObjectImpl` and `CompactEObjectContainer`. -/
inductive Kind where
  | impl
  | container
deriving DecidableEq, Repr

/-- The operations that write: `SetEClass` (152-154), `ESetDeliver` (160-166), `EAdapters`
(168-175, `fresh` is the list it creates), `ESetProxyURI` (204-206), `EContents` (209-217),
`ECrossReferences` (220-228), `ESetInternalContainer` (231-234 and
ecore/compacteobject_container.go 17-20), `ESetInternalResource` (257-259), and the write of the
properties, which only code of the package can do (`setField(properties_flag, …)`). -/
inductive Op where
  | setClass (c : Option Nat)
  | setDeliver (b : Bool)
  | adapters (fresh : Nat)
  | setProxyURI (u : Option Nat)
  | contents (fresh : Nat)
  | crossReferences (fresh : Nat)
  | setContainer (c : Option Nat) (featureID : Int)
  | setResource (r : Option Nat)
  | setProperties (p : Option Nat)
deriving DecidableEq, Repr

/-- the lazy creation of `EAdapters`, `EContents` and `ECrossReferences` -/
def create (s : St) (field : Nat) (fresh : Nat) : Option St :=
  match getField s field with
  | none => none
  | some (some _) => some s
  | some none => setField s field (some (.ref fresh))

/-- one operation on an object of the given kind -/
def step (k : Kind) (s : St) : Op → Option St
  | .setClass c => setField s classFlag (c.map .ref)
  | .setDeliver b => some { s with flags := if b then s.flags ||| 1#64 else s.flags &&& ~~~1#64 }
  | .adapters fresh => create s adaptersFlag fresh
  | .setProxyURI u => setField s proxyFlag (some (match u with | some n => .ref n | none => .nilURI))
  | .contents fresh => create s contentsFlag fresh
  | .crossReferences fresh => create s crossFlag fresh
  | .setContainer c id =>
    let mask (s : St) : St := { s with flags := (BitVec.ofInt 64 id <<< 16) ||| (s.flags &&& 0x00FF#64) }
    match k with
    | .impl => (setField s containerFlag (c.map .ref)).map mask
    | .container => some (mask { s with container := c.map .ref })
  | .setResource r => setField s resourceFlag (r.map .ref)
  | .setProperties p => setField s propertiesFlag (p.map .ref)

/-- a sequence of operations from `Initialize` -/
def run (k : Kind) : List Op → Option St :=
  List.foldlM (step k) init

/-- What can be read from an object. -/
structure View where
  eClass : Option Nat
  deliver : Bool
  adapters : Option Nat
  proxyURI : Option Nat
  isProxy : Bool
  contents : Option Nat
  crossReferences : Option Nat
  container : Option Nat
  containerFeatureID : Int
  resource : Option Nat
  properties : Option Nat
deriving DecidableEq, Repr

/-- the type assertion on a value read from a field: a nil `*URI` reads as nil -/
def toRef : Option Val → Option Nat
  | some (.ref n) => some n
  | _ => none

/-- the reads of ecore/compacteobject_impl.go 144-255; `eClass` is the stored class without the
fallback on `EStaticClass` -/
def view (k : Kind) (s : St) : Option View := do
  let c ← getField s classFlag
  let a ← getField s adaptersFlag
  let p ← getField s proxyFlag
  let co ← getField s contentsFlag
  let x ← getField s crossFlag
  let ct ← match k with
    | .impl => getField s containerFlag
    | .container => some s.container
  let r ← getField s resourceFlag
  let pr ← getField s propertiesFlag
  some ⟨toRef c, s.flags.getLsbD 0, toRef a, toRef p, hasField s proxyFlag, toRef co, toRef x,
    toRef ct, (s.flags.sshiftRight 16).toInt, toRef r, toRef pr⟩

end Verif.Compact
