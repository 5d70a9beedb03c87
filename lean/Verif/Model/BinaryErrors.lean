import Verif.Model.Binary

/-!
# Binary documents that are damaged

`BinaryDecoder` (ecore/binarydecoder.go) once more, for any stream of items: what is an error, what is a panic, and that it comes
to an end.  See `Verif.Model.Binary` for the metamodel, the objects, and what is left out.  A stream that ends within an item ends
before it here: msgpack gives an error in both cases.  An item of another type than expected is an error; msgpack converts
some of them (numbers of other types, nil, strings and bytes), which is left out.
-/

namespace Verif.BinaryErrors

open Binary

variable {D : Type} {α β : Type}

/-- outcome of a call: a result, a Go error, a panic; `hang` if the bound on the number of calls was too small -/
inductive Res (α : Type) where
  | ok (a : α)
  | error
  | panic
  | hang
deriving DecidableEq, Repr

/-- a function that reads items of the stream -/
def Parser (D α : Type) := List (Tok D) → Res (α × List (Tok D))

def Parser.pure (a : α) : Parser D α := fun ts => .ok (a, ts)

def Parser.bind (p : Parser D α) (f : α → Parser D β) : Parser D β := fun ts =>
  match p ts with
  | .ok (a, ts) => f a ts
  | .error => .error
  | .panic => .panic
  | .hang => .hang

instance : Monad (Parser D) where
  pure := Parser.pure
  bind := Parser.bind

/-- a Go error is returned -/
def fail : Parser D α := fun _ => .error

/-- a panic -/
def crash : Parser D α := fun _ => .panic

/-- the bound on the number of calls is reached -/
def stuck : Parser D α := fun _ => .hang

/-- `decodeInt` (ecore/binarydecoder.go 115-117) -/
def int : Parser D Int
  | .int i :: ts => .ok (i, ts)
  | _ => .error

/-- `decodeString` (ecore/binarydecoder.go 140-142) -/
def str : Parser D String
  | .str s :: ts => .ok (s, ts)
  | _ => .error

/-- `decodeBytes` (ecore/binarydecoder.go 144-146) -/
def bytes : Parser D (List Nat)
  | .bytes b :: ts => .ok (b, ts)
  | _ => .error

/-- `decodeInterface` (ecore/binarydecoder.go 165-167) of an ID -/
def anyID : Parser D Nat
  | .any i :: ts => .ok (i, ts)
  | _ => .error

/-- the functions for the types with their own encoding (ecore/binarydecoder.go 115-163) -/
def value (t : Basic) : Parser D D
  | .val t' v :: ts => if t = t' then .ok (v, ts) else .error
  | _ => .error

/-- What else can go wrong: `Create` refuses abstract classes (ecore/efactory_ext.go 31-34), `CreateFromString` refuses literals that an
enum does not have (ecore/efactory_ext.go 52-58), the ID manager refuses IDs (`SetID`), `make` refuses sizes. -/
structure Limits where
  creatable : Nat → Bool
  literal : Nat → String → Bool
  acceptsID : Nat → Bool
  alloc : Nat → Bool

variable (env : Env D) (lim : Limits)

/-- an element of a slice by an index of the stream: negative ones and those past the end are panics -/
def index {β : Type} (l : List β) (i : Int) : Parser D β :=
  if i < 0 then crash
  else match l[i.toNat]? with
    | some x => pure x
    | none => crash

/-- `make([]any, size)` -/
def make (size : Int) : Parser D Nat := if size < 0 ∨ lim.alloc size.toNat = false then crash else pure size.toNat

/-- `decodeURI` (ecore/binarydecoder.go 537-569) -/
def readURI (d : Dec D) : Parser D (Option URI × Dec D) := do
  let id ← int
  if id = -1 then pure (none, d)
  else if (d.uris.length : Int) ≤ id then
    let s ← str
    let path := if s = "" then env.baseURI else env.resolve s
    let fragment ← str
    pure (some ⟨path, fragment⟩, { d with uris := d.uris ++ [path] })
  else
    let path ← index d.uris id
    let fragment ← str
    pure (some ⟨path, fragment⟩, d)

/-- `decodePackage` (ecore/binarydecoder.go 498-535): position and package -/
def readPackage (d : Dec D) : Parser D ((Nat × Nat) × Dec D) := do
  let id ← int
  if (d.pkgs.length : Int) ≤ id then
    let ns ← str
    let (_, d) ← readURI env d
    match env.registry ns with
    | none => fail
    | some p =>
      let i := d.pkgs.length
      pure ((i, p), { d with pkgs := d.pkgs ++ [p], classAt := fun q k => if q = i then none else d.classAt q k })
  else
    let p ← index d.pkgs id
    pure ((id.toNat, p), d)

/-- `decodeClass`, `newClassData` (ecore/binarydecoder.go 478-496, 585-600): position of the package, ID and class -/
def readClass (d : Dec D) : Parser D ((Nat × Nat × Nat) × Dec D) := do
  let ((q, p), d) ← readPackage env d
  let id ← int
  if id < 0 ∨ ((env.classifiers p).length : Int) ≤ id then crash
  else
    match d.classAt q id.toNat with
    | some c => pure ((q, id.toNat, c), d)
    | none =>
      let name ← str
      match env.findClass p name with
      | none => fail
      | some c =>
        pure ((q, id.toNat, c), { d with
          classAt := fun q' k => if q' = q ∧ k = id.toNat then some c else d.classAt q' k,
          featAt := fun q' k i => if q' = q ∧ k = id.toNat then none else d.featAt q' k i })

/-- the loop of `decodeObjects` and of `DecodeResource` (ecore/binarydecoder.go 95-99, 288-294) -/
def readObjects (dec : Dec D → Parser D (Option Nat × Dec D)) : Nat → Dec D → Parser D (List (Option Nat) × Dec D)
  | 0, d => pure ([], d)
  | n + 1, d => do
    let (o, d) ← dec d
    let (os, d) ← readObjects dec n d
    pure (o :: os, d)

/-- the loop over the strings of a list of data (ecore/binarydecoder.go 380-387) -/
def readStrings (t : Nat) : Nat → Parser D (List String)
  | 0 => pure []
  | n + 1 => do
    let s ← str
    if lim.literal t s = false then crash
    else
      let l ← readStrings t n
      pure (s :: l)

/-- `decodeFeatureValue` (ecore/binarydecoder.go 340-476) for the feature `i` of the object `o`; `list` tells whether the feature with
this ID has a list (`EGetFromID(...).(EList)`, 365) -/
def readValue (dec : Dec D → Parser D (Option Nat × Dec D)) (d : Dec D) (o i : Nat) (f : Feature) (list : Bool) : Parser D (Dec D) :=
  match kindOf f with
  | .objectContainer | .objectContainerProxy | .object | .objectProxy | .objectContainment | .objectContainmentProxy => do
    let (r, d) ← dec d
    pure (setSlot d o i (.obj r))
  | .objectList | .objectListProxy | .objectContainmentList | .objectContainmentListProxy =>
    if list then do
      let size ← int
      let n ← make lim size
      let (l, d) ← readObjects dec n d
      pure (setSlot d o i (.objs l))
    else crash
  | .data => do
    let s ← str
    if lim.literal f.dataType s then pure (setSlot d o i (.data (env.fromText f.dataType s))) else crash
  | .dataList => do
    let size ← int
    let l ← readStrings lim f.dataType size.toNat
    pure (setSlot d o i (.datas (l.map (env.fromText f.dataType))))
  | .enum => do
    let id ← int
    if (d.enums.length : Int) ≤ id then
      let s ← str
      if lim.literal f.dataType s then pure (setSlot { d with enums := d.enums ++ [s] } o i (.data (env.fromText f.dataType s))) else crash
    else
      let s ← index d.enums id
      if lim.literal f.dataType s then pure (setSlot d o i (.data (env.fromText f.dataType s))) else crash
  | .basic t => do
    let v ← value t
    pure (setSlot d o i (.data v))

/-- the feature data of an ID, `newFeatureData` (ecore/binarydecoder.go 256-263, 602-621) -/
def readFeature (d : Dec D) (q k c i : Nat) : Parser D (Feature × Bool × Dec D) :=
  match (env.features c)[i]? with
  | none => crash
  | some g =>
    match d.featAt q k i with
    | some f => pure (f, g.many, d)
    | none => do
      let name ← str
      match env.findFeature c name with
      | none => fail
      | some f => pure (f, g.many, { d with featAt := fun q' k' i' => if q' = q ∧ k' = k ∧ i' = i then some f else d.featAt q' k' i' })

/-- the loop of ecore/binarydecoder.go 255-273; `id` is the number read last (`featureID` + 1) -/
def readFeatures (dec : Dec D → Parser D (Option Nat × Dec D)) (o q k c : Nat) : Nat → Int → Dec D → Parser D (Dec D)
  | 0, _, _ => stuck
  | n + 1, id, d =>
    if id = 0 then pure d
    else if id < 0 then crash
    else do
      let (f, list, d) ← readFeature env d q k c (id - 1).toNat
      let d ← readValue env lim dec d o (id - 1).toNat f list
      let id ← int
      readFeatures dec o q k c n id d

/-- the proxy URI (ecore/binarydecoder.go 214-235); the number after it -/
def readProxy (id : Int) (d : Dec D) : Parser D (Option URI × Int × Dec D) :=
  if id = -2 then do
    let (u, d) ← readURI env d
    let id ← int
    pure (u, id, d)
  else pure (none, id, d)

/-- the ID (ecore/binarydecoder.go 237-253); the number after it -/
def readID (id : Int) : Parser D (Option Nat × Int) :=
  if id = -1 then do
    let i ← anyID
    if lim.acceptsID i then
      let id ← int
      pure (some i, id)
    else fail
  else pure (none, id)

/-- `decodeObject` (ecore/binarydecoder.go 191-280); the first argument bounds the number of the calls -/
def readObject : Nat → Dec D → Parser D (Option Nat × Dec D)
  | 0, _ => stuck
  | n + 1, d => do
    let id ← int
    if id = -1 then pure (none, d)
    else if (d.objs.length : Int) ≤ id then
      let ((q, k, c), d) ← readClass env d
      if lim.creatable c = false then crash
      else
        let id ← int
        let (u, id, d) ← readProxy env id d
        let (i, id) ← readID lim id
        let o := d.objs.length
        let d ← readFeatures env lim (readObject n) o q k c n id { d with objs := d.objs ++ [{ cls := c, proxy := u, id := i }] }
        pure (some o, d)
    else if id < 0 then crash
    else pure (some id.toNat, d)

/-- `decodeSignature`, `decodeVersion` (ecore/binarydecoder.go 169-189) -/
def readHeader : Parser D Unit := do
  let sig ← bytes
  if sig = binarySignature then
    let version ← int
    if version = binaryVersion then pure () else fail
  else fail

/-- `DecodeResource` (ecore/binarydecoder.go 69-103): the new contents and the objects; `n` bounds the number of the calls -/
def readResource (n : Nat) : Parser D (List (Option Nat) × List (Copy D)) := do
  readHeader
  let size ← int
  let k ← make lim size
  let (l, d) ← readObjects (readObject env lim n) k {}
  pure (l, d.objs)

/-- `DecodeObject` (ecore/binarydecoder.go 105-113) -/
def readRoot (n : Nat) : Parser D (Option Nat × List (Copy D)) := do
  readHeader
  let (o, d) ← readObject env lim n {}
  pure (o, d.objs)

/-- A resource: its contents and the number of its errors. -/
structure Resource where
  contents : List (Option Nat)
  errors : Nat
deriving DecidableEq, Repr

/-- `DecodeResource` with its deferred function (ecore/binarydecoder.go 71-80, 102).  Objects are numbered by their position among
those read; those that were in the contents before are other ones. -/
def load (n : Nat) (r : Resource) (ts : List (Tok D)) : Res Resource :=
  match readResource env lim n ts with
  | .ok ((l, _), _) => .ok { r with contents := r.contents ++ l }
  | .error => .ok { r with errors := r.errors + 1 }
  | .panic => .panic
  | .hang => .hang

end Verif.BinaryErrors
