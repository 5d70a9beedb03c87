/-!
# URI fragments

ecore/eresource_impl.go (GetURIFragment, GetEObject), ecore/abstracteobject.go and ecore/emodelelement_ext.go
(EURIFragmentSegment, EObjectForFragmentSegment). Go strings are lists of bytes. The functions of the Go library that are used
(net/url PathEscape and PathUnescape, strconv Atoi and Itoa, strings LastIndex, Split and Join) are modelled too.
Objects and features are natural numbers. There are no proxies: a list and its unresolved list are the same.
-/

namespace Verif.Fragment

abbrev Str := List UInt8

/-- The bytes of an ASCII string. -/
def bytes (s : String) : Str := s.toList.map fun c => UInt8.ofNat c.toNat

/-! ## The Go library -/

/-- net/url shouldEscape for a path segment: letters, digits, `-_.~` and `$&+:=@` are kept. -/
def shouldEscape (c : UInt8) : Bool :=
  !((97 ≤ c && c ≤ 122) || (65 ≤ c && c ≤ 90) || (48 ≤ c && c ≤ 57) || c == 45 || c == 95 || c == 46 || c == 126 ||
    c == 36 || c == 38 || c == 43 || c == 58 || c == 61 || c == 64)

/-- An upper case hexadecimal digit. -/
def hex (n : UInt8) : UInt8 := if n < 10 then 48 + n else 55 + n

/-- net/url PathEscape. -/
def pathEscape (s : Str) : Str := s.flatMap fun c => if shouldEscape c then [37, hex (c / 16), hex (c % 16)] else [c]

/-- net/url ishex. -/
def isHex (c : UInt8) : Bool := (48 ≤ c && c ≤ 57) || (97 ≤ c && c ≤ 102) || (65 ≤ c && c ≤ 70)

/-- net/url unhex. -/
def unhex (c : UInt8) : UInt8 := if c ≤ 57 then c - 48 else if c ≤ 70 then c - 55 else c - 87

/-- net/url PathUnescape, `none` being an error. -/
def pathUnescape : Str → Option Str
  | [] => some []
  | c :: r =>
    if c = 37 then
      match r with
      | a :: b :: t => if isHex a && isHex b then (pathUnescape t).map ((unhex a * 16 + unhex b) :: ·) else none
      | _ => none
    else (pathUnescape r).map (c :: ·)

/-- strconv Itoa, `%d` of fmt. -/
def itoa (n : Nat) : Str := if n < 10 then [UInt8.ofNat (48 + n)] else itoa (n / 10) ++ [UInt8.ofNat (48 + n % 10)]

/-- Digits of a decimal number, `none` if another character is met. -/
def digits (acc : Nat) : Str → Option Nat
  | [] => some acc
  | c :: r => if 48 ≤ c && c ≤ 57 then digits (10 * acc + (c.toNat - 48)) r else none

/-- The largest int. -/
def maxInt : Nat := 2 ^ 63 - 1

/-- strconv Atoi: the value and whether there was no error. The value is 0 for a syntax error, the nearest int if it is out of
range. -/
def atoi (s : Str) : Int × Bool :=
  let neg := s.head? == some 45
  let ds := if s.head? == some 43 || neg then s.tail else s
  if ds.isEmpty then (0, false)
  else match digits 0 ds with
    | none => (0, false)
    | some n =>
      if neg then (if n ≤ maxInt + 1 then (-(n : Int), true) else (-(maxInt : Int) - 1, false))
      else (if n ≤ maxInt then ((n : Int), true) else ((maxInt : Int), false))

/-- strings.LastIndex of a character. -/
def lastIndex (c : UInt8) : Str → Option Nat
  | [] => none
  | x :: r =>
    match lastIndex c r with
    | some i => some (i + 1)
    | none => if x = c then some 0 else none

/-- strings.Split with a character. -/
def split (c : UInt8) : Str → List Str
  | [] => [[]]
  | x :: r =>
    if x = c then [] :: split c r
    else match split c r with
      | [] => [[x]]
      | s :: ss => (x :: s) :: ss

/-- strings.Join with a character. -/
def join (c : UInt8) : List Str → Str
  | [] => []
  | [s] => s
  | s :: ss => s ++ c :: join c ss

/-! ## Objects -/

/-- What the type assertions tell of an object. -/
inductive Kind where
  | named (name : Str)
  | annotation (source : Str)
  | plain
  deriving DecidableEq, Repr

/-- Value of a feature, not resolved. -/
inductive Val where
  | nil
  | obj (o : Nat)
  | list (os : List Nat)
  deriving DecidableEq, Repr

/-- Objects as this code sees them. `elem`: the object is a model element, whose functions are those of
ecore/emodelelement_ext.go. `contents` is `EContents()`. `feats` are all the features of the class of the object.
`uniDigit` tells whether the last character of a string, which is not ASCII, is a digit. -/
structure World where
  kind : Nat → Kind
  elem : Nat → Bool
  contents : Nat → List Nat
  feats : Nat → List Nat
  fname : Nat → Str
  many : Nat → Bool
  val : Nat → Nat → Val
  uniDigit : Str → Bool

/-- Result of a lookup. -/
inductive Ret where
  | panic
  | nil
  | obj (o : Nat)
  deriving DecidableEq, Repr

/-- ecore/eclass_ext.go:138-157: `nameToFeatureMap`, the last feature of a name wins. -/
def featureFromName (W : World) (c : Nat) (name : Str) : Option Nat := (W.feats c).reverse.find? fun f => W.fname f = name

/-- unicode.IsDigit of the last character. -/
def endsWithDigit (W : World) (s : Str) : Bool :=
  match s.getLast? with
  | none => false
  | some b => if b < 128 then 48 ≤ b && b ≤ 57 else W.uniDigit s

/-- The value of a feature as an object (ecore/abstracteobject.go:908-910). -/
def asObject : Val → Ret
  | .obj o => .obj o
  | _ => .nil

/-- ecore/abstracteobject.go:887-913. -/
def forSegmentBase (W : World) (c : Nat) (s : Str) : Ret :=
  if s.head? ≠ some 64 then .panic
  else
    let index := if endsWithDigit W s then lastIndex 46 s else none
    match index with
    | some i =>
      let pos := (atoi (s.drop (i + 1))).1
      match featureFromName W c ((s.take i).drop 1) with
      | none => .panic
      | some f =>
        match W.val c f with
        | .list l => if pos < l.length then (if pos < 0 then .panic else match l[pos.toNat]? with | some o => .obj o | none => .panic) else .nil
        | _ => .nil
    | none =>
      match featureFromName W c (s.drop 1) with
      | none => .panic
      | some f => asObject (W.val c f)

/-- ecore/abstracteobject.go:915-924: `none` is a panic. -/
def segmentBase (W : World) (c : Nat) (f : Option Nat) (o : Nat) : Option Str :=
  match f with
  | none => none
  | some f =>
    if W.many f then
      match W.val c f with
      | .list l =>
        let i : Str := match l.idxOf? o with | some i => itoa i | none => [45, 49]
        some ((64 :: W.fname f) ++ 46 :: i)
      | _ => none
    else some (64 :: W.fname f)

/-- The loops of ecore/emodelelement_ext.go:75-86 and 112-124: the object of the given kind after `count` others. -/
def nth (W : World) (k : Kind) : Int → List Nat → Ret
  | _, [] => .nil
  | count, o :: r => if W.kind o = k then (if count = 0 then .obj o else nth W k (count - 1) r) else nth W k count r

/-- The loops of ecore/emodelelement_ext.go:135-147 and 163-175: the number of objects of the given kind before `o`. -/
def before (W : World) (k : Kind) (o : Nat) : List Nat → Nat
  | [] => 0
  | x :: r => if x = o then 0 else (if W.kind x = k then 1 else 0) + before W k o r

/-- ecore/emodelelement_ext.go:90-126: a segment for a named element. -/
def forName (W : World) (c : Nat) (s : Str) : Ret :=
  let index := lastIndex 46 s
  let name : Str := match index with | some i => s.take i | none => s
  let num : Int × Bool := match index with | some i => atoi (s.drop (i + 1)) | none => (0, true)
  let name := if num.2 then name else s
  let count : Int := if num.2 then num.1 else 0
  let name := if name = [37] then [] else pathEscape name
  nth W (.named name) count (W.contents c)

/-- ecore/emodelelement_ext.go:43-128. The two parts of line 54 and 55 are read in the order of the source: the character after
the last `%` is read first. -/
def forSegmentElem (W : World) (c : Nat) (s : Str) : Ret :=
  match s.head? with
  | none => forSegmentBase W c s
  | some first =>
    if first = 64 then forSegmentBase W c s
    else if first = 37 then
      match lastIndex 37 s with
      | none => forName W c s
      | some index =>
        if index = 0 then forName W c s
        else match s[index + 1]? with
          | none => .panic
          | some d =>
            let hasCount := d == 46
            if index == s.length - 1 || hasCount then
              let encoded := (s.take index).drop 1
              let source := if encoded = [37] then [] else (pathUnescape encoded).getD []
              let num := atoi (s.drop (index + 2))
              let count := if hasCount && num.2 then num.1 else 0
              nth W (.annotation source) count (W.contents c)
            else forName W c s
    else forName W c s

/-- ecore/emodelelement_ext.go:130-190. -/
def segmentElem (W : World) (c : Nat) (f : Option Nat) (o : Nat) : Option Str :=
  match W.kind o with
  | .named name =>
    let count := before W (.named name) o (W.contents c)
    let s : Str := if name.length = 0 then [37] else pathEscape name
    some (if count > 0 then s ++ 46 :: itoa count else s)
  | .annotation source =>
    let count := before W (.annotation source) o (W.contents c)
    let s : Str := 37 :: ((if source.length = 0 then [37] else pathEscape source) ++ [37])
    some (if count > 0 then s ++ 46 :: itoa count else s)
  | .plain => segmentBase W c f o

/-- `EObjectForFragmentSegment` of an object. -/
def forSegment (W : World) (c : Nat) (s : Str) : Ret := if W.elem c then forSegmentElem W c s else forSegmentBase W c s

/-- `EURIFragmentSegment` of an object. -/
def segment (W : World) (c : Nat) (f : Option Nat) (o : Nat) : Option Str := if W.elem c then segmentElem W c f o else segmentBase W c f o

/-! ## Resources -/

/-- An ID manager as the resource uses it: the IDs printed with `%v`. -/
structure Manager where
  getID : Nat → Option Str
  getEObject : Str → Option Nat

/-- A resource: its contents, the container and the containing feature of each object, whether the resource of an object
(`EInternalResource`) is this one, the ID attribute of each object (`GetEObjectID`), the manager. -/
structure Resource where
  roots : List Nat
  container : Nat → Option Nat
  feature : Nat → Option Nat
  inside : Nat → Bool
  eid : Nat → Str
  manager : Option Manager

/-- ecore/eresource_impl.go:293-300. -/
def rootSegment (R : Resource) (o : Nat) : Str :=
  if R.roots.length > 1 then (match R.roots.idxOf? o with | some i => itoa i | none => [45, 49]) else []

/-- ecore/eresource_impl.go:302-309. -/
def idForObject (R : Resource) (o : Nat) : Str :=
  match R.manager with
  | none => R.eid o
  | some m =>
    match m.getID o with
    | some id => id
    | none => R.eid o

/-- The loop of ecore/eresource_impl.go:268-277 with `n` steps left. `x` is `internalEObject`. The result is the last
`internalEObject`, `isContained` and `fragmentPath`; a panic or no step left is `none`. -/
def climb (W : World) (R : Resource) (id : Str) : Nat → Nat → List Str → Option (Nat × Bool × List Str)
  | 0, _, _ => none
  | n + 1, x, path =>
    match R.container x with
    | none => some (x, false, path)
    | some c =>
      match (if id.length = 0 then (segment W c (R.feature x) x).map (· :: path) else some path) with
      | none => none
      | some path => if R.inside c then some (c, true, path) else climb W R id n c path

/-- ecore/eresource_impl.go:254-291. -/
def uriFragment (W : World) (R : Resource) (n : Nat) (o : Nat) : Option Str :=
  if (R.eid o).length > 0 then some (R.eid o)
  else
    let id := idForObject R o
    if R.inside o then
      if id.length > 0 then some id else some (47 :: rootSegment R o)
    else
      match climb W R id n o [] with
      | none => none
      | some (x, contained, path) =>
        if !contained then some [47, 45, 49]
        else if id.length = 0 then some (join 47 ([] :: rootSegment R x :: path))
        else some id

/-- The iteration of ecore/eresource_impl.go:315-321 over all the contents (parents first, property C13), `pending` being what
the iterator has still to visit. No step left is a panic. -/
def findID (W : World) (R : Resource) (id : Str) : Nat → List Nat → Ret
  | 0, _ => .panic
  | _ + 1, [] => .nil
  | n + 1, o :: rest => if id = R.eid o then .obj o else findID W R id n (W.contents o ++ rest)

/-- ecore/eresource_impl.go:311-323. -/
def objectByID (W : World) (R : Resource) (n : Nat) (id : Str) : Ret :=
  match R.manager with
  | some m => (match m.getEObject id with | some o => .obj o | none => .nil)
  | none => findID W R id n R.roots

/-- ecore/eresource_impl.go:338-351. -/
def objectForRoot (W : World) (R : Resource) (n : Nat) (s : Str) : Ret :=
  match s with
  | 63 :: id => objectByID W R n id
  | _ =>
    let position := if s.length > 0 then (atoi s).1 else 0
    if position < 0 then .nil
    else match R.roots[position.toNat]? with
      | some o => .obj o
      | none => .nil

/-- The loop of ecore/eresource_impl.go:332-334. -/
def follow (W : World) : Ret → List Str → Ret
  | .obj o, s :: path => follow W (forSegment W o s) path
  | r, _ => r

/-- ecore/eresource_impl.go:325-336. -/
def objectByPath (W : World) (R : Resource) (n : Nat) (path : List Str) : Ret :=
  match path with
  | [] => objectForRoot W R n []
  | s :: path => follow W (objectForRoot W R n s) path

/-- ecore/eresource_impl.go:237-252. -/
def getEObject (W : World) (R : Resource) (n : Nat) (s : Str) : Ret :=
  if s.length > 0 then
    if s.head? = some 47 then objectByPath W R n ((split 47 s).drop 1)
    else if s.getLast? = some 63 then
      if s.length < 2 then .panic
      else match lastIndex 63 (s.take (s.length - 2)) with
        | some i => objectByID W R n (s.take i)
        | none => objectByID W R n s
    else objectByID W R n s
  else objectByID W R n s

end Verif.Fragment
