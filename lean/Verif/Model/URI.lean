/-!
# ecore/uri.go

Strings are lists of characters.  The Go code works on bytes for the component level and on runes in `normalize`; the two views agree
for valid UTF-8, which is what `Char` lists represent (invalid byte sequences are not modelled).

`none` is a Go panic (index or slice bounds out of range) or a loop which exhausted its fuel.  Every loop gets a fuel which is
enough, so that `some` in a theorem also means termination.
-/

namespace Verif.URI

/-- The rune 0, used by `split` as the segment terminator. -/
def nul : Char := Char.ofNat 0

/-! ## normalize -/

/-- ecore/uri.go:477-483: skip initial slashes; also the loop at 503-510 (skip redundant slashes).
The result is the new `p`. -/
def skipSlashes : Nat → List Char → Nat → Option Nat
  | 0, _, _ => none
  | n + 1, path, p =>
    match path[p]? with
    | none => some p
    | some c => if c = '/' then skipSlashes n path (p + 1) else some p

/-- ecore/uri.go:495-512: find the beginning of the next segment. Result: new `p` and new `normal`. -/
def nnFind : Nat → List Char → Nat → Bool → Option (Nat × Bool)
  | 0, _, _, _ => none
  | n + 1, path, p, normal =>
    match path[p]? with
    | none => some (p, normal)
    | some c =>
      if c ≠ '/' then nnFind n path (p + 1) normal
      else
        match skipSlashes (path.length + 1) path (p + 1) with
        | none => none
        | some q => some (q, normal && q == p + 1)

/-- ecore/uri.go:489-491: is `p` at a "." or ".." segment. `p ≤ end` here. The indexes `p+1`, `p+2` are read under the guards
of the source, which keep them in range. -/
def atDots (path : List Char) (p : Nat) : Bool :=
  path[p]? == some '.' &&
    (p + 1 == path.length ||
      (path[p + 1]? == some '/' ||
        (path[p + 1]? == some '.' && (p + 2 == path.length || path[p + 2]? == some '/'))))

/-- ecore/uri.go:487-513: scan the segments. Result: `ns` and `normal`. -/
def nnScan : Nat → List Char → Nat → Nat → Bool → Option (Nat × Bool)
  | 0, _, _, _, _ => none
  | n + 1, path, p, ns, normal =>
    if p < path.length then
      let normal := if atDots path p then false else normal
      match nnFind (path.length + 1) path p normal with
      | none => none
      | some (q, normal) => nnScan n path q (ns + 1) normal
    else some (ns, normal)

/-- ecore/uri.go:471-521. The result `some none` is the Go result -1. -/
def needsNormalization (path : List Char) : Option (Option Nat) :=
  match skipSlashes (path.length + 1) path 0 with
  | none => none
  | some p =>
    match nnScan (path.length + 1) path p 0 (decide (p ≤ 1)) with
    | none => none
    | some (ns, normal) => some (if normal then none else some ns)

/-- ecore/uri.go:540-546 and 563-569: skip slashes, writing rune 0 over them. -/
def skipNul : Nat → List Char → Nat → Option (List Char × Nat)
  | 0, _, _ => none
  | n + 1, path, p =>
    match path[p]? with
    | none => some (path, p)
    | some c => if c = '/' then skipNul n (path.set p nul) (p + 1) else some (path, p)

/-- ecore/uri.go:554-571: find the beginning of the next segment. -/
def splitFind : Nat → List Char → Nat → Option (List Char × Nat)
  | 0, _, _ => none
  | n + 1, path, p =>
    match path[p]? with
    | none => some (path, p)
    | some c =>
      if c ≠ '/' then splitFind n path (p + 1)
      else skipNul (path.length + 1) (path.set p nul) (p + 1)

/-- ecore/uri.go:548-573: note the start of each segment. `segs` is the array given by the caller, an entry -1 being `none`;
writing outside of it panics. -/
def splitScan : Nat → List Char → List (Option Nat) → Nat → Nat → Option (List Char × List (Option Nat))
  | 0, _, _, _, _ => none
  | n + 1, path, segs, p, i =>
    if p < path.length then
      if i < segs.length then
        match splitFind (path.length + 1) path (p + 1) with
        | none => none
        | some (path, q) => splitScan n path (segs.set i (some p)) q (i + 1)
      else none
    else some (path, segs)

/-- ecore/uri.go:534-574. -/
def split (path : List Char) (segs : List (Option Nat)) : Option (List Char × List (Option Nat)) :=
  match skipNul (path.length + 1) path 0 with
  | none => none
  | some (path, p) => splitScan (path.length + 1) path segs p 0

/-- The number of dots of the segment at `p` (0 if it is neither "." nor ".."), ecore/uri.go:588-599. Reading past the end panics. -/
def dotsAt (path : List Char) (p : Nat) : Option Nat :=
  match path[p]? with
  | none => none
  | some c =>
    if c = '.' then
      if p + 1 = path.length then some 1
      else match path[p + 1]? with
        | none => none
        | some d =>
          if d = nul then some 1
          else if d = '.' then
            if p + 2 = path.length then some 2
            else match path[p + 2]? with
              | none => none
              | some e => some (if e = nul then 2 else 0)
          else some 0
    else some 0

/-- ecore/uri.go:585-602: `for ok := true; ok; ok = i < ns`: find the next dots; result `i` and `dots`. An entry -1 read here
would panic. -/
def findDots : Nat → List Char → List (Option Nat) → Nat → Option (Nat × Nat)
  | 0, _, _, _ => none
  | n + 1, path, segs, i =>
    match segs[i]? with
    | some (some p) =>
      match dotsAt path p with
      | none => none
      | some 0 => if i + 1 < segs.length then findDots n path segs (i + 1) else some (i + 1, 0)
      | some d => some (i, d)
    | _ => none

/-- ecore/uri.go:615-619: the last entry before position `j` (exclusive) which is not -1. -/
def lastUsed : Nat → List (Option Nat) → Option (Nat × Nat)
  | 0, _ => none
  | j + 1, segs =>
    match segs[j]? with
    | some (some q) => some (j, q)
    | _ => lastUsed j segs

/-- ecore/uri.go:623: `path[q] == '.' && path[q+1] == '.' && path[q+2] == 0`, with short circuit and panics. -/
def isUp (path : List Char) (q : Nat) : Option Bool :=
  match path[q]? with
  | none => none
  | some c =>
    if c = '.' then
      match path[q + 1]? with
      | none => none
      | some d =>
        if d = '.' then
          match path[q + 2]? with
          | none => none
          | some e => some (e == nul)
        else some false
    else some false

/-- ecore/uri.go:581-628: the loop of `removeDots` from index `i`. -/
def removeDotsFrom : Nat → List Char → List (Option Nat) → Nat → Option (List (Option Nat))
  | 0, _, _, _ => none
  | n + 1, path, segs, i =>
    if i < segs.length then
      match findDots (segs.length + 1) path segs i with
      | none => none
      | some (i, dots) =>
        if i > segs.length ∨ dots = 0 then some segs
        else if dots = 1 then removeDotsFrom n path (segs.set i none) (i + 1)
        else
          match lastUsed i segs with
          | none => removeDotsFrom n path segs (i + 1)
          | some (j, q) =>
            match isUp path q with
            | none => none
            | some true => removeDotsFrom n path segs (i + 1)
            | some false => removeDotsFrom n path ((segs.set i none).set j none) (i + 1)
    else some segs

/-- ecore/uri.go:578-629. -/
def removeDots (path : List Char) (segs : List (Option Nat)) : Option (List (Option Nat)) :=
  removeDotsFrom (segs.length + 1) path segs 0

/-- ecore/uri.go:640-646: the first entry which is not -1. -/
def firstUsed : Nat → List (Option Nat) → Option (Nat × Nat)
  | _, [] => none
  | f, some p :: _ => some (f, p)
  | f, none :: segs => firstUsed (f + 1) segs

/-- ecore/uri.go:653-661: is there a colon before the end of the segment at `p`. -/
def colonAt : Nat → List Char → Nat → Option Bool
  | 0, _, _ => none
  | n + 1, path, p =>
    match path[p]? with
    | none => some false
    | some c => if c = ':' then some true else if c = nul then some false else colonAt n path (p + 1)

/-- ecore/uri.go:633-668. -/
def maybeAddLeadingDot (path : List Char) (segs : List (Option Nat)) : Option (List Char × List (Option Nat)) :=
  match path[0]? with
  | none => none
  | some c0 =>
    if c0 = nul then some (path, segs)
    else
      match firstUsed 0 segs with
      | none => some (path, segs)
      | some (0, _) => some (path, segs)
      | some (_ + 1, p) =>
        match colonAt (path.length + 1) path p with
        | none => none
        | some false => some (path, segs)
        | some true =>
          if 1 < path.length ∧ 0 < segs.length then some ((path.set 0 '.').set 1 nul, segs.set 0 (some 0)) else none

/-- ecore/uri.go:699-708: already at the segment: skip to its end. -/
def joinSkip : Nat → List Char → Nat → Option (List Char × Nat)
  | 0, _, _ => none
  | n + 1, path, p =>
    match path[p]? with
    | none => some (path, p)
    | some c => if c ≠ nul then joinSkip n path (p + 1) else some (path.set p '/', p + 1)

/-- ecore/uri.go:709-721: copy the segment at `q` down to `p`. -/
def joinCopy : Nat → List Char → Nat → Nat → Option (List Char × Nat)
  | 0, _, _, _ => none
  | n + 1, path, p, q =>
    match path[q]? with
    | none => some (path, p)
    | some c => if c ≠ nul then joinCopy n (path.set p c) (p + 1) (q + 1) else some (path.set p '/', p + 1)

/-- ecore/uri.go:692-723. -/
def joinLoop : List Char → List (Option Nat) → Nat → Option (List Char × Nat)
  | path, [], p => some (path, p)
  | path, none :: segs, p => joinLoop path segs p
  | path, some q :: segs, p =>
    if p = q then
      match joinSkip (path.length + 1) path p with
      | none => none
      | some (path, p) => joinLoop path segs p
    else if p < q then
      match joinCopy (path.length + 1) path p q with
      | none => none
      | some (path, p) => joinLoop path segs p
    else joinLoop path segs p

/-- ecore/uri.go:683-725. -/
def join (path : List Char) (segs : List (Option Nat)) : Option (List Char × Nat) :=
  match path[0]? with
  | none => none
  | some c => if c = nul then joinLoop (path.set 0 '/') segs 1 else joinLoop path segs 0

/-- ecore/uri.go:428-450. -/
def normalize (path : List Char) : Option (List Char) :=
  match needsNormalization path with
  | none => none
  | some none => some path
  | some (some ns) =>
    match split path (List.replicate ns (some 0)) with
    | none => none
    | some (buf, segs) =>
      match removeDots buf segs with
      | none => none
      | some segs =>
        match maybeAddLeadingDot buf segs with
        | none => none
        | some (buf, segs) =>
          match join buf segs with
          | none => none
          | some (buf, n) => some (buf.take n)

/-! ## URIs -/

/-- The components of a URI, ecore/uri.go:110-118. -/
structure Comps where
  scheme : List Char
  username : List Char
  password : List Char
  host : List Char
  port : List Char
  path : List Char
  query : List Char
  fragment : List Char
  deriving DecidableEq, Repr

/-- ecore/uri.go:110-120. -/
structure URI extends Comps where
  raw : List Char
  deriving DecidableEq, Repr

/-- The text written by NewURIFromComponents, ecore/uri.go:143-176. -/
def rawOf (c : Comps) : List Char :=
  (if c.scheme ≠ [] then c.scheme ++ [':'] else []) ++
  (if c.username ≠ [] ∨ c.password ≠ [] ∨ c.host ≠ [] ∨ c.port ≠ [] then
    ['/', '/'] ++
    (if c.username ≠ [] ∨ c.password ≠ [] then
      c.username ++ (if c.password ≠ [] then ':' :: c.password else []) ++ ['@'] else []) ++
    c.host ++ (if c.port ≠ [] then ':' :: c.port else [])
   else []) ++
  c.path ++
  (if c.query ≠ [] then '?' :: c.query else []) ++
  (if c.fragment ≠ [] then '#' :: c.fragment else [])

/-- NewURIFromComponents without its cache (ecore/uri.go:182-198): the slices of the text are the components given. The cache is in
`Cache` below. -/
def mk (c : Comps) : URI := { c with raw := rawOf c }

/-- ecore/uri.go:273. -/
def isOpaque (u : URI) : Bool := u.path.isEmpty

/-- `strings.Index`: the first position of `sub` in `s`, or -1. -/
def indexOf (sub : List Char) : List Char → Int
  | [] => if sub = [] then 0 else -1
  | c :: s =>
    if sub.isPrefixOf (c :: s) then 0
    else match indexOf sub s with
      | .ofNat n => .ofNat (n + 1)
      | .negSucc _ => -1

/-- A Go slice expression `s[a:b]`; `none` is the panic. -/
def slice (s : List Char) (a b : Int) : Option (List Char) :=
  if 0 ≤ a ∧ a ≤ b ∧ b ≤ s.length then some ((s.take b.toNat).drop a.toNat) else none

/-- ecore/uri.go:283-299. -/
def authority (u : URI) : Option (List Char) :=
  if u.host = [] then some []
  else
    let hostIndex := indexOf u.host u.raw
    let first := if u.username ≠ [] then indexOf u.username u.raw else hostIndex
    let last := hostIndex + u.host.length + if u.port ≠ [] then (u.port.length : Int) + 1 else 0
    slice u.raw first last

/-- ecore/uri.go:305-325. -/
def normalizeURI (u : URI) : Option URI :=
  if isOpaque u then some u
  else match normalize u.path with
    | none => none
    | some np => if np = u.path then some u else some (mk { u.toComps with path := np })

/-- `base[0 : strings.LastIndexByte(base, '/') + 1]`, the directory part of a path; empty if there is no slash. -/
def dirOf (path : List Char) : List Char := (path.reverse.dropWhile (· ≠ '/')).reverse

/-- ecore/uri.go:727-742. -/
def resolvePath (base child : List Char) : Option (List Char) := normalize (dirOf base ++ child)

/-- ecore/uri.go:327-356. The branch for a lone fragment (335-340) needs an empty path and is unreachable behind the test
`IsOpaque`; it is kept. -/
def resolveURI (u ref : URI) : Option URI :=
  if isOpaque ref || isOpaque u then some ref
  else
    match authority ref with
    | none => none
    | some refAuthority =>
      if ref.scheme = [] ∧ refAuthority = [] ∧ ref.path = [] ∧ ref.fragment ≠ [] ∧ ref.query = [] then
        if u.fragment = [] ∧ ref.fragment = u.fragment then some u
        else some (mk { u.toComps with fragment := ref.fragment })
      else if ref.scheme ≠ [] then some ref
      else if refAuthority = [] then
        let path := if ref.path.head? = some '/' then some ref.path else resolvePath u.path ref.path
        match path with
        | none => none
        | some path => some (mk { u.toComps with path := path, query := ref.query, fragment := ref.fragment })
      else some (mk { ref.toComps with scheme := u.scheme })

/-- ecore/uri.go:358-381. -/
def relativizeURI (u ref : URI) : Option URI :=
  if isOpaque ref || isOpaque u then some ref
  else if u.scheme ≠ ref.scheme then some ref
  else
    match authority u, authority ref with
    | some a, some b =>
      if a ≠ b then some ref
      else
        match normalize u.path, normalize ref.path with
        | some bp, some cp =>
          if bp = cp then some (mk ⟨[], [], [], [], [], [], ref.query, ref.fragment⟩)
          else
            let bp := if bp.getLast? = some '/' then bp else dirOf bp
            if bp.isPrefixOf cp then some (mk ⟨[], [], [], [], [], cp.drop bp.length, ref.query, ref.fragment⟩)
            else some ref
        | _, _ => none
    | _, _ => none

/-- ecore/uri.go:383-407. -/
def trimFragment (u : URI) : URI := mk { u.toComps with fragment := [] }
def trimQuery (u : URI) : URI := mk { u.toComps with query := [] }

/-- ecore/uri.go:409-422. -/
def replacePrefix (u old new : URI) : Option URI :=
  if u.scheme ≠ old.scheme ∨ u.username ≠ old.username ∨ u.password ≠ old.password ∨ u.host ≠ old.host ∨ u.port ≠ old.port then none
  else if old.path.isPrefixOf u.path then
    some (mk { u.toComps with scheme := new.scheme, path := new.path ++ u.path.drop old.path.length })
  else none

/-- ecore/uri.go:424-426. -/
def equals (u v : URI) : Bool := u.raw == v.raw

/-! ## The cache -/

/-- The process wide weak map, ecore/uri.go:133-140. The garbage collector may drop any entry at any time. -/
abbrev Cache := List Char → Option URI

inductive CacheOp where
  /-- `ParseURI(raw)` -/
  | parse (raw : List Char)
  /-- `NewURIFromComponents(...)` -/
  | make (c : Comps)
  /-- an entry is collected -/
  | evict (raw : List Char)
  deriving DecidableEq

def store (m : Cache) (raw : List Char) (u : URI) : Cache := fun r => if r = raw then some u else m r

/-- ecore/uri.go:142-203 and 210-235. `net` is the result of `net/url.Parse` put into components (217-230), `none` being a parse error;
it is a parameter. -/
def cacheStep (net : List Char → Option Comps) (m : Cache) : CacheOp → Cache × Option URI
  | .parse raw =>
    match m raw with
    | some u => (m, some u)
    | none =>
      match net raw with
      | none => (m, none)
      | some c => (store m raw { c with raw := raw }, some { c with raw := raw })
  | .make c =>
    match m (rawOf c) with
    | some u => (m, some u)
    | none => (store m (rawOf c) (mk c), some (mk c))
  | .evict raw => ((fun r => if r = raw then none else m r), none)

def cacheRun (net : List Char → Option Comps) (m : Cache) : List CacheOp → Cache
  | [] => m
  | op :: ops => cacheRun net (cacheStep net m op).1 ops

/-! ## URI converter -/

/-- ecore/euriconverter_impl.go:49-56: the first entry of the map (in the iteration order of this call) which applies. -/
def getURIFromMap (m : List (URI × URI)) (u : URI) : URI :=
  match m with
  | [] => u
  | (old, new) :: m =>
    match replacePrefix u old new with
    | some v => v
    | none => getURIFromMap m u

/-- ecore/euriconverter_impl.go:41-47. The iteration order of a Go map is arbitrary at each call: `order` gives the entries in the
order of the `i`-th call. `none`: still running after `fuel` calls. -/
def convert (order : Nat → List (URI × URI)) : Nat → Nat → URI → Option URI
  | 0, _, _ => none
  | fuel + 1, i, u =>
    let n := getURIFromMap (order i) u
    if equals u n then some n else convert order fuel (i + 1) n

end Verif.URI
