import Verif.Model.URI

/-!
# ParseURI with the parser of the standard library

ecore/uri.go:210-235 reads a text with `url.Parse` of the Go standard library (package `net/url`, Go 1.23) and puts the result into the
components of a URI.  The standard library is not part of /repo: its functions `Parse`, `parse`, `getScheme`, `parseAuthority`,
`parseHost`, `validOptionalPort`, `validUserinfo`, `unescape`, `shouldEscape` are modelled here from their published source.
The cache in front of them is `cacheStep` in Model/URI.lean.

A text is a list of characters.  `%XX` gives the character with this code: right below 0x80; above, the Go code gets a byte of a UTF-8
sequence, which is not put together here.
-/

namespace Verif.NetURL
open Verif.URI

/-- `strings.Cut` at a character: what precedes its first occurrence and what follows, if there is one. -/
def cutFirst (c : Char) : List Char → List Char × Option (List Char)
  | [] => ([], none)
  | x :: s => if x = c then ([], some s) else (x :: (cutFirst c s).1, (cutFirst c s).2)

/-- Split at `strings.LastIndex` of a character, if there is one. -/
def cutLast (c : Char) : List Char → Option (List Char × List Char)
  | [] => none
  | x :: s =>
    match cutLast c s with
    | some (a, b) => some (x :: a, b)
    | none => if x = c then some ([], s) else none

/-- `encoding` of net/url, as far as ParseURI needs it. -/
inductive Mode where
  | path | userPassword | fragment | host | zone
  deriving DecidableEq, Repr

def isHex (c : Char) : Bool := c.isDigit || ('a' ≤ c && c ≤ 'f') || ('A' ≤ c && c ≤ 'F')

def unhex (c : Char) : Nat :=
  if c.isDigit then c.toNat - '0'.toNat else if 'a' ≤ c then c.toNat - 'a'.toNat + 10 else c.toNat - 'A'.toNat + 10

/-- `!shouldEscape(c, encodeHost)` for c < 0x80 (the answer is the same for `encodeZone`). -/
def hostAscii (c : Char) : Bool := c.isAlphanum || "-_.~!$&'()*+,;=:[]<>\"".toList.contains c

/-- Is the escape `%ab` accepted (net/url `unescape`): in a host only for non ASCII bytes and the percent sign, in a zone only for `%`,
the space and what may stand there unescaped. -/
def escapeOk (m : Mode) (a b : Char) : Bool :=
  isHex a && isHex b &&
  match m with
  | .host => decide (8 ≤ unhex a) || (a == '2' && b == '5')
  | .zone =>
    let v := unhex a * 16 + unhex b
    (a == '2' && b == '5') || v == 0x20 || (decide (v < 0x80) && hostAscii (Char.ofNat v))
  | _ => true

/-- net/url `unescape`; `none` is an error. -/
def unescape (m : Mode) : List Char → Option (List Char)
  | [] => some []
  | c :: s =>
    if c = '%' then
      match s with
      | a :: b :: s => if escapeOk m a b then (unescape m s).map (Char.ofNat (unhex a * 16 + unhex b) :: ·) else none
      | _ => none
    else if (m = .host ∨ m = .zone) ∧ c.toNat < 0x80 ∧ hostAscii c = false then none
    else (unescape m s).map (c :: ·)

/-- Characters which may follow the first letter of a scheme. -/
def schemeChar (c : Char) : Bool := c.isAlphanum || c == '+' || c == '-' || c == '.'

def scanScheme : List Char → Option (List Char × List Char)
  | [] => none
  | c :: s => if schemeChar c then (scanScheme s).map fun p => (c :: p.1, p.2) else if c = ':' then some ([], s) else none

/-- net/url `getScheme`: scheme and rest; `none` is an error (a leading colon). -/
def getScheme : List Char → Option (List Char × List Char)
  | [] => some ([], [])
  | c :: s =>
    if c = ':' then none
    else if c.isAlpha then
      match scanScheme s with
      | some (a, b) => some (c :: a, b)
      | none => some ([], c :: s)
    else some ([], c :: s)

/-- `strings.ToLower` on one ASCII character. -/
def lower (c : Char) : Char := if c.isUpper then Char.ofNat (c.toNat + 32) else c

/-- net/url `validOptionalPort`. -/
def validOptionalPort : List Char → Bool
  | [] => true
  | c :: s => c == ':' && s.all (·.isDigit)

/-- net/url `validUserinfo`. -/
def validUserinfo (s : List Char) : Bool := s.all fun c => c.isAlphanum || "-._:~!$&'()*+,;=%@".toList.contains c

/-- Split before the first `%25` (`strings.Index(host[:i], "%25")`). -/
def zoneAt : List Char → Option (List Char × List Char)
  | [] => none
  | c :: s => if ['%', '2', '5'].isPrefixOf (c :: s) then some ([], c :: s) else (zoneAt s).map fun p => (c :: p.1, p.2)

/-- net/url `parseHost`. -/
def parseHost (host : List Char) : Option (List Char) :=
  if host.head? = some '[' then
    match cutLast ']' host with
    | none => none
    | some (a, b) =>
      if validOptionalPort b = false then none
      else match zoneAt a with
        | none => unescape .host host
        | some (h, z) =>
          match unescape .host h, unescape .zone z, unescape .host (']' :: b) with
          | some x, some y, some w => some (x ++ y ++ w)
          | _, _, _ => none
  else
    match cutLast ':' host with
    | none => unescape .host host
    | some (_, b) => if validOptionalPort (':' :: b) = false then none else unescape .host host

/-- net/url `parseAuthority`: user, password, host (with the port). -/
def parseAuthority (authority : List Char) : Option (List Char × List Char × List Char) :=
  match cutLast '@' authority with
  | none => (parseHost authority).map fun h => ([], [], h)
  | some (userinfo, rest) =>
    match parseHost rest with
    | none => none
    | some h =>
      if validUserinfo userinfo = false then none
      else
        match cutFirst ':' userinfo with
        | (_, none) => (unescape .userPassword userinfo).map fun u => (u, [], h)
        | (u, some p) =>
          match unescape .userPassword u, unescape .userPassword p with
          | some u, some p => some (u, p, h)
          | _, _ => none

/-- `stringContainsCTLByte` of net/url. -/
def ctl (c : Char) : Bool := decide (c.toNat < 0x20) || c.toNat == 0x7f

/-- The part of net/url `parse` behind scheme and query, with scheme (in lower case) and query given, put into components by
ecore/uri.go:217-230. -/
def parseRest (scheme rest query : List Char) : Option Comps :=
  if rest.head? ≠ some '/' ∧ scheme ≠ [] then some ⟨scheme, [], [], [], [], rest, query, []⟩
  else if rest.head? ≠ some '/' ∧ ':' ∈ (cutFirst '/' rest).1 then none
  else if rest.take 2 = ['/', '/'] ∧ (scheme ≠ [] ∨ rest.take 3 ≠ ['/', '/', '/']) then
    match parseAuthority ((rest.drop 2).takeWhile (· ≠ '/')) with
    | none => none
    | some (u, p, h) =>
      (unescape .path ((rest.drop 2).dropWhile (· ≠ '/'))).map fun path =>
        ⟨scheme, u, p, (cutFirst ':' h).1, (cutFirst ':' h).2.getD [], path, query, []⟩
  else (unescape .path rest).map fun path => ⟨scheme, [], [], [], [], path, query, []⟩

/-- net/url `parse`, without the fragment. `ForceQuery` (a lone `?` at the end) has no effect on the components. -/
def parseBody (s : List Char) : Option Comps :=
  if s.any ctl then none
  else if s = ['*'] then some ⟨[], [], [], [], [], ['*'], [], []⟩
  else
    match getScheme s with
    | none => none
    | some (scheme, rest) => parseRest (scheme.map lower) (cutFirst '?' rest).1 ((cutFirst '?' rest).2.getD [])

/-- The components ParseURI reads from a text which is not in its cache, ecore/uri.go:214-230 with net/url `Parse`; `none` is an error. -/
def netParse (raw : List Char) : Option Comps :=
  match parseBody (cutFirst '#' raw).1 with
  | none => none
  | some c => (unescape .fragment ((cutFirst '#' raw).2.getD [])).map fun f => { c with fragment := f }

/-! ## Builders and constructors -/

/-- A setter of URIBuilder, ecore/uri.go:57-108. -/
inductive Setter where
  | scheme (s : List Char) | username (s : List Char) | password (s : List Char) | host (s : List Char) | port (s : List Char)
  | path (s : List Char) | query (s : List Char) | fragment (s : List Char) | clearQuery | clearFragment
  deriving DecidableEq, Repr

/-- ecore/uri.go:57-108. -/
def Setter.apply (c : Comps) : Setter → Comps
  | .scheme s => { c with scheme := s }
  | .username s => { c with username := s }
  | .password s => { c with password := s }
  | .host s => { c with host := s }
  | .port s => { c with port := s }
  | .path s => { c with path := s }
  | .query s => { c with query := s }
  | .fragment s => { c with fragment := s }
  | .clearQuery => { c with query := [] }
  | .clearFragment => { c with fragment := [] }

/-- The builder after NewURIBuilder(uri) and setters, ecore/uri.go:31-108; nil gives the empty builder. -/
def builder (u : Option URI) (sets : List Setter) : Comps :=
  sets.foldl Setter.apply (match u with
    | some u => u.toComps
    | none => ⟨[], [], [], [], [], [], [], []⟩)

/-- CreateFileURI, ecore/uri.go:744-756, on a system whose separator is `/` (ToSlash changes nothing; absolute paths begin with `/`). -/
def fileComps (path : List Char) : Comps :=
  if path = [] then ⟨[], [], [], [], [], [], [], []⟩
  else builder none (Setter.path path :: if path.head? = some '/' then [Setter.scheme "file".toList] else [])

/-- CreateMemoryURI, ecore/uri.go:758-765; nil for the empty path. -/
def memoryComps (path : List Char) : Option Comps :=
  if path = [] then none else some (builder none [Setter.scheme "memory".toList, Setter.path path])

end Verif.NetURL
