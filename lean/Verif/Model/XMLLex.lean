import Verif.Model.XMLString

/-!
# Reading the text of an XML document

`Decoder.Token` of the library encoding/xml, which `decodeTopObject` (ecore/xmldecoder.go 143-167) calls.  This is not code of
/repo: it is modelled so that what is written can be read back from the text.  An error is `none`.

Simplifications: comments, CDATA sections and directives, hexadecimal character references, and names with characters that are
not ASCII are errors; the content of processing instructions is not checked (the header written is always
`<?xml version="1.0" encoding="UTF-8"?>`).
-/

namespace Verif.XMLLex

open Verif.XMLString (Text)

/-- a name: namespace (or prefix) and local name -/
structure Name where
  space : Text
  loc : Text
deriving DecidableEq, Repr

/-- a token; in a raw token the namespaces of names are prefixes -/
inductive Token where
  | start (name : Name) (attributes : List (Name × Text))
  | stop (name : Name)
  | text (t : Text)
  | inst
deriving DecidableEq, Repr

/-! ## Text -/

/-- isInCharacterRange -/
def inRange (c : Char) : Bool :=
  c.toNat = 9 || c.toNat = 10 || c.toNat = 13 || (32 ≤ c.toNat && c.toNat ≤ 0xD7FF) || (0xE000 ≤ c.toNat && c.toNat ≤ 0xFFFD) ||
    (0x10000 ≤ c.toNat && c.toNat ≤ 0x10FFFF)

/-- the number of decimal digits, `none` for anything else -/
def decimal : Option Nat → Text → Option Nat
  | acc, [] => acc
  | acc, c :: t => if '0' ≤ c ∧ c ≤ '9' then decimal (some (10 * acc.getD 0 + (c.toNat - 48))) t else none

/-- what stands between `&` and `;` -/
def entity : Text → Option Char
  | '#' :: t => (decimal none t).bind fun n => if n ≤ 0x10FFFF then some (Char.ofNat n) else none
  | t =>
    if t = "lt".toList then some '<'
    else if t = "gt".toList then some '>'
    else if t = "amp".toList then some '&'
    else if t = "apos".toList then some '\''
    else if t = "quot".toList then some '"'
    else none

/-- State of `text`: outside of an entity, `true` after a carriage return, or inside an entity of which these characters (in
reverse order) were read. -/
inductive Mode where
  | plain (cr : Bool)
  | entity (acc : Text)
deriving DecidableEq, Repr

/-- the loop of `text`: entities are replaced, `\r\n` and `\r` become `\n` -/
def unescape : Mode → Text → Option Text
  | .plain _, [] => some []
  | .entity _, [] => none
  | .plain cr, c :: t =>
    if c = '&' then unescape (.entity []) t
    else if c = '\r' then (unescape (.plain true) t).map ('\n' :: ·)
    else if cr ∧ c = '\n' then unescape (.plain false) t
    else (unescape (.plain false) t).map (c :: ·)
  | .entity acc, c :: t =>
    if c = ';' then (entity acc.reverse).bind fun x => (unescape (.plain false) t).map (x :: ·)
    else unescape (.entity (c :: acc)) t

/-- `]]>` occurs -/
def hasEnd : Text → Bool
  | ']' :: ']' :: '>' :: _ => true
  | _ :: t => hasEnd t
  | [] => false

/-- `text`: the characters have to be legal -/
def readText (raw : Text) : Option Text := (unescape (.plain false) raw).filter fun t => t.all inRange

/-! ## Names -/

def isLetter (c : Char) : Bool := ('a' ≤ c && c ≤ 'z') || ('A' ≤ c && c ≤ 'Z')

def isDigit (c : Char) : Bool := '0' ≤ c && c ≤ '9'

/-- isNameByte -/
def isNameChar (c : Char) : Bool := isLetter c || isDigit c || c = '_' || c = ':' || c = '.' || c = '-'

/-- isSpace of `space` -/
def isSpace (c : Char) : Bool := c = ' ' || c = '\r' || c = '\n' || c = '\t'

/-- `space` -/
def skipSpace (t : Text) : Text := t.dropWhile isSpace

/-- `nsname` on the name that was read -/
def splitName (s : Text) : Option Name :=
  if s.count ':' > 1 then none
  else
    let p := s.takeWhile (· ≠ ':')
    let l := (s.dropWhile (· ≠ ':')).tail
    if p = [] ∨ l = [] then some ⟨[], s⟩ else some ⟨p, l⟩

/-- `nsname`: the name and what follows it -/
def readName (t : Text) : Option (Name × Text) :=
  match t with
  | c :: _ =>
    if isLetter c || c = '_' || c = ':' then (splitName (t.takeWhile isNameChar)).map (·, t.dropWhile isNameChar) else none
  | [] => none

/-! ## Tokens -/

/-- the attributes of a start tag, whether the element is empty, and what follows the tag -/
def readAttributes : Nat → Text → Option (List (Name × Text) × Bool × Text)
  | 0, _ => none
  | n + 1, t =>
    match skipSpace t with
    | '>' :: r => some ([], false, r)
    | '/' :: '>' :: r => some ([], true, r)
    | t => do
      let (name, r) ← readName t
      match skipSpace r with
      | '=' :: r =>
        match skipSpace r with
        | q :: r =>
          if q = '"' ∨ q = '\'' then
            match r.dropWhile (· ≠ q) with
            | _ :: rest =>
              let raw := r.takeWhile (· ≠ q)
              if '<' ∈ raw then none
              else do
                let v ← readText raw
                let (attributes, empty, rest) ← readAttributes n rest
                some ((name, v) :: attributes, empty, rest)
            | [] => none
          else none
        | [] => none
      | _ => none

/-- what follows `?>` -/
def skipInst : Text → Option Text
  | '?' :: '>' :: r => some r
  | _ :: r => skipInst r
  | [] => none

/-- `rawToken`, until the end of the text -/
def lex : Nat → Text → Option (List Token)
  | _, [] => some []
  | 0, _ :: _ => none
  | n + 1, '<' :: '/' :: t => do
    let (name, r) ← readName t
    match skipSpace r with
    | '>' :: r => (lex n r).map (.stop name :: ·)
    | _ => none
  | n + 1, '<' :: '?' :: t => do
    let r ← skipInst t
    (lex n r).map (.inst :: ·)
  | _ + 1, '<' :: '!' :: _ => none
  | n + 1, '<' :: t => do
    let (name, r) ← readName t
    let (attributes, empty, r) ← readAttributes (r.length + 1) r
    (lex n r).map ([.start name attributes] ++ (if empty then [.stop name] else []) ++ ·)
  | n + 1, c :: t =>
    let raw := c :: t.takeWhile (· ≠ '<')
    if hasEnd raw then none
    else do
      let x ← readText raw
      (lex n (t.dropWhile (· ≠ '<'))).map (.text x :: ·)

/-! ## Namespaces -/

def xmlns : Text := "xmlns".toList

/-- `translate` -/
def translate (ns : List (Text × Text)) (element : Bool) (n : Name) : Name :=
  if n.space = xmlns ∨ n.space = [] ∧ !element then n
  else if n.space = "xml".toList then { n with space := "http://www.w3.org/XML/1998/namespace".toList }
  else if n.space = [] ∧ n.loc = xmlns then n
  else match ns.lookup n.space with
    | some v => { n with space := v }
    | none => n

/-- the namespaces declared by the attributes, the last one first, before those declared outside -/
def declare (ns : List (Text × Text)) : List (Name × Text) → List (Text × Text)
  | [] => ns
  | (n, v) :: l =>
    if n.space = xmlns then declare ((n.loc, v) :: ns) l
    else if n.space = [] ∧ n.loc = xmlns then declare (([], v) :: ns) l
    else declare ns l

/-- `Token`, until the end: namespaces are translated and end tags have to fit; `open_` are the elements that are open, with
the namespaces that were declared outside -/
def resolve : List (Name × List (Text × Text)) → List (Text × Text) → List Token → Option (List Token)
  | [], _, [] => some []
  | _ :: _, _, [] => none
  | st, ns, .start name attributes :: l =>
    let ns' := declare ns attributes
    let name := translate ns' true name
    (resolve ((name, ns) :: st) ns' l).map (.start name (attributes.map fun a => (translate ns' false a.1, a.2)) :: ·)
  | (open_, outer) :: st, ns, .stop name :: l =>
    if translate ns true name = open_ then (resolve st outer l).map (.stop open_ :: ·) else none
  | [], _, .stop _ :: _ => none
  | st, ns, .text t :: l => (resolve st ns l).map (.text t :: ·)
  | st, ns, .inst :: l => (resolve st ns l).map (.inst :: ·)

/-- all the tokens of a document -/
def parse (t : Text) : Option (List Token) := (lex (t.length + 1) t).bind (resolve [] [])

end Verif.XMLLex
