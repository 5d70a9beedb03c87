/-!
# The declaration of an XML document

The first line of a document: its version and its encoding, written by the XML encoder (ecore/xmlencoder.go 80-81, 100-106, 156-159) and read by the XML decoder
(ecore/xmldecoder.go 84-117, 803-835) and, before it, by the package `encoding/xml`, which has the same function `procInst`, refuses other versions than 1.0 and
gives what follows to the reader of the encoding, which is `charset.NewReaderLabel` (xmldecoder.go 89).

Strings are lists of bytes, and bytes and characters are numbers. Simplifications: what follows the declaration is one text, its elements are in other models (C43,
C103); the only instruction is the declaration, its target `xml` is followed by a space.
-/
set_option autoImplicit false
namespace Verif.XMLDecl

abbrev Bytes := List Nat

/-- the bytes of a literal of the code, which are all ASCII -/
def lit (s : String) : Bytes := s.toList.map Char.toNat

/-- the bytes of a character in UTF-8, which is how Go writes strings (`unicode/utf8`, `AppendRune`) -/
def utf8Char (c : Nat) : Bytes :=
  if c < 128 then [c]
  else if c < 2048 then [192 + c / 64, 128 + c % 64]
  else if c < 65536 then [224 + c / 4096, 128 + c / 64 % 64, 128 + c % 64]
  else [240 + c / 262144, 128 + c / 4096 % 64, 128 + c / 64 % 64, 128 + c % 64]

def utf8 (text : List Nat) : Bytes := text.flatMap utf8Char

/-- the byte continues a character -/
def isCont (b : Nat) : Bool := decide (128 ≤ b) && decide (b < 192)

/-- one character in UTF-8 (`unicode/utf8`, `DecodeRune`); bytes that are no character are an error (`encoding/xml`, `text`) -/
def decodeRune : Bytes → Option (Nat × Bytes)
  | [] => none
  | a :: r =>
    if a < 128 then some (a, r)
    else if a < 194 then none
    else if a < 224 then match r with
      | b :: r => if isCont b then some ((a - 192) * 64 + (b - 128), r) else none
      | _ => none
    else if a < 240 then match r with
      | b :: c :: r =>
        let n := (a - 224) * 4096 + (b - 128) * 64 + (c - 128)
        if isCont b && isCont c && decide (2048 ≤ n) && !(decide (55296 ≤ n) && decide (n < 57344)) then some (n, r) else none
      | _ => none
    else if a < 245 then match r with
      | b :: c :: d :: r =>
        let n := (a - 240) * 262144 + (b - 128) * 4096 + (c - 128) * 64 + (d - 128)
        if isCont b && isCont c && isCont d && decide (65536 ≤ n) && decide (n < 1114112) then some (n, r) else none
      | _ => none
    else none

/-- the characters of some bytes, a character has at least one byte -/
def decodeText : Nat → Bytes → Option (List Nat)
  | _, [] => some []
  | 0, _ :: _ => none
  | fuel + 1, b :: s => match decodeRune (b :: s) with
    | none => none
    | some (c, r) => (decodeText fuel r).map (c :: ·)

/-- `saveHeader` without the end of the line (ecore/xmlencoder.go 156-159) -/
def header (version encoding : Bytes) : Bytes :=
  lit "<?xml version=\"" ++ version ++ lit "\" encoding=\"" ++ encoding ++ lit "\"?>"

/-- `encodeTopObject` (ecore/xmlencoder.go 133-154): the header and what follows; the text is written as it is in memory, whatever the encoding is -/
def save (version encoding : Bytes) (text : List Nat) : Bytes := header version encoding ++ utf8 text

/-- `strings.Index` and the slice after what has been found -/
def after (p : Bytes) : Bytes → Option Bytes
  | [] => if p = [] then some [] else none
  | b :: s => if p.isPrefixOf (b :: s) then some ((b :: s).drop p.length) else after p s

/-- `strings.IndexRune` and the slice before what has been found -/
def before (q : Nat) : Bytes → Option Bytes
  | [] => none
  | b :: s => if b = q then some [] else (before q s).map (b :: ·)

/-- `procInst` (ecore/xmldecoder.go 815-835, and `encoding/xml`) -/
def procInst (param s : Bytes) : Bytes :=
  match after (param ++ lit "=") s with
  | none => []
  | some [] => []
  | some (q :: v) =>
    if q ≠ 39 ∧ q ≠ 34 then []
    else match before q v with
      | none => []
      | some w => w

/-- the bytes before `?>` and those after it (`encoding/xml`, `rawToken`) -/
def instruction : Bytes → Option (Bytes × Bytes)
  | [] => none
  | [_] => none
  | a :: b :: s => if a = 63 ∧ b = 62 then some ([], s) else (instruction (b :: s)).map (fun r => (a :: r.1, r.2))

/-- lower case of ASCII letters, for `strings.EqualFold` with `utf-8` -/
def lower (b : Nat) : Nat := if 65 ≤ b ∧ b ≤ 90 then b + 32 else b

/-- what is known when a document has been read: `GetXMLVersion`, `GetEncoding` (ecore/xmldecoder.go 111-117), and the text -/
structure Doc where
  version : Bytes
  encoding : Bytes
  text : List Nat
deriving DecidableEq, Repr

/-- `NewXMLDecoder` (ecore/xmldecoder.go 84-109), `decodeTopObject` (144-169) with `processingInstruction` (803-813), and the declaration in `encoding/xml`
(`rawToken`): `charsets` has for the name of an encoding what turns its bytes into those of UTF-8. An error is `none`. -/
def load (charsets : Bytes → Option (Bytes → Bytes)) (doc : Bytes) : Option Doc :=
  if (lit "<?xml ").isPrefixOf doc then
    match instruction (doc.drop 6) with
    | none => none
    | some (content, rest) =>
      let ver := procInst (lit "version") content
      let enc := procInst (lit "encoding") content
      if ver ≠ [] ∧ ver ≠ lit "1.0" then none
      else if enc ≠ [] ∧ enc.map lower ≠ lit "utf-8" then
        match charsets enc with
        | none => none
        | some conv => (decodeText (conv rest).length (conv rest)).map (fun t => ⟨ver, enc, t⟩)
      else (decodeText rest.length rest).map (fun t => ⟨ver, enc, t⟩)
  else (decodeText doc.length doc).map (fun t => ⟨[], [], t⟩)

end Verif.XMLDecl
