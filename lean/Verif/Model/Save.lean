/-!
# Saving and loading documents

What `Save` and `Load` of a resource do with documents and with the errors of the resource (ecore/eresource_impl.go 419-470 and
505-546), with the URI handlers (ecore/fileurihandler.go, ecore/memoryurihandler.go), the codecs and the order in which
the encoders write and report errors.

Simplified: what the values are and how they are written is the subject of C22, C59, C60 and C69; here a document is a
sequence of tokens.  URIs are numbers, taken as normalised (C47).
-/

namespace Verif.Save

/-- the codecs (ecore/xmlcodec.go, ecore/binarycodec.go, ecore/jsoncodec.go, ecore/sqlcodec.go) -/
inductive Codec where
  | xml
  | binary
  | json
  | sql
deriving DecidableEq, Repr

/-- the URI handlers (ecore/euriconverter_impl.go 13-17) -/
inductive Handler where
  | file
  | memory
deriving DecidableEq, Repr

/-- A value of an object, or one that its codec cannot write: for XML a reference to an object in no resource
(ecore/xmlencoder.go 768-789), for the other codecs a value its attribute type cannot convert. -/
inductive Item where
  | value (n : Nat)
  | unwritable
deriving DecidableEq, Repr

/-- a root object with all values below it -/
abbrev Root := List Item

/-- the parts of a document -/
inductive Tok where
  | header (c : Codec)
  | open
  | value (n : Nat)
  | close
deriving DecidableEq, Repr

abbrev Doc := List Tok

/-- the diagnostics of a resource -/
inductive Err where
  | noWriter
  | noReader
  | noCodec
  | unwritable
  | write
  | decode
deriving DecidableEq, Repr

/-- A resource (ecore/eresource_impl.go 161-172); the warnings are not modelled. -/
structure Resource where
  uri : Option Nat
  contents : List Root
  errors : List Err
  loaded : Bool
deriving DecidableEq, Repr

/-- What the operating system does during a call: if a file can be created or opened, how much can be written to it, how much of
it is lost when `Close` of the file fails (`none`: it does not fail), and if there is a name for a temporary file. -/
structure Disk where
  access : Bool
  room : Nat
  lost : Option Nat
  temp : Bool
deriving DecidableEq, Repr

/-- the URIs and what is registered for them -/
structure Cfg where
  handler : Nat → Option Handler
  codec : Nat → Option Codec

/-- The files and the resources. -/
structure St where
  files : Nat → Option Doc
  res : Nat → Resource

/-- the values of the items that can be written -/
def values (r : Root) : List Tok := r.filterMap fun
  | .value n => some (.value n)
  | .unwritable => none

/-- a root that is written completely -/
def rootDoc (r : Root) : Doc := .open :: values r ++ [.close]

/-- `write` (ecore/xmlstring.go 41-48, and `w.Write` of the other encoders): what arrives, and the error. -/
def write (d : Disk) (doc : Doc) : Doc × List Err := if doc.length ≤ d.room then (doc, []) else (doc.take d.room, [.write])

/-- the items before the first one that cannot be written -/
def until_ : Root → Doc × Bool
  | [] => ([], true)
  | .value n :: r => ((.value n) :: (until_ r).1, (until_ r).2)
  | .unwritable :: _ => ([], false)

/-- the roots up to the first item that cannot be written, and if there is none -/
def upTo : List Root → Doc × Bool
  | [] => ([], true)
  | r :: rs =>
    let (t, ok) := until_ r
    if ok then (.open :: t ++ .close :: (upTo rs).1, (upTo rs).2) else (.open :: t, false)

/-- The encoders: what they write to the writer and the errors they add to the resource; `none` is a panic.
- XML (ecore/xmlencoder.go 108-152): the first root; nothing at all if there is no root.  References to objects in no resource
  are reported (803-805), the rest is written.  The text is built first, then it is written.
- binary (ecore/binaryencoder.go 96-118): all roots, written one after the other, the encoder stops at the first error.
  Simplified: msgpack writes each value when it is encoded.
- JSON (ecore/jsonencoder.go 33-42): the first root; `errorFn` is never called, neither for values nor for the writer.
- SQL (ecore/sqlencoder.go 687-787 and 866-903): the first root, to a temporary database, up to the first error.  The database is then
  copied to the writer, after errors as well.  Without temporary file the codec gives an encoder that is nil,
  which is an interface that is not nil (737, ecore/sqlcodec.go 52-54, ecore/eresource_impl.go 530), so that the call
  panics. -/
def encode (c : Codec) (d : Disk) (roots : List Root) : Option (Doc × List Err) :=
  match c with
  | .xml =>
    match roots with
    | [] => some ([], [])
    | r :: _ =>
      let w := write d (.header .xml :: rootDoc r)
      some (w.1, (r.filter (· = .unwritable)).map (fun _ => Err.unwritable) ++ w.2)
  | .binary =>
    let t := upTo roots
    let w := write d (.header .binary :: t.1)
    some (w.1, if w.2 ≠ [] then w.2 else if t.2 then [] else [.unwritable])
  | .json =>
    match roots with
    | [] => some ([], [])
    | r :: _ => some ((write d (.header .json :: rootDoc r)).1, [])
  | .sql =>
    if d.temp then
      let t := upTo (roots.take 1)
      let w := write d (.header .sql :: t.1)
      some (w.1, (if t.2 then [] else [.unwritable]) ++ w.2)
    else none

def setRes (s : St) (i : Nat) (r : Resource) : St := { s with res := fun j => if j = i then r else s.res j }

def setFile (s : St) (u : Nat) (doc : Option Doc) : St := { s with files := fun v => if v = u then doc else s.files v }

/-- `SaveWithOptions` and `SaveWithWriter` (ecore/eresource_impl.go 505-546) with `CreateWriter` (ecore/euriconverter_impl.go 29-36,
ecore/fileurihandler.go 29-39: `os.Create` empties the file; ecore/memoryurihandler.go 18-20: no writer, no error).  The result of
`w.Close()` (519) is not looked at.  The second component: the call panicked. -/
def save (cfg : Cfg) (s : St) (i : Nat) (d : Disk) : St × Bool :=
  let r := s.res i
  match r.uri with
  | none => (s, false)
  | some u =>
    match cfg.handler u with
    | none => (setRes s i { r with errors := [.noWriter] }, false)
    | some .memory => (s, false)
    | some .file =>
      if d.access then
        let s := setFile s u (some [])
        match cfg.codec u with
        | none => (setRes s i { r with errors := [.noCodec] }, false)
        | some c =>
          match encode c d r.contents with
          | none => (setRes s i { r with errors := [] }, true)
          | some (doc, errors) =>
            let doc := match d.lost with
              | none => doc
              | some k => doc.take (doc.length - k)
            (setRes (setFile s u (some doc)) i { r with errors := errors }, false)
      else (setRes s i { r with errors := [.noWriter] }, false)

/-- the roots of a document; the first argument is the root that is being read -/
def parse : Option Root → Doc → Option (List Root)
  | none, [] => some []
  | none, .open :: t => parse (some []) t
  | some r, .value n :: t => parse (some (r ++ [.value n])) t
  | some r, .close :: t => (parse none t).map (r :: ·)
  | _, _ => none

/-- The decoders.  The XML decoder reads tokens until the end of the document (ecore/xmldecoder.go 144-168), an empty document is not an
error. -/
def decode (c : Codec) : Doc → Option (List Root)
  | .header c' :: t => if c = c' then parse none t else none
  | [] => if c = .xml then some [] else none
  | _ => none

/-- `LoadWithOptions` and `LoadWithReader` (ecore/eresource_impl.go 423-470) with `CreateReader`; a JSON decoder panics
(ecore/jsoncodec.go 26-28).  Simplified: what is read before an error of the decoder is dropped. -/
def load (cfg : Cfg) (s : St) (i : Nat) (d : Disk) : St × Bool :=
  let r := s.res i
  if r.loaded then (s, false)
  else
    match r.uri with
    | none => (s, false)
    | some u =>
      match cfg.handler u with
      | none => (setRes s i { r with errors := [.noReader] }, false)
      | some .memory => (s, false)
      | some .file =>
        match (if d.access then s.files u else none) with
        | none => (setRes s i { r with errors := [.noReader] }, false)
        | some doc =>
          match cfg.codec u with
          | none => (setRes s i { r with errors := [.noCodec] }, false)
          | some .json => (s, true)
          | some c =>
            match decode c doc with
            | none => (setRes s i { r with errors := [.decode], contents := [], loaded := true }, false)
            | some roots => (setRes s i { r with errors := [], contents := roots, loaded := true }, false)

/-- The calls: `Save`, `Load`, `Unload` (ecore/eresource_impl.go 476-493), `SetURI` (198-204), changes of the contents. -/
inductive Op where
  | save (i : Nat) (d : Disk)
  | load (i : Nat) (d : Disk)
  | unload (i : Nat)
  | setURI (i : Nat) (u : Option Nat)
  | edit (i : Nat) (contents : List Root)

/-- One call; the second component: it panicked.  A change of the contents makes the resource loaded unless it is empty (C28). -/
def step (cfg : Cfg) (s : St) : Op → St × Bool
  | .save i d => save cfg s i d
  | .load i d => load cfg s i d
  | .unload i =>
    let r := s.res i
    (if r.loaded then setRes s i { r with contents := [], errors := [], loaded := false } else s, false)
  | .setURI i u => (setRes s i { s.res i with uri := u }, false)
  | .edit i contents => (setRes s i { s.res i with contents := contents, loaded := !contents.isEmpty }, false)

/-- calls one after the other; a program that recovers from panics goes on -/
def run (cfg : Cfg) (s : St) : List Op → St
  | [] => s
  | op :: ops => run cfg (step cfg s op).1 ops

end Verif.Save
