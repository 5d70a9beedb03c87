/-!
# Databases in files and in memory

Where `SQLCodec` and `SQLStore` keep their databases: temporary files, files, databases in memory that are shared by name.  The content of a
database or of a document is the list of its rows (the first 100 bytes of a file are not modelled, except that there are at least 20).
A step is one use of a file or of a database; steps of different users come in any order.

What SQLite does is given by its documentation: a URI with `mode=memory` and `cache=shared` names a database of the process that is there as
long as a connection is open; `NewBackup` replaces the whole database; a missing file is created.
-/

namespace Verif.SQLMemory

abbrev Name := List Char
abbrev Content := List Nat

/-- A file, or a database of the process. -/
inductive Target where
  | file (path : Name)
  | mem (name : Name)
deriving DecidableEq, Repr

/-! ## URI of SQLite (https://www.sqlite.org/uri.html) -/

def hexDigit (c : Char) : Option Nat :=
  if '0' ≤ c ∧ c ≤ '9' then some (c.toNat - '0'.toNat)
  else if 'a' ≤ c ∧ c ≤ 'f' then some (c.toNat - 'a'.toNat + 10)
  else if 'A' ≤ c ∧ c ≤ 'F' then some (c.toNat - 'A'.toNat + 10)
  else none

/-- `%HH` is a character. -/
def percent : List Char → List Char
  | '%' :: a :: b :: cs =>
    match hexDigit a, hexDigit b with
    | some x, some y => Char.ofNat (16 * x + y) :: percent cs
    | _, _ => '%' :: percent (a :: b :: cs)
  | c :: cs => c :: percent cs
  | [] => []
termination_by l => l.length

/-- the path of a URI, without `file:` -/
def uriPath (uri : List Char) : List Char := uri.takeWhile (fun c => c ≠ '?' ∧ c ≠ '#')

/-- the parameters of a URI -/
def uriQuery (uri : List Char) : List Char := ((uri.dropWhile (fun c => c ≠ '?' ∧ c ≠ '#')).takeWhile (· ≠ '#')).drop 1

/-- `a=b&c=d` -/
def params : List Char → List (List Char)
  | [] => [[]]
  | '&' :: cs => [] :: params cs
  | c :: cs =>
    match params cs with
    | p :: ps => (c :: p) :: ps
    | [] => [[c]]

/-- What `file:<uri>` names. -/
def uriTarget (uri : List Char) : Target :=
  if "mode=memory".toList ∈ params (uriQuery uri) then .mem (percent (uriPath uri)) else .file (percent (uriPath uri))

/-- `fmt.Sprintf("file:%s?mode=memory&cache=shared", name)` (ecore/sqldecoder.go 632, ecore/sqlstore.go 640). -/
def memory (name : Name) : Target := uriTarget (name ++ "?mode=memory&cache=shared".toList)

/-! ## Users -/

/-- What a user of a database asks of the system. -/
inductive Instr where
  /-- a file is made with a content -/
  | create (path : Name) (c : Content)
  /-- `sqlitex.NewPool`, `sqlite.OpenConn` -/
  | openDB (t : Target)
  | closeDB (t : Target)
  /-- `sqlite.NewBackup` -/
  | backup (dst src : Target)
  /-- a row is inserted -/
  | insert (t : Target) (row : Nat)
  /-- the rows are read, or the bytes -/
  | read (t : Target)
  | remove (path : Name)
  /-- an index out of range -/
  | panic
deriving DecidableEq, Repr

/-- Those who read, write or keep documents in databases.  `name` is the base name of the URI of the resource, `tmp` what `sqlTmpDB`
(ecore/sqlcodec.go 32-50) gives: 16 random bytes (the test whether the file exists is never true there, as `os.Stat` gives no error then). -/
inductive User where
  /-- `NewSQLReaderDecoder`, `DecodeResource`: in memory or not, with `DECODER_DB_PATH` or not -/
  | reader (inMemory : Bool) (name : Name) (dbPath : Option Name) (tmp : Name) (doc : Content) (bytes : Nat)
  /-- `NewSQLWriterEncoder`, `EncodeResource` -/
  | writer (inMemory : Bool) (tmp : Name) (rows : Content)
  /-- `NewSQLStore`, changes, `Close`: `dir` and `base` are the path of the database -/
  | store (inMemory : Bool) (dir base : Name) (rows : Content)
deriving DecidableEq, Repr

/-- `newMemoryConnectionPool` (ecore/sqldecoder.go 584-663): the document is put in a temporary file, which is copied in memory and removed. -/
def memoryPool (name tmp : Name) (doc : Content) : List Instr :=
  [.create tmp doc, .openDB (.file tmp), .openDB (memory name), .backup (memory name) (.file tmp), .closeDB (.file tmp), .remove tmp]

/-- `newFileConnectionPool` (ecore/sqldecoder.go 665-678). -/
def filePool (tmp : Name) (doc : Content) : List Instr := [.create tmp doc, .openDB (.file tmp)]

/-- `NewSQLReaderDecoder` (ecore/sqldecoder.go 680-719) and `DecodeResource` (805-859). -/
def readerProgram (inMemory : Bool) (name : Name) (dbPath : Option Name) (tmp : Name) (doc : Content) (bytes : Nat) : List Instr :=
  let path := dbPath.getD tmp
  let gone := if dbPath = none then [.remove tmp] else []
  if inMemory then
    if bytes < 20 then [.panic]
    else memoryPool name path doc ++ [.read (memory name), .closeDB (memory name)] ++ gone
  else filePool path doc ++ [.read (.file path), .closeDB (.file path)] ++ gone

/-- `NewSQLWriterEncoder` (ecore/sqlencoder.go 687-787) and `EncodeResource` (866-906). -/
def writerProgram (inMemory : Bool) (tmp : Name) (rows : Content) : List Instr :=
  if inMemory then
    let t := memory ":memory:".toList
    .openDB t :: (rows.map (.insert t)) ++ [.read t, .closeDB t]
  else
    .openDB (.file tmp) :: (rows.map (.insert (.file tmp))) ++ [.closeDB (.file tmp), .read (.file tmp), .remove tmp]

/-- `NewSQLStore` (ecore/sqlstore.go 623-713): in memory, the database is copied from the file, and to the file when the store is closed. -/
def storeProgram (inMemory : Bool) (dir base : Name) (rows : Content) : List Instr :=
  let f := Target.file (dir ++ base)
  if inMemory then
    let t := memory base
    [.openDB f, .openDB t, .backup t f, .closeDB f] ++ rows.map (.insert t) ++ [.openDB f, .backup f t, .closeDB f, .closeDB t]
  else .openDB f :: (rows.map (.insert f)) ++ [.closeDB f]

/-- What a user does. -/
def program : User → List Instr
  | .reader m n p tmp doc b => readerProgram m n p tmp doc b
  | .writer m tmp rows => writerProgram m tmp rows
  | .store m dir base rows => storeProgram m dir base rows

/-! ## The system -/

/-- What a user has read. -/
inductive Result where
  | nothing
  | got (c : Content)
  | panicked
deriving DecidableEq, Repr

/-- Files, and databases in memory with the number of their users. -/
structure System where
  files : Name → Option Content
  mems : Name → Option (Content × Nat)

def setFile (s : System) (p : Name) (c : Option Content) : System := { s with files := fun q => if q = p then c else s.files q }
def setMem (s : System) (n : Name) (c : Option (Content × Nat)) : System := { s with mems := fun q => if q = n then c else s.mems q }

/-- the rows of a database -/
def content (s : System) : Target → Content
  | .file p => (s.files p).getD []
  | .mem n => ((s.mems n).map (·.1)).getD []

/-- the rows of an open database are changed -/
def write (s : System) (t : Target) (c : Content) : System :=
  match t with
  | .file p => setFile s p (some c)
  | .mem n => setMem s n ((s.mems n).map fun x => (c, x.2))

/-- One step of the system. -/
def exec (s : System) : Instr → System
  | .create p c => setFile s p (some c)
  | .openDB (.file p) => setFile s p (some ((s.files p).getD []))
  | .openDB (.mem n) =>
    match s.mems n with
    | some (c, k) => setMem s n (some (c, k + 1))
    | none => setMem s n (some ([], 1))
  | .closeDB (.file _) => s
  | .closeDB (.mem n) =>
    match s.mems n with
    | some (c, k) => setMem s n (if k ≤ 1 then none else some (c, k - 1))
    | none => s
  | .backup dst src => write s dst (content s src)
  | .insert t row => write s t (content s t ++ [row])
  | .read _ => s
  | .remove p => setFile s p none
  | .panic => s

/-- what a user has read after a step -/
def note (s : System) (r : Result) : Instr → Result
  | .read t => .got (content s t)
  | .panic => .panicked
  | _ => r

/-- Users with what they have still to do and what they have read. -/
structure Conf where
  sys : System
  users : List (List Instr × Result)

/-- A user makes a step. -/
def step (c : Conf) (i : Nat) : Conf :=
  match c.users[i]? with
  | some (a :: as, r) => ⟨exec c.sys a, c.users.set i (as, note c.sys r a)⟩
  | _ => c

/-- Users make steps in the order of a schedule. -/
def run : Conf → List Nat → Conf
  | c, [] => c
  | c, i :: is => run (step c i) is

/-- Users start. -/
def start (files : Name → Option Content) (us : List User) : Conf :=
  ⟨⟨files, fun _ => none⟩, us.map fun u => (program u, .nothing)⟩

end Verif.SQLMemory
