/-!
# The tables of packages, classes and literals of a SQL store

A SQL store writes in its database which class an object has and which literal an enumeration attribute has: the tables `.packages`, `.classes` and
`.enums` (ecore/sqlschema.go 371-421) give numbers to the packages, classes and literals, the store keeps in its ID manager the numbers it knows, and
asks the tables for the others.  The database is opened any number of times, maybe with another version of the packages.

Simplified: the objects are roots without containers; the values of the attributes are those of dynamic packages, so a literal has no `Instance` and the value
of an attribute is the number of a literal; each object has all the attributes of `attrs`; the operations are executed one after the other (those that wait are
in `SQLPending`, the locks in `EncoderLocks`).  Left out: the super types, the tables of the classes and the constraints of the database
(`FOREIGN KEY` is not checked, `PRAGMA foreign_keys` is never given), an ID manager written by the client and errors of SQLite.
-/

namespace Verif.SQLMeta

/-- A literal of an enumeration: `GetLiteral` (the name if the literal is empty, ecore/eenumliteral_ext.go 23-28) and `GetValue`. -/
structure Lit where
  text : String
  value : Int
deriving DecidableEq, Repr

inductive Classifier where
  | cls (name : String)
  | enum (name : String) (lits : List Lit)
deriving DecidableEq, Repr

def Classifier.name : Classifier → String
  | .cls n => n
  | .enum n _ => n

structure Pkg where
  uri : String
  members : List Classifier
deriving DecidableEq, Repr

/-- The packages of the program in the order they were registered, and the types of the attributes: a package and the position of a classifier. -/
structure Meta where
  pkgs : List Pkg
  attrs : List (Nat × Nat)
deriving DecidableEq, Repr

/-- the last position where `f` holds -/
def lastIdx {α : Type} (f : α → Bool) : List α → Option Nat
  | [] => none
  | x :: xs =>
    match lastIdx f xs with
    | some i => some (i + 1)
    | none => if f x then some 0 else none

/-- `GetPackage` of the registry (ecore/epackageregistry_impl.go 52-70): a map, so that the last package registered with a URI is found; the delegate is left out -/
def getPackage (m : Meta) (uri : String) : Option Nat :=
  lastIdx (fun p => p.uri == uri) m.pkgs

/-- `GetEClassifier` (ecore/epackage_ext.go 53-69): a map made from the list, so that the last classifier of a name is found -/
def getClassifier (m : Meta) (p : Nat) (name : String) : Option (Nat × Classifier) := do
  let pkg ← m.pkgs[p]?
  let i ← lastIdx (fun c => c.name == name) pkg.members
  let c ← pkg.members[i]?
  pure (i, c)

/-- the classifier itself -/
def classifier (m : Meta) (r : Nat × Nat) : Option Classifier := do
  let pkg ← m.pkgs[r.1]?
  pkg.members[r.2]?

/-- `GetEEnumLiteralByLiteral` (ecore/eenum_ext.go 54-62) -/
def byLiteral (lits : List Lit) (t : String) : Option Nat :=
  lits.findIdx? (fun l => l.text == t)

/-- `GetEEnumLiteralByValue` (ecore/eenum_ext.go 43-51) -/
def byValue (lits : List Lit) (v : Int) : Option Nat :=
  lits.findIdx? (fun l => l.value == v)

/-- The database: the row number `i` of a table has the key `i + 1` (`AUTOINCREMENT`, and no row is removed).  A column of an attribute holds what
was written there. -/
structure Db where
  pkgs : List String
  classes : List (Nat × String)
  enums : List (Nat × String × String)
  objs : List Nat
  cols : Nat → Nat → Option Int

def Db.empty : Db := ⟨[], [], [], [], fun _ _ => none⟩

/-- the row with a key -/
def row {α : Type} (l : List α) (id : Int) : Option α :=
  if 1 ≤ id then l[(id - 1).toNat]? else none

/-- The ID manager of a store (ecore/sqlstore.go 331-420): what has a number, and what a number stands for. -/
structure Ids where
  pkgFrom : Int → Option Nat
  pkgId : Nat → Option Nat
  clsFrom : Nat → Option (Nat × Nat)
  clsId : Nat × Nat → Option Nat
  litFrom : Int → Option (Nat × Nat × Nat)
  litId : Nat × Nat × Nat → Option Nat
  objs : Nat → Option (Nat × Nat)

def Ids.empty : Ids := ⟨fun _ => none, fun _ => none, fun _ => none, fun _ => none, fun _ => none, fun _ => none, fun _ => none⟩

/-- A database and the store opened on it; `data` is the field `id` of the `sqlEncoderClassData` (ecore/sqlencoder.go 30-35), `none` for `-1`. -/
structure St where
  m : Meta
  db : Db
  ids : Ids
  data : Nat × Nat → Option Nat

def init (m : Meta) : St := ⟨m, .empty, .empty, fun _ => none⟩

def upd {α β : Type} [DecidableEq α] (f : α → β) (a : α) (b : β) : α → β := fun x => if x = a then b else f x

/-- `SetPackageID` (ecore/sqlstore.go 364-367) -/
def Ids.setPkg (i : Ids) (p : Nat) (id : Nat) : Ids :=
  { i with pkgFrom := upd i.pkgFrom id (some p), pkgId := upd i.pkgId p (some id) }

/-- `SetClassID` (ecore/sqlstore.go 369-372) -/
def Ids.setCls (i : Ids) (c : Nat × Nat) (id : Nat) : Ids :=
  { i with clsFrom := upd i.clsFrom id (some c), clsId := upd i.clsId c (some id) }

/-- `SetEnumLiteralID` (ecore/sqlstore.go 417-420) -/
def Ids.setLit (i : Ids) (l : Nat × Nat × Nat) (id : Nat) : Ids :=
  { i with litFrom := upd i.litFrom id (some l), litId := upd i.litId l (some id) }

/-- `SetObjectID` (ecore/sqlstore.go 393-404) -/
def Ids.setObj (i : Ids) (o : Nat) (c : Nat × Nat) : Ids :=
  { i with objs := upd i.objs o (some c) }

/-- the URI of a package -/
def uriOf (m : Meta) (p : Nat) : String := ((m.pkgs[p]?).map Pkg.uri).getD ""

/-- the name of a classifier -/
def nameOf (m : Meta) (c : Nat × Nat) : String := ((classifier m c).map Classifier.name).getD ""

/-- `encodePackage` (ecore/sqlencoder.go 648-680): a row unless the package has a number in the ID manager -/
def encodePackage (s : St) (p : Nat) : St × Nat :=
  match s.ids.pkgId p with
  | some id => (s, id)
  | none =>
    let id := s.db.pkgs.length + 1
    ({ s with db := { s.db with pkgs := s.db.pkgs ++ [uriOf s.m p] }, ids := s.ids.setPkg p id }, id)

/-- `encodeClass` (ecore/sqlencoder.go 501-569): the number of the class data, that of the ID manager, or a new row -/
def encodeClass (s : St) (c : Nat × Nat) : St × Nat :=
  match s.data c with
  | some id => (s, id)
  | none =>
    match s.ids.clsId c with
    | some id => ({ s with data := upd s.data c (some id) }, id)
    | none =>
      let (s, pid) := encodePackage s c.1
      let id := s.db.classes.length + 1
      ({ s with
          db := { s.db with classes := s.db.classes ++ [(pid, nameOf s.m c)] }
          data := upd s.data c (some id)
          ids := s.ids.setCls c id }, id)

/-- `encodeEnumLiteral` (ecore/sqlencoder.go 456-499); `t` is the text of the literal -/
def encodeLiteral (s : St) (l : Nat × Nat × Nat) (t : String) : St × Nat :=
  match s.ids.litId l with
  | some id => (s, id)
  | none =>
    let (s, pid) := encodePackage s l.1
    let id := s.db.enums.length + 1
    ({ s with
        db := { s.db with enums := s.db.enums ++ [(pid, nameOf s.m (l.1, l.2.1), t)] }
        ids := s.ids.setLit l id }, id)

/-- `encodeFeatureValue` of an enumeration (ecore/sqlencoder.go 436-443), with `ConvertToString` of a dynamic package (ecore/efactory_ext.go 92-98);
`none` is an error or a panic, which ends the operation -/
def encodeValue (s : St) (k : Nat) (v : Int) : St × Option Nat :=
  match s.m.attrs[k]? with
  | none => (s, none)
  | some e =>
    match classifier s.m e with
    | some (.enum _ lits) =>
      match (byValue lits v).bind (fun i => lits[i]?) with
      | none => (s, none)
      | some lit =>
        match byLiteral lits lit.text with
        | none => (s, none)
        | some j =>
          let (s, id) := encodeLiteral s (e.1, e.2, j) lit.text
          (s, some id)
    | _ => (s, none)

/-- `decodePackage` (ecore/sqldecoder.go 196-228): when there is no row, the URI is empty and the number zero -/
def decodePackage (s : St) (id : Int) : St × Option Nat :=
  match s.ids.pkgFrom id with
  | some p => (s, some p)
  | none =>
    let (pid, uri) := match row s.db.pkgs id with
      | some u => (id.toNat, u)
      | none => (0, "")
    match getPackage s.m uri with
    | some p => ({ s with ids := s.ids.setPkg p pid }, some p)
    | none => (s, none)

/-- `decodeClass` (ecore/sqldecoder.go 230-263) -/
def decodeClass (s : St) (id : Nat) : St × Option (Nat × Nat) :=
  match s.ids.clsFrom id with
  | some c => (s, some c)
  | none =>
    let (pid, name) := (row s.db.classes id).getD (0, "")
    match decodePackage s pid with
    | (s, none) => (s, none)
    | (s, some p) =>
      match getClassifier s.m p name with
      | some (i, .cls _) => ({ s with ids := s.ids.setCls (p, i) id }, some (p, i))
      | _ => (s, none)

/-- `decodeObject` (ecore/sqldecoder.go 278-340) -/
def decodeObject (s : St) (o : Nat) : St × Option (Nat × Nat) :=
  match s.ids.objs o with
  | some c => (s, some c)
  | none =>
    match row s.db.objs o with
    | none => (s, none)
    | some cid =>
      match decodeClass s cid with
      | (s, none) => (s, none)
      | (s, some c) => ({ s with ids := s.ids.setObj o c }, some c)

/-- the literal of a reference to it -/
def literal (m : Meta) (l : Nat × Nat × Nat) : Option Lit :=
  match classifier m (l.1, l.2.1) with
  | some (.enum _ lits) => lits[l.2.2]?
  | _ => none

/-- `decodeEnumLiteral` (ecore/sqldecoder.go 342-386) -/
def decodeLiteral (s : St) (id : Int) : St × Option (Nat × Nat × Nat) :=
  match s.ids.litFrom id with
  | some l => (s, some l)
  | none =>
    let (eid, pid, name, text) := match row s.db.enums id with
      | some (p, n, t) => (id.toNat, p, n, t)
      | none => (0, 0, "", "")
    match decodePackage s pid with
    | (s, none) => (s, none)
    | (s, some p) =>
      match getClassifier s.m p name with
      | some (i, .enum _ lits) =>
        match byLiteral lits text with
        | some j => ({ s with ids := s.ids.setLit (p, i, j) eid }, some (p, i, j))
        | none => (s, none)
      | _ => (s, none)

/-- the literals of the type of an attribute -/
def attrLits (m : Meta) (k : Nat) : List Lit :=
  match (m.attrs[k]?).bind (classifier m) with
  | some (.enum _ lits) => lits
  | _ => []

/-- `GetDefaultValue` of an attribute without a default value literal (ecore/estructuralfeature_ext.go 26-48, ecore/eenum_ext.go 24-30): the value of the first
literal -/
def default (m : Meta) (k : Nat) : Option Int :=
  ((attrLits m k)[0]?).map Lit.value

/-- What the calls give back; `nil` is the Go value, also given for errors (`awaitOperation`, ecore/sqlstore.go 1352-1361). -/
inductive Ans where
  | none
  | id (o : Nat)
  | cls (uri name : String)
  | list (l : List (String × String))
  | val (v : Int)
  | bool (b : Bool)
  | nil
deriving DecidableEq, Repr

/-- `decodeFeatureValue` of an enumeration (ecore/sqldecoder.go 484-500): a literal without instance is converted in the type of the attribute
(`CreateFromString`, ecore/efactory_ext.go 41-48), which panics when the type has no such literal -/
def decodeValue (s : St) (k : Nat) (raw : Option Int) : St × Ans :=
  match raw with
  | none => (s, (default s.m k).elim .nil .val)
  | some id =>
    match decodeLiteral s id with
    | (s, none) => (s, .nil)
    | (s, some l) =>
      match literal s.m l with
      | none => (s, .nil)
      | some lit =>
        match (byLiteral (attrLits s.m k) lit.text).bind (fun i => (attrLits s.m k)[i]?) with
        | none => (s, .nil)
        | some lit => (s, .val lit.value)

/-- the objects of `GetRoots` (ecore/sqlstore.go 1805-1830); the first error ends it -/
def decodeRoots (s : St) : List Nat → St × Option (List (Nat × Nat))
  | [] => (s, some [])
  | o :: os =>
    match decodeObject s o with
    | (s, none) => (s, none)
    | (s, some c) =>
      match decodeRoots s os with
      | (s, none) => (s, none)
      | (s, some cs) => (s, some (c :: cs))

/-- What the client does.  `open m keep` closes the store and opens another on the same database with the packages `m`, with the ID manager of the one
before if `keep` (option `SQL_OPTION_SQL_ID_MANAGER`); `other` opens a store with the ID manager of the one before on another, new database. -/
inductive Op where
  | create (c : Nat × Nat)
  | classOf (o : Nat)
  | roots
  | set (o k : Nat) (v : Int)
  | get (o k : Nat)
  | unset (o k : Nat)
  | isSet (o k : Nat)
  | open (m : Meta) (keep : Bool)
  | other
deriving DecidableEq, Repr

/-- the names of a class -/
def clsAns (m : Meta) (c : Nat × Nat) : String × String := (uriOf m c.1, nameOf m c)

def step (s : St) : Op → St × Ans
  -- `AddRoot` and `encodeObject` (ecore/sqlstore.go 1761-1770, ecore/sqlencoder.go 280-418) of a new object
  | .create c =>
    let (s, cid) := encodeClass s c
    let o := s.db.objs.length + 1
    ({ s with db := { s.db with objs := s.db.objs ++ [cid] }, ids := s.ids.setObj o c }, .id o)
  | .classOf o =>
    match decodeObject s o with
    | (s, some c) => (s, .cls (clsAns s.m c).1 (clsAns s.m c).2)
    | (s, none) => (s, .nil)
  | .roots =>
    match decodeRoots s ((List.range s.db.objs.length).map (· + 1)) with
    | (s, some cs) => (s, .list (cs.map (clsAns s.m)))
    | (s, none) => (s, .nil)
  -- `doSet` (ecore/sqlstore.go 1432-1473) without the result
  | .set o k v =>
    match decodeObject s o with
    | (s, none) => (s, .none)
    | (s, some _) =>
      match encodeValue s k v with
      | (s, none) => (s, .none)
      | (s, some id) => ({ s with db := { s.db with cols := upd s.db.cols o (upd (s.db.cols o) k (some id)) } }, .none)
  -- `doGet`, `getValue` (ecore/sqlstore.go 1379-1418)
  | .get o k =>
    match decodeObject s o with
    | (s, none) => (s, .nil)
    | (s, some _) => decodeValue s k (s.db.cols o k)
  -- `doUnSet` (ecore/sqlstore.go 1542-1566): the default value is written as it is
  | .unset o k =>
    match decodeObject s o with
    | (s, none) => (s, .none)
    | (s, some _) => ({ s with db := { s.db with cols := upd s.db.cols o (upd (s.db.cols o) k (default s.m k)) } }, .none)
  -- `doIsSet` (ecore/sqlstore.go 1491-1530): an `int64` is never equal to the default value, which is an `int`; NULL is `nil`
  | .isSet o k =>
    match decodeObject s o with
    | (s, none) => (s, .bool false)
    | (s, some _) =>
      match s.db.cols o k with
      | some _ => (s, .bool true)
      | none => (s, .bool (default s.m k).isSome)
  | .open m keep => (⟨m, s.db, if keep then s.ids else .empty, fun _ => none⟩, .none)
  | .other => (⟨s.m, .empty, s.ids, fun _ => none⟩, .none)

def run (s : St) : List Op → St × List Ans
  | [] => (s, [])
  | op :: ops =>
    let (s, a) := step s op
    let (s, as) := run s ops
    (s, a :: as)

end Verif.SQLMeta
