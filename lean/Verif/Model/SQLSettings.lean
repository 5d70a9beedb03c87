/-!
# The settings of an SQL database

What is kept in an SQL database about its own layout: the codec version (`user_version`), the table of properties and the columns of the table of
objects; how it is written by the encoder (`SQLEncoder`, ecore/sqlencoder.go) and by the store (`SQLStore`, ecore/sqlstore.go), and read by the
decoder (`SQLDecoder`, ecore/sqldecoder.go) and by the store.

The database of SQLite is modelled by these parts alone; a name of a column is compared without the case of its letters, as SQLite does.  An
operation returns the database that it leaves behind and its result.  Left out: the other tables, the features of the objects, the rows of the
contents, identifiers that are key words, connections and locks, `SetObjectID` of the sql ID managers given as options (a row gets its key from
the database).
-/

namespace Verif.SQLSettings

abbrev Name := List Char

def keyCol : Name := "objectID".toList
def classCol : Name := "classID".toList
def containerCol : Name := "containerID".toList
def featureCol : Name := "containerFeatureID".toList

/-- names of columns are compared without case by SQLite -/
def fold (n : Name) : Name := n.map Char.toLower

/-- A value of SQLite. -/
inductive Cell where
  | null
  | int (n : Int)
  | text (t : Name)
deriving DecidableEq, Repr

/-- The table of properties: missing, one that cannot be read by `SELECT "key",value`, or its rows. -/
inductive Props where
  | missing
  | unreadable
  | table (l : List (Name × Name))
deriving DecidableEq, Repr

/-- The database: `PRAGMA user_version`, the properties, the columns of the table of objects, its rows and the last key given. -/
structure DB where
  version : Int
  props : Props
  cols : Option (List Name)
  rows : List (List Cell)
  seq : Nat
deriving DecidableEq, Repr

def DB.empty : DB := ⟨0, .missing, none, [], 0⟩

inductive Res (α : Type) where
  | ok (a : α)
  | err
  | panic
deriving DecidableEq, Repr

/-- An ID given to an ID manager: a text or a number. -/
inductive IdVal where
  | text (t : Name)
  | int (n : Int)
deriving DecidableEq, Repr

/-- An ID manager: the IDs that `SetID` takes without error. -/
structure Manager where
  accepts : IdVal → Bool

/-- `options[SQL_OPTION_CODEC_VERSION]` -/
inductive Ver where
  | absent
  | int64 (n : Int)
  | int (n : Int)
deriving DecidableEq, Repr

/-- The options: `OBJECT_ID` (empty if missing), `CONTAINER_ID`, `CODEC_VERSION`. -/
structure Opts where
  objectID : Name
  containerID : Bool
  version : Ver
deriving DecidableEq, Repr

/-- `sqlBase` (ecore/sqlbase.go 109-126) with `isForced` of the encoder and `createIfNotExists` of the schema; the schema is the columns of its table
of objects, `none` if it is nil -/
structure Settings where
  version : Int
  idName : Name
  manager : Option Manager
  isObjectID : Bool
  isContainerID : Bool
  schema : Option (List Name)
  forced : Bool
  ifNotExists : Bool

/-- `sqlCodecVersion` (ecore/sqlcodec.go 31) -/
def codecVersion : Int := 1

/-- the columns of the table of objects (`newSqlSchema`, ecore/sqlschema.go 391-408) -/
def columns (idName : Name) (container : Bool) : List Name :=
  [keyCol, classCol] ++ (if container then [containerCol, featureCol] else []) ++
    (if idName.length > 0 && decide (idName ≠ keyCol) then [idName] else [])

/-- `newSQLEncoder` (ecore/sqlencoder.go 797-864): the version is only taken as an `int64` -/
def encoderSettings (o : Opts) (m : Option Manager) : Settings :=
  let id := if o.objectID.length > 0 && m.isSome then o.objectID else []
  { version := match o.version with | .int64 n => n | _ => codecVersion
    idName := id, manager := m, isObjectID := decide (id ≠ []) && decide (id ≠ keyCol), isContainerID := o.containerID,
    schema := some (columns id o.containerID), forced := true, ifNotExists := false }

/-- `newSQLDecoder` (ecore/sqldecoder.go 742-803): the version is taken as an `int64` or as an `int` -/
def decoderSettings (o : Opts) (m : Option Manager) : Settings :=
  { version := match o.version with | .int64 n => n | .int n => n | .absent => codecVersion
    idName := [], manager := m, isObjectID := false, isContainerID := false, schema := none, forced := false, ifNotExists := false }

/-- `newSQLStore` (ecore/sqlstore.go 727-790): the name of the ID column is taken even without an ID manager, the container columns always -/
def storeSettings (o : Opts) (m : Option Manager) : Settings :=
  { version := match o.version with | .int64 n => n | _ => codecVersion
    idName := o.objectID, manager := m,
    isObjectID := decide (o.objectID.length > 0) && decide (o.objectID ≠ keyCol) && m.isSome, isContainerID := true,
    schema := none, forced := false, ifNotExists := true }

/-- is there a column of that name -/
def hasCol (cols : List Name) (n : Name) : Bool := cols.any fun c => decide (fold c = fold n)

/-- the value of the column of a row -/
def cellAt : List Name → List Cell → Name → Cell
  | c :: cs, v :: vs, n => if fold c = fold n then v else cellAt cs vs n
  | _, _, _ => .null

/-- are two columns of the same name -/
def dupCols : List Name → Bool
  | [] => false
  | c :: cs => hasCol cs c || dupCols cs

/-- `CREATE TABLE [IF NOT EXISTS] ".objects"` by SQLite (`createQuery`, ecore/sqlschema.go 134-192) -/
def createObjects (ifNotExists : Bool) (cols : List Name) (db : DB) : Option DB :=
  match db.cols with
  | some _ => if ifNotExists then some db else none
  | none => if dupCols cols then none else some { db with cols := some cols }

/-- `CREATE TABLE [IF NOT EXISTS] ".properties"` by SQLite -/
def createProps (ifNotExists : Bool) (db : DB) : Option DB :=
  match db.props with
  | .missing => some { db with props := .table [] }
  | _ => if ifNotExists then some db else none

/-- `INSERT INTO ".objects" (columns) VALUES (?,…) RETURNING objectID` by SQLite (`insertQuery`, ecore/sqlschema.go 194-221): a NULL key is
replaced by a new one -/
def insertRow (cols : List Name) (vals : List Cell) (db : DB) : Option (DB × Int) :=
  match db.cols with
  | none => none
  | some tc =>
    if cols.all (hasCol tc) && decide (cols.length = vals.length) then
      let k : Int := db.seq + 1
      let row := tc.map fun c =>
        if fold c = fold keyCol then (match cellAt cols vals c with | .null => .int k | v => v) else cellAt cols vals c
      some ({ db with rows := db.rows ++ [row], seq := db.seq + 1 }, k)
    else none

/-- `INSERT OR REPLACE INTO ".properties"` (`insertOrReplaceQuery`, ecore/sqlschema.go 223-244) -/
def setProp (l : List (Name × Name)) (k v : Name) : List (Name × Name) := l.filter (fun e => decide (e.1 ≠ k)) ++ [(k, v)]

/-- `decodeProperties` (ecore/sqlbase.go 281-311): `none` is an error -/
def decodeProperties (db : DB) : Option (List (Name × Name)) :=
  match db.props with
  | .missing => some []
  | .unreadable => none
  | .table l => some l

/-- `decodeVersion` (ecore/sqldecoder.go 146-161) -/
def decodeVersion (s : Settings) (db : DB) : Bool := !(decide (db.version > 0) && decide (db.version ≠ s.version))

/-- `strconv.ParseBool` of the Go standard library -/
def parseBool (t : Name) : Option Bool :=
  if t ∈ ["1", "t", "T", "true", "TRUE", "True"].map String.toList then some true
  else if t ∈ ["0", "f", "F", "false", "FALSE", "False"].map String.toList then some false
  else none

/-- `decodeSchema` (ecore/sqldecoder.go 163-194): an error on reading the properties is not returned, the schema stays nil then -/
def decodeSchema (s : Settings) (db : DB) : Res Settings :=
  match decodeProperties db with
  | none => .ok s
  | some props =>
    let id := (props.lookup keyCol).getD []
    let s := if s.manager.isSome && decide (id.length > 0) then
        { s with idName := id, isObjectID := decide (id ≠ keyCol) && s.manager.isSome } else s
    match props.lookup containerCol with
    | none => .ok { s with schema := some (columns (if s.isObjectID then s.idName else []) s.isContainerID) }
    | some t =>
      match parseBool t with
      | none => .err
      | some b => .ok { s with isContainerID := b, schema := some (columns (if s.isObjectID then s.idName else []) b) }

/-- `encodeVersion` (ecore/sqlencoder.go 197-215): writing the version that is there changes nothing -/
def encodeVersion (s : Settings) (db : DB) : DB := { db with version := s.version }

/-- `encodeSchema` (ecore/sqlencoder.go 217-232): a nil schema panics -/
def encodeSchema (s : Settings) (db : DB) : DB × Res Unit :=
  match s.schema with
  | none => (db, .panic)
  | some cols =>
    match createProps s.ifNotExists db with
    | none => (db, .err)
    | some db =>
      match createObjects s.ifNotExists cols db with
      | none => (db, .err)
      | some db => (db, .ok ())

/-- the properties that are written (ecore/sqlencoder.go 242-248) -/
def properties (s : Settings) : List (Name × Name) :=
  (if s.idName.length > 0 then [(keyCol, s.idName)] else []) ++ (if s.isContainerID then [(containerCol, "true".toList)] else [])

/-- `encodeProperties` (ecore/sqlencoder.go 234-261): a missing property is the empty text -/
def encodeProperties (s : Settings) (db : DB) : DB × Res Unit :=
  match db.props with
  | .table l =>
    let previous := if s.forced then [] else l
    let l' := (properties s).foldl (fun l e => if (previous.lookup e.1).getD [] ≠ e.2 then setProp l e.1 e.2 else l) l
    ({ db with props := .table l' }, .ok ())
  | _ => (db, .err)

/-- An object: its class, its container (its key, and the ID of the feature; −1 and −1 if there is none), its ID as a text if it has one. -/
structure Obj where
  cls : Int
  container : Int × Int
  id : Option Name
deriving DecidableEq, Repr

/-- the text of no ID (`fmt.Sprintf("%v", nil)`) -/
def nilText : Name := "<nil>".toList

/-- the arguments of the insertion of an object (`encodeObject`, ecore/sqlencoder.go 302-324) -/
def objectArgs (s : Settings) (o : Obj) : List Cell :=
  [.null, .int o.cls] ++
    (if s.isContainerID then (if o.container.1 > 0 then [.int o.container.1, .int o.container.2] else [.null, .null]) else []) ++
    (if s.isObjectID then [.text (o.id.getD nilText)] else [])

/-- `encodeObject` (ecore/sqlencoder.go 278-340) for an object that is not in the database yet: its row -/
def encodeObject (s : Settings) (o : Obj) (db : DB) : DB × Res Int :=
  match s.schema with
  | none => (db, .panic)
  | some cols =>
    match insertRow cols (objectArgs s o) db with
    | none => (db, .err)
    | some (db, k) => (db, .ok k)

/-- several objects one after the other, up to the first error -/
def encodeObjects (s : Settings) : List Obj → DB → DB × Res Unit
  | [], db => (db, .ok ())
  | o :: os, db =>
    match encodeObject s o db with
    | (db, .ok _) => encodeObjects s os db
    | (db, .err) => (db, .err)
    | (db, .panic) => (db, .panic)

/-- `EncodeResource` (ecore/sqlencoder.go 866-903); the objects are those that are reached from the first root, in the order of their insertion -/
def encode (o : Opts) (m : Option Manager) (objs : List Obj) (db : DB) : DB × Res Unit :=
  let s := encoderSettings o m
  match encodeSchema s (encodeVersion s db) with
  | (db, .ok _) =>
    match encodeProperties s db with
    | (db, .ok _) => encodeObjects s objs db
    | r => r
  | r => r

/-- `newSQLStore` (ecore/sqlstore.go 719-854) -/
def openStore (o : Opts) (m : Option Manager) (db : DB) : DB × Res Settings :=
  let s := storeSettings o m
  if decodeVersion s db then
    match decodeSchema s db with
    | .ok s =>
      match encodeSchema s (encodeVersion s db) with
      | (db, .ok _) =>
        match encodeProperties s db with
        | (db, .ok _) => (db, .ok s)
        | (db, .err) => (db, .err)
        | (db, .panic) => (db, .panic)
      | (db, .err) => (db, .err)
      | (db, .panic) => (db, .panic)
    | .err => (db, .err)
    | .panic => (db, .panic)
  else (db, .err)

/-- a store is opened, objects are added to it, it is closed -/
def session (o : Opts) (m : Option Manager) (objs : List Obj) (db : DB) : DB × Res Unit :=
  match openStore o m db with
  | (db, .ok s) => encodeObjects s objs db
  | (db, .err) => (db, .err)
  | (db, .panic) => (db, .panic)

/-- `stmt.ColumnInt64` -/
def Cell.toInt : Cell → Int
  | .int n => n
  | _ => 0

/-- `stmt.ColumnText`; the decimal text of a number is left out -/
def Cell.toText : Cell → Name
  | .text t => t
  | _ => []

/-- `SetID` of the ID manager if there is one and an ID is read: `none` is an error -/
def setID (m : Option Manager) (v : Option IdVal) : Option (Option IdVal) :=
  match m, v with
  | some m, some v => if m.accepts v then some (some v) else none
  | _, _ => some none

/-- the first row with that key -/
def findRow (tc : List Name) (k : Int) (rows : List (List Cell)) : Option (List Cell) :=
  rows.find? fun r => decide (cellAt tc r keyCol = .int k)

/-- `decodeObject` (ecore/sqldecoder.go 278-340) for an object that is not registered: its class and its ID; the columns are selected by their
names -/
def decodeObject (s : Settings) (k : Int) (db : DB) : Res (Int × Option IdVal) :=
  match s.schema with
  | none => .panic
  | some _ =>
    match db.cols with
    | none => .err
    | some tc =>
      if hasCol tc classCol && (!s.isObjectID || hasCol tc s.idName) then
        match findRow tc k db.rows with
        | none => .err
        | some r =>
          let v : Option IdVal :=
            if s.isObjectID then some (.text (cellAt tc r s.idName).toText)
            else if s.idName = keyCol then some (.int k) else none
          match setID s.manager v with
          | none => .err
          | some id => .ok ((cellAt tc r classCol).toInt, id)
      else .err

/-- `doGetContainer` (ecore/sqlstore.go 2140-2187): the key of the container and the ID of its feature -/
def getContainer (k : Int) (db : DB) : Res (Option (Int × Int)) :=
  match db.cols with
  | none => .err
  | some tc =>
    if hasCol tc containerCol && hasCol tc featureCol then
      match findRow tc k db.rows with
      | none => .err
      | some r =>
        let c := (cellAt tc r containerCol).toInt
        if c = -1 then .err else if c = 0 then .ok none else .ok (some (c, (cellAt tc r featureCol).toInt))
    else .err

/-- one row of `decodeObjects` (ecore/sqldecoder.go 961-1003): `SELECT *`, the columns are read by their positions, the ID in column 2 -/
def decodeRow (s : Settings) (r : List Cell) : Option (Int × Int × Option IdVal) :=
  let k := (r.getD 0 .null).toInt
  let v : Option IdVal :=
    if s.isObjectID then (match r.getD 2 .null with | .text t => some (.text t) | _ => none)
    else if s.idName = keyCol then some (.int k) else none
  (setID s.manager v).map fun id => (k, (r.getD 1 .null).toInt, id)

/-- `decodeObjects` (ecore/sqldecoder.go 961-1003) -/
def decodeObjects (s : Settings) (db : DB) : Res (List (Int × Int × Option IdVal)) :=
  match s.schema with
  | none => .panic
  | some _ =>
    match db.cols with
    | none => .err
    | some _ =>
      match db.rows.mapM (decodeRow s) with
      | none => .err
      | some l => .ok l

/-- `DecodeResource` (ecore/sqldecoder.go 805-857): the keys, classes and IDs of the objects read -/
def decode (o : Opts) (m : Option Manager) (db : DB) : Res (List (Int × Int × Option IdVal)) :=
  let s := decoderSettings o m
  if decodeVersion s db then
    match decodeSchema s db with
    | .ok s => decodeObjects s db
    | .err => .err
    | .panic => .panic
  else .err

end Verif.SQLSettings
