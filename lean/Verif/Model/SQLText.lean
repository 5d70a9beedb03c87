/-!
# The text of SQL statements

The tables that are made for the classes of a metamodel (`sqlSchema`, ecore/sqlschema.go) and the statements that are written for them
(`sqlTable`, ecore/sqlschema.go; `sqlSingleQueries` and `sqlManyQueries`, ecore/sqlstore.go).

A text is the list of its characters.  A statement is modelled by the calls of `WriteString` that make it: of a text, or of
`sqlEscapeIdentifier` of a name.  A panic is `none`.  The mapping of letters to lower and upper case (`strings.ToLower`, `strings.ToUpper`) is a
parameter.  Left out: that a statement is computed only once.
-/

namespace Verif.SQLText

abbrev Text := List Char

/-- ecore/sqlschema.go 524-547 -/
def sqliteKeyWords : List Text :=
  ["ABORT", "ACTION", "ADD", "AFTER", "ALL", "ALTER", "ALWAYS", "ANALYZE", "AND", "AS", "ASC", "ATTACH",
   "AUTOINCREMENT", "BEFORE", "BEGIN", "BETWEEN", "BY", "CASCADE", "CASE", "CAST", "CHECK", "COLLATE",
   "COLUMN", "COMMIT", "CONFLICT", "CONSTRAINT", "CREATE", "CROSS", "CURRENT", "CURRENT_DATE",
   "CURRENT_TIME", "CURRENT_TIMESTAMP", "DATABASE", "DEFAULT", "DEFERRABLE", "DEFERRED", "DELETE",
   "DESC", "DETACH", "DISTINCT", "DO", "DROP", "EACH", "ELSE", "END", "ESCAPE", "EXCEPT", "EXCLUDE",
   "EXCLUSIVE", "EXISTS", "EXPLAIN", "FAIL", "FILTER", "FIRST", "FOLLOWING", "FOR", "FOREIGN", "FROM",
   "FULL", "GENERATED", "GLOB", "GROUP", "GROUPS", "HAVING", "IF", "IGNORE", "IMMEDIATE", "IN", "INDEX",
   "INDEXED", "INITIALLY", "INNER", "INSERT", "INSTEAD", "INTERSECT", "INTO", "IS", "ISNULL", "JOIN",
   "KEY", "LAST", "LEFT", "LIKE", "LIMIT", "MATCH", "MATERIALIZED", "NATURAL", "NO", "NOT", "NOTHING",
   "NOTNULL", "NULL", "NULLS", "OF", "OFFSET", "ON", "OR", "ORDER", "OTHERS", "OUTER", "OVER", "PARTITION",
   "PLAN", "PRAGMA", "PRECEDING", "PRIMARY", "QUERY", "RAISE", "RANGE", "RECURSIVE", "REFERENCES", "REGEXP",
   "REINDEX", "RELEASE", "RENAME", "REPLACE", "RESTRICT", "RETURNING", "RIGHT", "ROLLBACK", "ROW", "ROWS", "SAVEPOINT",
   "SELECT", "SET", "TABLE", "TEMP", "TEMPORARY", "THEN", "TIES", "TO", "TRANSACTION", "TRIGGER", "UNBOUNDED", "UNION",
   "UNIQUE", "UPDATE", "USING", "VACUUM", "VALUES", "VIEW", "VIRTUAL", "WHEN", "WHERE", "WINDOW", "WITH", "WITHOUT"].map String.toList

/-- `isSqliteKeyWord` (ecore/sqlschema.go 549-557) -/
def isKeyWord (up : Char → Char) (k : Text) : Bool := decide (k ∈ sqliteKeyWords) || decide (k.map up ∈ sqliteKeyWords)

/-- `sqlEscapeIdentifier` (ecore/sqlschema.go 559-564); `id[0]` panics for the empty name -/
def escape (up : Char → Char) : Text → Option Text
  | [] => none
  | c :: t => if c = '.' || isKeyWord up (c :: t) then some ('"' :: (c :: t) ++ ['"']) else some (c :: t)

/-- What is written: a text, the escaped name, or the name escaped twice. -/
inductive Piece where
  | lit (t : Text)
  | name (t : Text)
  | twice (t : Text)
deriving DecidableEq, Repr

def piece (up : Char → Char) : Piece → Option Text
  | .lit t => some t
  | .name t => escape up t
  | .twice t => (escape up t).bind (escape up)

/-- The text of a `strings.Builder`. -/
def render (up : Char → Char) : List Piece → Option Text
  | [] => some []
  | p :: ps => (piece up p).bind fun a => (render up ps).map (a ++ ·)

/-- a text written -/
def w (s : String) : Piece := .lit s.toList

/-- The loops that write a comma before all elements but the first. -/
def commas : List (List Piece) → List Piece
  | [] => []
  | p :: ps => p ++ ps.flatMap fun q => w "," :: q

/-- `sqlColumn` (ecore/sqlschema.go 8-16); of the table referred to only its name and the name of its key -/
structure Column where
  name : Text
  type : Text
  primary : Bool := false
  auto : Bool := false
  reference : Option (Text × Text) := none
deriving DecidableEq, Repr

/-- `sqlTable` (ecore/sqlschema.go 106-112) -/
structure Table where
  name : Text
  key : Option Text
  columns : List Column
  indexes : List (List Text) := []
  createIfNotExists : Bool := false
deriving DecidableEq, Repr

/-- `keyName` (ecore/sqlschema.go 252-254); a table without key panics, as the empty name does -/
def keyName (t : Table) : Piece := .name (t.key.getD [])

def ifNotExists (t : Table) : List Piece := if t.createIfNotExists then [w "IF NOT EXISTS "] else []

/-- ecore/sqlschema.go 145-158 -/
def columnPieces (c : Column) : List Piece :=
  .name c.name :: w " " :: .lit c.type :: (if c.primary then w " PRIMARY KEY" :: (if c.auto then [w " AUTOINCREMENT"] else []) else [])

/-- ecore/sqlschema.go 159-170 -/
def referencePieces (c : Column) : List Piece :=
  match c.reference with
  | none => []
  | some (table, key) => [w ",FOREIGN KEY(", .name c.name, w ") REFERENCES ", .name table, w "(", .name key, w ")"]

/-- ecore/sqlschema.go 172-195; the name of the index is not escaped -/
def indexPieces (t : Table) (index : List Text) : List Piece :=
  w "\n" :: w "CREATE INDEX " :: ifNotExists t ++
    .lit ("\"idx_".toList ++ t.name ++ index.flatMap (fun c => '_' :: c) ++ "\" ON ".toList) :: .name t.name :: w "(" ::
    commas (index.map fun c => [.name c]) ++ [w ");"]

/-- `createQuery` (ecore/sqlschema.go 137-197) -/
def createQuery (t : Table) : List Piece :=
  w "CREATE TABLE " :: ifNotExists t ++ .name t.name :: w " (" :: commas (t.columns.map columnPieces) ++ t.columns.flatMap referencePieces ++
    w ");" :: t.indexes.flatMap (indexPieces t)

/-- ecore/sqlschema.go 202-216, 229-244 -/
def insertPieces (t : Table) : List Piece :=
  .name t.name :: w " (" :: commas (t.columns.map fun c => [.name c.name]) ++ w ") VALUES (" :: commas (t.columns.map fun _ => [w "?"])

/-- `insertQuery` (ecore/sqlschema.go 199-224) -/
def insertQuery (t : Table) : List Piece :=
  w "INSERT INTO " :: insertPieces t ++ [w ") RETURNING ", match t.key with | some k => .name k | none => w "rowid"]

/-- `insertOrReplaceQuery` (ecore/sqlschema.go 226-246) -/
def insertOrReplaceQuery (t : Table) : List Piece := w "INSERT OR REPLACE INTO " :: insertPieces t ++ [w ")"]

/-- `selectQuery` (ecore/sqlschema.go 256-280); the columns are pieces because some are escaped by the caller already -/
def selectQuery (t : Table) (columns : List Piece) (selection orderBy : List Piece) : List Piece :=
  w "SELECT " :: (if columns = [] then [w "*"] else commas (columns.map fun c => [c])) ++ w " FROM " :: .name t.name ::
    (if selection = [] then [] else w " WHERE " :: selection) ++ (if orderBy = [] then [] else w " ORDER BY " :: orderBy)

/-- the row with a number (ecore/sqldecoder.go 203, 237, 351) -/
def selectKeyQuery (t : Table) : List Piece := selectQuery t [] [keyName t, w "=?"] []

/-- all rows (ecore/sqldecoder.go 870-963, 1065; ecore/sqlstore.go 1809) -/
def selectRowsQuery (t : Table) : List Piece := selectQuery t [] [] []

/-- the rows of a list of all objects (ecore/sqldecoder.go 1093-1094): the columns are escaped twice -/
def selectListsQuery (t : Table) (column : Text) : List Piece :=
  selectQuery t [.twice (t.key.getD []), .twice column] [] [keyName t, w " ASC, idx ASC"]

/-! ## The statements of a store -/

/-- `getUpdateQuery` (ecore/sqlstore.go 36-51) -/
def updateQuery (t : Table) (column : Text) : List Piece :=
  [w "UPDATE ", .name t.name, w " SET ", .name column, w "=? WHERE ", keyName t, w "=?"]

/-- `getSelectQuery` (ecore/sqlstore.go 53-68) -/
def selectOneColumnQuery (t : Table) (column : Text) : List Piece :=
  [w "SELECT ", .name column, w " FROM ", .name t.name, w " WHERE ", keyName t, w "=?"]

/-- `getRemoveQuery` (ecore/sqlstore.go 70-83) -/
def removeRowQuery (t : Table) (column : Text) : List Piece := [w "DELETE FROM ", .name t.name, w " WHERE ", .name column, w "=?"]

/-- `getUpdateValueQuery` (ecore/sqlstore.go 110-129); `column` is the last column of the table -/
def updateValueQuery (t : Table) (column : Text) : List Piece :=
  [w "UPDATE ", .name t.name, w " SET ", .name column, w "=? WHERE rowid IN (SELECT rowid FROM ", .name t.name, w " WHERE ", keyName t,
   w "=?", w " ORDER BY ", keyName t, w " ASC, idx ASC LIMIT 1 OFFSET ?)"]

/-- `getUpdateIdxQuery` (ecore/sqlstore.go 131-149) -/
def updateIdxQuery (t : Table) (column : Text) : List Piece :=
  [w "UPDATE ", .name t.name, w " SET idx=? WHERE rowid IN (SELECT rowid FROM ", .name t.name, w " WHERE ", keyName t,
   w "=?", w " ORDER BY ", keyName t, w " ASC, idx ASC LIMIT 1 OFFSET ?) RETURNING ", .name column]

/-- `getSelectOneQuery` (ecore/sqlstore.go 151-167) -/
def selectOneQuery (t : Table) (column : Text) : List Piece :=
  [w "SELECT ", .name column, w " FROM ", .name t.name, w " WHERE ", keyName t, w "=? ORDER BY ", keyName t, w " ASC, idx ASC LIMIT 1 OFFSET ?"]

/-- `getSelectAllQuery` (ecore/sqlstore.go 169-185) -/
def selectAllQuery (t : Table) (column : Text) : List Piece :=
  [w "SELECT ", .name column, w " FROM ", .name t.name, w " WHERE ", keyName t, w "=? ORDER BY ", keyName t, w " ASC, idx ASC"]

/-- `getExistsQuery` (ecore/sqlstore.go 187-198) -/
def existsQuery (t : Table) : List Piece := [w "SELECT EXISTS(SELECT 1 FROM ", .name t.name, w " WHERE ", keyName t, w "=?)"]

/-- `getClearQuery` (ecore/sqlstore.go 200-211) -/
def clearQuery (t : Table) : List Piece := [w "DELETE FROM ", .name t.name, w " WHERE ", keyName t, w "=?"]

/-- `getCountQuery` (ecore/sqlstore.go 213-224) -/
def countQuery (t : Table) : List Piece := [w "SELECT COUNT(*) FROM ", .name t.name, w " WHERE ", keyName t, w "=?"]

/-- `getContainsQuery` (ecore/sqlstore.go 226-240) -/
def containsQuery (t : Table) (column : Text) : List Piece :=
  [w "SELECT rowid FROM ", .name t.name, w " WHERE ", keyName t, w "=? AND ", .name column, w "=?"]

/-- `getIndexOfQuery` (ecore/sqlstore.go 242-256) -/
def indexOfQuery (t : Table) (column : Text) : List Piece :=
  [w "SELECT idx FROM ", .name t.name, w " WHERE ", keyName t, w "=? AND ", .name column, w "=? ORDER BY idx ASC LIMIT 1"]

/-- `getLastIndexOfQuery` (ecore/sqlstore.go 258-272) -/
def lastIndexOfQuery (t : Table) (column : Text) : List Piece :=
  [w "SELECT idx FROM ", .name t.name, w " WHERE ", keyName t, w "=? AND ", .name column, w "=? ORDER BY idx DESC LIMIT 1"]

/-- `getIdxToListIndexQuery` (ecore/sqlstore.go 274-285) -/
def idxToListIndexQuery (t : Table) : List Piece := [w "SELECT COUNT(*) FROM ", .name t.name, w " WHERE ", keyName t, w "=? AND idx<?"]

/-- `getListIndexToIdxQuery` (ecore/sqlstore.go 287-298) -/
def listIndexToIdxQuery (t : Table) : List Piece :=
  [w "SELECT idx FROM ", .name t.name, w " WHERE ", keyName t, w "=? ORDER BY idx ASC LIMIT ? OFFSET ?"]

/-- `getRemoveQuery` (ecore/sqlstore.go 300-318) -/
def removeQuery (t : Table) (column : Text) : List Piece :=
  [w "DELETE FROM ", .name t.name, w " WHERE rowid IN (SELECT rowid FROM ", .name t.name, w " WHERE ", keyName t,
   w "=?", w " ORDER BY ", keyName t, w " ASC, idx ASC LIMIT 1 OFFSET ?) RETURNING ", .name column]

/-! ## The tables of a metamodel -/

/-- What the kind of a feature (`getSQLCodecFeatureKind`, ecore/sqlcodec.go 83-151) means for the tables; with the class referred to. -/
inductive Kind where
  | transient
  | object (type : Nat)
  | objectReference
  | objectList (type : Nat)
  | objectReferenceList
  | enum
  | real
  | integer
  | text
  | blob
  | dataList
deriving DecidableEq, Repr

structure Feature where
  name : Text
  kind : Kind
deriving DecidableEq, Repr

structure Class where
  name : Text
  features : List Feature
deriving DecidableEq, Repr

/-- the options of a schema: `withCreateIfNotExists`, `withContainerID`, `withObjectIDName` (ecore/sqlschema.go 333-349) -/
structure Options where
  createIfNotExists : Bool := false
  isContainerID : Bool := false
  objectIDName : Text := []
deriving DecidableEq, Repr

/-- `newSqlTable` with `withSqlTableColumns` (ecore/sqlschema.go 91-98, 114-135): the key is the last primary column -/
def newTable (o : Options) (name : String) (columns : List Column) : Table :=
  { name := name.toList, key := (columns.filter (·.primary)).getLast?.map (·.name), columns := columns, createIfNotExists := o.createIfNotExists }

def column (name type : String) : Column := { name := name.toList, type := type.toList }

def keyColumn (name type : String) (auto : Bool) : Column := { name := name.toList, type := type.toList, primary := true, auto := auto }

def referenceColumn (table : Table) : Column :=
  { name := table.key.getD [], type := "INTEGER".toList, reference := some (table.name, table.key.getD []) }

def propertiesTable (o : Options) : Table := newTable o ".properties" [keyColumn "key" "TEXT" false, column "value" "TEXT"]

def packagesTable (o : Options) : Table := newTable o ".packages" [keyColumn "packageID" "INTEGER" true, column "uri" "TEXT"]

def classesTable (o : Options) : Table :=
  newTable o ".classes" [keyColumn "classID" "INTEGER" true, referenceColumn (packagesTable o), column "name" "TEXT"]

def objectsTable (o : Options) : Table :=
  newTable o ".objects" ([keyColumn "objectID" "INTEGER" true, referenceColumn (classesTable o)] ++
    (if o.isContainerID then [⟨"containerID".toList, "INTEGER".toList, false, false, some (".objects".toList, "objectID".toList)⟩,
      column "containerFeatureID" "INTEGER"] else []) ++
    (if o.objectIDName ≠ [] ∧ o.objectIDName ≠ "objectID".toList then [{ name := o.objectIDName, type := "TEXT".toList }] else []))

def contentsTable (o : Options) : Table := newTable o ".contents" [referenceColumn (objectsTable o)]

def enumsTable (o : Options) : Table :=
  newTable o ".enums" [keyColumn "enumID" "INTEGER" true, referenceColumn (packagesTable o), column "name" "TEXT", column "literal" "TEXT"]

/-- `newSqlSchema` (ecore/sqlschema.go 351-421) -/
def systemTables (o : Options) : List Table :=
  [propertiesTable o, packagesTable o, classesTable o, objectsTable o, contentsTable o, enumsTable o]

variable (low : Char → Char) (o : Options) (m : Nat → Class)

/-- the name of the table of a class, and of its key (ecore/sqlschema.go 433-434) -/
def tableName (c : Nat) : Text := (m c).name.map low
def tableKey (c : Nat) : Text := (m c).name.map low ++ "ID".toList

/-- a reference to the table of a class: `newSqlReferenceColumn` (ecore/sqlschema.go 63-73) -/
def classColumn (name : Text) (c : Nat) : Column :=
  { name := name, type := "INTEGER".toList, reference := some (tableName low m c, tableKey low m c) }

/-- the column of a feature in the table of its class (ecore/sqlschema.go 446-456, 478-511) -/
def featureColumn (f : Feature) : Option Column :=
  match f.kind with
  | .object r => some (classColumn low m f.name r)
  | .objectReference => some { name := f.name, type := "TEXT".toList }
  | .enum => some { name := f.name, type := "INTEGER".toList, reference := some (".enums".toList, "enumID".toList) }
  | .real => some { name := f.name, type := "REAL".toList }
  | .integer => some { name := f.name, type := "INTEGER".toList }
  | .text => some { name := f.name, type := "TEXT".toList }
  | .blob => some { name := f.name, type := "BLOB".toList }
  | _ => none

/-- the table of a class (ecore/sqlschema.go 431-520) -/
def classTable (c : Nat) : Table :=
  { name := tableName low m c
    key := some (tableKey low m c)
    columns := { name := tableKey low m c, type := "INTEGER".toList, primary := true } :: (m c).features.filterMap (featureColumn low m)
    createIfNotExists := o.createIfNotExists }

/-- the last column of the table of a list (ecore/sqlschema.go 486-517) -/
def valueColumn (f : Feature) : Option Column :=
  match f.kind with
  | .objectList r => some (classColumn low m f.name r)
  | .objectReferenceList => some (column "uri" "TEXT")
  | .dataList => some { name := f.name, type := "TEXT".toList }
  | _ => none

/-- the table of a list (ecore/sqlschema.go 458-467) -/
def featureTable (c : Nat) (f : Feature) : Option Table :=
  (valueColumn low m f).map fun v =>
    { name := tableName low m c ++ '_' :: f.name
      key := some (tableKey low m c)
      columns := [classColumn low m (tableKey low m c) c, column "idx" "REAL", v]
      indexes := [[tableKey low m c, "idx".toList]]
      createIfNotExists := o.createIfNotExists }

/-- the tables made for a class: `getOrComputeClassSchema` (ecore/sqlschema.go 423-522).  That function goes on to the classes referred to and
keeps what it has computed; what it computes does not depend on that, because only the name and the key of a table are referred to. -/
def classTables (c : Nat) : List Table := classTable low o m c :: (m c).features.filterMap (featureTable low o m c)

end Verif.SQLText
