import Verif.Model.Convert
import Mathlib.Data.List.Sort

/-!
# Saving to and loading from a SQL database

`SQLEncoder` and `SQLDecoder` (ecore/sqlencoder.go, ecore/sqldecoder.go), with the tables of `sqlSchema` (ecore/sqlschema.go) and the kinds
of features of `getSQLCodecFeatureKind` (ecore/sqlcodec.go).

The database is the list of the rows of every table.  A row gets the next number as its key when it is inserted without one
(`AUTOINCREMENT`), so that the key of the `n`-th row is `n`.  A value is stored as it is bound: the types of the columns are those of the
values, SQLite converts nothing.  Go errors and panics are `none`: encoder and decoder stop at the first one.

Left out: containers and inverse references, which are set when a feature is set (the references of the graph have no opposites here); the
order of the statements (C58) and the goroutines of the decoder; indexes, foreign keys (not enforced by SQLite unless asked for), primary
keys of the tables of classes (the classes of a hierarchy are distinct); names that are no SQL identifiers; the number of the containing
feature, which `SQLDecoder` does not read; the version; objects that have a SQL number already (`SQLObject`).
-/

namespace Verif.SQLCodec

open Verif.Convert (Text Time Value formatNat formatInt pad getyear getnum getfraction skip isDigit natOf daysIn)

/-- ecore/sqlcodec.go 59-81 -/
inductive Kind where
  | transient | float64 | float32 | int | int64 | int32 | int16 | byte | bool | string | byteArray | enum | date | data | dataList
  | object | objectList | objectReference | objectReferenceList
deriving DecidableEq, Repr

/-- A structural feature: a reference with its class, or an attribute with its data type.  `container` tells whether the opposite is a
containment; `literal` whether there is a default value literal, `default` is `GetDefaultValue`. -/
structure Feature (F : Type) where
  name : Text
  isReference : Bool := true
  containment : Bool := false
  container : Bool := false
  resolveProxies : Bool := false
  many : Bool := false
  unique : Bool := true
  transient : Bool := false
  refType : Nat := 0
  dataType : Nat := 0
  isEnum : Bool := false
  typeName : String := ""
  literal : Bool := false
  default : Option (Value F) := none
deriving DecidableEq

variable {F : Type}

/-- ecore/sqlcodec.go 122-148 -/
def basicKind (typeName : String) : Kind :=
  if typeName ∈ ["float64", "java.lang.Double", "double"] then .float64
  else if typeName ∈ ["float32", "java.lang.Float", "float"] then .float32
  else if typeName ∈ ["int", "java.lang.Integer"] then .int
  else if typeName ∈ ["int64", "java.lang.Long", "java.math.BigInteger", "long"] then .int64
  else if typeName ∈ ["int32"] then .int32
  else if typeName ∈ ["int16", "java.lang.Short", "short"] then .int16
  else if typeName ∈ ["byte"] then .byte
  else if typeName ∈ ["bool", "java.lang.Boolean", "boolean"] then .bool
  else if typeName ∈ ["string", "java.lang.String"] then .string
  else if typeName ∈ ["[]byte", "java.util.ByteArray"] then .byteArray
  else if typeName ∈ ["*time/time.Time", "java.util.Date"] then .date
  else .data

/-- `getSQLCodecFeatureKind` (ecore/sqlcodec.go 83-151) -/
def kindOf (f : Feature F) : Kind :=
  if f.transient then .transient
  else if f.isReference then
    if f.containment then (if f.many then .objectList else .object)
    else if f.container then .transient
    else if f.resolveProxies then (if f.many then .objectReferenceList else .objectReference)
    else if f.many then .objectList else .object
  else if f.many then .dataList
  else if f.isEnum then .enum
  else basicKind f.typeName

/-- a feature with a column in the table of its class (ecore/sqlschema.go 478-517) -/
def Kind.isColumn : Kind → Bool
  | .transient | .objectList | .objectReferenceList | .dataList => false
  | _ => true

/-- a feature with a table of its own (ecore/sqlschema.go 478-517) -/
def Kind.isTable : Kind → Bool
  | .objectList | .objectReferenceList | .dataList => true
  | _ => false

/-- `isTransient` of the encoder (ecore/sqlencoder.go 624-632) -/
def isTransient (f : Feature F) : Bool :=
  if f.isReference then f.transient || (f.container && !f.resolveProxies) else f.transient

/-- an element of a feature: data, or an object, referred to by an `R` -/
inductive Elem (R F : Type) where
  | data (v : Value F)
  | ref (r : R)
deriving DecidableEq, Repr

/-- the value of a feature: an element or nil, or a list -/
inductive Val (R F : Type) where
  | one (v : Option (Elem R F))
  | list (l : List (Elem R F))
deriving DecidableEq, Repr

/-- a reference of an object that was read: the object of a row of the database (number minus one), or a new proxy with its URI and
class -/
inductive Ref where
  | copy (i : Nat)
  | proxy (uri : Text) (cls : Nat)
deriving DecidableEq, Repr

/-- the value of a column: what SQLite stores -/
inductive Cell (F : Type) where
  | null
  | int (i : Int)
  | real (x : F)
  | text (s : Text)
  | blob (l : Text)
deriving DecidableEq, Repr

/-- The metamodel and the environment.  Classes, packages, data types are numbered. -/
structure Env (F : Type) where
  /-- `GetNsURI` of a package; package and name of a class, its super types (`GetEAllSuperTypes`), its own features -/
  nsURI : Nat → Text
  pkg : Nat → Nat
  name : Nat → Text
  supers : Nat → List Nat
  features : Nat → List (Feature F)
  /-- package and name of a data type; the texts of the literals of an enumeration; `GetInstance` of a literal -/
  typePkg : Nat → Nat
  typeName : Nat → Text
  literals : Nat → List Text
  inst : Nat → Text → Option (Value F)
  /-- the package registry of the reader; `GetEClassifier` for classes and for enumerations -/
  registry : Text → Option Nat
  findClass : Nat → Text → Option Nat
  findEnum : Nat → Text → Option Nat
  /-- `ConvertToString` and `CreateFromString` of a data type -/
  toText : Nat → Value F → Text
  fromText : Nat → Text → Option (Value F)
  /-- floating point numbers: zero, whether one is NaN, `float64(float32(x))` -/
  zero : F
  isNaN : F → Bool
  round32 : F → F
  /-- `Relativize` and `Resolve` with the URI of the resource -/
  relativize : Text → Text
  resolve : Text → Text
  /-- an ID as text (`%v`), and the ID that `SetID` reads in a text -/
  showID : Nat → Text
  readID : Text → Option Nat

/-- The objects of the writer: class; for every own feature of a class of its hierarchy, `EIsSet` and `EGetResolve(feature, false)`;
proxy URI; `GetURI`; ID. -/
structure Graph (F : Type) where
  cls : Nat → Nat
  isSet : Nat → Nat → Nat → Bool
  val : Nat → Nat → Nat → Val Nat F
  proxy : Nat → Option Text
  uri : Nat → Text
  id : Nat → Option Nat

/-- where IDs are stored: nowhere, in a column of the table of objects, or, if the option `OBJECT_ID` is the name of the key of the table of
objects, as its key (ecore/sqlencoder.go 808-816) -/
inductive IDs where
  | no | column | key
deriving DecidableEq, Repr

/-- options of the writer: `KEEP_DEFAULTS`, `OBJECT_ID`, `CONTAINER_ID` -/
structure Opt where
  keepDefaults : Bool := false
  ids : IDs := .no
  containers : Bool := false

/-! ### Names (ecore/sqlschema.go 430-522); names are compared by SQLite without regard to case -/

/-- `strings.ToLower`, for ASCII -/
def lower (s : Text) : Text := s.map fun c => if 65 ≤ c ∧ c ≤ 90 then c + 32 else c

/-- the table of a class -/
def classTable (env : Env F) (c : Nat) : Text := lower (env.name c)

/-- its key, the name with ID at the end -/
def keyColumn (env : Env F) (c : Nat) : Text := lower (env.name c) ++ [73, 68]

/-- the table of a list: table of the class, underscore, name of the feature -/
def listTable (env : Env F) (c : Nat) (f : Feature F) : Text := classTable env c ++ [95] ++ f.name

/-- the columns of the table of a class -/
def classColumns (env : Env F) (c : Nat) : List Text :=
  keyColumn env c :: ((env.features c).filter fun f => (kindOf f).isColumn).map (·.name)

/-- the columns of the table of a list: key, idx, and uri or the name of the feature -/
def listColumns (env : Env F) (c : Nat) (f : Feature F) : List Text :=
  [keyColumn env c, [105, 100, 120], if kindOf f = .objectReferenceList then [117, 114, 105] else f.name]

/-- .properties, .packages, .classes, .objects, .contents, .enums (ecore/sqlschema.go 360-421) -/
def commonTables : List Text :=
  [[46, 112, 114, 111, 112, 101, 114, 116, 105, 101, 115], [46, 112, 97, 99, 107, 97, 103, 101, 115],
   [46, 99, 108, 97, 115, 115, 101, 115], [46, 111, 98, 106, 101, 99, 116, 115], [46, 99, 111, 110, 116, 101, 110, 116, 115],
   [46, 101, 110, 117, 109, 115]]

/-! ### Database -/

/-- a row of the table of objects: class, container, ID -/
structure Row where
  cls : Nat
  container : Option Nat
  id : Option Text
deriving DecidableEq, Repr

/-- The tables: names of the tables; packages with their URI; classes and literals of enumerations with their package; objects; contents;
for every class the key and the columns; for every list key, index and value.  `hasIDs` and `hasContainers` are the properties. -/
structure DB (F : Type) where
  tables : List Text := commonTables
  packages : List Text := []
  classes : List (Nat × Text) := []
  enums : List (Nat × Text × Text) := []
  objects : List Row := []
  contents : List Nat := []
  rows : Text → List (Nat × List (Cell F)) := fun _ => []
  lists : Text → List (Nat × Nat × Cell F) := fun _ => []
  hasIDs : IDs := .no
  hasContainers : Bool := false

/-- The encoder: database, packages, classes, literals and objects with an ID (its position plus one), classes with tables. -/
structure St (F : Type) where
  db : DB F := {}
  pkgs : List Nat := []
  classes : List Nat := []
  enums : List (Nat × Text) := []
  objs : List Nat := []
  created : List Nat := []

/-- `CREATE TABLE` (ecore/sqlschema.go 137-197) -/
def createTable (db : DB F) (name : Text) (columns : List Text) : Option (DB F) :=
  if lower name ∈ db.tables ∨ ¬ (columns.map lower).Nodup then none
  else some { db with tables := lower name :: db.tables }

/-! ### Encoder -/

/-- the tables of the lists of a class (ecore/sqlencoder.go 608-617) -/
def createLists (env : Env F) (c : Nat) : List (Feature F) → DB F → Option (DB F)
  | [], db => some db
  | f :: fs, db =>
    if (kindOf f).isTable then (createTable db (listTable env c f) (listColumns env c f)).bind (createLists env c fs)
    else createLists env c fs db

/-- `getEncoderClassData` for one class (ecore/sqlencoder.go 578-643) -/
def createClass (env : Env F) (st : St F) (c : Nat) : Option (St F) :=
  if c ∈ st.created then some st
  else
    ((createTable st.db (classTable env c) (classColumns env c)).bind (createLists env c (env.features c))).map fun db =>
      { st with db := db, created := st.created ++ [c] }

/-- `getEncoderClassData` (ecore/sqlencoder.go 571-646) for some classes.  The tables of the super types are created first, recursively: this is
the order of `GetEAllSuperTypes`. -/
def createClasses (env : Env F) : List Nat → St F → Option (St F)
  | [], st => some st
  | c :: cs, st => (createClass env st c).bind (createClasses env cs)

/-- `encodePackage` (ecore/sqlencoder.go 648-678) -/
def encodePackage (env : Env F) (st : St F) (p : Nat) : St F × Nat :=
  if p ∈ st.pkgs then (st, st.pkgs.idxOf p + 1)
  else ({ st with db := { st.db with packages := st.db.packages ++ [env.nsURI p] }, pkgs := st.pkgs ++ [p] }, st.db.packages.length + 1)

/-- `encodeClass` (ecore/sqlencoder.go 501-569) -/
def encodeClass (env : Env F) (st : St F) (c : Nat) : Option (St F × Nat) :=
  (createClasses env (env.supers c ++ [c]) st).map fun st =>
    if c ∈ st.classes then (st, st.classes.idxOf c + 1)
    else
      let r := encodePackage env st (env.pkg c)
      ({ r.1 with db := { r.1.db with classes := r.1.db.classes ++ [(r.2, env.name c)] }, classes := r.1.classes ++ [c] },
        r.1.db.classes.length + 1)

/-- `encodeEnumLiteral` (ecore/sqlencoder.go 456-497) -/
def encodeLiteral (env : Env F) (st : St F) (e : Nat) (s : Text) : St F × Nat :=
  if (e, s) ∈ st.enums then (st, st.enums.idxOf (e, s) + 1)
  else
    let r := encodePackage env st (env.typePkg e)
    ({ r.1 with db := { r.1.db with enums := r.1.db.enums ++ [(r.2, env.typeName e, s)] }, enums := r.1.enums ++ [(e, s)] },
      r.1.db.enums.length + 1)

/-- How a value is bound to a parameter of a statement (package sqlitex).  NaN is stored as NULL by SQLite.  Other values are bound as text,
which is left out. -/
def bind (env : Env F) : Value F → Cell F
  | .float64 x | .float32 x => if env.isNaN x then .null else .real x
  | .int i | .int64 i | .int32 i | .int16 i | .int8 i => .int i
  | .uint64 n | .byte n => .int n
  | .bool b => .int (if b then 1 else 0)
  | .string s => .text s
  | .bytes l => .blob l
  | .date _ | .other => .text []

/-- `t.Format(time.RFC3339)`: no fraction of a second; the zone is Z or hours and minutes -/
def formatDate (t : Time) : Text :=
  pad 4 t.year ++ [45] ++ pad 2 t.month ++ [45] ++ pad 2 t.day ++ [84] ++ pad 2 t.hour ++ [58] ++ pad 2 t.minute ++ [58] ++
    pad 2 t.second ++
    (if t.offset = 0 then [90]
      else (if t.offset ≤ -60 then 45 else 43) :: pad 2 (t.offset.natAbs / 60 / 60) ++ [58] ++
        pad 2 (t.offset.natAbs / 60 % 60))

/-- the zone: Z, or sign, hours and minutes -/
def getzone : Text → Option (Int × Text)
  | 90 :: s => some (0, s)
  | c :: s =>
    if c = 43 ∨ c = 45 then do
      let (h, s) ← getnum true s
      let s ← skip 58 s
      let (m, s) ← getnum true s
      if 24 < h ∨ 60 < m then none
      return (if c = 45 then -((h * 60 + m) * 60 : Nat) else ((h * 60 + m) * 60 : Nat), s)
    else none
  | [] => none

/-- `time.Parse(time.RFC3339, s)` -/
def parseDate (s : Text) : Option Time := do
  let (year, s) ← getyear s
  let s ← skip 45 s
  let (month, s) ← getnum true s
  if month = 0 ∨ 12 < month then none
  let s ← skip 45 s
  let (day, s) ← getnum true s
  let s ← skip 84 s
  let (hour, s) ← getnum false s
  if 24 ≤ hour then none
  let s ← skip 58 s
  let (minute, s) ← getnum true s
  if 60 ≤ minute then none
  let s ← skip 58 s
  let (second, s) ← getnum true s
  if 60 ≤ second then none
  let (nano, s) := getfraction s
  let (offset, s) ← getzone s
  if s ≠ [] then none
  if day = 0 ∨ daysIn month year < day then none
  return { year, month, day, hour, minute, second, nano, offset }

/-- `encodeFeatureValue` (ecore/sqlencoder.go 420-454) for a value that is not nil; `enc` is `encodeObject`; type assertions that fail are
panics -/
def encodeElem (env : Env F) (g : Graph F) (enc : St F → Nat → Option Nat → Option (St F × Nat)) (st : St F) (id : Nat)
    (f : Feature F) : Kind → Elem Nat F → Option (St F × Cell F)
  | .object, .ref o | .objectList, .ref o => (enc st o (some id)).map fun r => (r.1, .int r.2)
  | .objectReference, .ref o | .objectReferenceList, .ref o =>
    if o ∈ st.objs then some (st, .text (formatNat (st.objs.idxOf o + 1))) else some (st, .text (env.relativize (g.uri o)))
  | .enum, .data v =>
    if env.toText f.dataType v ∈ env.literals f.dataType then
      let r := encodeLiteral env st f.dataType (env.toText f.dataType v)
      some (r.1, .int r.2)
    else none
  | .bool, .data v | .byte, .data v | .int, .data v | .int16, .data v | .int32, .data v | .int64, .data v | .string, .data v
  | .byteArray, .data v | .float32, .data v | .float64, .data v => some (st, bind env v)
  | .date, .data (.date t) => some (st, .text (formatDate t))
  | .data, .data v | .dataList, .data v => some (st, .text (env.toText f.dataType v))
  | _, _ => none

/-- insertion of a row in the table of a list (ecore/sqlencoder.go 383-388) -/
def insertItem (st : St F) (table : Text) (id idx : Nat) (cell : Cell F) : St F :=
  { st with db := { st.db with lists := fun t => if t = table then st.db.lists t ++ [(id, idx, cell)] else st.db.lists t } }

/-- the loop over the elements of a list (ecore/sqlencoder.go 377-390), from index `idx` on -/
def encodeItems (env : Env F) (g : Graph F) (enc : St F → Nat → Option Nat → Option (St F × Nat)) (id : Nat) (f : Feature F)
    (table : Text) : Nat → List (Elem Nat F) → St F → Option (St F)
  | _, [], st => some st
  | idx, e :: es, st =>
    match encodeElem env g enc st id f (kindOf f) e with
    | none => none
    | some (st, cell) => encodeItems env g enc id f table (idx + 1) es (insertItem st table id idx cell)

/-- `shouldEncodeFeature` (ecore/sqlencoder.go 277-279) -/
def shouldEncode (g : Graph F) (opt : Opt) (o c i : Nat) (f : Feature F) : Bool :=
  g.isSet o c i || (opt.keepDefaults && f.literal)

/-- the cell of a feature with a column (ecore/sqlencoder.go 361-368) -/
def encodeColumn (env : Env F) (g : Graph F) (opt : Opt) (enc : St F → Nat → Option Nat → Option (St F × Nat)) (id o c i : Nat)
    (f : Feature F) (st : St F) : Option (St F × Cell F) :=
  if isTransient f = false ∧ shouldEncode g opt o c i f then
    match g.val o c i with
    | .one none => some (st, .null)
    | .one (some e) => encodeElem env g enc st id f (kindOf f) e
    | .list _ => none
  else some (st, .null)

/-- the rows of a feature with a table (ecore/sqlencoder.go 369-391) -/
def encodeList (env : Env F) (g : Graph F) (opt : Opt) (enc : St F → Nat → Option Nat → Option (St F × Nat)) (id o c i : Nat)
    (f : Feature F) (st : St F) : Option (St F) :=
  if isTransient f = false ∧ shouldEncode g opt o c i f then
    match g.val o c i with
    | .one _ => none
    | .list l => encodeItems env g enc id f (listTable env c f) 1 l st
  else some st

/-- the loop over the features of a class, from position `i` on (ecore/sqlencoder.go 357-393) -/
def encodeFeatures (env : Env F) (g : Graph F) (opt : Opt) (enc : St F → Nat → Option Nat → Option (St F × Nat)) (id o c : Nat) :
    Nat → List (Feature F) → St F → Option (St F × List (Cell F))
  | _, [], st => some (st, [])
  | i, f :: fs, st =>
    if (kindOf f).isColumn then
      match encodeColumn env g opt enc id o c i f st with
      | none => none
      | some (st, cell) => (encodeFeatures env g opt enc id o c (i + 1) fs st).map fun r => (r.1, cell :: r.2)
    else if (kindOf f).isTable then
      match encodeList env g opt enc id o c i f st with
      | none => none
      | some st => encodeFeatures env g opt enc id o c (i + 1) fs st
    else encodeFeatures env g opt enc id o c (i + 1) fs st

/-- insertion of a row in the table of a class (ecore/sqlencoder.go 396-402) -/
def insertRow (st : St F) (table : Text) (id : Nat) (cells : List (Cell F)) : St F :=
  { st with db := { st.db with rows := fun t => if t = table then st.db.rows t ++ [(id, cells)] else st.db.rows t } }

/-- the loop over the classes of a hierarchy (ecore/sqlencoder.go 347-403) -/
def encodeClasses (env : Env F) (g : Graph F) (opt : Opt) (enc : St F → Nat → Option Nat → Option (St F × Nat)) (id o : Nat) :
    List Nat → St F → Option (St F)
  | [], st => some st
  | c :: cs, st =>
    match encodeFeatures env g opt enc id o c 0 (env.features c) st with
    | none => none
    | some (st, cells) => encodeClasses env g opt enc id o cs (insertRow st (classTable env c) id cells)

/-- `<nil>` -/
def nilText : Text := [60, 110, 105, 108, 62]

/-- the row of an object (ecore/sqlencoder.go 303-321) -/
def objectRow (env : Env F) (g : Graph F) (opt : Opt) (cls o : Nat) (container : Option Nat) : Row where
  cls := cls
  container := if opt.containers then container else none
  id := if opt.ids = .column then some (((g.id o).map env.showID).getD nilText) else none

/-- `encodeObject` (ecore/sqlencoder.go 281-418), with the container; the first argument bounds the depth of the calls -/
def encodeObject (env : Env F) (g : Graph F) (opt : Opt) : Nat → St F → Nat → Option Nat → Option (St F × Nat)
  | 0, _, _, _ => none
  | n + 1, st, o, container =>
    if o ∈ st.objs then some (st, st.objs.idxOf o + 1)
    else
      match encodeClass env st (g.cls o) with
      | none => none
      | some (st, cls) =>
        let id := st.db.objects.length + 1
        let st : St F :=
          { st with db := { st.db with objects := st.db.objects ++ [objectRow env g opt cls o container] }, objs := st.objs ++ [o] }
        (encodeClasses env g opt (encodeObject env g opt n) id o (g.cls o :: env.supers (g.cls o)) st).map fun st => (st, id)

/-- `EncodeResource`, `encodeContent` (ecore/sqlencoder.go 866-903, 263-270): the first object of the contents.  `depth` bounds the depth of
the calls. -/
def encodeResource (env : Env F) (g : Graph F) (opt : Opt) (depth : Nat) (contents : List Nat) : Option (DB F) :=
  let db : DB F := { hasIDs := opt.ids, hasContainers := opt.containers }
  match contents with
  | [] => some db
  | o :: _ => (encodeObject env g opt depth { db := db } o none).map fun r => { r.1.db with contents := [r.2] }

/-! ### Decoder -/

/-- An object that was read: class, ID, values of the features that were set. -/
structure Copy (F : Type) where
  cls : Nat
  id : Option Nat := none
  slot : Nat → Nat → Option (Val Ref F) := fun _ _ => none

/-- the row with a key -/
def get {α : Type} (l : List α) (id : Nat) : Option α := if id = 0 then none else l[id - 1]?

/-- `decodePackages` (ecore/sqldecoder.go 884-899) -/
def decodePackages (env : Env F) (db : DB F) : Option (List Nat) := db.packages.mapM env.registry

/-- `decodeEnums` (ecore/sqldecoder.go 901-931) -/
def decodeEnums (env : Env F) (pkgs : List Nat) (db : DB F) : Option (List (Nat × Text)) :=
  db.enums.mapM fun row =>
    (get pkgs row.1).bind fun p => (env.findEnum p row.2.1).bind fun e =>
      if row.2.2 ∈ env.literals e then some (e, row.2.2) else none

/-- `decodeClasses` (ecore/sqldecoder.go 933-959) -/
def decodeClasses (env : Env F) (pkgs : List Nat) (db : DB F) : Option (List Nat) :=
  db.classes.mapM fun row => (get pkgs row.1).bind fun p => env.findClass p row.2

/-- the ID of an object (ecore/sqldecoder.go 984-1001): the third column of the table is read; it is the container if containers are stored.
`some none` is no ID. -/
def decodeID (env : Env F) (db : DB F) (row : Row) (id : Nat) : Option (Option Nat) :=
  match db.hasIDs with
  | .no => some none
  | .key => some (some id)
  | .column =>
    if db.hasContainers then some none
    else match row.id with
      | none => some none
      | some s => (env.readID s).map some

/-- `decodeObjects` (ecore/sqldecoder.go 961-1004), from number `id` on -/
def decodeObjects (env : Env F) (db : DB F) (classes : List Nat) : Nat → List Row → Option (List (Copy F))
  | _, [] => some []
  | id, row :: rows =>
    (get classes row.cls).bind fun c => (decodeID env db row id).bind fun i =>
      (decodeObjects env db classes (id + 1) rows).map fun l => { cls := c, id := i } :: l

/-- `strconv.ParseInt(s, 10, 64)`; `none` is an error -/
def parseInt64 (s : Text) : Option Int :=
  let digits := if s.head? = some 45 ∨ s.head? = some 43 then s.tail else s
  if digits = [] ∨ digits.any (fun c => !isDigit c) then none
  else
    let i : Int := if s.head? = some 45 then -(natOf digits : Int) else natOf digits
    if -9223372036854775808 ≤ i ∧ i < 9223372036854775808 then some i else none

/-- `int8(v)` and the like: the low bits, as a signed number -/
def wrap (bits : Nat) (i : Int) : Int := (i + 2 ^ (bits - 1)) % 2 ^ bits - 2 ^ (bits - 1)

/-- the object with an ID (ecore/sqldecoder.go 278-340): all of them were read before -/
def decodeObject (n : Nat) (i : Int) : Option (Option (Elem Ref F)) :=
  if 1 ≤ i ∧ i ≤ n then some (some (.ref (.copy (i.toNat - 1)))) else none

/-- `decodeFeatureValue` (ecore/sqldecoder.go 388-566); `some none` is nil.  `n` is the number of objects, `enums` the literals. -/
def decodeCell (env : Env F) (enums : List (Nat × Text)) (n : Nat) (f : Feature F) : Kind → Cell F → Option (Option (Elem Ref F))
  | .object, .null | .objectList, .null => some none
  | .object, .int i | .objectList, .int i => decodeObject n i
  | .objectReference, .null | .objectReferenceList, .null => some none
  | .objectReference, .text s | .objectReferenceList, .text s =>
    if s = [] then some none
    else match parseInt64 s with
      | some i => decodeObject n i
      | none => some (some (.ref (.proxy (env.resolve s) f.refType)))
  | .bool, .null => some (some (.data (.bool false)))
  | .bool, .int i => some (some (.data (.bool (i = 1))))
  | .byte, .null => some (some (.data (.byte 0)))
  | .byte, .int i => some (some (.data (.byte (i % 256).toNat)))
  | .int, .null => some (some (.data (.int 0)))
  | .int, .int i => some (some (.data (.int i)))
  | .int64, .null => some (some (.data (.int64 0)))
  | .int64, .int i => some (some (.data (.int64 i)))
  | .int32, .null => some (some (.data (.int32 0)))
  | .int32, .int i => some (some (.data (.int32 (wrap 32 i))))
  | .int16, .null => some (some (.data (.int16 0)))
  | .int16, .int i => some (some (.data (.int16 (wrap 16 i))))
  | .enum, .null => some (f.default.map .data)
  | .enum, .int i =>
    if i < 0 then none
    else (get enums i.toNat).map fun e => ((env.inst e.1 e.2).or (env.fromText f.dataType e.2)).map .data
  | .string, .null => some (some (.data (.string [])))
  | .string, .text s => some (some (.data (.string s)))
  | .byteArray, .null => some none
  | .byteArray, .blob l => some (some (.data (.bytes l)))
  | .date, .null => some none
  | .date, .text s => (parseDate s).map fun t => some (.data (.date t))
  | .float64, .null => some (some (.data (.float64 env.zero)))
  | .float64, .real x => some (some (.data (.float64 x)))
  | .float32, .null => some (some (.data (.float32 env.zero)))
  | .float32, .real x => some (some (.data (.float32 (env.round32 x))))
  | .data, .null | .dataList, .null => some none
  | .data, .blob l | .dataList, .blob l => some ((env.fromText f.dataType l).map .data)
  | .data, .text s | .dataList, .text s => some ((env.fromText f.dataType s).map .data)
  | _, _ => none

/-- `ESet` -/
def setSlot (copies : List (Copy F)) (k c i : Nat) (v : Val Ref F) : List (Copy F) :=
  copies.modify k fun x => { x with slot := fun c' i' => if c' = c ∧ i' = i then some v else x.slot c' i' }

/-- whether an element may not be added to a list without duplicates; a new proxy is like no other object -/
def isDuplicate [DecidableEq F] (l : List (Elem Ref F)) : Elem Ref F → Bool
  | .ref (.proxy _ _) => false
  | e => e ∈ l

/-- `AddAll` to a list (ecore/basicedatatypelist.go, ecore/basiceobjectlist.go; the lists of objects are without duplicates) -/
def addAll [DecidableEq F] (unique : Bool) (l : List (Elem Ref F)) (values : List (Elem Ref F)) : List (Elem Ref F) :=
  values.foldl (fun l e => if unique && isDuplicate l e then l else l ++ [e]) l

/-- `decodeFeatureList` (ecore/sqldecoder.go 1133-1144): the values are added to the list of the object.  An element that is nil is not added
here; the lists have none. -/
def decodeFeatureList [DecidableEq F] (f : Feature F) (c i : Nat) (copies : List (Copy F)) (id : Nat) (values : List (Elem Ref F)) :
    Option (List (Copy F)) :=
  if values = [] then some copies
  else
    (get copies id).bind fun x =>
      let old := match x.slot c i with
        | some (.list l) => l
        | _ => []
      some (setSlot copies (id - 1) c i (.list (addAll (f.isReference || f.unique) old values)))

/-- the order of `ORDER BY key ASC, idx ASC` -/
def before (a b : Nat × Nat × Cell F) : Prop := a.1 < b.1 ∨ a.1 = b.1 ∧ a.2.1 ≤ b.2.1

instance (a b : Nat × Nat × Cell F) : Decidable (before a b) := by unfold before; infer_instance

/-- the loop over the rows of `decodeTableFeature` (ecore/sqldecoder.go 1095-1130); `id` is the object of the values read since -/
def decodeRows [DecidableEq F] (env : Env F) (enums : List (Nat × Text)) (f : Feature F) (c i : Nat) :
    List (Nat × Nat × Cell F) → Option Nat → List (Elem Ref F) → List (Copy F) → Option (List (Copy F))
  | [], none, _, copies => some copies
  | [], some id, values, copies => decodeFeatureList f c i copies id values
  | r :: rs, none, values, copies =>
    (decodeCell env enums copies.length f (kindOf f) r.2.2).bind fun e =>
      decodeRows env enums f c i rs (some r.1) (values ++ e.toList) copies
  | r :: rs, some id, values, copies =>
    (decodeCell env enums copies.length f (kindOf f) r.2.2).bind fun e =>
      if id ≠ r.1 then
        (decodeFeatureList f c i copies id values).bind fun copies => decodeRows env enums f c i rs (some r.1) e.toList copies
      else decodeRows env enums f c i rs (some r.1) (values ++ e.toList) copies

/-- `decodeTableFeature` (ecore/sqldecoder.go 1092-1131) -/
def decodeTable [DecidableEq F] (env : Env F) (enums : List (Nat × Text)) (db : DB F) (f : Feature F) (c i : Nat)
    (copies : List (Copy F)) : Option (List (Copy F)) :=
  if lower (listTable env c f) ∉ db.tables then none
  else decodeRows env enums f c i ((db.lists (listTable env c f)).insertionSort before) none [] copies

/-- the lists of a class (ecore/sqldecoder.go 1046-1055), from position `i` on -/
def decodeTables [DecidableEq F] (env : Env F) (enums : List (Nat × Text)) (db : DB F) (c : Nat) :
    Nat → List (Feature F) → List (Copy F) → Option (List (Copy F))
  | _, [], copies => some copies
  | i, f :: fs, copies =>
    if (kindOf f).isTable then (decodeTable env enums db f c i copies).bind (decodeTables env enums db c (i + 1) fs)
    else decodeTables env enums db c (i + 1) fs copies

/-- the features with columns, with their positions among the features of the class -/
def columnFeatures : Nat → List (Feature F) → List (Nat × Feature F)
  | _, [] => []
  | i, f :: fs => if (kindOf f).isColumn then (i, f) :: columnFeatures (i + 1) fs else columnFeatures (i + 1) fs

/-- the columns of a row (ecore/sqldecoder.go 1074-1087) -/
def decodeColumns (env : Env F) (enums : List (Nat × Text)) (n c k : Nat) :
    List (Nat × Feature F) → List (Cell F) → List (Copy F) → Option (List (Copy F))
  | [], _, copies => some copies
  | (i, f) :: fs, cells, copies =>
    (decodeCell env enums n f (kindOf f) (cells.head?.getD .null)).bind fun e =>
      decodeColumns env enums n c k fs cells.tail (match e with
        | none => copies
        | some e => setSlot copies k c i (.one (some e)))

/-- the loop over the rows of `decodeColumnFeatures` (ecore/sqldecoder.go 1060-1090) -/
def decodeClassRows (env : Env F) (enums : List (Nat × Text)) (c : Nat) (fs : List (Nat × Feature F)) :
    List (Nat × List (Cell F)) → List (Copy F) → Option (List (Copy F))
  | [], copies => some copies
  | r :: rs, copies =>
    (get copies r.1).bind fun _ =>
      (decodeColumns env enums copies.length c (r.1 - 1) fs r.2 copies).bind (decodeClassRows env enums c fs rs)

/-- `decodeClassFeatures` (ecore/sqldecoder.go 1044-1058) -/
def decodeClassFeatures [DecidableEq F] (env : Env F) (enums : List (Nat × Text)) (db : DB F) (c : Nat) (copies : List (Copy F)) :
    Option (List (Copy F)) :=
  (decodeTables env enums db c 0 (env.features c) copies).bind fun copies =>
    let fs := columnFeatures 0 (env.features c)
    if fs = [] then some copies
    else if classTable env c ∉ db.tables then none
    else decodeClassRows env enums c fs (db.rows (classTable env c)) copies

/-- some classes, one after the other -/
def decodeAll [DecidableEq F] (env : Env F) (enums : List (Nat × Text)) (db : DB F) :
    List Nat → List (Copy F) → Option (List (Copy F))
  | [], copies => some copies
  | c :: cs, copies => (decodeClassFeatures env enums db c copies).bind (decodeAll env enums db cs)

/-- the classes and their super types, each once (ecore/sqldecoder.go 1006-1033) -/
def withSupers (env : Env F) (classes : List Nat) : List Nat :=
  (classes.flatMap fun c => c :: env.supers c).foldl (fun l c => if c ∈ l then l else l ++ [c]) []

/-- `DecodeResource` (ecore/sqldecoder.go 805-882): the objects and the contents.  The classes are read by goroutines, started in the order of a
Go map: `order` puts them in an order; each is read as a whole. -/
def decodeResource [DecidableEq F] (env : Env F) (order : List Nat → List Nat) (db : DB F) : Option (List (Copy F) × List Nat) :=
  (decodePackages env db).bind fun pkgs =>
  (decodeEnums env pkgs db).bind fun enums =>
  (decodeClasses env pkgs db).bind fun classes =>
  (decodeObjects env db classes 1 db.objects).bind fun copies =>
  (decodeAll env enums db (order (withSupers env classes)) copies).bind fun copies =>
  (db.contents.mapM fun id => if 1 ≤ id ∧ id ≤ copies.length then some (id - 1) else none).map fun contents => (copies, contents)

end Verif.SQLCodec
