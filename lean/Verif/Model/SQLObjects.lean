/-!
# The objects of a SQL store

`SQLStore` as a store of objects (ecore/sqlstore.go): how it finds the row of an object and the object of a row, how it puts objects into the
database, and what its operations read and write there.

The operations are executed one after the other here: C39 and C41 tell the order of the operations, C40 the values read while a write is
pending.  Data are 64 bit integers, which SQLite gives back as they are bound (C40, C57 and C59 tell about the other data types).  The rows of
the table of a list come in the order of the list (C38).  The tables are functions; a row of the table of a class is there whenever the object
is (`encodeObject` inserts both).  Go errors of an operation give its zero value (`awaitOperation`, ecore/sqlstore.go 1352-1361).

Left out: object IDs other than SQL IDs, the tables of packages and classes, codec versions, the lock manager, transient features, the
option to keep default values, and failures of SQLite other than the primary key of the table of objects.
-/

namespace Verif.SQLObjects

/-- `sfkObject` and `sfkObjectList`: contained objects; `sfkObjectReference` and `sfkObjectReferenceList`: other objects
(ecore/sqlcodec.go 59-120) -/
inductive Kind where
  | data | object | reference
deriving DecidableEq, Repr

/-- A structural feature; `default` is `GetDefaultValue` of an attribute with one value. -/
structure Feature where
  kind : Kind
  many : Bool := false
  default : Option Int := none
deriving DecidableEq, Repr

/-- A class: `GetEStructuralFeatures`, `GetEAllSuperTypes`, and `EStaticFeatureCount` of its objects. -/
structure Class where
  own : List Nat
  supers : List Nat := []
  static : Nat := 0
deriving DecidableEq, Repr

/-- The metamodel; `sql` tells the objects that are `SQLObject`s (ecore/sqlobject.go 3-7). -/
structure Meta where
  feature : Nat → Feature
  cls : Nat → Class
  sql : Nat → Bool

/-- `GetEAllStructuralFeatures`: the features of the super classes come first (ecore/eclass_ext.go; each feature has one class here) -/
def Meta.all (M : Meta) (c : Nat) : List Nat := ((M.cls c).supers.flatMap fun d => (M.cls d).own) ++ (M.cls c).own

/-- `GetFeatureID` (ecore/eclass_ext.go 158-169) -/
def Meta.featureID (M : Meta) (c f : Nat) : Int := if f ∈ M.all c then ((M.all c).idxOf f : Nat) else -1

/-- `GetEStructuralFeature` (ecore/eclass_ext.go): `nil` when the number is out of range -/
def Meta.featureAt (M : Meta) (c : Nat) (i : Int) : Option Nat := if i < 0 then none else (M.all c)[i.toNat]?

/-- A value of a feature: an object is known by its address; `proxy o` is a new proxy for the URI of `o`; `error` is a Go error. -/
inductive Val where
  | nil
  | data (n : Int)
  | obj (o : Nat)
  | proxy (o : Nat)
  | error
deriving DecidableEq, Repr

/-- What the tables hold: `id` is a SQL ID as integer, `ref` a SQL ID as text, `uri o` the URI of `o`. -/
inductive Cell where
  | null
  | data (n : Int)
  | id (n : Nat)
  | ref (n : Nat)
  | uri (o : Nat)
deriving DecidableEq, Repr

/-- A row of the table of objects (ecore/sqlschema.go 384-398). -/
structure Row where
  cls : Nat
  container : Option Nat
  feature : Option Int
deriving DecidableEq, Repr

/-- The objects in memory, the ID manager (ecore/sqlstore.go 341-346) and the database.  `mem` are the values of objects that are not in the
store; `sid` the SQL IDs of the `SQLObject`s; `last` the last ID given by `AUTOINCREMENT`. -/
structure St where
  cls : Nat → Nat
  mem : Nat → Nat → List Val
  count : Nat
  sid : Nat → Nat
  ids : Nat → Option Nat
  objs : Nat → Option Nat
  last : Nat
  rows : Nat → Option Row
  col : Nat → Nat → Cell
  lists : Nat → Nat → List Cell
  roots : List Nat

variable {α : Type}

def upd (f : Nat → α) (i : Nat) (x : α) : Nat → α := fun j => if j = i then x else f j

def upd2 (f : Nat → Nat → α) (i k : Nat) (x : α) : Nat → Nat → α := fun j => if j = i then upd (f i) k x else f j

/-- `GetObjectID` (ecore/sqlstore.go 380-392): a `SQLObject` is registered when there is an object under its ID -/
def getObjectID (M : Meta) (s : St) (o : Nat) : Nat × Bool :=
  if M.sql o then (s.sid o, (s.objs (s.sid o)).isSome) else ((s.ids o).getD 0, (s.ids o).isSome)

/-- `SetObjectID` (ecore/sqlstore.go 394-405) -/
def setObjectID (M : Meta) (s : St) (o id : Nat) : St :=
  if M.sql o then { s with objs := upd s.objs id (some o), sid := upd s.sid o id }
  else { s with objs := upd s.objs id (some o), ids := upd s.ids o (some id) }

/-- `ClearObjectID` (ecore/sqlstore.go 407-418) -/
def clearObjectID (M : Meta) (s : St) (o : Nat) : St :=
  if M.sql o then { s with objs := upd s.objs (s.sid o) none }
  else { s with objs := upd s.objs ((s.ids o).getD 0) none, ids := upd s.ids o none }

/-- `getSQLID` (ecore/sqlstore.go 943-967) -/
def getSQLID (M : Meta) (s : St) (o : Nat) : St × Nat × Bool :=
  let (id, registered) := getObjectID M s o
  if registered then (s, id, true)
  else if id ≠ 0 ∧ (s.rows id).isSome then (setObjectID M s o id, id, true)
  else (s, id, false)

/-- a row of the table of a list is inserted at the end -/
def push (s : St) (id f : Nat) (c : Cell) : St := { s with lists := upd2 s.lists id f (s.lists id f ++ [c]) }

def setCol (s : St) (id f : Nat) (c : Cell) : St := { s with col := upd2 s.col id f c }

def setList (s : St) (id f : Nat) (l : List Cell) : St := { s with lists := upd2 s.lists id f l }

/-- `encodeFeatureValue` (ecore/sqlencoder.go 420-455), where `enc` encodes contained objects.  `none` is an error, or the panic of a value
of another type. -/
def encodeValue (M : Meta) (enc : St → Nat → St × Option Nat) (s : St) (f : Nat) : Val → St × Option Cell
  | .nil => (s, some .null)
  | .data n => (s, if (M.feature f).kind = .data then some (.data n) else none)
  | .obj o =>
    match (M.feature f).kind with
    | .data => (s, none)
    | .object => let (s, id) := enc s o; (s, id.map .id)
    | .reference => let id := (getObjectID M s o).1; (s, some (if id ≠ 0 then .ref id else .uri o))
  | _ => (s, none)

/-- the values of a list, one after the other (ecore/sqlencoder.go 386-401) -/
def encodeValues (M : Meta) (enc : St → Nat → St × Option Nat) (id f : Nat) : St → List Val → St × Bool
  | s, [] => (s, true)
  | s, v :: vs =>
    match encodeValue M enc s f v with
    | (s, some c) => encodeValues M enc id f (push s id f c) vs
    | (s, none) => (s, false)

/-- the features of an object that are set (ecore/sqlencoder.go 368-402): `fs` are the features with their numbers in their class -/
def encodeFeatures (M : Meta) (enc : Int → St → Nat → St × Option Nat) (o id : Nat) : St → List (Nat × Int) → St × Bool
  | s, [] => (s, true)
  | s, (f, n) :: fs =>
    match s.mem o f with
    | [] => encodeFeatures M enc o id s fs
    | v :: vs =>
      if (M.feature f).many then
        match encodeValues M (enc n) id f s (v :: vs) with
        | (s, true) => encodeFeatures M enc o id s fs
        | (s, false) => (s, false)
      else
        match encodeValue M (enc n) s f v with
        | (s, some c) => encodeFeatures M enc o id (setCol s id f c) fs
        | (s, none) => (s, false)

/-- the features of the classes of an object, with the numbers they have in these classes (ecore/sqlencoder.go 357-367, 602-633) -/
def Meta.encoded (M : Meta) (c : Nat) : List (Nat × Int) :=
  (c :: (M.cls c).supers).flatMap fun d => (M.cls d).own.map fun f => (f, M.featureID d f)

/-- `encodeObject` (ecore/sqlencoder.go 283-418): `container` is the SQL ID of the container with the number of the feature.  `fuel` bounds the
depth of the containment; `encode` gives enough of it.  The object is registered before its features are encoded. -/
def encodeObject (M : Meta) : Nat → St → Nat → Option (Nat × Int) → St × Option Nat
  | 0, s, _, _ => (s, none)
  | fuel + 1, s, o, container =>
    let (sqlID, registered) := getObjectID M s o
    if registered then (s, some sqlID)
    else
      let id := if sqlID ≠ 0 then sqlID else s.last + 1
      if (s.rows id).isSome then (s, none)
      else
        let s := { s with rows := upd s.rows id (some ⟨s.cls o, container.map (·.1), container.map (·.2)⟩), last := max s.last id }
        let s := setObjectID M s o id
        let (s, ok) := encodeFeatures M (fun n s k => encodeObject M fuel s k (some (id, n))) o id s (M.encoded (s.cls o))
        (s, if ok then some id else none)

/-- an object that is not contained in another one: `encodeObject(eObject, -1, -1)` (ecore/sqlencoder.go 317-321) -/
def encode (M : Meta) (s : St) (o : Nat) : St × Option Nat := encodeObject M (s.count + 1) s o none

/-- `encodeSQLID` (ecore/sqlstore.go 970-979) -/
def encodeSQLID (M : Meta) (s : St) (o : Nat) : St × Option Nat :=
  match getSQLID M s o with
  | (s, id, true) => (s, some id)
  | (s, _, false) => encode M s o

/-- `decodeObject` (ecore/sqldecoder.go 278-340): a row without object gets a new one -/
def decodeObject (M : Meta) (s : St) (id : Nat) : St × Option Nat :=
  match s.objs id with
  | some o => (s, some o)
  | none =>
    match s.rows id with
    | none => (s, none)
    | some r => (setObjectID M { s with cls := upd s.cls s.count r.cls, count := s.count + 1 } s.count id, some s.count)

/-- `decodeFeatureValue` (ecore/sqldecoder.go 388-425, 470-478, 551-562); an error gives `nil` -/
def decodeValue (M : Meta) (s : St) (f : Nat) : Cell → St × Val
  | .null => (s, if (M.feature f).kind = .data ∧ (M.feature f).many = false then .data 0 else .nil)
  | .data n => (s, if (M.feature f).kind = .data then .data n else .nil)
  | .id n => if (M.feature f).kind = .object then let (s, o) := decodeObject M s n; (s, o.elim .nil .obj) else (s, .nil)
  | .ref n => if (M.feature f).kind = .reference then let (s, o) := decodeObject M s n; (s, o.elim .nil .obj) else (s, .nil)
  | .uri o => (s, if (M.feature f).kind = .reference then .proxy o else .nil)

/-- values read one after the other (ecore/sqlstore.go 2254-2268) -/
def decodeValues (M : Meta) (f : Nat) : St → List Cell → St × List Val
  | s, [] => (s, [])
  | s, c :: cs => let (s, v) := decodeValue M s f c; let (s, vs) := decodeValues M f s cs; (s, v :: vs)

/-- objects read one after the other (ecore/sqlstore.go 1808-1825): the first error ends the reading -/
def decodeObjects (M : Meta) : St → List Nat → St × Option (List Nat)
  | s, [] => (s, some [])
  | s, n :: ns =>
    match decodeObject M s n with
    | (s, none) => (s, none)
    | (s, some o) => let (s, os) := decodeObjects M s ns; (s, os.map (o :: ·))

/-- `encodeFeatureValue` of the store (ecore/sqlstore.go 930-941) -/
def storeValue (M : Meta) (s : St) (f : Nat) (v : Val) : St × Option Cell := encodeValue M (encodeSQLID M) s f v

/-- the loop of `doAddAll` (ecore/sqlstore.go 1921-1936) -/
def storeValues (M : Meta) (f : Nat) : St → List Val → St × Option (List Cell)
  | s, [] => (s, some [])
  | s, v :: vs =>
    match storeValue M s f v with
    | (s, none) => (s, none)
    | (s, some c) => let (s, cs) := storeValues M f s vs; (s, cs.map (c :: ·))

/-- Operations on the store (ecore/estore.go). -/
inductive Op where
  | get (o f i : Nat)
  | set (o f i : Nat) (v : Val)
  | isSet (o f : Nat)
  | unSet (o f : Nat)
  | isEmpty (o f : Nat)
  | size (o f : Nat)
  | contains (o f : Nat) (v : Val)
  | indexOf (o f : Nat) (v : Val)
  | lastIndexOf (o f : Nat) (v : Val)
  | add (o f i : Nat) (v : Val)
  | addAll (o f i : Nat) (vs : List Val)
  | remove (o f i : Nat)
  | move (o f i j : Nat)
  | clear (o f : Nat)
  | toArray (o f : Nat)
  | addRoot (o : Nat)
  | removeRoot (o : Nat)
  | getRoots
  | setContainer (o : Nat) (c : Option (Nat × Nat))
  | getContainer (o : Nat)
  | unRegister (o : Nat)
deriving DecidableEq, Repr

/-- What an operation answers. -/
inductive Res where
  | unit
  | val (v : Val)
  | bool (b : Bool)
  | int (n : Int)
  | vals (l : List Val)
  | objs (l : List Nat)
  | container (c : Option (Nat × Option Nat))
deriving DecidableEq, Repr

/-- the position of the last occurrence -/
def lastIdx [DecidableEq α] (l : List α) (x : α) : Int :=
  if x ∈ l then (l.length - 1 - l.reverse.idxOf x : Nat) else -1

/-- `index` and `lastIndex`: -1 when there is no such row -/
def firstIdx [DecidableEq α] (l : List α) (x : α) : Int := if x ∈ l then (l.idxOf x : Nat) else -1

/-- `getFeatureSchema` and `getEncoderFeatureData` (ecore/sqlstore.go 888-928): the features declared by the class of the object -/
def known (M : Meta) (s : St) (o f : Nat) : Bool := decide (f ∈ (M.cls (s.cls o)).own)

/-- an operation that reads: the object has to be in the store, and the class has to know the feature -/
def read (M : Meta) (s : St) (o f : Nat) (absent unknown : Res) (k : St → Nat → St × Res) : St × Res :=
  match getSQLID M s o with
  | (s, _, false) => (s, absent)
  | (s, id, true) => if known M s o f then k s id else (s, unknown)

/-- an operation that writes: the object is put into the store if it is not there -/
def write (M : Meta) (s : St) (o f : Nat) (failed : Res) (k : St → Nat → St × Res) : St × Res :=
  match encodeSQLID M s o with
  | (s, none) => (s, failed)
  | (s, some id) => if known M s o f then k s id else (s, failed)

/-- `getValue` (ecore/sqlstore.go 1394-1419) -/
def getValue (M : Meta) (s : St) (id f i : Nat) : St × Val :=
  decodeValue M s f (if (M.feature f).many then ((s.lists id f)[i]?).getD .null else s.col id f)

/-- the position of a value in a list; `NULL` is equal to nothing (ecore/sqlstore.go 1650-1734) -/
def search (M : Meta) (s : St) (id f : Nat) (v : Val) (absent : Res) (answer : List Cell → Cell → Res) : St × Res :=
  match storeValue M s f v with
  | (s, none) => (s, absent)
  | (s, some c) => (s, if c = .null then absent else answer (s.lists id f) c)

/-- The operations (ecore/sqlstore.go 1379-2290). -/
def step (M : Meta) (s : St) : Op → St × Res
  /- 1379-1419: the error of an unknown feature is the value -/
  | .get o f i => read M s o f (.val .nil) (.val .error) fun s id => let (s, v) := getValue M s id f i; (s, .val v)
  /- 1432-1473, the old value asked for -/
  | .set o f i v => write M s o f (.val .nil) fun s id =>
      let (s, old) := getValue M s id f i
      match storeValue M s f v with
      | (s, none) => (s, .val .nil)
      | (s, some c) =>
        ((if (M.feature f).many then setList s id f ((s.lists id f).set i c) else setCol s id f c), .val old)
  /- 1491-1530 -/
  | .isSet o f => read M s o f (.bool false) (.bool false) fun s id =>
      (s, .bool (if (M.feature f).many then !(s.lists id f).isEmpty
        else decide (s.col id f ≠ ((M.feature f).default.elim .null .data))))
  /- 1542-1566 -/
  | .unSet o f => write M s o f .unit fun s id =>
      ((if (M.feature f).many then setList s id f [] else setCol s id f ((M.feature f).default.elim .null .data)), .unit)
  /- 1578-1604 -/
  | .isEmpty o f => read M s o f (.bool true) (.bool true) fun s id => (s, .bool (s.lists id f).isEmpty)
  /- 1616-1642 -/
  | .size o f => read M s o f (.int 0) (.int 0) fun s id => (s, .int (s.lists id f).length)
  /- 1651-1684 -/
  | .contains o f v => read M s o f (.bool false) (.bool false) fun s id =>
      search M s id f v (.bool false) fun l c => .bool (decide (c ∈ l))
  /- 1686-1757 -/
  | .indexOf o f v => read M s o f (.int (-1)) (.int (-1)) fun s id => search M s id f v (.int (-1)) fun l c => .int (firstIdx l c)
  | .lastIndexOf o f v => read M s o f (.int (-1)) (.int (-1)) fun s id => search M s id f v (.int (-1)) fun l c => .int (lastIdx l c)
  /- 1869-1895: an index beyond the list is an error before the value is encoded -/
  | .add o f i v => write M s o f .unit fun s id =>
      if i ≤ (s.lists id f).length then
        match storeValue M s f v with
        | (s, none) => (s, .unit)
        | (s, some c) => (setList s id f ((s.lists id f).insertIdx i c), .unit)
      else (s, .unit)
  /- 1905-1937; the rows inserted before an error are left out -/
  | .addAll o f i vs => write M s o f .unit fun s id =>
      if i ≤ (s.lists id f).length then
        match storeValues M f s vs with
        | (s, none) => (s, .unit)
        | (s, some cs) => (setList s id f ((s.lists id f).take i ++ cs ++ (s.lists id f).drop i), .unit)
      else (s, .unit)
  /- 2001-2032, the old value asked for -/
  | .remove o f i => write M s o f (.val .nil) fun s id =>
      let c := ((s.lists id f)[i]?).getD .null
      let (s, v) := decodeValue M (setList s id f ((s.lists id f).eraseIdx i)) f c
      (s, .val v)
  /- 2053-2097, the value asked for -/
  | .move o f i j => write M s o f (.val .nil) fun s id =>
      match (s.lists id f)[i]? with
      | none => (s, .val .nil)
      | some c =>
        if j < (s.lists id f).length then
          let (s, v) := decodeValue M (setList s id f (((s.lists id f).eraseIdx i).insertIdx j c)) f c
          (s, .val v)
        else (s, .val .nil)
  /- 2105-2122 -/
  | .clear o f => write M s o f .unit fun s id => (setList s id f [], .unit)
  /- 2235-2277 -/
  | .toArray o f => read M s o f (.vals []) (.vals []) fun s id => let (s, vs) := decodeValues M f s (s.lists id f); (s, .vals vs)
  /- 1767-1769 and ecore/sqlencoder.go 263-269: `encodeObject`, not `encodeSQLID` -/
  | .addRoot o =>
      match encode M s o with
      | (s, none) => (s, .unit)
      | (s, some id) => ({ s with roots := s.roots ++ [id] }, .unit)
  /- 1778-1793 -/
  | .removeRoot o =>
      match getSQLID M s o with
      | (s, _, false) => (s, .unit)
      | (s, id, true) => ({ s with roots := s.roots.filter (· ≠ id) }, .unit)
  /- 1805-1827 -/
  | .getRoots => let (s, os) := decodeObjects M s s.roots; (s, .objs (os.getD []))
  /- 2208-2233 -/
  | .setContainer o c =>
      match encodeSQLID M s o with
      | (s, none) => (s, .unit)
      | (s, some id) =>
        match c with
        | none => ({ s with rows := upd s.rows id ((s.rows id).map fun r => ⟨r.cls, none, none⟩) }, .unit)
        | some (p, f) =>
          match encodeSQLID M s p with
          | (s, none) => (s, .unit)
          | (s, some pid) =>
            ({ s with rows := upd s.rows id ((s.rows id).map fun r => ⟨r.cls, some pid, some (M.featureID (s.cls p) f)⟩) }, .unit)
  /- 2140-2187 -/
  | .getContainer o =>
      match getSQLID M s o with
      | (s, _, false) => (s, .container none)
      | (s, id, true) =>
        match s.rows id with
        | none => (s, .container none)
        | some r =>
          match r.container with
          | none => (s, .container none)
          | some pid =>
            match decodeObject M s pid with
            | (s, none) => (s, .container none)
            | (s, some p) => (s, .container (some (p, M.featureAt (s.cls p) ((M.cls (s.cls p)).static + r.feature.getD 0))))
  /- 1844-1859, without the contents -/
  | .unRegister o => (clearObjectID M s o, .unit)

/-- operations one after the other -/
def run (M : Meta) (s : St) : List Op → St × List Res
  | [] => (s, [])
  | op :: ops => let (s, r) := step M s op; let (s, rs) := run M s ops; (s, r :: rs)

/-- A store on an empty database, with `count` objects in memory. -/
def init (cls : Nat → Nat) (mem : Nat → Nat → List Val) (count : Nat) : St :=
  ⟨cls, mem, count, fun _ => 0, fun _ => none, fun _ => none, 0, fun _ => none, fun _ _ => .null, fun _ _ => [], []⟩

/-- A store on a database that has rows, with `count` objects in memory. -/
def opened (cls : Nat → Nat) (mem : Nat → Nat → List Val) (count last : Nat) (rows : Nat → Option Row)
    (col : Nat → Nat → Cell) (lists : Nat → Nat → List Cell) (roots : List Nat) : St :=
  ⟨cls, mem, count, fun _ => 0, fun _ => none, fun _ => none, last, rows, col, lists, roots⟩

end Verif.SQLObjects
