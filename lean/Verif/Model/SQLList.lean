/-!
# Lists in the SQL store

A many valued feature is a table with one row per value: the object, a number `idx` that gives
the order, and the value (ecore/sqlschema.go 486-519).
-/

namespace Verif.SQLList

/-- A row.  `rowid` is the key SQLite gives to every row.  The numbers `idx` are `float64` in the
code; here they are rationals, and every arithmetic operation is followed by a rounding function. -/
structure Row (V : Type) where
  rowid : Nat
  obj : Nat
  idx : Rat
  value : V
deriving DecidableEq, Repr

variable {V : Type}

/-- insertion in front of the first row that is not smaller -/
def insertRow (r : Row V) : List (Row V) → List (Row V)
  | [] => [r]
  | x :: xs => if r.idx ≤ x.idx then r :: x :: xs else x :: insertRow r xs

/-- `ORDER BY idx ASC`; rows with the same `idx` are in the order of the table -/
def orderBy (rows : List (Row V)) : List (Row V) := rows.foldr insertRow []

/-- `SELECT … WHERE key=? ORDER BY key ASC, idx ASC` (ecore/sqlstore.go 149-181) -/
def select (rows : List (Row V)) (obj : Nat) : List (Row V) := orderBy (rows.filter (·.obj = obj))

/-- the row ID of a new row -/
def fresh (rows : List (Row V)) : Nat := rows.foldr (fun r n => max r.rowid n) 0 + 1

/-- `getInsertIdx` (ecore/sqlstore.go 1937-1987): the `idx` of the first value and the increment;
`none` is the error.  `LIMIT ? OFFSET ?` of `getListIndexToIdxQuery` (288-299) is `drop`, `take`. -/
def getInsertIdx (fl : Rat → Rat) (rows : List (Row V)) (obj index nb : Nat) : Option (Rat × Rat) :=
  if index = 0 then
    match (select rows obj).take 1 with
    | [] => some (1, 1)
    | r :: _ =>
      let increment := fl (1 / (nb + 1))
      some (fl (r.idx * increment), increment)
  else
    match ((select rows obj).drop (index - 1)).take 2 with
    | [] => none
    | [r] => some (fl (r.idx + 1), 1)
    | r :: r' :: _ =>
      let increment := fl (1 / (nb + 1))
      some (fl (fl (r.idx + r'.idx) * increment), increment)

/-- `INSERT` -/
def insert (rows : List (Row V)) (obj : Nat) (idx : Rat) (v : V) : List (Row V) := rows ++ [⟨fresh rows, obj, idx, v⟩]

/-- the loop of `doAddAll` (ecore/sqlstore.go 1921-1935) -/
def insertAll (fl : Rat → Rat) (rows : List (Row V)) (obj : Nat) (idx inc : Rat) : List V → List (Row V)
  | [] => rows
  | v :: vs => insertAll fl (insert rows obj idx v) obj (fl (idx + inc)) inc vs

/-- the row at an index: `… ORDER BY … LIMIT 1 OFFSET ?` -/
def rowAt (rows : List (Row V)) (obj index : Nat) : Option (Row V) := (select rows obj)[index]?

/-- `UPDATE … WHERE rowid IN …` -/
def update (rows : List (Row V)) (id : Nat) (f : Row V → Row V) : List (Row V) := rows.map fun r => if r.rowid = id then f r else r

/-- Operations of the store on lists. -/
inductive Op (V : Type) where
  | add (obj index : Nat) (v : V)
  | addAll (obj index : Nat) (vs : List V)
  | remove (obj index : Nat)
  | move (obj source target : Nat)
  | set (obj index : Nat) (v : V)
  | clear (obj : Nat)
  | get (obj index : Nat)
  | size (obj : Nat)
  | isEmpty (obj : Nat)
  | contains (obj : Nat) (v : V)
  | indexOf (obj : Nat) (v : V)
  | lastIndexOf (obj : Nat) (v : V)
  | toArray (obj : Nat)
deriving DecidableEq, Repr

/-- What they return. -/
inductive Result (V : Type) where
  | none
  | error
  | value (v : Option V)
  | number (n : Int)
  | bool (b : Bool)
  | values (vs : List V)
deriving DecidableEq, Repr

/-- `doIndexOf` (ecore/sqlstore.go 1686-1732) after the first query, which gives the `idx` or no row -/
def toListIndex (rows : List (Row V)) (obj : Nat) (found : Option (Row V)) : Int :=
  let idx : Rat := match found with | some r => r.idx | .none => -1
  if idx = -1 then -1 else (((rows.filter (·.obj = obj)).filter (·.idx < idx)).length : Nat)

/-- One operation, executed: `doAdd` 1869-1893, `doAddAll` 1904-1935, `doRemove` 2001-2032,
`doMove` 2053-2092, `doSet` 1433-1473, `doClear` 2101-2120, `doGet` 1379-1416, `doSize` 1619-1642,
`doIsEmpty` 1574-1600, `doContains` 1653-1684, `doIndexOf` 1686-1732 and `ToArray` (ecore/sqlstore.go).
`fl` rounds.  The encoding of values is not modelled: two values are equal in the table if they are equal. -/
def step [DecidableEq V] (fl : Rat → Rat) (rows : List (Row V)) : Op V → List (Row V) × Result V
  | .add obj index v =>
    match getInsertIdx fl rows obj index 1 with
    | .none => (rows, .error)
    | some (idx, _) => (insert rows obj idx v, .none)
  | .addAll obj index vs =>
    match getInsertIdx fl rows obj index vs.length with
    | .none => (rows, .error)
    | some (idx, inc) => (insertAll fl rows obj idx inc vs, .none)
  | .remove obj index =>
    match rowAt rows obj index with
    | .none => (rows, .value .none)
    | some r => (rows.filter (fun x => x.rowid ≠ r.rowid), .value (some r.value))
  | .move obj source target =>
    let target := if target > source then target + 1 else target
    match getInsertIdx fl rows obj target 1 with
    | .none => (rows, .error)
    | some (idx, _) =>
      match rowAt rows obj source with
      | .none => (rows, .value .none)
      | some r => (update rows r.rowid (fun x => { x with idx := idx }), .value (some r.value))
  | .set obj index v =>
    match rowAt rows obj index with
    | .none => (rows, .value .none)
    | some r => (update rows r.rowid (fun x => { x with value := v }), .value (some r.value))
  | .clear obj => (rows.filter (fun x => x.obj ≠ obj), .none)
  | .get obj index => (rows, .value ((rowAt rows obj index).map (·.value)))
  | .size obj => (rows, .number (rows.filter (·.obj = obj)).length)
  | .isEmpty obj => (rows, .bool (rows.filter (·.obj = obj)).isEmpty)
  | .contains obj v => (rows, .bool ((rows.filter (·.obj = obj)).any (·.value = v)))
  | .indexOf obj v => (rows, .number (toListIndex rows obj ((select rows obj).find? (·.value = v))))
  | .lastIndexOf obj v => (rows, .number (toListIndex rows obj ((select rows obj).reverse.find? (·.value = v))))
  | .toArray obj => (rows, .values ((select rows obj).map (·.value)))

/-- a history: the table and the results -/
def run [DecidableEq V] (fl : Rat → Rat) (rows : List (Row V)) : List (Op V) → List (Row V) × List (Result V)
  | [] => (rows, [])
  | op :: ops =>
    let (rows, r) := step fl rows op
    let (rows, rs) := run fl rows ops
    (rows, r :: rs)

/-! ## Rounding to `float64` -/

/-- `x / 2 ^ k` rounded to an integer, ties to even -/
def roundHalfEven (x : Rat) : Int :=
  let n := x.floor
  let d := x - n
  if d < 1 / 2 then n else if 1 / 2 < d then n + 1 else if n % 2 = 0 then n else n + 1

/-- rounding to a double with 53 bits, for numbers from 1 to less than 2 ^ 52 (others: the same
grid is used, which is not what doubles do; not used below) -/
def toDouble (x : Rat) : Rat :=
  let e := x.floor.toNat.log2
  let scale : Rat := ((2 : Int) ^ (52 - e) : Int)
  (roundHalfEven (x * scale) : Rat) / scale

end Verif.SQLList
