import Verif.Model.SQLSettings
/-!
# What is expected of the settings of an SQL database

A database is made by an encoder or by a store; then it is opened by stores that add objects to it.
-/

namespace Verif.SQLSettingsSpec

open Verif.SQLSettings

/-- One use of a database that writes objects: the options, the ID manager of the resource, the objects. -/
structure Use where
  opts : Opts
  manager : Option Manager
  objs : List Obj

/-- Who makes the database. -/
inductive Maker where
  | encoder
  | store
deriving DecidableEq

/-- The database is made by the first use, on nothing. -/
def made (by_ : Maker) (u : Use) : DB × Res Unit :=
  match by_ with
  | .encoder => encode u.opts u.manager u.objs DB.empty
  | .store => session u.opts u.manager u.objs DB.empty

/-- Further uses of a database by stores: the database that is left, and whether every one of them had no error. -/
def uses : List Use → DB → DB × Prop
  | [], db => (db, True)
  | u :: us, db =>
    let r := session u.opts u.manager u.objs db
    let t := uses us r.1
    (t.1, r.2 = .ok () ∧ t.2)

/-- The names that the columns of the table of objects have already, without case. -/
def taken : List Name := ["objectid", "classid", "containerid", "containerfeatureid"].map String.toList

/-- A name for the column of the IDs: no name, the key of the table, or a name that is not taken. -/
def Free (n : Name) : Prop := n = "objectID".toList ∨ n.map Char.toLower ∉ taken

/-- The ID that an object is expected to have after it was read: none without a column, the key of its row, or its ID. -/
def expectedID (n : Name) (key : Int) (o : Obj) : Option IdVal :=
  if n = [] then none else if n = "objectID".toList then some (.int key) else o.id.map .text

/-- The container that an object is expected to have: none if it was written without. -/
def expectedContainer (o : Obj) : Option (Int × Int) := if o.container.1 > 0 then some o.container else none

/-- The ID manager takes the IDs expected of the objects. -/
def Takes (m : Option Manager) (n : Name) (objs : List Obj) : Prop :=
  ∃ m', m = some m' ∧ ∀ (i : Nat) o v, objs[i]? = some o → expectedID n (i + 1) o = some v → m'.accepts v = true

/-- The class and the ID of an object read by a store that is opened with these options. -/
def readAs (o : Opts) (m : Option Manager) (key : Int) (db : DB) : Res (Int × Option IdVal) :=
  match openStore o m db with
  | (db, .ok s) => decodeObject s key db
  | (_, .err) => .err
  | (_, .panic) => .panic

instance (n : Name) : Decidable (Free n) := by unfold Free; infer_instance

end Verif.SQLSettingsSpec
