import Verif.Model.SQLCodec
import Verif.Spec.Convert
import Mathlib.Data.List.Forall2

/-!
# What is loaded of what was saved

The specification of C59.  `objs` lists the objects that were saved: the object loaded at position `i` is the copy of the object at position
`i` of `objs`.
-/

namespace Verif.SQLCodec.Spec

open Verif.Convert (Text Time Value)
open Verif.Convert.Spec (Signed isTime)

variable {F : Type}

/-- a reference to the container -/
def isParent (f : Feature F) : Prop := f.isReference = true ∧ f.containment = false ∧ f.container = true

/-- a feature that has to be saved; a reference to the container is given by the containment -/
def isSaved (f : Feature F) : Prop := f.transient = false ∧ ¬ isParent f

instance (f : Feature F) : Decidable (isParent f) := by unfold isParent; infer_instance
instance (f : Feature F) : Decidable (isSaved f) := by unfold isSaved; infer_instance

/-- a reference that is resolved when it is a proxy -/
def isResolving (f : Feature F) : Prop := f.isReference = true ∧ f.containment = false ∧ f.resolveProxies = true

instance (f : Feature F) : Decidable (isResolving f) := by unfold isResolving; infer_instance

/-- An element of a feature of the object at position `k`, and the element that is loaded for it: the same value, the copy of the object, or,
for a reference that is resolved, to an object that was not saved or was saved after the object that refers to it, a proxy with its URI. -/
def SameElem (g : Graph F) (objs : List Nat) (k : Nat) (f : Feature F) : Elem Nat F → Elem Ref F → Prop
  | .data v, .data v' => v = v'
  | .ref o, .ref (.copy i) => objs[i]? = some o
  | .ref o, .ref (.proxy u c) => isResolving f ∧ o ∉ objs.take (k + 1) ∧ u = g.uri o ∧ c = f.refType
  | _, _ => False

/-- a value and the value that is loaded for it -/
def SameVal (g : Graph F) (objs : List Nat) (k : Nat) (f : Feature F) : Val Nat F → Val Ref F → Prop
  | .one none, .one none => True
  | .one (some e), .one (some e') => SameElem g objs k f e e'
  | .list l, .list l' => List.Forall₂ (SameElem g objs k f) l l'
  | _, _ => False

/-- the value of a feature that is not set -/
def defaultVal {R : Type} (f : Feature F) : Val R F := if f.many then .list [] else .one (f.default.map .data)

/-- `EGet` of an object that was loaded -/
def getVal (c : Copy F) (cl i : Nat) (f : Feature F) : Val Ref F := (c.slot cl i).getD (defaultVal f)

/-- The copy, at position `k`, has the class and the ID of the object, and the values of its features. -/
structure FullCopy (env : Env F) (g : Graph F) (opt : Opt) (objs : List Nat) (k o : Nat) (c : Copy F) : Prop where
  cls : c.cls = g.cls o
  proxy : g.proxy o = none
  id : c.id = match opt.ids with
    | .no => none
    | .column => g.id o
    | .key => some (k + 1)
  kept : ∀ cl ∈ g.cls o :: env.supers (g.cls o), ∀ (i : Nat) (f : Feature F), (env.features cl)[i]? = some f → isSaved f →
    SameVal g objs k f (g.val o cl i) (getVal c cl i f)
  dropped : ∀ cl ∈ g.cls o :: env.supers (g.cls o), ∀ (i : Nat) (f : Feature F), (env.features cl)[i]? = some f → ¬ isSaved f →
    c.slot cl i = none
  nothing : ∀ (cl i : Nat), cl ∉ g.cls o :: env.supers (g.cls o) ∨ (env.features cl)[i]? = none → c.slot cl i = none

/-! ### What can be saved -/

/-- the names of the tables of a class, in lower case: one for the class, one for each list -/
def tableNames (env : Env F) (c : Nat) : List Text :=
  lower (env.name c) :: ((env.features c).filter fun f => decide (isSaved f) && f.many).map fun f =>
    lower (lower (env.name c) ++ [95] ++ f.name)

/-- the name of the key of a class -/
def keyName (env : Env F) (c : Nat) : Text := lower (env.name c) ++ [105, 100]

/-- the names of the columns of a class, in lower case -/
def columnNames (env : Env F) (c : Nat) : List Text :=
  keyName env c :: ((env.features c).filter fun f => decide (isSaved f) && !f.many).map fun f => lower f.name

/-- `idx` -/
def idx : Text := [105, 100, 120]

/-- a URI that is written relative to the resource: it is read as the URI, it is not empty, and it is no number -/
def Readable (env : Env F) (u : Text) : Prop :=
  env.resolve (env.relativize u) = u ∧
    ∃ c s, env.relativize u = c :: s ∧
      ((∃ d ∈ s, ¬ (48 ≤ d ∧ d ≤ 57)) ∨ ¬ (48 ≤ c ∧ c ≤ 57) ∧ (c ≠ 43 ∧ c ≠ 45 ∨ s = []))

/-- a value has the type of its feature, and the database and the conversions keep it -/
def DataFits (env : Env F) (f : Feature F) (v : Value F) : Prop :=
  if f.many = true then env.fromText f.dataType (env.toText f.dataType v) = some v
  else if f.isEnum = true then
    env.toText f.dataType v ∈ env.literals f.dataType ∧
      (env.inst f.dataType (env.toText f.dataType v) = some v ∨
        env.inst f.dataType (env.toText f.dataType v) = none ∧ env.fromText f.dataType (env.toText f.dataType v) = some v) ∧
      env.registry (env.nsURI (env.typePkg f.dataType)) = some (env.typePkg f.dataType) ∧
      env.findEnum (env.typePkg f.dataType) (env.typeName f.dataType) = some f.dataType
  else if f.typeName ∈ ["float64", "java.lang.Double", "double"] then ∃ x, v = .float64 x ∧ env.isNaN x = false
  else if f.typeName ∈ ["float32", "java.lang.Float", "float"] then ∃ x, v = .float32 x ∧ env.isNaN x = false ∧ env.round32 x = x
  else if f.typeName ∈ ["int", "java.lang.Integer"] then ∃ i, v = .int i
  else if f.typeName ∈ ["int64", "java.lang.Long", "java.math.BigInteger", "long"] then ∃ i, v = .int64 i
  else if f.typeName = "int32" then ∃ i, v = .int32 i ∧ Signed 32 i
  else if f.typeName ∈ ["int16", "java.lang.Short", "short"] then ∃ i, v = .int16 i ∧ Signed 16 i
  else if f.typeName = "byte" then ∃ b, v = .byte b ∧ b < 256
  else if f.typeName ∈ ["bool", "java.lang.Boolean", "boolean"] then ∃ b, v = .bool b
  else if f.typeName ∈ ["string", "java.lang.String"] then ∃ s, v = .string s
  else if f.typeName ∈ ["[]byte", "java.util.ByteArray"] then ∃ l, v = .bytes l
  else if f.typeName ∈ ["*time/time.Time", "java.util.Date"] then
    ∃ t, v = .date t ∧ isTime t ∧ t.nano = 0 ∧ t.offset % 60 = 0 ∧ t.offset.natAbs < 86400
  else env.fromText f.dataType (env.toText f.dataType v) = some v

/-- what is loaded for an attribute that was not written: the default value has to be this one -/
def zeroOf (env : Env F) (f : Feature F) : Option (Value F) :=
  if f.isEnum = true then f.default
  else if f.typeName ∈ ["float64", "java.lang.Double", "double"] then some (.float64 env.zero)
  else if f.typeName ∈ ["float32", "java.lang.Float", "float"] then some (.float32 env.zero)
  else if f.typeName ∈ ["int", "java.lang.Integer"] then some (.int 0)
  else if f.typeName ∈ ["int64", "java.lang.Long", "java.math.BigInteger", "long"] then some (.int64 0)
  else if f.typeName = "int32" then some (.int32 0)
  else if f.typeName ∈ ["int16", "java.lang.Short", "short"] then some (.int16 0)
  else if f.typeName = "byte" then some (.byte 0)
  else if f.typeName ∈ ["bool", "java.lang.Boolean", "boolean"] then some (.bool false)
  else if f.typeName ∈ ["string", "java.lang.String"] then some (.string [])
  else f.default

/-- an element has the type of its feature; `objects` are the objects that may be saved -/
def ElemFits (env : Env F) (g : Graph F) (objects : List Nat) (f : Feature F) : Elem Nat F → Prop
  | .data v => f.isReference = false ∧ DataFits env f v
  | .ref o => f.isReference = true ∧ (if f.containment = false ∧ f.resolveProxies = true then Readable env (g.uri o) else o ∈ objects)

/-- a value has the type of its feature -/
def ValFits (env : Env F) (g : Graph F) (objects : List Nat) (f : Feature F) : Val Nat F → Prop
  | .one none => f.many = false
  | .one (some e) => f.many = false ∧ ElemFits env g objects f e
  | .list l => f.many = true ∧ (f.isReference = true ∨ f.unique = true → l.Nodup) ∧ ∀ e ∈ l, ElemFits env g objects f e

/-- a feature that is set has a value that fits; one that is not has the default value, which is written, or else loaded for nothing -/
def SlotFits (env : Env F) (g : Graph F) (opt : Opt) (objects : List Nat) (o c i : Nat) (f : Feature F) : Prop :=
  if g.isSet o c i = true then ValFits env g objects f (g.val o c i) ∧ g.val o c i ≠ .one none
  else g.val o c i = defaultVal f ∧
    (f.many = false → f.isReference = true → f.default = none) ∧
    (f.many = false → f.isReference = false →
      if opt.keepDefaults = true ∧ f.literal = true then ∃ v, f.default = some v ∧ DataFits env f v
      else f.default = zeroOf env f)

/-- The objects that may be saved, which are closed under the references that are followed, and their classes. -/
structure Valid (env : Env F) (g : Graph F) (opt : Opt) (objects classes : List Nat) : Prop where
  size : objects.length < 9223372036854775807
  proxy : ∀ o ∈ objects, g.proxy o = none
  cls : ∀ o ∈ objects, ∀ c ∈ g.cls o :: env.supers (g.cls o), c ∈ classes
  hierarchy : ∀ o ∈ objects, (g.cls o :: env.supers (g.cls o)).Nodup
  registered : ∀ o ∈ objects, env.registry (env.nsURI (env.pkg (g.cls o))) = some (env.pkg (g.cls o))
  found : ∀ o ∈ objects, env.findClass (env.pkg (g.cls o)) (env.name (g.cls o)) = some (g.cls o)
  tables : (commonTables ++ classes.flatMap (tableNames env)).Nodup
  columns : ∀ c ∈ classes, (columnNames env c).Nodup
  lists : ∀ c ∈ classes, ∀ f ∈ env.features c, isSaved f → f.many = true → ¬ isResolving f → lower f.name ≠ keyName env c ∧ lower f.name ≠ idx
  parents : ∀ c ∈ classes, ∀ f ∈ env.features c, f.containment = true → f.container = false
  ids : opt.ids = .column → opt.containers = false ∧ ∀ o ∈ objects, ∃ n, g.id o = some n ∧ env.readID (env.showID n) = some n
  slots : ∀ o ∈ objects, ∀ c ∈ g.cls o :: env.supers (g.cls o), ∀ (i : Nat) (f : Feature F), (env.features c)[i]? = some f → isSaved f →
    SlotFits env g opt objects o c i f

end Verif.SQLCodec.Spec
