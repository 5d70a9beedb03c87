import Verif.Model.MetaLookup
/-
The specification: a metamodel is plain data, an edit changes it, and an answer is
right when it says what the metamodel is at that moment.
-/
namespace Verif.MetaLookup.Spec
open Verif.MetaLookup

/-- A metamodel, as last set. -/
structure Meta where
  classifiers : List Nat
  factory : Nat
  kind : Nat → Kind
  name : Nat → String
  inst : Nat → String
  serializable : Nat → Bool
  literals : Nat → List Literal
  /-- the default given with `SetDefaultValue`, if any -/
  given : Nat → Option Val
  etype : Nat → Option Nat
  many : Nat → Bool
  literal : Nat → String

def start (kind : Nat → Kind) : Meta where
  classifiers := []
  factory := 0
  kind := kind
  name _ := ""
  inst _ := ""
  serializable _ := true
  literals _ := []
  given _ := none
  etype _ := none
  many _ := false
  literal _ := ""

/-- What the edits mean. -/
def change (m : Meta) : Edit → Meta
  | .add c => if c ∈ m.classifiers then m else { m with classifiers := m.classifiers ++ [c] }
  | .insert i c =>
    if c ∈ m.classifiers ∨ m.classifiers.length < i then m
    else { m with classifiers := m.classifiers.insertIdx i c }
  | .remove c => { m with classifiers := m.classifiers.filter (· ≠ c) }
  | .setName c n => { m with name := fun d => if d = c then n else m.name d }
  | .setInst c t => { m with inst := fun d => if d = c then t else m.inst d }
  | .setSerializable c b => { m with serializable := fun d => if d = c then b else m.serializable d }
  | .setLiterals c ls => { m with literals := fun d => if d = c then ls else m.literals d }
  | .setTypeDefault c v => { m with given := fun d => if d = c then some v else m.given d }
  | .setFactory n => { m with factory := n }
  | .setDeliver _ => m
  | .setEType f c => { m with etype := fun g => if g = f then c else m.etype g }
  | .setMany f b => { m with many := fun g => if g = f then b else m.many g }
  | .setDefaultLiteral f t => { m with literal := fun g => if g = f then t else m.literal g }

/-- The zero values of the types that have one. -/
def zeros : List (String × Val) :=
  [("float64", .num "float64" 0), ("java.lang.Double", .num "float64" 0), ("double", .num "float64" 0),
   ("float32", .num "float32" 0), ("java.lang.Float", .num "float32" 0), ("float", .num "float32" 0),
   ("int", .num "int" 0), ("java.lang.Integer", .num "int" 0),
   ("uint64", .num "uint64" 0), ("com.google.common.primitives.UnsignedLong", .num "uint64" 0),
   ("int64", .num "int64" 0), ("java.lang.Long", .num "int64" 0),
   ("java.math.BigInteger", .num "int64" 0), ("long", .num "int64" 0),
   ("int32", .num "int32" 0),
   ("int16", .num "int16" 0), ("java.lang.Short", .num "int16" 0), ("short", .num "int16" 0),
   ("int8", .num "int8" 0),
   ("bool", .bool false), ("java.lang.Boolean", .bool false), ("boolean", .bool false),
   ("string", .str ""), ("java.lang.String", .str "")]

/-- The default value of a classifier: none for a class, the first literal for an
enumeration, the value given or the zero value for a data type. -/
def typeDefault (m : Meta) (c : Nat) : Val :=
  match m.kind c with
  | .cls => .nil
  | .enum => ((m.literals c).head?.map (fun l => Val.num "int" l.value)).getD .nil
  | .data => (m.given c).getD ((zeros.lookup (m.inst c)).getD .nil)

/-- The text of a literal is its name unless it has its own. -/
def text (l : Literal) : String := if l.literal = "" then l.name else l.literal

/-- The first literal of an enumeration for which a test holds. -/
def First (ls : List Literal) (p : Literal → Prop) (r : Option Literal) : Prop :=
  match r with
  | none => ∀ l ∈ ls, ¬ p l
  | some l => ∃ before after : List Literal, ls = before ++ l :: after ∧ p l ∧ ∀ b ∈ before, ¬ p b

/-- The answer is right for the metamodel as it is. -/
def Right (conv : Nat → String → String → Option Val) (m : Meta) : Query → Answer → Prop
  | .classifier n, .object (some c) => c ∈ m.classifiers ∧ m.name c = n
  | .classifier n, .object none => ∀ c ∈ m.classifiers, m.name c ≠ n
  | .classifierID c, .index i =>
    if c ∈ m.classifiers then 0 ≤ i ∧ m.classifiers[i.toNat]? = some c else i = -1
  | .referenceType f, .object r =>
    ∀ c : Nat, r = some c ↔ (m.etype f = some c ∧ m.kind c = .cls)
  | .typeDefault c, .value v => v = typeDefault m c
  | .default f, a =>
    match m.etype f with
    | none => a = .value .nil
    | some c =>
      if m.literal f = "" then a = .value (if m.many f then .nil else typeDefault m c)
      else match m.kind c with
        | .cls => a = .value .nil
        | .data =>
          if c ∈ m.classifiers ∧ m.serializable c then
            match conv m.factory (m.inst c) (m.literal f) with
            | some v => a = .value v
            | none => a = .panic
          else a = .value .nil
        | .enum =>
          if c ∈ m.classifiers ∧ m.serializable c then
            ∃ r : Option Literal, First (m.literals c) (fun l => text l = m.literal f) r ∧
              match r with
              | some l => a = .value (.num "int" l.value)
              | none => a = .panic
          else a = .value .nil
  | .literalByName c n, .literal r => First (m.literals c) (fun l => l.name = n) r
  | .literalByValue c v, .literal r => First (m.literals c) (fun l => l.value = v) r
  | .literalByLiteral c n, .literal r => First (m.literals c) (fun l => text l = n) r
  | _, _ => False

/-- Every query of the sequence is answered rightly, and no edit is answered. -/
def AllRight (conv : Nat → String → String → Option Val) (m : Meta) :
    List Call → List (Option Answer) → Prop
  | [], as => as = []
  | .edit e :: cs, as => ∃ rest : List (Option Answer), as = none :: rest ∧
      AllRight conv (change m e) cs rest
  | .query q :: cs, as => ∃ (a : Answer) (rest : List (Option Answer)), as = some a :: rest ∧
      Right conv m q a ∧ AllRight conv m cs rest

/-! ### What was asked

The library answers wrongly when something it was asked about is changed
afterwards.  `Asked` records the questions that matter. -/

structure Asked where
  /-- a classifier was looked up by name since the classifiers last changed while
  notifications were delivered -/
  names : Bool
  /-- the package delivers notifications -/
  deliver : Bool
  /-- the ID of the classifier was asked while it was in the package -/
  id : Nat → Bool
  /-- the type of the reference was asked while it was a class -/
  refType : Nat → Bool
  /-- the default of the data type was asked while it had neither a given default
  nor a zero value -/
  noZero : Nat → Bool
  /-- the default of the feature was asked since its text was set, while it was to
  be computed from the text -/
  default : Nat → Bool
  /-- the default of the feature was computed from a text at any time -/
  computed : Nat → Bool

def nothing : Asked where
  names := false
  deliver := true
  id _ := false
  refType _ := false
  noZero _ := false
  default _ := false
  computed _ := false

def mark (f : Nat → Bool) (i : Nat) (b : Bool) : Nat → Bool := fun j => if j = i then b else f j

/-- The classifiers change with an edit. -/
def Changes (m : Meta) : Edit → Prop
  | .add c => c ∉ m.classifiers
  | .insert i c => c ∉ m.classifiers ∧ i ≤ m.classifiers.length
  | .remove c => c ∈ m.classifiers
  | _ => False

instance (m : Meta) (e : Edit) : Decidable (Changes m e) := by
  cases e <;> unfold Changes <;> infer_instance

/-- The default of the data type is asked for in vain. -/
def noZeroNow (m : Meta) (c : Nat) : Bool :=
  m.kind c == .data && (m.given c).isNone && (zeros.lookup (m.inst c)).isNone

/-- What was asked, after an edit. -/
def askedEdit (m : Meta) (k : Asked) : Edit → Asked
  | .setDeliver b => { k with deliver := b }
  | .setDefaultLiteral f _ => { k with default := mark k.default f false }
  | .setTypeDefault c _ => { k with noZero := mark k.noZero c false }
  | e => if Changes m e ∧ k.deliver = true then { k with names := false } else k

/-- What was asked, after a query. -/
def askedQuery (m : Meta) (k : Asked) : Query → Asked
  | .classifier _ => { k with names := true }
  | .classifierID c => if c ∈ m.classifiers then { k with id := mark k.id c true } else k
  | .referenceType f =>
    if (∃ c ∈ m.etype f, m.kind c = .cls) then { k with refType := mark k.refType f true } else k
  | .typeDefault c => if noZeroNow m c then { k with noZero := mark k.noZero c true } else k
  | .default f =>
    match m.etype f with
    | none => k
    | some c =>
      if m.literal f = "" then
        if m.many f = false ∧ noZeroNow m c then { k with noZero := mark k.noZero c true } else k
      else if m.kind c ≠ .cls ∧ c ∈ m.classifiers then
        { k with
          default := mark k.default f true
          computed := if m.serializable c then mark k.computed f true else k.computed }
      else k
  | _ => k

/-- The edit changes nothing that the library remembers wrongly:

* the name of a classifier in the package only before classifiers are looked up;
* the classifiers, while notifications are off, only before they are looked up;
* the classifiers only in such a way that those whose ID was asked keep their place;
* the type of a reference only before it was asked;
* the instance type of a data type only before its default was asked in vain;
* the type of a feature, and what its type is, only before its default was
  computed. -/
def CarefulEdit (m : Meta) (k : Asked) (e : Edit) : Prop :=
  (Changes m e → k.deliver = false → k.names = false) ∧
  (∀ i c : Nat, m.classifiers[i]? = some c → k.id c = true → (change m e).classifiers[i]? = some c) ∧
  match e with
  | .setName c _ => c ∈ m.classifiers → k.names = false
  | .setInst c _ => k.noZero c = false ∧ ∀ f : Nat, m.etype f = some c → k.default f = false
  | .setSerializable c _ => ∀ f : Nat, m.etype f = some c → k.default f = false
  | .setLiterals c _ => ∀ f : Nat, m.etype f = some c → k.default f = false
  | .setEType f _ => k.refType f = false ∧ k.default f = false
  | _ => True

/-- The query does not meet a default that is left over: the default of a feature
whose type can not be converted is only asked if none was computed before. -/
def CarefulQuery (m : Meta) (k : Asked) : Query → Prop
  | .default f => ∀ c : Nat, m.etype f = some c → m.literal f ≠ "" →
      (c ∈ m.classifiers ∧ m.serializable c = true) ∨ k.computed f = false
  | _ => True

/-- The whole sequence is careful. -/
def Careful (m : Meta) (k : Asked) : List Call → Prop
  | [] => True
  | .edit e :: cs => CarefulEdit m k e ∧ Careful (change m e) (askedEdit m k e) cs
  | .query q :: cs => CarefulQuery m k q ∧ Careful m (askedQuery m k q) cs

end Verif.MetaLookup.Spec
