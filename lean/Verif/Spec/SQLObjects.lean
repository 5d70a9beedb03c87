import Verif.Model.SQLObjects

/-!
# Objects with values

The specification of C76.  There are objects with values, containers and roots, and no database: putting an object into the store changes
nothing but the fact that it is there, with all it contains.
-/

namespace Verif.SQLObjects.Spec

/-- What there is to know about the objects: the value of each feature with one value, the values of each feature with many, the
container with the feature, the objects that are in the store, and the roots. -/
structure Objects where
  one : Nat → Nat → Option Val
  many : Nat → Nat → List Val
  container : Nat → Option (Nat × Nat)
  stored : Nat → Prop
  roots : List Nat

/-- `Under M cls a o k`: `k` is `o` or is contained in it, at any depth. -/
inductive Under (M : Meta) (cls : Nat → Nat) (a : Objects) (o : Nat) : Nat → Prop where
  | here : Under M cls a o o
  | one (k f j : Nat) : Under M cls a o k → f ∈ M.all (cls k) → (M.feature f).kind = .object → (M.feature f).many = false →
      a.one k f = some (.obj j) → Under M cls a o j
  | many (k f j : Nat) : Under M cls a o k → f ∈ M.all (cls k) → (M.feature f).kind = .object → (M.feature f).many = true →
      .obj j ∈ a.many k f → Under M cls a o j

/-- the object and all it contains are in the store from now on -/
def Objects.store (M : Meta) (cls : Nat → Nat) (a : Objects) (o : Nat) : Objects :=
  { a with stored := fun k => a.stored k ∨ Under M cls a o k }

/-- a value set or added: contained objects go into the store -/
def Objects.storeValue (M : Meta) (cls : Nat → Nat) (a : Objects) (f : Nat) : Val → Objects
  | .obj k => if (M.feature f).kind = .object then a.store M cls k else a
  | _ => a

def Objects.setOne (a : Objects) (o f : Nat) (v : Option Val) : Objects := { a with one := upd2 a.one o f v }

def Objects.setMany (a : Objects) (o f : Nat) (l : List Val) : Objects := { a with many := upd2 a.many o f l }

/-- what is read when there is no value: the default value, 0 if there is none -/
def absent (F : Feature) : Val :=
  if F.kind = .data ∧ F.many = false then .data (F.default.getD 0) else .nil

/-- the value of a feature -/
def Objects.value (M : Meta) (a : Objects) (o f i : Nat) : Val :=
  (if (M.feature f).many then (a.many o f)[i]? else a.one o f).getD (absent (M.feature f))

/-- no value -/
def toOption : Val → Option Val
  | .nil => none
  | v => some v

/-- What the operations do to the objects, and what they answer. -/
def step (M : Meta) (cls : Nat → Nat) (a : Objects) : Op → Objects × Res
  | .get o f i => (a, .val (a.value M o f i))
  | .set o f i v =>
    let b := (a.store M cls o).storeValue M cls f v
    (if (M.feature f).many then b.setMany o f ((a.many o f).set i v) else b.setOne o f (toOption v), .val (a.value M o f i))
  | .isSet o f => (a, .bool (if (M.feature f).many then decide (a.many o f ≠ [])
      else decide (a.one o f ≠ none ∧ a.one o f ≠ (M.feature f).default.map .data)))
  | .unSet o f =>
    let b := a.store M cls o
    (if (M.feature f).many then b.setMany o f [] else b.setOne o f ((M.feature f).default.map .data), .unit)
  | .isEmpty o f => (a, .bool (decide (a.many o f = [])))
  | .size o f => (a, .int (a.many o f).length)
  | .contains o f v => (a, .bool (decide (v ∈ a.many o f)))
  | .indexOf o f v => (a, .int (if v ∈ a.many o f then ((a.many o f).idxOf v : Nat) else -1))
  | .lastIndexOf o f v =>
    (a, .int (if v ∈ a.many o f then ((a.many o f).length - 1 - (a.many o f).reverse.idxOf v : Nat) else -1))
  | .add o f i v =>
    if i ≤ (a.many o f).length then
      (((a.store M cls o).storeValue M cls f v).setMany o f ((a.many o f).insertIdx i v), .unit)
    else (a.store M cls o, .unit)
  | .addAll o f i vs =>
    if i ≤ (a.many o f).length then
      ((vs.foldl (fun b v => b.storeValue M cls f v) (a.store M cls o)).setMany o f
        ((a.many o f).take i ++ vs ++ (a.many o f).drop i), .unit)
    else (a.store M cls o, .unit)
  | .remove o f i =>
    ((a.store M cls o).setMany o f ((a.many o f).eraseIdx i), .val (((a.many o f)[i]?).getD .nil))
  | .move o f i j =>
    match (a.many o f)[i]? with
    | none => (a.store M cls o, .val .nil)
    | some v =>
      if j < (a.many o f).length then
        ((a.store M cls o).setMany o f (((a.many o f).eraseIdx i).insertIdx j v), .val v)
      else (a.store M cls o, .val .nil)
  | .clear o f => ((a.store M cls o).setMany o f [], .unit)
  | .toArray o f => (a, .vals (a.many o f))
  | .addRoot o => let b := a.store M cls o; ({ b with roots := b.roots ++ [o] }, .unit)
  | .removeRoot o => ({ a with roots := a.roots.filter (· ≠ o) }, .unit)
  | .getRoots => (a, .objs a.roots)
  | .setContainer o none => let b := a.store M cls o; ({ b with container := upd b.container o none }, .unit)
  | .setContainer o (some (p, f)) =>
    let b := (a.store M cls o).store M cls p
    ({ b with container := upd b.container o (some (p, f)) }, .unit)
  | .getContainer o => (a, .container ((a.container o).map fun (p, f) => (p, some f)))
  | .unRegister _ => (a, .unit)

def run (M : Meta) (cls : Nat → Nat) (a : Objects) : List Op → List Res
  | [] => []
  | op :: ops => (step M cls a op).2 :: run M cls (step M cls a op).1 ops

/-- an object may be put into the store: it is there already, or it is not contained in another one -/
def Objects.top (count : Nat) (a : Objects) (o : Nat) : Prop := o < count ∧ (a.stored o ∨ a.container o = none)

/-- a value that may be set: contained objects may be put into the store, other objects have to be there -/
def Objects.settable (M : Meta) (count : Nat) (a : Objects) (f : Nat) : Val → Prop
  | .data _ => (M.feature f).kind = .data
  | .obj k => (M.feature f).kind = .object ∧ a.top count k ∨ (M.feature f).kind = .reference ∧ a.stored k
  | .nil => (M.feature f).many = false
  | _ => False

/-- a value that may be looked for: objects are in the store -/
def Objects.searchable (M : Meta) (a : Objects) (f : Nat) : Val → Prop
  | .data _ => (M.feature f).kind = .data
  | .obj k => (M.feature f).kind ≠ .data ∧ a.stored k
  | _ => False

/-- a feature has a value, or the default value is 0 -/
def Objects.readable (M : Meta) (a : Objects) (o f : Nat) : Prop := a.one o f = none → (M.feature f).default.getD 0 = 0

/-- The operations considered: the feature is declared by the class of the object, values are of the type of the feature, what is read of
is in the store, what is written to may be put there. -/
def Ok (M : Meta) (cls : Nat → Nat) (count : Nat) (a : Objects) : Op → Prop
  | .get o f _ => f ∈ (M.cls (cls o)).own ∧ a.stored o ∧ a.readable M o f
  | .isSet o f => f ∈ (M.cls (cls o)).own ∧ a.stored o ∧ (a.one o f = none → (M.feature f).default = none)
  | .isEmpty o f | .size o f | .toArray o f => f ∈ (M.cls (cls o)).own ∧ a.stored o ∧ (M.feature f).many = true
  | .contains o f v | .indexOf o f v | .lastIndexOf o f v =>
    f ∈ (M.cls (cls o)).own ∧ a.stored o ∧ (M.feature f).many = true ∧ a.searchable M f v
  | .unSet o f => f ∈ (M.cls (cls o)).own ∧ a.top count o ∧ ((M.feature f).kind ≠ .data → (M.feature f).default = none)
  | .set o f _ v => f ∈ (M.cls (cls o)).own ∧ a.top count o ∧ a.settable M count f v ∧ a.readable M o f
  | .add o f _ v => f ∈ (M.cls (cls o)).own ∧ a.top count o ∧ (M.feature f).many = true ∧ a.settable M count f v
  | .addAll o f _ vs => f ∈ (M.cls (cls o)).own ∧ a.top count o ∧ (M.feature f).many = true ∧ ∀ v ∈ vs, a.settable M count f v
  | .remove o f _ | .move o f _ _ | .clear o f => f ∈ (M.cls (cls o)).own ∧ a.top count o ∧ (M.feature f).many = true
  | .addRoot o => a.top count o
  | .removeRoot o | .getContainer o => a.stored o
  | .getRoots => True
  | .setContainer o none => a.top count o
  | .setContainer o (some (p, f)) => a.top count o ∧ a.top count p ∧ f ∈ M.all (cls p)
  | .unRegister _ => False

/-- all operations are among those considered when they are made -/
def AllOk (M : Meta) (cls : Nat → Nat) (count : Nat) (a : Objects) : List Op → Prop
  | [] => True
  | op :: ops => Ok M cls count a op ∧ AllOk M cls count (step M cls a op).1 ops

/-- Objects in memory: values are of the type of their feature, contained objects have the container that contains them, and there are
no references to other objects. -/
def Memory (M : Meta) (cls : Nat → Nat) (mem : Nat → Nat → List Val) (container : Nat → Option (Nat × Nat)) (count : Nat) : Prop :=
  (∀ o f v, v ∈ mem o f → f ∈ M.all (cls o) ∧
    match v with
    | .data _ => (M.feature f).kind = .data
    | .obj k => (M.feature f).kind = .object ∧ k < count ∧ container k = some (o, f)
    | _ => False) ∧
  ∀ o f, (M.feature f).many = false → (mem o f).length ≤ 1

/-- Nothing is in the store. -/
def start (mem : Nat → Nat → List Val) (container : Nat → Option (Nat × Nat)) : Objects :=
  ⟨fun o f => (mem o f).head?, mem, container, fun _ => False, []⟩

/-- Classes whose objects have no static features, and with one number for each feature: so it is with single inheritance. -/
def Numbered (M : Meta) : Prop :=
  (∀ c, (M.cls c).static = 0) ∧ (∀ c, (M.all c).Nodup) ∧
  ∀ c d f, f ∈ M.all c → f ∈ M.all d → (M.all c).idxOf f = (M.all d).idxOf f

end Verif.SQLObjects.Spec

namespace Verif.SQLObjects

/-- the object of a value -/
def Val.objects : Val → List Nat
  | .obj k => [k]
  | _ => []

/-- the objects an operation is about -/
def Op.objects : Op → List Nat
  | .get o _ _ | .isSet o _ | .unSet o _ | .isEmpty o _ | .size o _ | .remove o _ _ | .move o _ _ _ | .clear o _ | .toArray o _
  | .addRoot o | .removeRoot o | .getContainer o | .unRegister o | .setContainer o none => [o]
  | .set o _ _ v | .contains o _ v | .indexOf o _ v | .lastIndexOf o _ v | .add o _ _ v => o :: v.objects
  | .addAll o _ _ vs => o :: vs.flatMap Val.objects
  | .setContainer o (some (p, _)) => [o, p]
  | .getRoots => []

/-- the operations that read values, lists, roots and containers -/
def Op.isRead : Op → Bool
  | .get .. | .isSet .. | .isEmpty .. | .size .. | .toArray .. | .getRoots | .getContainer _ => true
  | _ => false

def Op.unregisters : Op → Bool
  | .unRegister _ => true
  | _ => false

/-- the object an operation reads of or writes to -/
def Op.subject : Op → Option Nat
  | .get o _ _ | .isSet o _ | .unSet o _ | .isEmpty o _ | .size o _ | .remove o _ _ | .move o _ _ _ | .clear o _ | .toArray o _
  | .removeRoot o | .getContainer o | .setContainer o _ | .set o _ _ _ | .contains o _ _ | .indexOf o _ _ | .lastIndexOf o _ _
  | .add o _ _ _ | .addAll o _ _ _ => some o
  | _ => none

/-- the objects exist when the operations are made -/
def Spec.Exist (M : Meta) (s : St) : List Op → Prop
  | [] => True
  | op :: ops => (∀ o ∈ op.objects, o < s.count) ∧ Spec.Exist M (SQLObjects.step M s op).1 ops

end Verif.SQLObjects
