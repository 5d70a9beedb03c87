import Verif.Model.DynamicEntry

/-!
# Map entries as pairs
-/

namespace Verif.DynamicEntry

/-- The features of a class called "key" and those called "value". -/
def named (c : Cls) : List Feature × List Feature := (c.feats.filter (·.name = "key"), c.feats.filter (·.name = "value"))

/-- Programs that never change which features of a class are called "key" and "value"; anything else may change, also the order of the features and the classes
of the entries. `classes` are the classes before. -/
def SameNames (classes : Nat → Cls) : List Op → Prop
  | [] => True
  | .change c k :: ops => named k = named (classes c) ∧ SameNames (fun d => if d = c then k else classes d) ops
  | _ :: ops => SameNames classes ops

/-- A class of map entries: a feature "key", a feature "value", and no feature twice. -/
def EntryClass (c : Cls) : Prop :=
  (c.typeName = "java.util.Map.Entry" ∨ c.typeName = "java.util.Map$Entry" ∨ c.typeName = "github.com/masagroup/soft.go/ecore/ecore.EMapEntry") ∧
    (∃ f ∈ c.feats, f.name = "key") ∧ (∃ f ∈ c.feats, f.name = "value") ∧ (c.feats.map (·.id)).Nodup

/-- Programs that use entries by their methods only, made of entry classes, and change classes only by features with other names at the end. -/
def Pairs (classes : Nat → Cls) : List Op → Prop
  | [] => True
  | .change c k :: ops =>
    (∃ more : List Feature, k.feats = (classes c).feats ++ more ∧ (∀ f ∈ more, f.name ≠ "key" ∧ f.name ≠ "value")) ∧
      (k.feats.map (·.id)).Nodup ∧ Pairs (fun d => if d = c then k else classes d) ops
  | .make c :: ops => EntryClass (classes c) ∧ Pairs classes ops
  | .setClass _ _ :: _ => False
  | .set _ _ _ :: _ => False
  | .get _ _ :: _ => False
  | _ :: ops => Pairs classes ops

/-- A pair has a key and a value. -/
structure Pair where
  key : Option Nat := none
  value : Option Nat := none

/-- What the calls answer if entries are pairs. -/
def pairStep (l : List Pair) : Op → List Pair × Out
  | .make _ => (l ++ [{}], .made l.length)
  | .setKey e x => match l[e]? with
    | some p => (l.set e { p with key := x }, .done)
    | none => (l, .panic)
  | .setValue e x => match l[e]? with
    | some p => (l.set e { p with value := x }, .done)
    | none => (l, .panic)
  | .getKey e => (l, match l[e]? with | some p => .val p.key | none => .panic)
  | .getValue e => (l, match l[e]? with | some p => .val p.value | none => .panic)
  | _ => (l, .done)

def pairAnswers (l : List Pair) : List Op → List Out
  | [] => []
  | op :: ops => (pairStep l op).2 :: pairAnswers (pairStep l op).1 ops

end Verif.DynamicEntry
