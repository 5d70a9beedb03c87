import Verif.Proofs.SQLObjectsIdentity

/-!
# C76: objects in a SQL store have the values they were given
-/

namespace Verif.Props

open Verif.SQLObjects
open Verif.SQLObjects.Spec (Objects Numbered Memory AllOk Exist)

/-- **C76** (partial: features declared by the class of the object, single inheritance, references to objects that are in the
store, attributes whose default value is 0, objects put into the store with their containers). A store is made on an empty database and
objects are put into it, read, changed and searched. Each operation answers what the objects with their values require: the
same objects come back, whatever is in the database. -/
theorem C76_answers_partial (M : Meta) (cls : Nat → Nat) (mem : Nat → Nat → List Val) (container : Nat → Option (Nat × Nat)) (count : Nat)
    (hn : Numbered M) (hm : Memory M cls mem container count) (ops : List Op)
    (hok : AllOk M cls count (Spec.start mem container) ops) :
    (run M (init cls mem count) ops).2 = Spec.run M cls (Spec.start mem container) ops :=
  Full.run ops (Full.init hn hm) hok

/-- **C76**, identity. A store is opened on any database and used in any way, but no object is unregistered. What is read once is read
again, the same objects and values in the same order, as long as nothing is written, whatever is read in between. -/
theorem C76_identity (M : Meta) (cls : Nat → Nat) (mem : Nat → Nat → List Val) (count last : Nat) (rows : Nat → Option Row)
    (col : Nat → Nat → Cell) (lists : Nat → Nat → List Cell) (roots : List Nat) (hm : ∀ o f k, .obj k ∈ mem o f → k < count)
    (h0 : rows 0 = none) (before : List Op) (hu : ∀ op ∈ before, op.unregisters = false)
    (he : Exist M (opened cls mem count last rows col lists roots) before) (r : Op) (hr : r.isRead = true) (reads : List Op)
    (hrs : ∀ op ∈ reads, op.isRead = true) :
    let s := (run M (opened cls mem count last rows col lists roots) before).1
    let s1 := (step M s r).1
    (∀ o ∈ r.objects, o < s.count) → (∀ op ∈ reads, ∀ o ∈ op.objects, o < s1.count) →
    (step M (run M s1 reads).1 r).2 = (step M s r).2 := by
  intro s s1 ho hos
  have hw : Wf M s := Wf.run before hu (Wf.opened hm h0) he
  have h1 := hw.lasting r hr ho
  have h2 := Wf.reads reads hrs h1.wf hos
  have h3 := h1.again _ h2.1 h2.2
  show (step M (run M (step M s r).1 reads).1 r).2 = _
  rw [h3]

/-- **C76** (partial: as above, and objects that keep their SQL ID). An object is taken out of memory with `UnRegister`. If the next operation
is one on this object, it and all others answer as if nothing had happened. -/
theorem C76_unregister_partial (M : Meta) (cls : Nat → Nat) (mem : Nat → Nat → List Val) (container : Nat → Option (Nat × Nat)) (count : Nat)
    (hn : Numbered M) (hm : Memory M cls mem container count) (ops : List Op) (o : Nat) (hs : M.sql o = true) (op : Op)
    (ho : op.subject = some o) (rest : List Op) (hok : AllOk M cls count (Spec.start mem container) (ops ++ op :: rest)) :
    (run M (init cls mem count) (ops ++ .unRegister o :: op :: rest)).2 =
      Spec.run M cls (Spec.start mem container) (ops ++ .unRegister o :: op :: rest) :=
  Full.unregister hs ho rest ops (Full.init hn hm) hok

/-! ## A case -/

namespace C76

/-- Class 0 has an attribute, a containment with many values, a reference and an attribute with many values; class 1 extends it with another
attribute. Object 0 keeps its SQL ID. -/
def M : Meta where
  feature f := match f with
    | 0 => ⟨.data, false, some 0⟩
    | 1 => ⟨.object, true, none⟩
    | 2 => ⟨.reference, false, none⟩
    | 3 => ⟨.data, true, none⟩
    | _ => ⟨.data, false, some 0⟩
  cls c := match c with
    | 0 => ⟨[0, 1, 2, 3], [], 0⟩
    | 1 => ⟨[4], [0], 0⟩
    | _ => ⟨[], [], 0⟩
  sql o := o == 0

/-- Object 0 has 5 as value of its attribute and contains object 1; object 2 is alone. -/
def mem : Nat → Nat → List Val
  | 0, 0 => [.data 5]
  | 0, 1 => [.obj 1]
  | _, _ => []

def container : Nat → Option (Nat × Nat)
  | 1 => some (0, 1)
  | _ => none

def ops : List Op :=
  [.addRoot 0, .get 0 0 0, .toArray 0 1, .set 1 2 0 (.obj 0), .get 1 2 0, .add 0 1 0 (.obj 2), .setContainer 2 (some (0, 1)),
    .toArray 0 1, .getContainer 2, .getContainer 1, .add 2 3 0 (.data 8), .indexOf 2 3 (.data 8), .remove 0 1 1, .move 0 1 0 0, .getRoots]

theorem numbered : Numbered M := by
  refine ⟨?_, ?_, ?_⟩
  · intro c; unfold M; dsimp only; split <;> rfl
  · intro c
    match c with
    | 0 => decide
    | 1 => decide
    | c + 2 => exact List.nodup_nil
  · intro c d f hc hd
    match c, d with
    | 0, 0 => rfl
    | 1, 1 => rfl
    | 0, 1 =>
      have : f = 0 ∨ f = 1 ∨ f = 2 ∨ f = 3 := by simpa [Meta.all, M] using hc
      rcases this with h | h | h | h <;> subst h <;> decide
    | 1, 0 =>
      have : f = 0 ∨ f = 1 ∨ f = 2 ∨ f = 3 := by simpa [Meta.all, M] using hd
      rcases this with h | h | h | h <;> subst h <;> decide
    | c + 2, _ => simp [Meta.all, M] at hc
    | _, d + 2 => simp [Meta.all, M] at hd

theorem memory : Memory M (fun _ => 0) mem container 3 := by
  refine ⟨?_, ?_⟩
  · intro o f v hv
    unfold mem at hv
    split at hv
    · simp at hv; subst hv; decide
    · simp at hv; subst hv; decide
    · simp at hv
  · intro o f _
    unfold mem; split <;> simp

theorem contained : Spec.Under M (fun _ => 0) (Spec.start mem container) 0 1 :=
  .many 0 1 1 .here (by decide) rfl rfl (by simp [Spec.start, mem])

theorem allOk : AllOk M (fun _ => 0) 3 (Spec.start mem container) ops := by
  have hu : ∀ a o, Spec.Under M (fun _ => 0) a o o := fun _ _ => .here
  have h1 := contained
  have f0 : M.feature 0 = ⟨.data, false, some 0⟩ := rfl
  have f1 : M.feature 1 = ⟨.object, true, none⟩ := rfl
  have f2 : M.feature 2 = ⟨.reference, false, none⟩ := rfl
  have f3 : M.feature 3 = ⟨.data, true, none⟩ := rfl
  have fs : (M.cls 0).own = [0, 1, 2, 3] := rfl
  have all : M.all 0 = [0, 1, 2, 3] := rfl
  simp [ops, AllOk, Spec.Ok, Spec.Objects.top, Spec.Objects.settable, Spec.Objects.searchable, Spec.Objects.readable, Spec.step,
    Spec.Objects.store, Spec.Objects.storeValue, Spec.Objects.setMany, Spec.Objects.setOne, Spec.toOption, hu, h1, f0, f1, f2, f3, fs, all, upd2, upd]
  simp [Spec.start, container, mem]

/-- the answers to these operations, on the objects and in the store -/
example : (run M (init (fun _ => 0) mem 3) ops).2 = Spec.run M (fun _ => 0) (Spec.start mem container) ops :=
  C76_answers_partial M _ mem container 3 numbered memory ops allOk

example : (run M (init (fun _ => 0) mem 3) ops).2 =
    [.unit, .val (.data 5), .vals [.obj 1], .val .nil, .val (.obj 0), .unit, .unit, .vals [.obj 2, .obj 1], .container (some (0, some 1)),
      .container (some (0, some 1)), .unit, .int 0, .val (.obj 1), .val (.obj 2), .objs [0]] := by decide

/-- object 0 is taken out of memory before its value is read -/
example : (run M (init (fun _ => 0) mem 3) ([.addRoot 0] ++ .unRegister 0 :: .get 0 0 0 :: ops.drop 2)).2 =
    Spec.run M (fun _ => 0) (Spec.start mem container) ([.addRoot 0] ++ .unRegister 0 :: .get 0 0 0 :: ops.drop 2) :=
  C76_unregister_partial M _ mem container 3 numbered memory [.addRoot 0] 0 rfl (.get 0 0 0) rfl (ops.drop 2) allOk

/-- A database with a root (row 1) that contains two objects (rows 2 and 3), the first of which refers to the second one. -/
def database : St :=
  opened (fun _ => 0) (fun _ _ => []) 0 3
    (fun n => if n = 1 then some ⟨0, none, none⟩ else if n = 2 ∨ n = 3 then some ⟨0, some 1, some 1⟩ else none)
    (fun n f => if n = 2 ∧ f = 2 then .ref 3 else .null) (fun n f => if n = 1 ∧ f = 1 then [.id 2, .id 3] else []) [1]

/-- the objects of the database are made when they are read, and are the same later -/
example : (run M database [.getRoots, .toArray 0 1, .get 1 2 0, .getContainer 2, .get 0 1 1, .getRoots, .toArray 0 1]).2 =
    [.objs [0], .vals [.obj 1, .obj 2], .val (.obj 2), .container (some (0, some 1)), .val (.obj 2), .objs [0],
      .vals [.obj 1, .obj 2]] := by decide

example :
    (step M (run M (step M (run M database [.getRoots]).1 (.toArray 0 1)).1 [.get 2 2 0, .getContainer 1]).1 (.toArray 0 1)).2 =
      (step M (run M database [.getRoots]).1 (.toArray 0 1)).2 :=
  C76_identity M _ _ 0 3 _ _ _ _ (by simp) rfl [.getRoots] (by decide) ⟨by decide, trivial⟩ (.toArray 0 1) rfl
    [.get 2 2 0, .getContainer 1] (by decide) (by decide) (by decide)

/-- Class 0 as above, with a second attribute, whose default value is 7; class 2 has a reference of its own and extends class 1 and class 0. -/
def multiple : Meta where
  feature f := match f with
    | 0 => ⟨.data, false, some 0⟩
    | 1 => ⟨.object, true, none⟩
    | 2 => ⟨.reference, false, none⟩
    | 3 => ⟨.data, false, some 7⟩
    | _ => ⟨.object, true, none⟩
  cls c := match c with
    | 0 => ⟨[0, 1, 2, 3], [], 0⟩
    | 1 => ⟨[4], [], 0⟩
    | 2 => ⟨[5], [1, 0], 0⟩
    | _ => ⟨[6, 7, 1], [], 1⟩
  sql _ := true

end C76

/-! ## What does not hold -/

/-- **C76** without restriction to the features declared by the class is violated: whatever is in the store, an inherited feature is
never read; `Get` gives no value, or a Go error in place of the value. -/
theorem C76_inherited_violated (M : Meta) (s : St) (o f i : Nat) (h : f ∉ (M.cls (s.cls o)).own) :
    (step M s (.get o f i)).2 = .val .nil ∨ (step M s (.get o f i)).2 = .val .error := by
  have hc : (getSQLID M s o).1.cls = s.cls := by
    unfold getSQLID setObjectID
    dsimp only
    split
    · rfl
    · split
      · split <;> rfl
      · rfl
  simp only [step, SQLObjects.read]
  revert hc
  rcases getSQLID M s o with ⟨t, n, b⟩
  intro hc
  simp only at hc
  cases b with
  | false => exact .inl rfl
  | true => right; simp [known, hc, h]

/-- a value set to an inherited feature is lost -/
theorem C76_inherited_set_violated :
    (run C76.M (init (fun _ => 1) (fun _ _ => []) 1) [.addRoot 0, .set 0 4 0 (.data 5), .set 0 0 0 (.data 5), .get 0 4 0, .get 0 0 0,
      .isSet 0 0]).2 = [.unit, .val (.data 0), .val .nil, .val (.data 5), .val .error, .bool false] := by decide

/-- **C76** without restriction to objects that keep their SQL ID is violated: once such an object is unregistered, it has no value. -/
theorem C76_unregister_violated (M : Meta) (s : St) (o f i : Nat) (h : M.sql o = false) :
    (step M (step M s (.unRegister o)).1 (.get o f i)).2 = .val .nil := by
  simp [step, SQLObjects.read, getSQLID, getObjectID, clearObjectID, h, upd]

/-- an unregistered root is read as another object -/
theorem C76_unregister_roots_violated :
    (run C76.M (init (fun _ => 0) C76.mem 3) [.addRoot 0, .unRegister 0, .getRoots]).2 = [.unit, .unit, .objs [3]] := by decide

/-- an unregistered object cannot become a root -/
theorem C76_unregister_add_violated :
    (run C76.M (init (fun _ => 0) C76.mem 3) [.addRoot 0, .removeRoot 0, .unRegister 0, .addRoot 0, .getRoots]).2 =
      [.unit, .unit, .unit, .unit, .objs []] := by decide

/-- the container of an object of a class with multiple inheritance is read with another feature: `encodeObject` writes the number
the feature has in the class that declares it -/
theorem C76_multiple_violated :
    (run C76.multiple (init (fun o => if o = 0 then 2 else 0) C76.mem 3) [.addRoot 0, .getContainer 1]).2 =
      [.unit, .container (some (0, some 0))] := by decide

/-- with static features, the container is read with another feature: `SetContainer` writes the number of the feature, reading adds the
number of static features -/
theorem C76_static_violated :
    (run C76.multiple (init (fun o => if o = 0 then 3 else 0) (fun _ _ => []) 3) [.setContainer 1 (some (0, 6)), .getContainer 1]).2 =
      [.unit, .container (some (0, some 7))] := by decide

/-- an object put into the store before the object that contains it has no container -/
theorem C76_child_first_violated :
    (run C76.M (init (fun _ => 0) C76.mem 3) [.set 1 0 0 (.data 1), .addRoot 0, .toArray 0 1, .getContainer 1]).2 =
      [.val (.data 0), .unit, .vals [.obj 1], .container none] := by decide

/-- a reference to an object that is not in the store is read as a proxy, even when the object has come into the store -/
theorem C76_reference_violated :
    (run C76.M (init (fun _ => 0) C76.mem 3) [.addRoot 0, .set 0 2 0 (.obj 2), .get 0 2 0, .addRoot 2, .get 0 2 0]).2 =
      [.unit, .val .nil, .val (.proxy 2), .unit, .val (.proxy 2)] := by decide

/-- asking whether a containment has an object puts the object into the store -/
theorem C76_contains_violated :
    let s := (run C76.M (init (fun _ => 0) C76.mem 3) [.addRoot 0]).1
    (step C76.M s (.contains 0 1 (.obj 2))).2 = .bool false ∧ s.rows 3 = none ∧
    (step C76.M s (.contains 0 1 (.obj 2))).1.rows 3 = some ⟨0, none, none⟩ := by decide

/-- an object that has its SQL ID from another database is taken for the object of this one: its value is written there -/
theorem C76_foreign_violated :
    (run C76.multiple { init (fun _ => 0) C76.mem 3 with sid := fun o => if o = 2 then 1 else 0 }
      [.addRoot 0, .get 0 0 0, .set 2 0 0 (.data 9), .get 0 0 0]).2 =
      [.unit, .val (.data 5), .val (.data 5), .val (.data 9)] := by decide

/-- an attribute that never had a value is set, and reading it does not give the default value -/
theorem C76_default_violated :
    (run C76.multiple (init (fun _ => 0) C76.mem 3) [.addRoot 2, .isSet 2 0, .isSet 2 3, .get 2 3 0, .unSet 2 3, .isSet 2 3, .get 2 3 0]).2 =
      [.unit, .bool true, .bool true, .val (.data 0), .unit, .bool false, .val (.data 7)] := by decide

end Verif.Props
