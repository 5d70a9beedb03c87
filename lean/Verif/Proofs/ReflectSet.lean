import Verif.Proofs.Reflect
/-!
# Lemmas for C73: writing
-/

namespace Verif.Reflect
open Spec

/-- `t` is `s` but at the places given. -/
def Frame (s t : El) (ws : List Field) : Prop := t.kind = s.kind ∧ ∀ g : Field, g ∉ ws → Agree s t g

/-- `EIsSet` without the state. -/
def answer (r : Res (Bool × El)) : Res Bool := Res.map Prod.fst r

/-- `t` shows `v` for the feature. -/
def After (E : Env) (s t : El) (id : Nat) (d : Decl) (v : Val) : Prop :=
  valueOf (eGet E t id false) = .ok v ∧ answer (eIsSet E t id) = .ok (decide (v ≠ d.default)) ∧
    Frame s t (writes s.kind id)

/-- The features whose notification is the expected one. -/
def announced (d : Decl) : Bool :=
  !d.many && !(["featureID", "instanceTypeName", "defaultValue", "literal", "classifierID", "eModelElement",
    "ePackage"].contains d.name)

/-- The notification of a change from `s` to `t`. -/
def Told (E : Env) (s t : El) (id : Nat) (d : Decl) (v : Val) (e : Event) : Prop :=
  announced d = true → ∀ (old : Val) (u : El), eGet E s id false = .ok (old, u) →
    (d.name ∈ ["eFactoryInstance", "eUpperBound", "eLowerBound"] → old ≠ v) →
    t.log = s.log ++ (if s.listening = true then [⟨e, id, old, v⟩] else [])

def Outcome (E : Env) (s : El) (id : Nat) (d : Decl) (v : Val) : Prop :=
  ∃ t : El, eSet E s id v = .ok t ∧ After E s t id d v ∧ Told E s t id d v .set

theorem agree_refl (s : El) (f : Field) : Agree s s f := by
  cases f <;> simp [Agree]

theorem agree_notify (s t : El) (n : Note) (f : Field) : Agree s (notify t n) f ↔ Agree s t f := by
  cases f <;> simp [Agree]

theorem notify_log (s : El) (n : Note) :
    (notify s n).log = s.log ++ (if s.listening = true then [n] else []) := by
  unfold notify; split <;> simp

theorem addAll_nodup (a l : List Nat) (h : (a ++ l).Nodup) : addAll a l = a ++ l := by
  induction l generalizing a with
  | nil => simp [addAll]
  | cons x xs ih =>
    have hx : x ∉ a := by
      intro hx
      rw [List.nodup_append] at h
      exact h.2.2 x hx x (by simp) rfl
    rw [addAll, if_neg hx, ih (a ++ [x]) (by simpa using h)]
    simp

theorem ofRef_ne (o : Option Nat) (l : List Nat) : ofRef o ≠ .list none l := by cases o <;> simp [ofRef]
theorem ofType_ne (o : Option Nat) (l : List Nat) : ofType o ≠ .list none l := by cases o <;> simp [ofType]

section
variable {E : Env} {s : El} {k : Kind} {id : Nat} {d : Decl} {v : Val}

theorem raw_of {E : Env} {s u : El} {id : Nat} {old x : Val} (h : eGet E s id false = .ok (old, u))
    (hg : valueOf (eGet E s id false) = .ok x) (hx : ∀ l : List Nat, x ≠ .list none l) : old = x := by
  rw [h] at hg
  have hg : shown old = x := by simpa [valueOf, Res.map] using hg
  cases old <;> first | exact hg | exact absurd hg.symm (hx _)

/-- A `bool` feature. -/
theorem done_bool {f : BoolField} (b0 : Bool)
    (hk : s.kind = k) (hd : d.default = .bool b0) (ht : d.type = .boolean) (hm : d.many = false) (fits : Fits d v)
    (hw : writes k id = [.b f])
    (hset : ∀ s : El, s.kind = k → ∀ v : Val, eSet E s id v = setBool s id f v)
    (hget : ∀ s : El, s.kind = k → valueOf (eGet E s id false) = .ok (.bool (s.bools f)))
    (his : ∀ s : El, s.kind = k → answer (eIsSet E s id) = .ok (decide (Val.bool (s.bools f) ≠ .bool b0))) :
    Outcome E s id d v := by
  obtain ⟨b, rfl⟩ : ∃ b : Bool, v = .bool b := by simpa [Fits, ht, hm] using fits
  refine ⟨_, hset s hk _, ⟨?_, ?_, ?_, ?_⟩, ?_⟩
  · rw [hget _ (by simpa using hk)]; simp
  · rw [his _ (by simpa using hk), hd]; simp
  · simp
  · intro g hg
    rw [hk, hw] at hg
    rw [agree_notify]
    cases g <;> simp only [Agree] <;> simp_all
  · intro _ old u ho _
    cases raw_of ho (hget s hk) (by simp [ofRef_ne, ofType_ne])
    simp [notify_log]

/-- `EAttribute.iD`. -/
theorem done_id {f : BoolField} (b0 : Bool) (i : Nat)
    (hk : s.kind = k) (hd : d.default = .bool b0) (ht : d.type = .boolean) (hm : d.many = false) (fits : Fits d v)
    (hw : writes k id = [.b f]) (hr : ¬ Removed s i)
    (hset : ∀ s : El, s.kind = k → ∀ v : Val, eSet E s id v =
      (setBool s id f v).bind fun s => (getContainer s i).bind fun _ => .ok s)
    (hget : ∀ s : El, s.kind = k → valueOf (eGet E s id false) = .ok (.bool (s.bools f)))
    (his : ∀ s : El, s.kind = k → answer (eIsSet E s id) = .ok (decide (Val.bool (s.bools f) ≠ .bool b0))) :
    Outcome E s id d v := by
  obtain ⟨b, rfl⟩ : ∃ b : Bool, v = .bool b := by simpa [Fits, ht, hm] using fits
  have hs : eSet E s id (.bool b) = setBool s id f (.bool b) := by
    rw [hset s hk]
    simp only [setBool, Res.bind, getContainer, notify_containerID, notify_container]
    by_cases c : s.containerFeatureID = (i : Int)
    · cases hc : s.container with
      | none => exact absurd ⟨hc, c⟩ hr
      | some c' => simp [c]
    · simp [c]
  refine ⟨_, hs, ⟨?_, ?_, ?_, ?_⟩, ?_⟩
  · rw [hget _ (by simpa using hk)]; simp
  · rw [his _ (by simpa using hk), hd]; simp
  · simp
  · intro g hg
    rw [hk, hw] at hg
    rw [agree_notify]
    cases g <;> simp only [Agree] <;> simp_all
  · intro _ old u ho _
    cases raw_of ho (hget s hk) (by simp [ofRef_ne, ofType_ne])
    simp [notify_log]

/-- An `int` feature. -/
theorem done_int {f : IntField} (b0 : Int)
    (hk : s.kind = k) (hd : d.default = .int b0) (ht : d.type = .integer) (hm : d.many = false) (fits : Fits d v)
    (hw : writes k id = [.i f])
    (hset : ∀ s : El, s.kind = k → ∀ v : Val, eSet E s id v = setInt s id f v)
    (hget : ∀ s : El, s.kind = k → valueOf (eGet E s id false) = .ok (.int (s.ints f)))
    (his : ∀ s : El, s.kind = k → answer (eIsSet E s id) = .ok (decide (s.ints f ≠ b0))) :
    Outcome E s id d v := by
  obtain ⟨b, rfl⟩ : ∃ b : Int, v = .int b := by simpa [Fits, ht, hm] using fits
  refine ⟨_, hset s hk _, ⟨?_, ?_, ?_, ?_⟩, ?_⟩
  · rw [hget _ (by simpa using hk)]; simp
  · rw [his _ (by simpa using hk), hd]; simp
  · simp
  · intro g hg
    rw [hk, hw] at hg
    rw [agree_notify]
    cases g <;> simp only [Agree] <;> simp_all
  · intro _ old u ho _
    cases raw_of ho (hget s hk) (by simp [ofRef_ne, ofType_ne])
    simp [notify_log]

/-- `featureID`. -/
theorem done_featureID (b0 : Int) (hn : announced d = false)
    (hk : s.kind = k) (hd : d.default = .int b0) (ht : d.type = .integer) (hm : d.many = false) (fits : Fits d v)
    (hw : writes k id = [.i .featureID])
    (hset : ∀ s : El, s.kind = k → ∀ v : Val, eSet E s id v = setFeatureID s v)
    (hget : ∀ s : El, s.kind = k → valueOf (eGet E s id false) = .ok (.int (s.ints .featureID)))
    (his : ∀ s : El, s.kind = k → answer (eIsSet E s id) = .ok (decide (s.ints .featureID ≠ b0))) :
    Outcome E s id d v := by
  obtain ⟨b, rfl⟩ : ∃ b : Int, v = .int b := by simpa [Fits, ht, hm] using fits
  refine ⟨_, hset s hk _, ⟨?_, ?_, ?_, ?_⟩, ?_⟩
  · rw [hget _ (by simpa using hk)]; simp
  · rw [his _ (by simpa using hk), hd]; simp
  · rfl
  · intro g hg
    rw [hk, hw] at hg
    cases g <;> simp only [Agree] <;> simp_all
  · intro h; simp [hn] at h

/-- `classifierID`. -/
theorem done_classifierID {f : IntField} (b0 : Int) (hn : announced d = false)
    (hk : s.kind = k) (hd : d.default = .int b0) (ht : d.type = .integer) (hm : d.many = false) (fits : Fits d v)
    (hw : writes k id = [.i f]) (hv : v ≠ .int b0)
    (hset : ∀ s : El, s.kind = k → ∀ v : Val, eSet E s id v = setInt s id f v)
    (hget : ∀ s : El, s.kind = k → s.ints f ≠ b0 → valueOf (eGet E s id false) = .ok (.int (s.ints f)))
    (his : ∀ s : El, s.kind = k → answer (eIsSet E s id) = .ok (decide (s.ints f ≠ b0))) :
    Outcome E s id d v := by
  obtain ⟨b, rfl⟩ : ∃ b : Int, v = .int b := by simpa [Fits, ht, hm] using fits
  refine ⟨_, hset s hk _, ⟨?_, ?_, ?_, ?_⟩, ?_⟩
  · rw [hget _ (by simpa using hk) (by simpa using hv)]; simp
  · rw [his _ (by simpa using hk), hd]; simp
  · simp
  · intro g hg
    rw [hk, hw] at hg
    rw [agree_notify]
    cases g <;> simp only [Agree] <;> simp_all
  · intro h; simp [hn] at h

/-- A `string` feature. -/
theorem done_str {f : StrField}
    (hk : s.kind = k) (hd : d.default = .str "") (ht : d.type = .string) (hm : d.many = false) (fits : Fits d v)
    (hw : writes k id = [.s f])
    (hset : ∀ s : El, s.kind = k → ∀ v : Val, eSet E s id v = setStr s id f v)
    (hget : ∀ s : El, s.kind = k → valueOf (eGet E s id false) = .ok (.str (s.strs f)))
    (his : ∀ s : El, s.kind = k → answer (eIsSet E s id) = .ok (decide (s.strs f ≠ ""))) :
    Outcome E s id d v := by
  obtain ⟨b, rfl⟩ : ∃ b : String, v = .str b := by simpa [Fits, ht, hm] using fits
  refine ⟨_, hset s hk _, ⟨?_, ?_, ?_, ?_⟩, ?_⟩
  · rw [hget _ (by simpa using hk)]; simp
  · rw [his _ (by simpa using hk), hd]; simp
  · simp
  · intro g hg
    rw [hk, hw] at hg
    rw [agree_notify]
    cases g <;> simp only [Agree] <;> simp_all
  · intro _ old u ho _
    cases raw_of ho (hget s hk) (by simp [ofRef_ne, ofType_ne])
    simp [notify_log]

/-- A `string` feature announced with another ID, or read in another way when it is empty. -/
theorem done_str' {f : StrField} (id' : Nat) (hn : announced d = false)
    (hk : s.kind = k) (hd : d.default = .str "") (ht : d.type = .string) (hm : d.many = false) (fits : Fits d v)
    (hw : writes k id = [.s f])
    (hset : ∀ s : El, s.kind = k → ∀ v : Val, eSet E s id v = setStr s id' f v)
    (hget : ∀ s : El, s.kind = k → Val.str (s.strs f) = v → valueOf (eGet E s id false) = .ok (.str (s.strs f)))
    (his : ∀ s : El, s.kind = k → answer (eIsSet E s id) = .ok (decide (s.strs f ≠ ""))) :
    Outcome E s id d v := by
  obtain ⟨b, rfl⟩ : ∃ b : String, v = .str b := by simpa [Fits, ht, hm] using fits
  refine ⟨_, hset s hk _, ⟨?_, ?_, ?_, ?_⟩, ?_⟩
  · rw [hget _ (by simpa using hk) (by simp)]; simp
  · rw [his _ (by simpa using hk), hd]; simp
  · simp
  · intro g hg
    rw [hk, hw] at hg
    rw [agree_notify]
    cases g <;> simp only [Agree] <;> simp_all
  · intro h; simp [hn] at h

/-- `defaultValueLiteral`. -/
theorem done_defaultLiteral
    (hk : s.kind = k) (hd : d.default = .str "") (ht : d.type = .string) (hm : d.many = false) (fits : Fits d v)
    (hw : writes k id = [.s .defaultValueLiteral, .default])
    (hi : id = 12)
    (hset : ∀ s : El, s.kind = k → ∀ v : Val, eSet E s id v = setDefaultValueLiteral s v)
    (hget : ∀ s : El, s.kind = k → valueOf (eGet E s id false) = .ok (.str (s.strs .defaultValueLiteral)))
    (his : ∀ s : El, s.kind = k → answer (eIsSet E s id) = .ok (decide (s.strs .defaultValueLiteral ≠ ""))) :
    Outcome E s id d v := by
  subst hi
  obtain ⟨b, rfl⟩ : ∃ b : String, v = .str b := by simpa [Fits, ht, hm] using fits
  refine ⟨_, hset s hk _, ⟨?_, ?_, ?_, ?_⟩, ?_⟩
  · rw [hget _ (by simpa using hk)]; simp
  · rw [his _ (by simpa using hk), hd]; simp
  · simp
  · intro g hg
    rw [hk, hw] at hg
    rw [agree_notify]
    cases g <;> simp only [Agree] <;> simp_all
  · intro _ old u ho _
    cases raw_of ho (hget s hk) (by simp [ofRef_ne, ofType_ne])
    simp [notify_log]

theorem ofRef_toRef (h : v = .nil ∨ ∃ o : Nat, v = .obj o) : ofRef (toRef v) = v := by
  rcases h with rfl | ⟨o, rfl⟩ <;> rfl

theorem isSome_ofRef (o : Option Nat) : decide (ofRef o ≠ .nil) = o.isSome := by
  cases o <;> simp [ofRef]

/-- A reference to an element. -/
theorem done_ref {f : RefField}
    (hk : s.kind = k) (hd : d.default = .nil) (ht : d.type = .element) (hm : d.many = false) (fits : Fits d v)
    (hw : writes k id = [.r f])
    (hset : ∀ s : El, s.kind = k → ∀ v : Val, eSet E s id v = setRef s id f (toRef v))
    (hget : ∀ s : El, s.kind = k → valueOf (eGet E s id false) = .ok (shown (ofRef (s.refs f))))
    (his : ∀ s : El, s.kind = k → answer (eIsSet E s id) = .ok (s.refs f).isSome) :
    Outcome E s id d v := by
  have fits : v = .nil ∨ ∃ o : Nat, v = .obj o := by simpa [Fits, ht, hm] using fits
  have hv := ofRef_toRef fits
  have hsh : ∀ o : Option Nat, shown (ofRef o) = ofRef o := by intro o; cases o <;> rfl
  simp only [hsh] at hget
  refine ⟨_, hset s hk _, ⟨?_, ?_, ?_, ?_⟩, ?_⟩
  · rw [hget _ (by simpa [putRef] using hk)]; simp [putRef, hv]
  · rw [his _ (by simpa [putRef] using hk), hd]
    simp only [notify_refs, putRef, ↓reduceIte, ← isSome_ofRef, hv]
  · simp [putRef]
  · intro g hg
    rw [hk, hw] at hg
    rw [agree_notify]
    cases g <;> simp only [Agree, putRef] <;> simp_all
  · intro _ old u ho _
    cases raw_of ho (hget s hk) (by simp [ofRef_ne, ofType_ne])
    simp [notify_log, hv, putRef]

/-- A contained element. -/
theorem done_child {f : RefField}
    (hk : s.kind = k) (hd : d.default = .nil) (ht : d.type = .element) (hm : d.many = false) (fits : Fits d v)
    (hw : writes k id = [.r f]) (hn : d.name ∈ ["eFactoryInstance", "eUpperBound", "eLowerBound"])
    (hset : ∀ s : El, s.kind = k → ∀ v : Val, eSet E s id v = setChild s id f (toRef v))
    (hget : ∀ s : El, s.kind = k → valueOf (eGet E s id false) = .ok (shown (ofRef (s.refs f))))
    (his : ∀ s : El, s.kind = k → answer (eIsSet E s id) = .ok (s.refs f).isSome) :
    Outcome E s id d v := by
  have fits : v = .nil ∨ ∃ o : Nat, v = .obj o := by simpa [Fits, ht, hm] using fits
  have hv := ofRef_toRef fits
  have hsh : ∀ o : Option Nat, shown (ofRef o) = ofRef o := by intro o; cases o <;> rfl
  simp only [hsh] at hget
  by_cases c : toRef v = s.refs f
  · refine ⟨s, by rw [hset s hk, setChild, if_neg (by simp [c])], ⟨?_, ?_, rfl, fun g _ => agree_refl s g⟩, ?_⟩
    · rw [hget s hk, ← c, hv]
    · rw [his s hk, hd, ← c, ← isSome_ofRef, hv]
    · intro _ old u ho hne
      cases raw_of ho (hget s hk) (by simp [ofRef_ne])
      exact absurd (by rw [← c, hv]) (hne hn)
  · refine ⟨_, by rw [hset s hk, setChild, if_pos c, setRef], ⟨?_, ?_, ?_, ?_⟩, ?_⟩
    · rw [hget _ (by simpa [putRef] using hk)]; simp [putRef, hv]
    · rw [his _ (by simpa [putRef] using hk), hd]
      simp only [notify_refs, putRef, ↓reduceIte, ← isSome_ofRef, hv]
    · simp [putRef]
    · intro g hg
      rw [hk, hw] at hg
      rw [agree_notify]
      cases g <;> simp only [Agree, putRef] <;> simp_all
    · intro _ old u ho _
      cases raw_of ho (hget s hk) (by simp [ofRef_ne])
      simp [notify_log, hv, putRef]

/-- A list. -/
theorem done_list {f : ListField}
    (hk : s.kind = k) (hd : d.default = .list none []) (hm : d.many = true) (fits : Fits d v)
    (hw : writes k id = [.l f])
    (hset : ∀ s : El, s.kind = k → ∀ v : Val, eSet E s id v = setList s f v)
    (hget : ∀ s : El, s.kind = k → eGet E s id false = getList s f)
    (his : ∀ s : El, s.kind = k → answer (eIsSet E s id) = .ok (listIsSet (s.lists f))) :
    Outcome E s id d v := by
  obtain ⟨l, hl, rfl⟩ : ∃ l : List Nat, l.Nodup ∧ v = .list none l := by simpa [Fits, hm] using fits
  refine ⟨_, hset s hk _, ⟨?_, ?_, ?_, ?_⟩, ?_⟩
  · rw [hget _ (by simpa using hk), value_getList]; simp [addAll_nodup [] l (by simpa using hl)]
  · rw [his _ (by simpa using hk), hd]
    simp only [↓reduceIte, addAll_nodup [] l (by simpa using hl), listIsSet]
    cases l <;> simp
  · simp
  · intro g hg
    rw [hk, hw] at hg
    cases g <;> simp only [Agree] <;> simp_all
  · intro h; simp [announced, hm] at h

/-- A container. -/
theorem done_container (hn : announced d = false)
    (hk : s.kind = k) (hd : d.default = .nil) (ht : d.type = .element) (hm : d.many = false) (fits : Fits d v)
    (hv : v ≠ .nil)
    (hw : writes k id = [.container])
    (hset : ∀ s : El, s.kind = k → ∀ v : Val, eSet E s id v = setContainer s id (toRef v))
    (hget : ∀ s : El, s.kind = k → eGet E s id false = containerGet s id)
    (his : ∀ s : El, s.kind = k → eIsSet E s id = containerIsSet s id) :
    Outcome E s id d v := by
  obtain ⟨o, rfl⟩ : ∃ o : Nat, v = .obj o := by
    have : v = .nil ∨ ∃ o : Nat, v = .obj o := by simpa [Fits, ht, hm] using fits
    simpa [hv] using this
  have key : ∃ t : El, setContainer s id (some o) = .ok t ∧ t.kind = s.kind ∧ t.container = some o ∧
      t.containerFeatureID = (id : Int) ∧ ∀ g : Field, g ∉ [Field.container] → Agree s t g := by
    unfold setContainer
    by_cases c : some o ≠ s.container ∨ ((some o : Option Nat) ≠ none ∧ s.containerFeatureID ≠ (id : Int))
    · rw [if_pos c]
      refine ⟨_, rfl, ?_, ?_, ?_, ?_⟩
      · simp only [notify_kind]; split <;> simp
      · simp only [notify_container]; split <;> simp
      · simp only [notify_containerID]; split <;> simp
      · intro g hg
        rw [agree_notify]
        split
        · rw [agree_notify]; cases g <;> simp only [Agree] <;> simp_all
        · cases g <;> simp only [Agree] <;> simp_all
    · rw [if_neg c]
      simp only [not_or, not_and, Classical.not_not] at c
      refine ⟨_, rfl, by simp, by simp [← c.1], by simp [c.2 (by simp)], ?_⟩
      intro g _
      rw [agree_notify]
      exact agree_refl s g
  obtain ⟨t, h1, h2, h3, h4, h5⟩ := key
  refine ⟨t, by rw [hset s hk]; exact h1, ⟨?_, ?_, h2, ?_⟩, ?_⟩
  · rw [hget t (h2.trans hk)]
    simp [containerGet, getContainer, h3, h4, Res.bind, valueOf, Res.map, shown, ofRef]
  · rw [his t (h2.trans hk), hd]
    simp [containerIsSet, getContainer, h3, h4, Res.bind, answer, Res.map]
  · intro g hg
    rw [hk, hw] at hg
    exact h5 g hg
  · intro h; simp [hn] at h

/-- `instanceClass`. -/
theorem done_instanceClass (hi : id = 3)
    (hk : s.kind = k) (hd : d.default = .nil) (ht : d.type = .javaClass) (hm : d.many = false) (fits : Fits d v)
    (hv : v ≠ .nil)
    (hw : writes k id = [.instanceClass])
    (hset : ∀ s : El, s.kind = k → ∀ v : Val, eSet E s id v = setInstanceClass s v)
    (hget : ∀ s : El, s.kind = k → valueOf (eGet E s id false) = .ok (shown (ofType s.instanceClass)))
    (his : ∀ s : El, s.kind = k → answer (eIsSet E s id) = .ok s.instanceClass.isSome) :
    Outcome E s id d v := by
  subst hi
  obtain ⟨o, rfl⟩ : ∃ o : Nat, v = .type o := by
    have : v = .nil ∨ ∃ o : Nat, v = .type o := by simpa [Fits, ht, hm] using fits
    simpa [hv] using this
  have hsh : ∀ o : Option Nat, shown (ofType o) = ofType o := by intro o; cases o <;> rfl
  simp only [hsh] at hget
  refine ⟨_, hset s hk _, ⟨?_, ?_, ?_, ?_⟩, ?_⟩
  · rw [hget _ (by simpa [putInstanceClass] using hk)]; simp [putInstanceClass, ofType]
  · rw [his _ (by simpa [putInstanceClass] using hk), hd]; simp [putInstanceClass]
  · simp [putInstanceClass]
  · intro g hg
    rw [hk, hw] at hg
    rw [putInstanceClass, agree_notify]
    cases g <;> simp only [Agree] <;> simp_all
  · intro _ old u ho _
    cases raw_of ho (hget s hk) (by simp [ofRef_ne, ofType_ne])
    simp [putInstanceClass, notify_log, ofType]

/-- `instance`. -/
theorem done_instance (hi : id = 3)
    (hk : s.kind = k) (hd : d.default = .nil) (ht : d.type = .javaObject) (hm : d.many = false) (fits : Fits d v)
    (hw : writes k id = [.instance_])
    (hset : ∀ s : El, s.kind = k → ∀ v : Val, eSet E s id v = .ok (setInstance s v))
    (hraw : ∀ s : El, s.kind = k → eGet E s id false = .ok (s.instance_, s))
    (his : ∀ s : El, s.kind = k → answer (eIsSet E s id) = .ok (decide (s.instance_ ≠ .nil))) :
    Outcome E s id d v := by
  subst hi
  have fits : ∀ (o : Option ListField) (l : List Nat), v ≠ .list o l := by simpa [Fits, ht, hm] using fits
  have hsh : ∀ v : Val, (∀ (o : Option ListField) (l : List Nat), v ≠ .list o l) → shown v = v := by
    intro v h
    cases v <;> first | rfl | exact absurd rfl (h _ _)
  refine ⟨_, hset s hk _, ⟨?_, ?_, ?_, ?_⟩, ?_⟩
  · rw [hraw _ (by simpa [setInstance] using hk)]; simp [setInstance, hsh v fits, valueOf, Res.map]
  · rw [his _ (by simpa [setInstance] using hk), hd]; simp [setInstance]
  · simp [setInstance]
  · intro g hg
    rw [hk, hw] at hg
    rw [setInstance, agree_notify]
    cases g <;> simp only [Agree] <;> simp_all
  · intro _ old u ho _
    rw [hraw s hk] at ho
    cases ho
    simp [setInstance, notify_log]

end

macro "raw" : tactic => `(tactic| (intro s hk; unfold eGet; rw [hk]; rfl))
macro "rawSet" : tactic => `(tactic| (intro s hk v; unfold eSet; rw [hk]; rfl))
macro "rawIs" : tactic => `(tactic| (intro s hk; unfold eIsSet; rw [hk]; rfl))

theorem is_true (b : Bool) : Res.ok (!b) = Res.ok (decide (Val.bool b ≠ .bool true)) := by cases b <;> rfl
theorem is_false (b : Bool) : Res.ok b = Res.ok (decide (Val.bool b ≠ .bool false)) := by cases b <;> rfl

theorem value_classifierID' (E : Env) (s : El) (h : s.ints .classifierID ≠ -1) :
    valueOf ((getClassifierID E s).bind fun r => .ok (.int r.1, r.2)) = .ok (.int (s.ints .classifierID)) := by
  rw [getClassifierID, if_neg h]; rfl

theorem value_literal (s : El) (h : s.strs .literal ≠ "") :
    valueOf (.ok (.str (getLiteral s), s)) = .ok (.str (s.strs .literal)) := by
  rw [getLiteral, if_neg h]; rfl

set_option maxHeartbeats 4000000 in
/-- What `ESet` does. -/
theorem set_outcome (E : Env) (s : El) (id : Nat) (d : Decl) (v : Val) (h : (declared s.kind)[id]? = some d)
    (hc : d.changeable = true) (fits : Fits d v)
    (h1 : d.name ≠ "defaultValue") (h2 : d.name = "instanceClass" → v ≠ .nil) (h3 : d.name = "iD" → ¬ Removed s 16)
    (h4 : d.name = "literal" → v ≠ .str "") (h5 : d.name = "classifierID" → v ≠ .int (-1))
    (h6 : d.name = "eModelElement" ∨ d.name = "ePackage" → v ≠ .nil) : Outcome E s id d v := by
  have hid := declared_lt h
  have hlt := upTo25 hid (count_le _)
  generalize hk : s.kind = k at h hid
  cases k <;> simp only [featureCount] at hid <;> split25 hlt <;> (try omega) <;>
    (have e := Option.some.inj (show some _ = some d from h)
     subst e) <;>
    first
    | exact absurd hc (by decide)
    | exact absurd rfl h1
    | exact done_bool true hk rfl rfl rfl fits rfl (by rawSet) (by raw)
        (by intro s hk; unfold eIsSet; rw [hk]; exact is_true _)
    | exact done_bool false hk rfl rfl rfl fits rfl (by rawSet) (by raw)
        (by intro s hk; unfold eIsSet; rw [hk]; exact is_false _)
    | exact done_int _ hk rfl rfl rfl fits rfl (by rawSet) (by raw) (by rawIs)
    | exact done_str hk rfl rfl rfl fits rfl (by rawSet) (by raw) (by rawIs)
    | exact done_list hk rfl rfl fits rfl (by rawSet) (by raw) (by rawIs)
    | exact done_ref hk rfl rfl rfl fits rfl (by rawSet) (by raw) (by rawIs)
    | exact done_child hk rfl rfl rfl fits rfl (by decide) (by rawSet) (by raw) (by rawIs)
    | exact done_id false 16 hk rfl rfl rfl fits rfl (h3 rfl) (by rawSet) (by raw)
        (by intro s hk; unfold eIsSet; rw [hk]; exact is_false _)
    | exact done_defaultLiteral hk rfl rfl rfl fits rfl rfl (by rawSet) (by raw) (by rawIs)
    | exact done_featureID _ (by decide) hk rfl rfl rfl fits rfl (by rawSet) (by raw) (by rawIs)
    | exact done_classifierID (-1) (by decide) hk rfl rfl rfl fits rfl (h5 rfl) (by rawSet)
        (by intro s hk hv; unfold eGet; rw [hk]; exact value_classifierID' E s hv) (by rawIs)
    | exact done_str' 2 (by decide) hk rfl rfl rfl fits rfl (by rawSet)
        (by intro s hk _; unfold eGet; rw [hk]; rfl) (by rawIs)
    | exact done_str' 4 (by decide) hk rfl rfl rfl fits rfl (by rawSet)
        (by intro s hk hv; unfold eGet; rw [hk]; exact value_literal s (fun h => h4 rfl (by rw [← hv, h]))) (by rawIs)
    | exact done_container (by decide) hk rfl rfl rfl fits (h6 (by decide)) rfl (by rawSet) (by raw) (by rawIs)
    | exact done_instanceClass rfl hk rfl rfl rfl fits (h2 rfl) rfl (by rawSet) (by raw) (by rawIs)
    | exact done_instance rfl hk rfl rfl rfl fits rfl (by rawSet) (by raw) (by rawIs)

end Verif.Reflect
