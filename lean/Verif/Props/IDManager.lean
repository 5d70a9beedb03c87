import Verif.Model.IDManager
/-
Properties C11 and C12: ID managers.
-/
set_option linter.unusedSimpArgs false
namespace Verif.IDManager

variable {ID G : Type} [DecidableEq ID]

theorem setObjectID_o2i (c : Cfg ID G) (s : St ID G) (o : Nat) (id : ID) :
    (setObjectID c s o id).o2i = fun x => if x = o then (if c.isValidID id then some id else none) else s.o2i x := by
  funext x; simp only [setObjectID]; cases s.o2i o <;> cases c.isValidID id <;> simp [upd]

theorem setObjectID_i2o (c : Cfg ID G) (s : St ID G) (o : Nat) (id : ID) :
    (setObjectID c s o id).i2o = fun x => if c.isValidID id ∧ x = id then some o
      else if s.o2i o = some x then none else s.i2o x := by
  funext x; simp only [setObjectID]; cases s.o2i o <;> cases c.isValidID id <;> simp [upd, eq_comm]

theorem setObjectID_det (c : Cfg ID G) (s : St ID G) (o : Nat) (id : ID) :
    (setObjectID c s o id).det = s.det := by
  simp only [setObjectID]; cases s.o2i o <;> cases c.isValidID id <;> simp

/-- Looking up by ID is consistent with `GetID`. -/
def Lookup (s : St ID G) : Prop := ∀ id o, getEObject s id = some o → getID s o = some id

theorem setObjectID_lookup (c : Cfg ID G) (s : St ID G) (o : Nat) (id : ID) (h : Lookup s) :
    Lookup (setObjectID c s o id) := by
  intro i x hx
  have := h i x
  simp only [getEObject, getID, setObjectID_o2i, setObjectID_i2o] at *
  grind

theorem step_lookup (c : Cfg ID G) (s : St ID G) (op : Op ID) (h : Lookup s) : Lookup (step c s op) := by
  cases op with
  | register o =>
    simp only [step, register]
    split
    · exact h
    · split
      · exact setObjectID_lookup c _ o _ h
      · exact setObjectID_lookup c _ o _ h
  | unRegister o =>
    simp only [step, unRegister]
    split
    · exact h
    · rename_i id hid
      intro i x hx
      have := h i x
      simp only [getEObject, getID, upd] at *
      grind
  | setID o id =>
    cases id with
    | none => exact h
    | some id => exact setObjectID_lookup c _ o _ h
  | clear => intro i x hx; simp [step, getEObject] at hx

/-- IDs which are in use by another object: registered, or kept for its next registration. -/
def usedByOther (c : Cfg ID G) (s : St ID G) (o : Nat) (id : ID) : Prop :=
  (∃ x, x ≠ o ∧ getID s x = some id) ∨ ∃ p, p ≠ c.ptr o ∧ s.det p = some id

/-- The call does not bring in an ID used by another object: `SetID` is not given one, and a new object
does not get one from the generator. -/
def fresh (c : Cfg ID G) (s : St ID G) : Op ID → Prop
  | .setID o (some id) => ¬ usedByOther c s o id
  | .register o => getID s o = none → getDetachedID c s o = none → ¬ usedByOther c s o (c.newID s.gen).1
  | _ => True

/-- Every call of the history is `fresh`. -/
def AllFresh (c : Cfg ID G) (s : St ID G) : List (Op ID) → Prop
  | [] => True
  | op :: ops => fresh c s op ∧ AllFresh c (step c s op) ops

/-- IDs are not shared, `GetEObject` inverts `GetID`, and the IDs kept for unregistered objects are not used
by others either. -/
structure Distinct (c : Cfg ID G) (s : St ID G) : Prop where
  lookup : Lookup s
  inverse : ∀ o id, getID s o = some id → getEObject s id = some o
  detached : ∀ o id p, getID s o = some id → s.det p = some id → p = c.ptr o
  detInj : ∀ p q id, s.det p = some id → s.det q = some id → p = q

theorem setObjectID_distinct (c : Cfg ID G) (s : St ID G) (o : Nat) (id : ID)
    (h : Distinct c s) (hf : ¬ usedByOther c s o id) : Distinct c (setObjectID c s o id) := by
  obtain ⟨h1, h2, h3, h4⟩ := h
  have hf1 : ∀ x, x ≠ o → s.o2i x ≠ some id := fun x hx e => hf (Or.inl ⟨x, hx, e⟩)
  have hf2 : ∀ p, p ≠ c.ptr o → s.det p ≠ some id := fun p hp e => hf (Or.inr ⟨p, hp, e⟩)
  refine ⟨setObjectID_lookup c s o id h1, ?_, ?_, ?_⟩
  · intro x i hx
    have a := h2 x i
    have b := h2 o
    simp only [getEObject, getID, setObjectID_o2i, setObjectID_i2o, setObjectID_det] at *
    grind
  · intro x i p hx hp
    have a := h3 x i p
    simp only [getEObject, getID, setObjectID_o2i, setObjectID_i2o, setObjectID_det] at *
    grind
  · intro p q i hp hq
    have a := h4 p q i
    simp only [setObjectID_det] at *
    grind

theorem step_distinct (c : Cfg ID G) (hptr : ∀ a b, c.ptr a = c.ptr b → a = b) (s : St ID G) (op : Op ID)
    (h : Distinct c s) (hf : fresh c s op) : Distinct c (step c s op) := by
  cases op with
  | register o =>
    simp only [step, register]
    split
    · exact h
    · rename_i ho
      split
      · rename_i id hd
        refine setObjectID_distinct c _ o id ⟨h.lookup, h.inverse, ?_, ?_⟩ ?_
        · intro x i p hx hp
          simp only [upd] at hp
          split at hp
          · simp at hp
          · exact h.detached x i p hx hp
        · intro p q i hp hq
          simp only [upd] at hp hq
          split at hp
          · simp at hp
          · split at hq
            · simp at hq
            · exact h.detInj p q i hp hq
        · rintro (⟨x, hx, e⟩ | ⟨p, hp, e⟩)
          · exact hx (hptr _ _ (h.detached x id _ e hd).symm)
          · simp only [upd, hp, if_false] at e
            exact hp (h.detInj _ _ _ e hd)
      · rename_i hd
        exact setObjectID_distinct c _ o _ ⟨h.lookup, h.inverse, h.detached, h.detInj⟩ (hf ho hd)
  | unRegister o =>
    simp only [step, unRegister]
    split
    · exact h
    · rename_i id hid
      obtain ⟨h1, h2, h3, h4⟩ := h
      refine ⟨?_, ?_, ?_, ?_⟩
      · intro i x hx
        have := h1 i x
        simp only [getEObject, getID, upd] at *
        grind
      · intro x i hx
        have a := h2 x i
        have b := h2 o id hid
        simp only [getEObject, getID, upd] at *
        grind
      · intro x i p hx hp
        have a := h2 x i
        have b := h2 o id hid
        have d := h3 x i p
        simp only [getEObject, getID, upd] at *
        grind
      · intro p q i hp hq
        have d := h3 o id
        have e := h4 p q i
        simp only [getID, upd] at *
        grind
  | setID o id =>
    cases id with
    | none => exact h
    | some id => exact setObjectID_distinct c s o id h hf
  | clear => exact ⟨by simp [Lookup, step, getEObject], by simp [step, getID], by simp [step, getID], by simp [step]⟩


/-- Registered IDs are valid, and so are the IDs kept for unregistered objects. -/
def Valid (c : Cfg ID G) (s : St ID G) : Prop :=
  (∀ o id, s.o2i o = some id → c.isValidID id = true) ∧ ∀ p id, s.det p = some id → c.isValidID id = true

theorem setObjectID_valid (c : Cfg ID G) (s : St ID G) (o : Nat) (id : ID) (h : Valid c s) :
    Valid c (setObjectID c s o id) := by
  obtain ⟨h1, h2⟩ := h
  refine ⟨?_, ?_⟩
  · intro x i; have := h1 x i; simp only [setObjectID_o2i]; grind
  · intro p i; have := h2 p i; simp only [setObjectID_det]; grind

theorem step_valid (c : Cfg ID G) (s : St ID G) (op : Op ID) (h : Valid c s) : Valid c (step c s op) := by
  obtain ⟨h1, h2⟩ := h
  cases op with
  | register o =>
    simp only [step, register]
    split
    · exact ⟨h1, h2⟩
    · split
      · refine setObjectID_valid c _ o _ ⟨h1, ?_⟩
        intro p i hp; have := h2 p i; simp only [upd] at hp; grind
      · exact setObjectID_valid c _ o _ ⟨h1, h2⟩
  | unRegister o =>
    simp only [step, unRegister]
    split
    · exact ⟨h1, h2⟩
    · rename_i id hid
      refine ⟨?_, ?_⟩
      · intro x i hx; have := h1 x i; simp only [upd] at hx; grind
      · intro p i hp; have := h2 p i; have := h1 o id hid; simp only [upd] at hp; grind
  | setID o id =>
    cases id with
    | none => exact ⟨h1, h2⟩
    | some id => exact setObjectID_valid c s o id ⟨h1, h2⟩
  | clear => exact ⟨by simp [step], by simp [step]⟩

theorem run_append (c : Cfg ID G) (s : St ID G) (a b : List (Op ID)) : run c s (a ++ b) = run c (run c s a) b := by
  induction a generalizing s with
  | nil => rfl
  | cons x xs ih => exact ih _

theorem run_valid (c : Cfg ID G) (s : St ID G) (ops : List (Op ID)) (h : Valid c s) : Valid c (run c s ops) := by
  induction ops generalizing s with
  | nil => exact h
  | cons op ops ih => exact ih _ (step_valid c s op h)

/-- The call is about other objects than `o` (and does not clear the manager). -/
def about (o : Nat) : Op ID → Prop
  | .register x | .unRegister x | .setID x _ => x ≠ o
  | .clear => False

theorem step_other (c : Cfg ID G) (hptr : ∀ a b, c.ptr a = c.ptr b → a = b) (s : St ID G) (o : Nat) (op : Op ID)
    (h : about o op) : (step c s op).o2i o = s.o2i o ∧ (step c s op).det (c.ptr o) = s.det (c.ptr o) := by
  cases op with
  | register x =>
    have hx : x ≠ o := h
    have hp : c.ptr o ≠ c.ptr x := fun e => hx (hptr _ _ e).symm
    simp only [step, register]
    split
    · exact ⟨rfl, rfl⟩
    · split
      · simp [setObjectID_o2i, setObjectID_det, Ne.symm hx, upd, hp]
      · simp [setObjectID_o2i, setObjectID_det, Ne.symm hx]
  | unRegister x =>
    have hx : x ≠ o := h
    have hp : c.ptr o ≠ c.ptr x := fun e => hx (hptr _ _ e).symm
    simp only [step, unRegister]
    split
    · exact ⟨rfl, rfl⟩
    · simp [Ne.symm hx, upd, hp]
  | setID x id =>
    have hx : x ≠ o := h
    cases id with
    | none => exact ⟨rfl, rfl⟩
    | some id => simp [step, setObjectID_o2i, setObjectID_det, Ne.symm hx]
  | clear => exact absurd h id

theorem run_other (c : Cfg ID G) (hptr : ∀ a b, c.ptr a = c.ptr b → a = b) (s : St ID G) (o : Nat) (ops : List (Op ID))
    (h : ∀ op ∈ ops, about o op) : (run c s ops).o2i o = s.o2i o ∧ (run c s ops).det (c.ptr o) = s.det (c.ptr o) := by
  induction ops generalizing s with
  | nil => exact ⟨rfl, rfl⟩
  | cons op ops ih =>
    have h1 := step_other c hptr s o op (h op List.mem_cons_self)
    have h2 := ih (step c s op) (fun x hx => h x (List.mem_cons_of_mem _ hx))
    exact ⟨h2.1.trans h1.1, h2.2.trans h1.2⟩

/-! #### incremental -/

/-- The counter is above every ID given or accepted so far (but the largest int64), above every registered or kept
ID, and non negative. -/
structure Above (c : Cfg Int Int) (s : St Int Int) : Prop where
  given : ∀ id ∈ s.given, 0 ≤ id ∧ (id < s.gen ∨ id = maxInt64 ∨ maxInt64 < id)
  o2i : ∀ o id, s.o2i o = some id → id ∈ s.given
  det : ∀ p id, s.det p = some id → id ∈ s.given
  pos : 0 ≤ s.gen

theorem wrap64_small (i : Int) (h0 : 0 ≤ i) (h1 : i ≤ maxInt64) : wrap64 i = i := by
  simp only [wrap64, maxInt64] at *; omega

/-- The IDs given by callers are int64 and the counter has not reached the end of its range. -/
def inRange (s : St Int Int) : Op Int → Prop
  | .setID _ (some id) => id ≤ maxInt64
  | .register _ => s.gen < maxInt64
  | _ => True

instance (s : St Int Int) (op : Op Int) : Decidable (inRange s op) := by
  rcases op with o | o | ⟨o, _ | id⟩ | _ <;> simp only [inRange] <;> infer_instance

/-- Every call of the history is `inRange`. -/
def AllInRange (c : Cfg Int Int) (s : St Int Int) : List (Op Int) → Prop
  | [] => True
  | op :: ops => inRange s op ∧ AllInRange c (step c s op) ops

instance decAllInRange (c : Cfg Int Int) : (s : St Int Int) → (ops : List (Op Int)) → Decidable (AllInRange c s ops)
  | _, [] => isTrue trivial
  | s, op :: ops =>
    have := decAllInRange c (step c s op) ops
    inferInstanceAs (Decidable (_ ∧ _))

theorem setObjectID_above (ptr : Nat → Nat) (s : St Int Int) (o : Nat) (id : Int) (hid : id ≤ maxInt64)
    (h : Above (incremental ptr) s) : Above (incremental ptr) (setObjectID (incremental ptr) s o id) := by
  obtain ⟨h1, h2, h3, h4⟩ := h
  by_cases hv : 0 ≤ id
  · have hvb : (incremental ptr).isValidID id = true := by simp [incremental, hv]
    have hg : (setObjectID (incremental ptr) s o id).given = id :: s.given := by
      simp only [setObjectID]; cases s.o2i o <;> simp [hvb]
    have hgen : (setObjectID (incremental ptr) s o id).gen = max (wrap64 (id + 1)) s.gen := by
      simp only [setObjectID]; cases s.o2i o <;> simp [incremental, hv]
    refine ⟨?_, ?_, ?_, ?_⟩
    · intro i hi
      rw [hg, List.mem_cons] at hi
      rw [hgen]
      rcases hi with rfl | hi
      · refine ⟨hv, ?_⟩
        by_cases hm : i = maxInt64
        · exact Or.inr (Or.inl hm)
        · left
          rw [wrap64_small (i + 1) (by omega) (by omega)]; omega
      · obtain ⟨a, b⟩ := h1 i hi
        refine ⟨a, ?_⟩
        rcases b with b | b
        · left; omega
        · right; exact b
    · intro x i hx
      rw [hg]; rw [setObjectID_o2i] at hx
      have := h2 x i
      simp only [List.mem_cons]; grind
    · intro p i hp
      rw [hg]; rw [setObjectID_det] at hp
      exact List.mem_cons_of_mem _ (h3 p i hp)
    · rw [hgen]; omega
  · have hvb : (incremental ptr).isValidID id = false := by simp [incremental]; omega
    have hg : (setObjectID (incremental ptr) s o id).given = s.given := by
      simp only [setObjectID]; cases s.o2i o <;> simp [hvb]
    have hgen : (setObjectID (incremental ptr) s o id).gen = s.gen := by
      simp only [setObjectID]; cases s.o2i o <;> simp [hvb]
    refine ⟨by rw [hg, hgen]; exact h1, ?_, ?_, by rw [hgen]; exact h4⟩
    · intro x i hx
      rw [hg]; rw [setObjectID_o2i] at hx
      have := h2 x i
      simp only [hvb] at hx; grind
    · intro p i hp
      rw [hg]; rw [setObjectID_det] at hp
      exact h3 p i hp

theorem step_above (ptr : Nat → Nat) (s : St Int Int) (op : Op Int) (hr : inRange s op)
    (hm : ∀ id ∈ s.given, id ≤ maxInt64)
    (h : Above (incremental ptr) s) : Above (incremental ptr) (step (incremental ptr) s op) := by
  cases op with
  | register o =>
    simp only [step, register]
    split
    · exact h
    · split
      · rename_i id hd
        refine setObjectID_above ptr _ o id (hm id (h.det _ _ hd)) ⟨h.given, h.o2i, ?_, h.pos⟩
        intro p i hp
        simp only [upd] at hp
        split at hp
        · simp at hp
        · exact h.det p i hp
      · have hlt : s.gen < maxInt64 := hr
        have hp := h.pos
        have hw : wrap64 (s.gen + 1) = s.gen + 1 := wrap64_small _ (by omega) (by omega)
        have hn : (incremental ptr).newID s.gen = (s.gen, s.gen + 1) := by simp [incremental, hw]
        show Above (incremental ptr) (setObjectID (incremental ptr)
          (St.mk s.det s.o2i s.i2o ((incremental ptr).newID s.gen).2 s.given) o ((incremental ptr).newID s.gen).1)
        rw [hn]
        refine setObjectID_above ptr _ o s.gen (by omega) ⟨?_, h.o2i, h.det, ?_⟩
        · intro i hi
          obtain ⟨a, b⟩ := h.given i hi
          refine ⟨a, ?_⟩
          rcases b with b | b
          · left; simp only; omega
          · right; exact b
        · simp only; omega
  | unRegister o =>
    simp only [step, unRegister]
    split
    · exact h
    · rename_i id hid
      refine ⟨h.given, ?_, ?_, h.pos⟩
      · intro x i hx; have := h.o2i x i; simp only [upd] at hx; grind
      · intro p i hp; have := h.det p i; have := h.o2i o id hid; simp only [upd] at hp; grind
  | setID o id =>
    cases id with
    | none => exact h
    | some id => exact setObjectID_above ptr s o id hr h
  | clear => exact ⟨h.given, by simp [step], by simp [step], h.pos⟩

theorem step_max (ptr : Nat → Nat) (s : St Int Int) (op : Op Int) (hr : inRange s op)
    (h : Above (incremental ptr) s)
    (hm : ∀ id ∈ s.given, id ≤ maxInt64) : ∀ id ∈ (step (incremental ptr) s op).given, id ≤ maxInt64 := by
  have key : ∀ (s : St Int Int) (o : Nat) (id : Int), id ≤ maxInt64 → (∀ i ∈ s.given, i ≤ maxInt64) →
      ∀ i ∈ (setObjectID (incremental ptr) s o id).given, i ≤ maxInt64 := by
    intro s o id hid hm i hi
    simp only [setObjectID] at hi
    cases ho : s.o2i o <;> cases hv : (incremental ptr).isValidID id <;> simp [ho, hv] at hi <;>
      first | exact hm i hi | (rcases hi with rfl | hi; exact hid; exact hm i hi)
  cases op with
  | register o =>
    simp only [step, register]
    split
    · exact hm
    · split
      · rename_i id hd
        exact key _ o id (hm id (h.det _ _ hd)) hm
      · have hlt : s.gen < maxInt64 := hr
        exact key _ o _ (by simp only [incremental]; omega) hm
  | unRegister o =>
    simp only [step, unRegister]
    split
    · exact hm
    · exact hm
  | setID o id =>
    cases id with
    | none => exact hm
    | some id => exact key s o id hr hm
  | clear => exact hm

theorem run_above (ptr : Nat → Nat) (s : St Int Int) (ops : List (Op Int)) (hr : AllInRange (incremental ptr) s ops)
    (hm : ∀ id ∈ s.given, id ≤ maxInt64) (h : Above (incremental ptr) s) :
    Above (incremental ptr) (run (incremental ptr) s ops) ∧
    ∀ id ∈ (run (incremental ptr) s ops).given, id ≤ maxInt64 := by
  induction ops generalizing s with
  | nil => exact ⟨h, hm⟩
  | cons op ops ih =>
    exact ih _ hr.2 (step_max ptr s op hr.1 h hm) (step_above ptr s op hr.1 hm h)

theorem init_above (ptr : Nat → Nat) : Above (incremental ptr) (init 0) :=
  ⟨by simp [init], by simp [init], by simp [init], by simp [init]⟩

/-! #### IDs in attributes -/

/-- Looking up by ID is consistent with `GetID` and with the attribute. -/
def ELookup (s : ESt) : Prop :=
  (∀ id o, s.i2o id = some o → s.o2i o = some id) ∧ (∀ o id, s.o2i o = some id → s.attr o = id ∧ id.length > 0)

/-- The ID attribute of a registered object is not changed behind the back of the manager. -/
def eok (s : ESt) : EOp → Prop
  | .setAttr o _ => s.o2i o = none
  | _ => True

instance (s : ESt) (op : EOp) : Decidable (eok s op) := by cases op <;> simp only [eok] <;> infer_instance

/-- Every call of the history is `eok`. -/
def EAllOk (s : ESt) : List EOp → Prop
  | [] => True
  | op :: ops => eok s op ∧ EAllOk (estep s op) ops

instance decEAllOk : (s : ESt) → (ops : List EOp) → Decidable (EAllOk s ops)
  | _, [] => isTrue trivial
  | s, op :: ops =>
    have := decEAllOk (estep s op) ops
    inferInstanceAs (Decidable (_ ∧ _))

theorem estep_lookup (s : ESt) (op : EOp) (h : ELookup s) (hok : eok s op) : ELookup (estep s op) := by
  obtain ⟨h1, h2⟩ := h
  cases op with
  | register o =>
    simp only [estep]
    split
    · rename_i hl
      refine ⟨?_, ?_⟩
      · intro i x hx
        have a := h1 i x
        have b := h2 x i
        simp only [upd] at hx ⊢
        grind
      · intro x i hx
        have b := h2 x i
        simp only [upd] at hx ⊢
        grind
    · exact ⟨h1, h2⟩
  | unRegister o =>
    simp only [estep]
    split
    · rename_i id hid
      refine ⟨?_, ?_⟩
      · intro i x hx
        have a := h1 i x
        simp only [upd] at hx ⊢
        grind
      · intro x i hx
        have b := h2 x i
        simp only [upd] at hx ⊢
        grind
    · exact ⟨h1, h2⟩
  | setID o id =>
    simp only [estep]
    cases ho : s.o2i o with
    | none =>
      by_cases hl : id.length > 0
      · simp only [hl, if_true]
        refine ⟨?_, ?_⟩
        · intro i x hx; have a := h1 i x; simp only [upd] at hx ⊢; grind
        · intro x i hx; have b := h2 x i; simp only [upd] at hx ⊢; grind
      · simp only [hl, if_false]
        refine ⟨?_, ?_⟩
        · intro i x hx; have a := h1 i x; simp only [upd] at hx ⊢; grind
        · intro x i hx; have b := h2 x i; simp only [upd] at hx ⊢; grind
    | some old =>
      have hol := (h2 o old ho).2
      by_cases hl : id.length > 0
      · simp only [hl, hol, if_true]
        refine ⟨?_, ?_⟩
        · intro i x hx; have a := h1 i x; simp only [upd] at hx ⊢; grind
        · intro x i hx; have b := h2 x i; simp only [upd] at hx ⊢; grind
      · simp only [hl, hol, if_true, if_false]
        refine ⟨?_, ?_⟩
        · intro i x hx; have a := h1 i x; simp only [upd] at hx ⊢; grind
        · intro x i hx; have b := h2 x i; simp only [upd] at hx ⊢; grind
  | clear => exact ⟨by simp [estep], by simp [estep]⟩
  | setAttr o id =>
    simp only [eok] at hok
    refine ⟨h1, ?_⟩
    intro x i hx; have b := h2 x i hx; simp only [estep] at hx ⊢; grind

theorem erun_lookup (s : ESt) (ops : List EOp) (h : ELookup s) (hok : EAllOk s ops) : ELookup (erun s ops) := by
  induction ops generalizing s with
  | nil => exact h
  | cons op ops ih => exact ih _ (estep_lookup s op h hok.1) hok.2

end Verif.IDManager

namespace Verif.Props
open Verif.IDManager

section
variable {ID G : Type} [DecidableEq ID]

/-- **C11**, lookup: whatever the generator of IDs and the sequence of calls, if `GetEObject(id)` is `o` then `GetID(o)` is
`id`. -/
theorem C11_lookup (c : IDManager.Cfg ID G) (g : G) (ops : List (IDManager.Op ID)) (id : ID) (o : Nat)
    (h : getEObject (IDManager.run c (IDManager.init g) ops) id = some o) :
    getID (IDManager.run c (IDManager.init g) ops) o = some id := by
  have key : ∀ (ops : List (IDManager.Op ID)) (s : IDManager.St ID G), Lookup s → Lookup (IDManager.run c s ops) := by
    intro ops
    induction ops with
    | nil => intro s h; exact h
    | cons op ops ih => intro s h; exact ih _ (step_lookup c s op h)
  exact key ops _ (by simp [Lookup, IDManager.init, getEObject]) id o h

/-- **C11**, uniqueness (partial: `SetID` is not given an ID in use and the generator does not produce one, see `fresh`).
Two registered objects never have the same ID, and `GetEObject` inverts `GetID`. Addresses of objects are distinct. -/
theorem C11_distinct_partial (c : IDManager.Cfg ID G) (hptr : ∀ a b, c.ptr a = c.ptr b → a = b) (g : G)
    (ops : List (IDManager.Op ID)) (hf : AllFresh c (IDManager.init g) ops) (o : Nat) (id : ID)
    (h : getID (IDManager.run c (IDManager.init g) ops) o = some id) :
    getEObject (IDManager.run c (IDManager.init g) ops) id = some o ∧
    ∀ o', getID (IDManager.run c (IDManager.init g) ops) o' = some id → o' = o := by
  have key : ∀ (ops : List (IDManager.Op ID)) (s : IDManager.St ID G), Distinct c s → AllFresh c s ops →
      Distinct c (IDManager.run c s ops) := by
    intro ops
    induction ops with
    | nil => intro s h _; exact h
    | cons op ops ih => intro s h hf; exact ih _ (step_distinct c hptr s op h hf.1) hf.2
  have hd := key ops _ ⟨by simp [Lookup, IDManager.init, getEObject], by simp [IDManager.init, getID],
    by simp [IDManager.init, getID], by simp [IDManager.init]⟩ hf
  refine ⟨hd.inverse o id h, ?_⟩
  intro o' h'
  have a := hd.inverse o id h
  have b := hd.inverse o' id h'
  rw [a] at b
  simpa using b.symm

/-- **C11**, re-registration: an object which is unregistered, and registered again after any calls about other objects,
has its ID again. -/
theorem C11_keeps_id (c : IDManager.Cfg ID G) (hptr : ∀ a b, c.ptr a = c.ptr b → a = b) (g : G)
    (before between : List (IDManager.Op ID)) (o : Nat) (id : ID)
    (h : getID (IDManager.run c (IDManager.init g) before) o = some id) (hb : ∀ op ∈ between, about o op) :
    getID (IDManager.run c (IDManager.init g) (before ++ [.unRegister o] ++ between ++ [.register o])) o = some id := by
  have hv := run_valid c (IDManager.init g) before ⟨by simp [IDManager.init], by simp [IDManager.init]⟩
  rw [run_append, run_append, run_append]
  generalize IDManager.run c (IDManager.init g) before = s at h hv
  simp only [getID] at h
  have h1 : (IDManager.run c s [.unRegister o]).o2i o = none ∧
      (IDManager.run c s [.unRegister o]).det (c.ptr o) = some id := by
    simp [IDManager.run, IDManager.step, unRegister, h, upd]
  have h2 := run_other c hptr (IDManager.run c s [.unRegister o]) o between hb
  rw [h1.1, h1.2] at h2
  simp only [IDManager.run, IDManager.step, IDManager.register, getID] at h2 ⊢
  rw [h2.1, h2.2]
  simp [setObjectID_o2i, hv.1 o id h]
end

/-- Three objects with IDs, one of them away and back again. -/
example :
    let ops : List (IDManager.Op Int) := [.register 0, .register 1, .setID 2 (some 7), .unRegister 0]
    getID (IDManager.run (incremental id) (IDManager.init 0) ops) 2 = some 7 ∧
    getEObject (IDManager.run (incremental id) (IDManager.init 0) ops) 7 = some 2 ∧
    getID (IDManager.run (incremental id) (IDManager.init 0) [.register 0, .register 1]) 0 = some 0 ∧
    (∀ op ∈ [IDManager.Op.register 3, .setID 1 (some (9 : Int))], op ≠ .register 0 ∧ op ≠ .clear) ∧
    getID (IDManager.run (incremental id) (IDManager.init 0)
      ([.register 0, .register 1] ++ [.unRegister 0] ++ [.register 3, .setID 1 (some 9)] ++ [.register 0])) 0 = some 0 := by decide

/-- **C11 violated (1)**: `SetID` accepts the ID of another object; both then have it, and unregistering the first one makes
the second one unreachable by its ID. -/
theorem C11_shared_id_violated :
    let s := IDManager.run (incremental id) (IDManager.init 0) [.register 0, .register 1, .setID 1 (some 0)]
    let s' := IDManager.step (incremental id) s (.unRegister 0)
    getID s 0 = some 0 ∧ getID s 1 = some 0 ∧ getID s' 1 = some 0 ∧ getEObject s' 0 = none := by
  decide

/-- **C11 violated (2)**: the ID kept for an unregistered object can be given to another one, and both have it after the
first is registered again. -/
theorem C11_detached_id_violated :
    let s := IDManager.run (incremental id) (IDManager.init 0) [.register 0, .unRegister 0, .setID 1 (some 0), .register 0]
    getID s 0 = some 0 ∧ getID s 1 = some 0 := by
  decide

/-- **C11 violated (3)**: the kept ID is remembered by address, so an object allocated at the address of an unregistered
and collected one gets its ID (here objects 0 and 1 have the same address). -/
theorem C11_address_reuse_violated :
    let s := IDManager.run (incremental fun _ => 0) (IDManager.init 0) [.register 0, .unRegister 0, .register 1]
    getID s 1 = some 0 := by
  decide

/-- **C11**, incremental manager (partial: `SetID` is not given an ID in use). The IDs it generates itself are always
fresh, as long as the counter stays in range. -/
theorem C11_incremental_partial (ptr : Nat → Nat) (hptr : ∀ a b, ptr a = ptr b → a = b) (ops : List (IDManager.Op Int))
    (hr : AllInRange (incremental ptr) (IDManager.init 0) ops)
    (hset : ∀ pre o id post, ops = pre ++ .setID o (some id) :: post →
      ¬ usedByOther (incremental ptr) (IDManager.run (incremental ptr) (IDManager.init 0) pre) o id)
    (o o' : Nat) (id : Int)
    (h : getID (IDManager.run (incremental ptr) (IDManager.init 0) ops) o = some id)
    (h' : getID (IDManager.run (incremental ptr) (IDManager.init 0) ops) o' = some id) : o = o' := by
  have key : ∀ (ops : List (IDManager.Op Int)) (s : IDManager.St Int Int), Above (incremental ptr) s →
      (∀ id ∈ s.given, id ≤ maxInt64) → AllInRange (incremental ptr) s ops →
      (∀ pre o id post, ops = pre ++ .setID o (some id) :: post →
        ¬ usedByOther (incremental ptr) (IDManager.run (incremental ptr) s pre) o id) →
      AllFresh (incremental ptr) s ops := by
    intro ops
    induction ops with
    | nil => intro s _ _ _ _; trivial
    | cons op ops ih =>
      intro s ha hm hr hset
      refine ⟨?_, ih _ (step_above ptr s op hr.1 hm ha) (step_max ptr s op hr.1 ha hm) hr.2 ?_⟩
      · cases op with
        | register o =>
          intro _ _ hu
          have hlt : s.gen < maxInt64 := hr.1
          have hg : ∀ i ∈ s.given, i = s.gen → False := by
            intro i hi e
            have := (ha.given i hi).2
            omega
          rcases hu with ⟨x, _, hx⟩ | ⟨p, _, hp⟩
          · exact hg _ (ha.o2i x _ hx) rfl
          · exact hg _ (ha.det p _ hp) rfl
        | setID o id =>
          cases id with
          | none => trivial
          | some id => exact hset [] o id ops rfl
        | _ => trivial
      · intro pre o id post e
        exact hset (op :: pre) o id post (by rw [e]; rfl)
  have hf := key ops _ (init_above ptr) (by simp [IDManager.init]) hr hset
  exact ((C11_distinct_partial (incremental ptr) hptr 0 ops hf o id h).2 o' h').symm

/-- Non-vacuity: registrations, re-registration and an explicit ID. -/
example :
    let ops : List (IDManager.Op Int) := [.register 0, .register 1, .setID 2 (some 7), .unRegister 0, .register 3,
      .register 0, .setID 1 (some (-1)), .setID 3 none]
    AllInRange (incremental id) (IDManager.init 0) ops ∧
    getID (IDManager.run (incremental id) (IDManager.init 0) ops) 3 = some 8 ∧
    getID (IDManager.run (incremental id) (IDManager.init 0) ops) 0 = some 0 ∧
    getID (IDManager.run (incremental id) (IDManager.init 0) ops) 1 = none := by
  decide

/-- **C12**. An object which is registered for the first time by an incremental manager gets an ID different from every ID
given or accepted before (`given` records them), as long as the counter stays within int64. -/
theorem C12_fresh_ids (ptr : Nat → Nat) (ops : List (IDManager.Op Int)) (o : Nat)
    (hr : AllInRange (incremental ptr) (IDManager.init 0) ops)
    (hlt : (IDManager.run (incremental ptr) (IDManager.init 0) ops).gen < maxInt64)
    (hnew : getID (IDManager.run (incremental ptr) (IDManager.init 0) ops) o = none)
    (hdet : getDetachedID (incremental ptr) (IDManager.run (incremental ptr) (IDManager.init 0) ops) o = none) :
    ∃ id, getID (IDManager.run (incremental ptr) (IDManager.init 0) (ops ++ [.register o])) o = some id ∧
      id ∉ (IDManager.run (incremental ptr) (IDManager.init 0) ops).given := by
  have ha := run_above ptr _ ops hr (by simp [IDManager.init]) (init_above ptr)
  rw [run_append]
  generalize IDManager.run (incremental ptr) (IDManager.init 0) ops = s at *
  refine ⟨s.gen, ?_, ?_⟩
  · simp only [getID, getDetachedID] at hnew hdet
    simp only [IDManager.run, IDManager.step, IDManager.register, hnew, hdet, getID, setObjectID_o2i, if_true]
    simp [incremental, ha.1.pos]
  · intro hc
    have := (ha.1.given _ hc).2
    omega

/-- The record `given` used by C12 is complete: every ID an object ever has is in it. -/
theorem C12_given_complete (ptr : Nat → Nat) (ops : List (IDManager.Op Int)) (o : Nat) (id : Int)
    (hr : AllInRange (incremental ptr) (IDManager.init 0) ops)
    (h : getID (IDManager.run (incremental ptr) (IDManager.init 0) ops) o = some id ∨
      getDetachedID (incremental ptr) (IDManager.run (incremental ptr) (IDManager.init 0) ops) o = some id) :
    id ∈ (IDManager.run (incremental ptr) (IDManager.init 0) ops).given := by
  have ha := run_above ptr _ ops hr (by simp [IDManager.init]) (init_above ptr)
  rcases h with h | h
  · exact ha.1.o2i o id h
  · exact ha.1.det _ id h

/-- Non-vacuity of C12: after an explicit ID 7, the next generated one is 8. -/
example :
    let ops : List (IDManager.Op Int) := [.register 0, .setID 1 (some 7), .clear]
    AllInRange (incremental id) (IDManager.init 0) ops ∧
    (IDManager.run (incremental id) (IDManager.init 0) ops).gen = 8 ∧
    (IDManager.run (incremental id) (IDManager.init 0) ops).given = [7, 0] ∧
    getID (IDManager.run (incremental id) (IDManager.init 0) (ops ++ [.register 2])) 2 = some 8 := by
  decide

/-- **C11** for the manager which stores the ID in an attribute (partial: the attribute of a registered object is only
changed through the manager). -/
theorem C11_attribute_lookup_partial (attr : Nat → String) (ops : List EOp) (hok : EAllOk (einit attr) ops) (id : String)
    (o : Nat) (h : (erun (einit attr) ops).i2o id = some o) :
    (erun (einit attr) ops).o2i o = some id ∧ (erun (einit attr) ops).attr o = id := by
  have hl := erun_lookup (einit attr) ops ⟨by simp [einit], by simp [einit]⟩ hok
  have h1 := hl.1 id o h
  exact ⟨h1, (hl.2 o id h1).1⟩

/-- **C11** for IDs in attributes: an object just unregistered has no ID any more and is found by none. -/
theorem C11_attribute_unregistered_partial (attr : Nat → String) (ops : List EOp) (hok : EAllOk (einit attr) ops) (o : Nat) :
    (estep (erun (einit attr) ops) (.unRegister o)).o2i o = none ∧ ∀ id, (estep (erun (einit attr) ops) (.unRegister o)).i2o id ≠ some o := by
  have hl := erun_lookup (einit attr) ops ⟨by simp [einit], by simp [einit]⟩ hok
  have hl2 := estep_lookup _ (.unRegister o) hl trivial
  have h1 : (estep (erun (einit attr) ops) (.unRegister o)).o2i o = none := by
    simp only [estep]
    split
    · simp [upd]
    · assumption
  exact ⟨h1, fun id h => by have := hl2.1 id o h; rw [h1] at this; cases this⟩

/-- **C11 violated (4)**: with IDs in attributes, registering an object again after its attribute changed leaves the old ID
in the lookup table. -/
theorem C11_attribute_changed_violated :
    let s := erun (einit fun _ => "a") [.register 0, .setAttr 0 "b", .register 0]
    s.i2o "a" = some 0 ∧ s.o2i 0 = some "b" := by
  decide

/-- Non-vacuity of C11 for attributes. -/
example :
    let ops : List EOp := [.register 0, .setID 0 "b", .register 1, .unRegister 1, .setAttr 1 "c", .register 1]
    EAllOk (einit fun _ => "a") ops ∧ (erun (einit fun _ => "a") ops).i2o "c" = some 1 ∧
    (erun (einit fun _ => "a") ops).i2o "a" = none := by
  decide

end Verif.Props
