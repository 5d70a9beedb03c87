import Verif.Proofs.IDForms

/-!
# C110: An incremental ID is the same in all its forms

An ID is passed to `SetID` and `GetEObject` of the incremental ID manager as a text or an
integer of any type.  `Verif/Spec/IDForms.lean` says which number a form stands for
(`Writes`).  `s` is any state of the manager, reachable or not.
-/

namespace Verif.IDForms

open Verif.IDManager (St incremental)

/-- An object that is given the number `v`, in any form, has the ID `v` and is found under
every form of `v`; there is no error. -/
theorem C110_set_partial (ptr : Nat → Nat) (s : St Int Int) (o : Nat) (f : Form) (v : Int)
    (hw : f.Writes v) (h0 : 0 ≤ v) (h1 : v < 2 ^ 63) :
    (setID ptr s o f).2 = false ∧ IDManager.getID (setID ptr s o f).1 o = some v ∧
    ∀ g : Form, g.Writes v → getEObject (setID ptr s o f).1 g = some o := by
  have hg := getID_writes hw (by omega) (by omega)
  refine ⟨?_, ?_, fun g hwg => ?_⟩
  · simp [setID, hg]
  · simp [setID, hg, IDManager.getID, IDManager.setObjectID, incremental, h0, IDManager.upd]
  · have hg' := getID_writes hwg (by omega) (by omega)
    simp [getEObject, hg', setID, hg, IDManager.setObjectID, incremental, h0, IDManager.upd]

/-- the text "+007", the uint8 7 and the int64 7 -/
example : Form.Writes (.text [43, 48, 48, 55]) 7 ∧ Form.Writes (.uint 8 7) 7 ∧
    Form.Writes (.int 64 7) 7 ∧
    getEObject (setID id (IDManager.init 0) 3 (.text [43, 48, 48, 55])).1 (.uint 8 7) = some 3 :=
  ⟨⟨[48, 48, 55], by decide, by decide, Or.inl ⟨Or.inr rfl, by decide⟩⟩, rfl, rfl, by decide⟩

/-- Two forms of one number, negative numbers included, do the same to every state and
find the same object in it. -/
theorem C110_same (ptr : Nat → Nat) (s : St Int Int) (o : Nat) (f g : Form) (v : Int)
    (hf : f.Writes v) (hg : g.Writes v) (h0 : -2 ^ 63 ≤ v) (h1 : v < 2 ^ 63) :
    setID ptr s o f = setID ptr s o g ∧ getEObject s f = getEObject s g := by
  have h := getID_writes hf (by omega) (by omega)
  have h' := getID_writes hg (by omega) (by omega)
  simp [setID, getEObject, h, h']

/-- the texts "-0" and "0" -/
example : Form.Writes (.text [45, 48]) 0 ∧ Form.Writes (.text [48]) 0 :=
  ⟨⟨[48], by decide, by decide, Or.inr ⟨rfl, by decide⟩⟩,
   ⟨[48], by decide, by decide, Or.inl ⟨Or.inl rfl, by decide⟩⟩⟩

/-- There is an error exactly for values that are no integers and no texts, and for texts
that show no int64.  It changes nothing, and no object is found under such a value. -/
theorem C110_error (ptr : Nat → Nat) (s : St Int Int) (o : Nat) (f : Form) :
    ((setID ptr s o f).2 = true ↔ f = .other ∨ ∃ t, f = .text t ∧
      ¬ ∃ v : Int, Form.Writes (.text t) v ∧ -2 ^ 63 ≤ v ∧ v < 2 ^ 63) ∧
    ((setID ptr s o f).2 = true → (setID ptr s o f).1 = s ∧ getEObject s f = none) := by
  constructor
  · cases f with
    | nil => simp [setID, getID]
    | other => simp [setID, getID]
    | uint b n => simp [setID, getID]
    | int b i => simp [setID, getID]
    | text t =>
      have hp := parse_iff t
      simp only [setID, getID]
      cases h : parseInt64 t with
      | none =>
        simp only [true_iff]
        refine Or.inr ⟨t, rfl, ?_⟩
        rintro ⟨v, hw, h0, h1⟩
        have := (hp v).mpr ⟨hw, by omega, by omega⟩
        rw [h] at this
        exact absurd this (by simp)
      | some v =>
        have hv := (hp v).mp h
        simp only [Bool.false_eq_true, false_iff]
        rintro (h' | ⟨t', ht, hn⟩)
        · exact absurd h' (by simp)
        · obtain rfl : t = t' := by simpa using ht
          exact hn ⟨v, hv.1, by omega, by omega⟩
  · intro h
    unfold setID at h ⊢
    cases hg : getID f with
    | none => simp [getEObject, hg]
    | some v => rw [hg] at h; exact absurd h (by simp)

/-- the text "1a" -/
example (s : St Int Int) : (setID id s 3 (.text [49, 97])).2 = true := rfl

/-- nil takes the ID of an object away: it has none, is found under no form of the number
it had, and every other object keeps its ID. -/
theorem C110_nil (ptr : Nat → Nat) (s : St Int Int) (o : Nat) :
    (setID ptr s o .nil).2 = false ∧ IDManager.getID (setID ptr s o .nil).1 o = none ∧
    (∀ p, p ≠ o → IDManager.getID (setID ptr s o .nil).1 p = IDManager.getID s p) ∧
    ∀ (v : Int) (g : Form), IDManager.getID s o = some v → g.Writes v → 0 ≤ v → v < 2 ^ 63 →
      getEObject (setID ptr s o .nil).1 g = none := by
  refine ⟨rfl, ?_, fun p hp => ?_, fun v g hv hw h0 h1 => ?_⟩
  · simp [setID, getID, IDManager.getID, IDManager.setObjectID, incremental, IDManager.upd]
  · cases h : s.o2i o <;>
      simp [setID, getID, IDManager.getID, IDManager.setObjectID, incremental, IDManager.upd, hp, h]
  · have hg := getID_writes hw (by omega) (by omega)
    have hv' : s.o2i o = some v := hv
    have hn : getID .nil = some (-1) := rfl
    simp [getEObject, hg, setID, hn, IDManager.setObjectID, incremental, IDManager.upd, hv']

/-- the object 3 had the ID 5 -/
example : IDManager.getID (setID id (IDManager.init 0) 3 (.uint 16 5)).1 3 = some 5 := by decide

/-- Whatever is passed for one object, with or without an error, every other object keeps
its ID, and every number but the one passed and the one the object had finds the object it
found before. -/
theorem C110_others (ptr : Nat → Nat) (s : St Int Int) (o : Nat) (f : Form) :
    (∀ p, p ≠ o → IDManager.getID (setID ptr s o f).1 p = IDManager.getID s p) ∧
    ∀ (w : Int) (g : Form), g.Writes w → 0 ≤ w → w < 2 ^ 63 →
      IDManager.getID (setID ptr s o f).1 o ≠ some w → IDManager.getID s o ≠ some w →
      getEObject (setID ptr s o f).1 g = getEObject s g := by
  have hk := setID_keeps ptr s o f
  refine ⟨hk.1, fun w g hw h0 h1 hn ho => ?_⟩
  have hg := getID_writes hw (by omega) (by omega)
  simp only [getEObject, hg]
  exact hk.2 w hn ho

/-- the object 3 is given the ID 9, the object 2 keeps the ID 4 -/
example : getEObject (setID id (setID id (IDManager.init 0) 2 (.uint 32 4)).1 3 (.text [57])).1
    (.text [52]) = some 2 := by decide

/-- A document is read into a new manager: its objects are given different numbers, each
in any form.  Every object has its number and is found under every form of it, other
objects have no ID, and the next object that is registered gets an ID that is larger than
all of them and is found under it. -/
theorem C110_load (ptr : Nat → Nat) (doc : List (Nat × Form × Int))
    (hdoc : ∀ t ∈ doc, t.2.1.Writes t.2.2 ∧ 0 ≤ t.2.2 ∧ t.2.2 < 2 ^ 63 - 1)
    (ho : (doc.map (·.1)).Nodup) (hv : (doc.map (·.2.2)).Nodup) (s : St Int Int)
    (hs : s = load ptr (IDManager.init 0) (doc.map fun t => (t.1, t.2.1))) :
    (∀ o f v, (o, f, v) ∈ doc → IDManager.getID s o = some v ∧
      ∀ g : Form, g.Writes v → getEObject s g = some o) ∧
    ∀ p, (∀ t ∈ doc, t.1 ≠ p) → IDManager.getID s p = none ∧
      ∃ n, IDManager.getID (IDManager.register (incremental ptr) s p) p = some n ∧
        (∀ t ∈ doc, t.2.2 < n) ∧
        (∀ g : Form, g.Writes n →
          getEObject (IDManager.register (incremental ptr) s p) g = some p) ∧
        ∀ o f v, (o, f, v) ∈ doc →
          IDManager.getID (IDManager.register (incremental ptr) s p) o = some v := by
  have hl : Loaded s doc := by
    rw [hs]
    have := loaded_load (ptr := ptr) doc [] (IDManager.init 0) loaded_init
      (fun t ht => by have := hdoc t ht; exact ⟨this.1, this.2.1, by omega⟩)
      (by simpa using ho) (by simpa using hv)
    simpa using this
  refine ⟨fun o f v ht => ?_, fun p hp => ?_⟩
  · have hi := hl.ids _ ht
    have hd := hdoc _ ht
    simp only at hi hd
    refine ⟨hi.1, fun g hw => ?_⟩
    have hg := getID_writes hw (by omega) (by omega)
    simp [getEObject, hg, hi.2]
  · have hn := hl.rest p hp
    have hr := hl.range
    have he : ∃ c l, IDManager.register (incremental ptr) s p =
        { s with
          gen := c, o2i := IDManager.upd s.o2i p (some s.gen),
          i2o := IDManager.upd s.i2o s.gen (some p), given := l } := by
      simp only [IDManager.register, hn, hl.det, IDManager.setObjectID, incremental, hr.1,
        ge_iff_le, decide_true, if_true]
      exact ⟨_, _, rfl⟩
    obtain ⟨c, l, he⟩ := he
    rw [he]
    refine ⟨hn, s.gen, by simp [IDManager.getID, IDManager.upd], hl.gen, fun g hw => ?_,
      fun o f v ht => ?_⟩
    · have hg := getID_writes hw (by omega) (by omega)
      simp [getEObject, hg, IDManager.upd]
    · have hne : o ≠ p := hp _ ht
      simp only [IDManager.getID, IDManager.upd, hne, if_false]
      exact (hl.ids _ ht).1

/-- two objects, one with the text "12" and one with the uint32 4 -/
example : IDManager.getID (IDManager.register (incremental id)
    (load id (IDManager.init 0) [(1, .text [49, 50]), (2, .uint 32 4)]) 3) 3 = some 13 := by decide

/-- Violated: an unsigned number that no int64 can hold is accepted without an error, and
the object has no ID afterwards.  The text of the same number is an error. -/
theorem C110_unsigned_violated (ptr : Nat → Nat) (s : St Int Int) (o n : Nat)
    (h0 : 2 ^ 63 ≤ n) (h1 : n < 2 ^ 64) :
    Form.Valid (.uint 64 n) ∧ (setID ptr s o (.uint 64 n)).2 = false ∧
    IDManager.getID (setID ptr s o (.uint 64 n)).1 o = none ∧
    ∀ t, Form.Writes (.text t) n → (setID ptr s o (.text t)).2 = true := by
  have l0 : 9223372036854775808 ≤ n := by simpa using h0
  have l1 : n < 18446744073709551616 := by simpa using h1
  have hneg := wrap64_neg n l0 l1
  refine ⟨?_, by simp only [setID, getID], ?_, fun t ht => ?_⟩
  · simp only [Form.Valid]
    exact ⟨by simp, h1⟩
  · exact setID_neg ptr s o (getID_uint 64 n) hneg
  · refine (C110_error ptr s o (.text t)).1.mpr (Or.inr ⟨t, rfl, ?_⟩)
    rintro ⟨w, hw, _, hw1⟩
    have hwn := writes_unique hw ht
    have hw2 : w < 9223372036854775808 := by simpa using hw1
    clear h0 h1 hw1
    omega

example : (2 : Nat) ^ 63 ≤ 9223372036854775808 ∧ (9223372036854775808 : Nat) < 2 ^ 64 := by decide

/-- Violated: a negative number, in any form, is accepted without an error, and the object
has no ID afterwards. -/
theorem C110_negative_violated (ptr : Nat → Nat) (s : St Int Int) (o : Nat) (f : Form) (v : Int)
    (hw : f.Writes v) (h0 : -2 ^ 63 ≤ v) (h1 : v < 0) :
    (setID ptr s o f).2 = false ∧ IDManager.getID (setID ptr s o f).1 o = none := by
  have hg := getID_writes hw (by omega) (by omega)
  have hneg : ¬ (0 ≤ v) := by omega
  refine ⟨by simp [setID, hg], setID_neg ptr s o hg hneg⟩

/-- the text "-3" -/
example : Form.Writes (.text [45, 51]) (-3) :=
  ⟨[51], by decide, by decide, Or.inr ⟨rfl, by decide⟩⟩

end Verif.IDForms
