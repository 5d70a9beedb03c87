import Verif.Spec.IDForms
import Verif.Proofs.Convert

/-!
# Proofs about forms of IDs
-/

namespace Verif.IDForms

open Verif.IDManager (St Cfg incremental wrap64 upd)
open Verif.Convert (Text isDigit natOf)
open Verif.Convert.Spec (Denotes decimal Signed)

theorem wrap64_id (i : Int) (h1 : -9223372036854775808 ≤ i) (h2 : i < 9223372036854775808) :
    wrap64 i = i := by
  unfold wrap64
  omega

theorem wrap64_neg (n : Nat) (h1 : 9223372036854775808 ≤ n) (h2 : n < 18446744073709551616) :
    ¬ (0 ≤ wrap64 (n : Int)) := by
  unfold wrap64
  omega

theorem natOf_decimal (s : Text) : natOf s = decimal s := by
  unfold natOf decimal
  congr 1
  funext n c
  rw [Nat.mul_comm]

/-- `ParseInt` accepts exactly the integers in range. -/
theorem parse_iff (s : Text) (i : Int) : parseInt64 s = some i ↔
    Denotes s i ∧ -9223372036854775808 ≤ i ∧ i < 9223372036854775808 := by
  have hany : ∀ ds : Text, (ds.any (fun c => !isDigit c)) = false ↔
      ∀ c ∈ ds, 48 ≤ c ∧ c ≤ 57 := by
    intro ds
    rw [List.any_eq_false]
    simp [isDigit]
  unfold parseInt64
  simp only
  constructor
  · intro h
    obtain ⟨ds, hd0⟩ : ∃ ds, (if s.head? = some 45 ∨ s.head? = some 43 then s.tail else s) = ds :=
      ⟨_, rfl⟩
    rw [hd0] at h
    by_cases hd : ds = [] ∨ (ds.any (fun c => !isDigit c)) = true
    · rw [if_pos hd] at h
      exact absurd h (by simp)
    · rw [if_neg hd] at h
      have hne : ds ≠ [] := fun h => hd (Or.inl h)
      have hds := (hany ds).mp (by
        cases hb : ds.any (fun c => !isDigit c) with
        | false => rfl
        | true => exact absurd (Or.inr hb) hd)
      obtain ⟨j, hj⟩ : ∃ j : Int,
          (if s.head? = some 45 then -(natOf ds : Int) else natOf ds) = j := ⟨_, rfl⟩
      rw [hj] at h
      by_cases hr : -9223372036854775808 ≤ j ∧ j < 9223372036854775808
      · rw [if_pos hr] at h
        simp only [Option.some.injEq] at h
        subst h
        refine ⟨⟨ds, hne, hds, ?_⟩, hr⟩
        rw [natOf_decimal] at hj
        cases s with
        | nil => simp at hd0; exact absurd hd0 hne
        | cons c s =>
          simp only [List.head?_cons, Option.some.injEq, List.tail_cons] at hj hd0
          by_cases h45 : c = 45
          · subst h45
            right
            simp at hj hd0
            exact ⟨by rw [hd0], hj.symm⟩
          · by_cases h43 : c = 43
            · subst h43
              left
              simp at hj hd0
              exact ⟨Or.inr (by rw [hd0]), hj.symm⟩
            · left
              simp [h45, h43] at hj hd0
              exact ⟨Or.inl hd0, hj.symm⟩
      · rw [if_neg hr] at h
        exact absurd h (by simp)
  · rintro ⟨⟨ds, hne, hds, hc⟩, hr⟩
    have hb := (hany ds).mpr hds
    have hhead : ds.head? ≠ some 45 ∧ ds.head? ≠ some 43 := by
      cases ds with
      | nil => exact absurd rfl hne
      | cons c ds =>
        have := hds c (by simp)
        simp only [List.head?_cons, ne_eq, Option.some.injEq]
        omega
    rcases hc with ⟨rfl | rfl, rfl⟩ | ⟨rfl, rfl⟩
    · simp only [hhead.1, hhead.2, or_self, if_false, hne, hb, Bool.false_eq_true, natOf_decimal]
      rw [if_pos hr]
    · simp only [List.head?_cons, List.tail_cons, Option.some.injEq, or_true, if_true, hne, hb,
        Bool.false_eq_true, or_self, if_false, natOf_decimal, Nat.reduceEqDiff]
      rw [if_pos hr]
    · simp only [List.head?_cons, List.tail_cons, true_or, if_true, hne, hb,
        Bool.false_eq_true, or_self, if_false, natOf_decimal]
      rw [if_pos hr]

/-- Forms of numbers that an int64 can hold are converted to the number. -/
theorem getID_writes {f : Form} {v : Int} (h : f.Writes v)
    (h1 : -9223372036854775808 ≤ v) (h2 : v < 9223372036854775808) : getID f = some v := by
  cases f with
  | nil => exact absurd h (by simp [Form.Writes])
  | other => exact absurd h (by simp [Form.Writes])
  | text s => exact (parse_iff s v).mpr ⟨h, h1, h2⟩
  | uint b n =>
    simp only [Form.Writes] at h
    subst h
    simp only [getID, Option.some.injEq]
    exact wrap64_id _ h1 h2
  | int b i =>
    simp only [Form.Writes] at h
    subst h
    rfl

theorem getID_uint (b n : Nat) : getID (.uint b n) = some (wrap64 n) := by
  rw [getID]

/-- A number that is no ID takes the ID away. -/
theorem setID_neg (ptr : Nat → Nat) (s : St Int Int) (o : Nat) {f : Form} {w : Int}
    (hg : getID f = some w) (hw : ¬ (0 ≤ w)) :
    IDManager.getID (setID ptr s o f).1 o = none := by
  simp [setID, hg, IDManager.getID, IDManager.setObjectID, incremental, hw, IDManager.upd]

/-- What `SetID` leaves as it is. -/
theorem setID_keeps (ptr : Nat → Nat) (s : St Int Int) (o : Nat) (f : Form) :
    (∀ p, p ≠ o → (setID ptr s o f).1.o2i p = s.o2i p) ∧
    ∀ w, (setID ptr s o f).1.o2i o ≠ some w → s.o2i o ≠ some w →
      (setID ptr s o f).1.i2o w = s.i2o w := by
  unfold setID
  generalize getID f = r
  cases r with
  | none => exact ⟨fun _ _ => rfl, fun _ _ _ => rfl⟩
  | some v =>
    simp only [IDManager.setObjectID, incremental]
    cases h : s.o2i o <;> by_cases hv : 0 ≤ v <;> simp [hv, upd] <;> grind

/-- A text shows one number. -/
theorem writes_unique {t : Text} {v w : Int} (h : Form.Writes (.text t) v)
    (h' : Form.Writes (.text t) w) : v = w := by
  obtain ⟨ds, hne, hds, h⟩ := h
  obtain ⟨es, hne', hes, h'⟩ := h'
  have c45 : ∀ l : Text, (∀ c ∈ l, 48 ≤ c ∧ c ≤ 57) → ∀ c r, l = c :: r → c ≠ 45 ∧ c ≠ 43 := by
    intro l hl c r hc
    have := hl c (by simp [hc])
    omega
  have hd := c45 ds hds
  have he := c45 es hes
  rcases h with ⟨rfl | rfl, rfl⟩ | ⟨rfl, rfl⟩ <;> rcases h' with ⟨h | h, rfl⟩ | ⟨h, rfl⟩ <;> grind

/-- After a document was read. -/
structure Loaded (s : St Int Int) (l : List (Nat × Form × Int)) : Prop where
  ids : ∀ t ∈ l, s.o2i t.1 = some t.2.2 ∧ s.i2o t.2.2 = some t.1
  rest : ∀ o, (∀ t ∈ l, t.1 ≠ o) → s.o2i o = none
  only : ∀ v, (∀ t ∈ l, t.2.2 ≠ v) → s.i2o v = none
  det : ∀ p, s.det p = none
  gen : ∀ t ∈ l, t.2.2 < s.gen
  range : 0 ≤ s.gen ∧ s.gen < 9223372036854775808

theorem loaded_step {ptr : Nat → Nat} {s : St Int Int} {l : List (Nat × Form × Int)}
    (hl : Loaded s l) (o : Nat) (f : Form) (v : Int) (hw : f.Writes v)
    (h0 : 0 ≤ v) (h1 : v < 9223372036854775807) (ho : ∀ t ∈ l, t.1 ≠ o)
    (hv : ∀ t ∈ l, t.2.2 ≠ v) : Loaded (setID ptr s o f).1 (l ++ [(o, f, v)]) := by
  have hg := getID_writes hw (by omega) (by omega)
  have ho' := hl.rest o ho
  have he : (setID ptr s o f).1 = { s with
      gen := max (v + 1) s.gen, o2i := upd s.o2i o (some v), i2o := upd s.i2o v (some o),
      given := v :: s.given } := by
    simp only [setID, hg, IDManager.setObjectID, ho', incremental, h0, ge_iff_le, decide_true,
      if_true, wrap64_id (v + 1) (by omega) (by omega)]
  rw [he]
  refine ⟨?_, ?_, ?_, hl.det, ?_, ?_⟩
  · intro t ht
    rcases List.mem_append.mp ht with ht | ht
    · have := hl.ids t ht
      simp [upd, ho t ht, hv t ht, this]
    · have : t = (o, f, v) := by simpa using ht
      subst this
      simp [upd]
  · intro p hp
    have h1 : o ≠ p := hp (o, f, v) (by simp)
    simp only [upd]
    rw [if_neg (fun h => h1 h.symm)]
    exact hl.rest p (fun t ht => hp t (by simp [ht]))
  · intro w hw'
    have h1 : v ≠ w := hw' (o, f, v) (by simp)
    simp only [upd]
    rw [if_neg (fun h => h1 h.symm)]
    exact hl.only w (fun t ht => hw' t (by simp [ht]))
  · intro t ht
    show t.2.2 < max (v + 1) s.gen
    rcases List.mem_append.mp ht with ht | ht
    · have := hl.gen t ht
      omega
    · have : t = (o, f, v) := by simpa using ht
      subst this
      simp only
      omega
  · have := hl.range
    show 0 ≤ max (v + 1) s.gen ∧ max (v + 1) s.gen < 9223372036854775808
    omega

theorem loaded_load {ptr : Nat → Nat} : ∀ (l pre : List (Nat × Form × Int)) (s : St Int Int),
    Loaded s pre → (∀ t ∈ l, t.2.1.Writes t.2.2 ∧ 0 ≤ t.2.2 ∧ t.2.2 < 9223372036854775807) →
    ((pre ++ l).map (·.1)).Nodup → ((pre ++ l).map (·.2.2)).Nodup →
    Loaded (load ptr s (l.map fun t => (t.1, t.2.1))) (pre ++ l) := by
  intro l
  induction l with
  | nil => intro pre s h _ _ _; simpa [load] using h
  | cons t l ih =>
    intro pre s h ht hn1 hn2
    obtain ⟨o, f, v⟩ := t
    simp only [List.map_cons, load]
    have ht0 := ht (o, f, v) (by simp)
    have e : pre ++ (o, f, v) :: l = (pre ++ [(o, f, v)]) ++ l := by simp
    rw [e] at hn1 hn2 ⊢
    apply ih
    · apply loaded_step h o f v ht0.1 ht0.2.1 ht0.2.2
      · intro t ht' he
        rw [List.map_append, List.map_append] at hn1
        have := (List.nodup_append.mp (List.nodup_append.mp hn1).1).2.2 t.1
          (List.mem_map_of_mem ht') o (by simp)
        exact this he
      · intro t ht' he
        rw [List.map_append, List.map_append] at hn2
        have := (List.nodup_append.mp (List.nodup_append.mp hn2).1).2.2 t.2.2
          (List.mem_map_of_mem (f := (·.2.2)) ht') v (by simp)
        exact this he
    · exact fun t ht' => ht t (by simp [ht'])
    · exact hn1
    · exact hn2

theorem loaded_init : Loaded (IDManager.init (ID := Int) (0 : Int)) [] := by
  refine ⟨by simp, fun _ _ => rfl, fun _ _ => rfl, fun _ => rfl, by simp, ?_⟩
  simp [IDManager.init]

end Verif.IDForms
