import Verif.Spec.Invoke
/-!
# Proofs about calling operations by reflection
-/
namespace Verif.Invoke
open Verif.Spec.Invoke

variable {C O : Type} [DecidableEq C] [DecidableEq O]
variable {code : Code C O} {M : Classes C O} {count rank : C → Nat}

theorem allOps_some (g : Generated code M count rank) (n : Nat) (c : C) :
    allOps M (n + 1) c = (match code.embed c with | some d => allOps M n d | none => []) ++ M.own c := by
  rw [allOps, g.supers]
  cases code.embed c <;> simp

theorem allOps_length (g : Generated code M count rank) (n : Nat) : ∀ c, rank c < n → (allOps M n c).length = count c + (M.own c).length := by
  induction n with
  | zero => intro c h; omega
  | succ n ih =>
    intro c h
    rw [allOps_some g]
    cases he : code.embed c with
    | none => simp [g.first c he]
    | some d =>
      have := g.acyclic c d he
      simp [ih d (by omega), g.next c d he]

omit [DecidableEq C] [DecidableEq O] in
theorem inherits_rank (g : Generated code M count rank) {k d : C} (h : Inherits M.supers k d) :
    rank d ≤ rank k ∧ (k = d ∨ count d + (M.own d).length ≤ count k) := by
  induction h with
  | refl c => exact ⟨Nat.le_refl _, .inl rfl⟩
  | @up k c d hc _ ih =>
    rw [g.supers] at hc
    have he : code.embed k = some c := by simpa using hc
    have h1 := g.acyclic k c he
    have h2 := g.next k c he
    refine ⟨by omega, .inr ?_⟩
    rcases ih.2 with e | h
    · subst e; omega
    · omega

theorem mem_allOps (g : Generated code M count rank) (n : Nat) : ∀ k o, rank k < n → (o ∈ allOps M n k ↔ Has M k o) := by
  induction n with
  | zero => intro k o h; omega
  | succ n ih =>
    intro k o h
    rw [allOps_some g, List.mem_append]
    constructor
    · rintro (h1 | h1)
      · cases he : code.embed k with
        | none => rw [he] at h1; simp at h1
        | some d =>
          rw [he] at h1
          have := g.acyclic k d he
          obtain ⟨e, h2, h3⟩ := (ih d o (by omega)).mp h1
          exact ⟨e, .up (by rw [g.supers, he]; simp) h2, h3⟩
      · exact ⟨k, .refl k, h1⟩
    · rintro ⟨d, h1, h2⟩
      cases h1 with
      | refl => exact .inr h2
      | @up _ c _ hc h1 =>
        rw [g.supers] at hc
        have he : code.embed k = some c := by simpa using hc
        have := g.acyclic k c he
        refine .inl ?_
        rw [he]
        exact (ih c o (by omega)).mpr ⟨d, h1, h2⟩

theorem opID_eq (g : Generated code M count rank) {n : Nat} {d : C} {o : O} (hd : rank d < n) (ho : o ∈ M.own d) :
    opID M n o = count d + (M.own d).idxOf o := by
  unfold opID
  rw [g.decl o d ho, g.supers]
  cases he : code.embed d with
  | none => simp [g.first d he]
  | some e =>
    have := g.acyclic d e he
    simp [allOps_length g n e (by omega), g.next d e he]

theorem find_own (g : Generated code M count rank) {d : C} {o : O} (ho : o ∈ M.own d) :
    (code.cases d).find? (fun p => p.1 = count d + (M.own d).idxOf o) = some (count d + (M.own d).idxOf o, o) := by
  have hi : (M.own d)[(M.own d).idxOf o]? = some o := by
    rw [List.getElem?_eq_getElem (List.idxOf_lt_length_of_mem ho), List.getElem_idxOf]
  have hm : (count d + (M.own d).idxOf o, o) ∈ code.cases d := (g.cases d _ o).mpr ⟨_, hi, rfl⟩
  cases hf : (code.cases d).find? (fun p => p.1 = count d + (M.own d).idxOf o) with
  | none =>
    have := List.find?_eq_none.mp hf _ hm
    simp at this
  | some p =>
    have h1 : p.1 = count d + (M.own d).idxOf o := by simpa using List.find?_some hf
    obtain ⟨i, h2, h3⟩ := (g.cases d p.1 p.2).mp (List.mem_of_find?_eq_some hf)
    have h4 : i = (M.own d).idxOf o := by omega
    rw [h4, hi] at h2
    obtain ⟨a, b⟩ := p
    simp only [Option.some.injEq] at h2 h1
    rw [h1, ← h2]

theorem find_below (g : Generated code M count rank) {c : C} {id : Nat} (h : id < count c) : (code.cases c).find? (fun p => p.1 = id) = none := by
  rw [List.find?_eq_none]
  intro p hp hid
  obtain ⟨i, _, h2⟩ := (g.cases c p.1 p.2).mp hp
  have : p.1 = id := by simpa using hid
  omega

theorem invokeFromID_eq (g : Generated code M count rank) (n : Nat) (k : C) {d : C} {o : O} (ho : o ∈ M.own d) (args : List (Val C)) (m : Nat) :
    ∀ c, Inherits M.supers c d → rank c < m → invokeFromID code M n k m c (count d + (M.own d).idxOf o) args = call code o args := by
  induction m with
  | zero => intro c _ h; omega
  | succ m ih =>
    intro c hc hm
    have hlt : (M.own d).idxOf o < (M.own d).length := List.idxOf_lt_length_of_mem ho
    rcases (inherits_rank g hc).2 with e | hle
    · subst e
      rw [invokeFromID, find_own g ho]
    · cases hc with
      | refl => omega
      | @up _ e _ he h1 =>
        rw [g.supers] at he
        have he : code.embed c = some e := by simpa using he
        have := g.acyclic c e he
        rw [invokeFromID, find_below g (by omega), he]
        exact ih e h1 (by omega)

theorem invoke_has (g : Generated code M count rank) {n : Nat} {k : C} {o : O} (hn : rank k < n) (ho : Has M k o) (args : List (Val C)) :
    invoke code M n k o args = call code o args := by
  unfold invoke
  rw [if_pos ((mem_allOps g n k o hn).mpr ho)]
  obtain ⟨d, h1, h2⟩ := ho
  have h3 := (inherits_rank g h1).1
  rw [opID_eq g (by omega) h2]
  exact invokeFromID_eq g n k h2 args n k h1 hn

theorem invoke_hasnot (g : Generated code M count rank) {n : Nat} {k : C} {o : O} (hn : rank k < n) (ho : ¬Has M k o) (args : List (Val C)) :
    invoke code M n k o args = .panic := by
  unfold invoke
  rw [if_neg (fun h => ho ((mem_allOps g n k o hn).mp h))]

omit [DecidableEq C] in
theorem asserts_of {implements : C → C → Bool} {t : Ty C} {v : Val C} (h : HasType implements t v) (hv : ∀ c, t = .object c → v ≠ .nil) : asserts implements t v = true := by
  cases h <;> simp_all [asserts]

omit [DecidableEq C] in
theorem arguments_of {implements : C → C → Bool} : ∀ (ts : List (Ty C)) (vs : List (Val C)), Conforms implements ts vs → NoNil ts vs →
    arguments implements ts vs = some vs
  | [], [], _, _ => rfl
  | [], _ :: _, h, _ => by have := h.1; simp at this
  | _ :: _, [], h, _ => by have := h.1; simp at this
  | t :: ts, v :: vs, h, hn => by
    have h1 := asserts_of (h.2 0 t v rfl rfl) (fun c e e' => hn 0 c (by rw [e]; rfl) (by rw [e']; rfl))
    have h2 : Conforms implements ts vs := ⟨by simpa using h.1, fun i a b ha hb => h.2 (i + 1) a b (by simpa using ha) (by simpa using hb)⟩
    rw [arguments, if_pos h1, arguments_of ts vs h2 (fun i c h1 h2 => hn (i + 1) c (by simpa using h1) (by simpa using h2))]
    rfl

omit [DecidableEq C] in
theorem asserts_type {implements : C → C → Bool} {t : Ty C} {v : Val C} (h : asserts implements t v = true) : HasType implements t v := by
  cases t <;> cases v <;> simp only [asserts] at h <;> first | cases h; done | constructor <;> assumption | constructor

/-- what is given to a method is the beginning of the arguments, and has the types of the parameters -/
theorem arguments_sound {implements : C → C → Bool} : ∀ (ts : List (Ty C)) (vs ws : List (Val C)), arguments implements ts vs = some ws →
    ws = vs.take ts.length ∧ Conforms implements ts ws
  | [], vs, ws, h => by simp only [arguments, Option.some.injEq] at h; subst h; exact ⟨by simp, rfl, fun i t v h => by simp at h⟩
  | t :: ts, [], ws, h => by simp [arguments] at h
  | t :: ts, v :: vs, ws, h => by
    simp only [arguments] at h
    split at h
    · next ha =>
      cases hr : arguments implements ts vs with
      | none => rw [hr] at h; cases h
      | some us =>
        rw [hr] at h
        simp only [Option.map_some, Option.some.injEq] at h
        subst h
        obtain ⟨h1, h2, h3⟩ := arguments_sound ts vs us hr
        refine ⟨by simp [← h1], by simp [h2], fun i u w hu hw => ?_⟩
        cases i with
        | zero =>
          simp only [List.getElem?_cons_zero, Option.some.injEq] at hu hw
          subst hu; subst hw
          exact asserts_type ha
        | succ i => exact h3 i u w (by simpa using hu) (by simpa using hw)
    · cases h

theorem arguments_nil {implements : C → C → Bool} : ∀ (ts : List (Ty C)) (vs : List (Val C)) (i : Nat) (c : C),
    ts[i]? = some (.object c) → vs[i]? = some .nil → arguments implements ts vs = none
  | [], _, _, _, h, _ => by simp at h
  | _ :: _, [], _, _, _, h => by simp at h
  | t :: ts, v :: vs, 0, c, h1, h2 => by
    simp only [List.getElem?_cons_zero, Option.some.injEq] at h1 h2
    subst h1; subst h2
    simp [arguments, asserts]
  | t :: ts, v :: vs, i + 1, c, h1, h2 => by
    simp only [List.getElem?_cons_succ] at h1 h2
    rw [arguments, arguments_nil ts vs i c h1 h2]
    split <;> rfl

theorem allOps_getElem (g : Generated code M count rank) (n : Nat) {d : C} {o : O} (ho : o ∈ M.own d) :
    ∀ k, Inherits M.supers k d → rank k < n → (allOps M n k)[count d + (M.own d).idxOf o]? = some o := by
  induction n with
  | zero => intro k _ h; omega
  | succ n ih =>
    intro k hk hn
    have hi : (M.own d)[(M.own d).idxOf o]? = some o := by
      rw [List.getElem?_eq_getElem (List.idxOf_lt_length_of_mem ho), List.getElem_idxOf]
    rw [allOps_some g]
    cases hk with
    | refl =>
      cases he : code.embed d with
      | none => simpa [g.first d he] using hi
      | some e =>
        have := g.acyclic d e he
        have hl : (allOps M n e).length = count d := by rw [allOps_length g n e (by omega), g.next d e he]
        simp only
        rw [List.getElem?_append_right (by omega), hl]
        simpa using hi
    | @up _ e _ he h1 =>
      rw [g.supers] at he
      have he : code.embed k = some e := by simpa using he
      have := g.acyclic k e he
      have h2 := ih e h1 (by omega)
      rw [he]
      simp only
      rw [List.getElem?_append_left]
      · exact h2
      · exact (List.getElem?_eq_some_iff.mp h2).1

theorem invokeDynamic_has (g : Generated code M count rank) {n : Nat} {k : C} {o : O} (hn : rank k < n) (ho : Has M k o) :
    invokeDynamic M n k o = .nothing := by
  obtain ⟨d, h1, h2⟩ := ho
  have h3 := (inherits_rank g h1).1
  have h4 := allOps_getElem g n h2 k h1 hn
  have h5 := opID_eq (n := n) g (by omega) h2
  rw [← h5] at h4
  obtain ⟨hl, hv⟩ := List.getElem?_eq_some_iff.mp h4
  have hd : (allOps M n k).drop (opID M n o) = o :: (allOps M n k).drop (opID M n o + 1) := by
    rw [List.drop_eq_getElem_cons hl, hv]
  unfold invokeDynamic classOpID
  rw [hd]
  simp [hl]

theorem invoke_same (code : Code C O) (M : Classes C O) {k a b : C} {x y : O} {xs ys : List O} (n : Nat) (hk : M.supers k = [a, b])
    (ha : M.supers a = []) (hb : M.supers b = []) (hx : M.own a = x :: xs) (hy : M.own b = y :: ys) (dx : M.decl x = a) (dy : M.decl y = b)
    (args : List (Val C)) : invoke code M (n + 2) k x args = invoke code M (n + 2) k y args := by
  have h1 : x ∈ allOps M (n + 2) k := by simp [allOps, hk, hx]
  have h2 : y ∈ allOps M (n + 2) k := by simp [allOps, hk, hy]
  have h3 : opID M (n + 2) x = 0 := by simp [opID, dx, ha, hx]
  have h4 : opID M (n + 2) y = 0 := by simp [opID, dy, hb, hy]
  unfold invoke
  rw [if_pos h1, if_pos h2, h3, h4]

/-! ### Ecore -/

/-- number of inherited operations -/
def ecoreCount : EC → Nat
  | .eAnnotation | .eClassifier | .eEnumLiteral | .eFactory | .eNamedElement | .ePackage | .eTypeParameter | .eTypedElement | .eOperation
  | .eParameter | .eStructuralFeature => 1
  | .eAttribute | .eReference | .eClass | .eDataType | .eEnum => 2
  | _ => 0

/-- depth in the hierarchy -/
def ecoreRank : EC → Nat
  | .eModelElement | .eObject | .eGenericType | .eStringToStringMapEntry => 0
  | .eAnnotation | .eFactory | .eNamedElement => 1
  | .eClassifier | .eEnumLiteral | .ePackage | .eTypeParameter | .eTypedElement => 2
  | .eClass | .eDataType | .eOperation | .eParameter | .eStructuralFeature => 3
  | .eEnum | .eAttribute | .eReference => 4

theorem cases_of {cs : List (Nat × O)} {own : List O} {base : Nat} (h1 : ∀ p ∈ cs, base ≤ p.1 ∧ own[p.1 - base]? = some p.2)
    (h2 : ∀ i : Nat, i < own.length → ∀ o, own[i]? = some o → (base + i, o) ∈ cs) (id : Nat) (o : O) :
    (id, o) ∈ cs ↔ ∃ i : Nat, own[i]? = some o ∧ id = base + i := by
  constructor
  · intro h
    have := h1 _ h
    exact ⟨id - base, this.2, by have := this.1; simp only at this; omega⟩
  · rintro ⟨i, h, rfl⟩
    refine h2 i ?_ o h
    rcases Nat.lt_or_ge i own.length with hl | hl
    · exact hl
    · rw [List.getElem?_eq_none hl] at h; cases h

theorem ecore_generated : Generated ecoreCode ecoreClasses ecoreCount ecoreRank where
  supers := by intro c; cases c <;> rfl
  acyclic := by intro c d h; cases c <;> simp [ecoreCode, ecoreSupers] at h <;> subst h <;> decide
  decl := by intro o c h; cases c <;> simp [ecoreClasses, ecoreOwn] at h <;> (repeat' (rcases h with h | h)) <;> subst_vars <;> rfl
  nodup := by intro c; cases c <;> decide
  first := by intro c h; cases c <;> simp [ecoreCode, ecoreSupers] at h <;> rfl
  next := by intro c d h; cases c <;> simp [ecoreCode, ecoreSupers] at h <;> subst h <;> rfl
  cases := by
    intro c id o
    refine cases_of ?_ ?_ id o
    · cases c <;> decide
    · cases c <;> decide

theorem inherits_eObject {k : EC} {o : EO} (hk : k ≠ .eObject) (ho : o ∈ ecoreOwn .eObject) : ¬Has ecoreClasses k o := by
  rintro ⟨d, h1, h2⟩
  have h3 : d = .eObject := by
    have := ecore_generated.decl o d h2
    rw [← this, ecore_generated.decl o .eObject ho]
  subst h3
  have : ∀ k d, Inherits ecoreSupers k d → d = .eObject → k = .eObject := by
    intro k d h
    induction h with
    | refl => exact id
    | @up k c d hc _ ih =>
      intro e
      rw [ih e] at hc
      exfalso
      revert hc
      cases k <;> decide
  exact hk (this k _ h1 rfl)

theorem ecoreRank_lt (c : EC) : ecoreRank c < 5 := by cases c <;> decide

end Verif.Invoke
