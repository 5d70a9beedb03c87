import Verif.Proofs.SQLObjectsSteps

/-!
# The object of a row
-/

namespace Verif.SQLObjects

open Spec

variable {M : Meta} {s s' s'' : St}

/-- Objects and rows are registered one for the other. -/
structure Wf (M : Meta) (s : St) : Prop where
  objs : ∀ o n, s.objs n = some o ↔ reg M s o = some n
  zero : s.objs 0 = none
  small : ∀ o n, reg M s o = some n → o < s.count
  row : ∀ o n, s.objs n = some o → (s.rows n).isSome
  pos : s.rows 0 = none
  memory : ∀ o f k, .obj k ∈ s.mem o f → k < s.count

theorem Wf.getObjectID (h : Wf M s) (o : Nat) : getObjectID M s o = (rid M s o, (reg M s o).isSome) := by
  unfold SQLObjects.getObjectID rid
  by_cases hs : M.sql o = true
  · by_cases h0 : s.sid o = 0
    · simp [reg, hs, h0, h.zero]
    · have hr : reg M s o = some (s.sid o) := by simp [reg, hs, h0]
      simp [hs, hr, (h.objs o _).2 hr]
  · simp only [Bool.not_eq_true] at hs
    simp [reg, hs]

theorem Wf.getSQLID (h : Wf M s) (o : Nat) : getSQLID M s o = (s, rid M s o, (reg M s o).isSome) := by
  unfold SQLObjects.getSQLID
  rw [h.getObjectID]
  cases hr : reg M s o <;> simp [rid, hr]

theorem reg_setObjectID (s : St) (o n : Nat) (hn : n ≠ 0) (k : Nat) :
    reg M (setObjectID M s o n) k = if k = o then some n else reg M s k := by
  unfold setObjectID reg upd
  by_cases hs : M.sql o = true
  · simp only [hs, if_true]
    by_cases hk : k = o
    · subst hk; simp [hs, hn]
    · simp [hk]
  · simp only [hs]
    by_cases hk : k = o
    · subst hk; simp [hs]
    · simp [hk]

/-- a new object for a row that has none -/
theorem Wf.register (h : Wf M s) {o n : Nat} (hn : n ≠ 0) (ho : reg M s o = none) (hf : s.objs n = none) (hr : (s.rows n).isSome)
    (hc : o < s.count) : Wf M (setObjectID M s o n) := by
  have hobjs : ∀ m, (setObjectID M s o n).objs m = if m = n then some o else s.objs m := by
    intro m; unfold setObjectID upd; split <;> rfl
  have hrows : (setObjectID M s o n).rows = s.rows := by unfold setObjectID; split <;> rfl
  have hcount : (setObjectID M s o n).count = s.count := by unfold setObjectID; split <;> rfl
  have hmem : (setObjectID M s o n).mem = s.mem := by unfold setObjectID; split <;> rfl
  refine ⟨?_, ?_, ?_, ?_, by rw [hrows]; exact h.pos, by rw [hmem, hcount]; exact h.memory⟩
  · intro k m
    rw [hobjs, reg_setObjectID s o n hn]
    by_cases hm : m = n
    · subst hm
      by_cases hk : k = o
      · simp [hk]
      · simp only [if_true, hk, if_false, Option.some.injEq]
        constructor
        · intro e; exact absurd e.symm hk
        · intro e; have := (h.objs k m).2 e; rw [hf] at this; cases this
    · simp only [hm, if_false]
      by_cases hk : k = o
      · subst hk
        simp only [if_true, Option.some.injEq]
        constructor
        · intro e; have := (h.objs k m).1 e; rw [ho] at this; cases this
        · intro e; exact absurd e.symm hm
      · simp only [hk, if_false]; exact h.objs k m
  · rw [hobjs, if_neg (Ne.symm hn)]; exact h.zero
  · intro k m hk
    rw [reg_setObjectID s o n hn] at hk; rw [hcount]
    split at hk
    · rename_i e; rw [e]; exact hc
    · exact h.small k m hk
  · intro k m hk
    rw [hobjs] at hk; rw [hrows]
    split at hk
    · rename_i e; rw [e]; exact hr
    · exact h.row k m hk

/-! ## Writing keeps rows and objects apart -/

/-- what encoding leaves as it is -/
structure Keep (M : Meta) (s s' : St) : Prop where
  wf : Wf M s'
  count : s'.count = s.count

theorem Wf.tables (h : Wf M s) (c : Nat → Nat → Cell) (l : Nat → Nat → List Cell) (r : List Nat) :
    Wf M { s with col := c, lists := l, roots := r } := ⟨h.objs, h.zero, h.small, h.row, h.pos, h.memory⟩

theorem Wf.push (h : Wf M s) (n f : Nat) (c : Cell) : Wf M (push s n f c) := h.tables _ _ _
theorem Wf.setCol (h : Wf M s) (n f : Nat) (c : Cell) : Wf M (setCol s n f c) := h.tables _ _ _
theorem Wf.setList (h : Wf M s) (n f : Nat) (l : List Cell) : Wf M (setList s n f l) := h.tables _ _ _

theorem Wf.newRow (h : Wf M s) (n : Nat) (r : Row) (hn : n ≠ 0) (m : Nat) :
    Wf M { s with rows := upd s.rows n (some r), last := m } := by
  refine ⟨h.objs, h.zero, h.small, ?_, ?_, h.memory⟩
  · intro o k hk
    have := h.row o k hk
    simp only [upd]; split
    · rfl
    · exact this
  · simp only [upd, if_neg (Ne.symm hn)]; exact h.pos

theorem Wf.encodeValue (h : Wf M s) {enc : St → Nat → St × Option Nat} (f : Nat) (v : Val)
    (he : ∀ s k, Wf M s → k < s.count → Keep M s (enc s k).1) (hv : ∀ k, v = .obj k → k < s.count) :
    Keep M s (encodeValue M enc s f v).1 := by
  cases v with
  | obj k =>
    unfold SQLObjects.encodeValue
    cases (M.feature f).kind with
    | data => exact ⟨h, rfl⟩
    | object => exact he s k h (hv k rfl)
    | reference => exact ⟨h, rfl⟩
  | _ => exact ⟨h, rfl⟩

theorem Wf.encodeValues {enc : St → Nat → St × Option Nat} (n f : Nat) (vs : List Val)
    (he : ∀ s k, Wf M s → k < s.count → Keep M s (enc s k).1) : ∀ {s : St}, Wf M s → (∀ k, .obj k ∈ vs → k < s.count) →
    Keep M s (encodeValues M enc n f s vs).1 := by
  induction vs with
  | nil => intro s h _; exact ⟨h, rfl⟩
  | cons v vs ih =>
    intro s h hv
    have h1 := h.encodeValue (enc := enc) f v he (fun k e => hv k (by rw [e]; exact List.mem_cons_self ..))
    unfold SQLObjects.encodeValues
    revert h1
    rcases SQLObjects.encodeValue M enc s f v with ⟨s1, c⟩
    intro h1
    cases c with
    | none => exact h1
    | some c =>
      have h2 := ih (h1.wf.push n f c) (fun k hk => by
        show k < s1.count
        rw [h1.count]; exact hv k (List.mem_cons_of_mem _ hk))
      exact ⟨h2.wf, h2.count.trans h1.count⟩

theorem Wf.encodeFeatures {enc : Int → St → Nat → St × Option Nat} (o n : Nat) (fs : List (Nat × Int))
    (he : ∀ i s k, Wf M s → k < s.count → Keep M s (enc i s k).1) : ∀ {s : St}, Wf M s →
    Keep M s (encodeFeatures M enc o n s fs).1 := by
  induction fs with
  | nil => intro s h; exact ⟨h, rfl⟩
  | cons p fs ih =>
    intro s h
    obtain ⟨f, i⟩ := p
    unfold SQLObjects.encodeFeatures
    cases hm : s.mem o f with
    | nil => exact ih h
    | cons v vs =>
      have hv : ∀ k, .obj k ∈ v :: vs → k < s.count := fun k hk => h.memory o f k (by rw [hm]; exact hk)
      by_cases hf : (M.feature f).many = true
      · simp only [hf, if_true]
        have h1 := Wf.encodeValues (enc := enc i) n f (v :: vs) (he i) h hv
        revert h1
        rcases SQLObjects.encodeValues M (enc i) n f s (v :: vs) with ⟨s1, b⟩
        intro h1
        cases b with
        | false => exact h1
        | true => have h2 := ih h1.wf; exact ⟨h2.wf, h2.count.trans h1.count⟩
      · simp only [hf]
        have h1 := h.encodeValue (enc := enc i) f v (he i) (fun k e => hv k (by rw [e]; exact List.mem_cons_self ..))
        revert h1
        rcases SQLObjects.encodeValue M (enc i) s f v with ⟨s1, c⟩
        intro h1
        cases c with
        | none => exact h1
        | some c => have h2 := ih (h1.wf.setCol n f c); exact ⟨h2.wf, h2.count.trans h1.count⟩

theorem Wf.encodeObject (fuel : Nat) : ∀ {s : St} (o : Nat) (c : Option (Nat × Int)), Wf M s → o < s.count →
    Keep M s (encodeObject M fuel s o c).1 := by
  induction fuel with
  | zero => intro s o c h _; exact ⟨h, rfl⟩
  | succ fuel ih =>
    intro s o c h ho
    rw [SQLObjects.encodeObject, h.getObjectID]
    cases hr : reg M s o with
    | some n => exact ⟨h, rfl⟩
    | none =>
      have hrs : rid M s o = 0 := by simp [rid, hr]
      simp only [Option.isSome_none, Bool.false_eq_true, if_false, hrs, ne_eq, not_true_eq_false]
      cases hrow : s.rows (s.last + 1) with
      | some r => simp only [Option.isSome_some, if_true]; exact ⟨h, rfl⟩
      | none =>
        simp only [Option.isSome_none, Bool.false_eq_true, if_false]
        have hobj : s.objs (s.last + 1) = none := by
          cases hx : s.objs (s.last + 1) with
          | none => rfl
          | some k => have := h.row k _ hx; rw [hrow] at this; cases this
        have h1 := h.newRow (s.last + 1) ⟨s.cls o, c.map (·.1), c.map (·.2)⟩ (by omega) (max s.last (s.last + 1))
        have h2 := h1.register (o := o) (n := s.last + 1) (by omega) hr hobj (by simp [upd]) ho
        have hcount : (setObjectID M { s with rows := upd s.rows (s.last + 1) (some ⟨s.cls o, c.map (·.1), c.map (·.2)⟩), last := max s.last (s.last + 1) } o (s.last + 1)).count = s.count := by
          unfold setObjectID; split <;> rfl
        have h3 := Wf.encodeFeatures (enc := fun i s k => SQLObjects.encodeObject M fuel s k (some (s.last + 1, i)))
          o (s.last + 1) (M.encoded (s.cls o)) (fun i s k hs hk => ih k _ hs hk) h2
        have h4 : ∀ fs, Keep M _ (SQLObjects.encodeFeatures M (fun i t k => SQLObjects.encodeObject M fuel t k (some (s.last + 1, i)))
          o (s.last + 1) _ fs).1 := fun fs => Wf.encodeFeatures (enc := fun i t k => SQLObjects.encodeObject M fuel t k (some (s.last + 1, i)))
            o (s.last + 1) fs (fun i t k hs hk => ih k _ hs hk) h2
        exact ⟨(h4 _).wf, (h4 _).count.trans hcount⟩

theorem Wf.encode (h : Wf M s) {o : Nat} (ho : o < s.count) : Keep M s (encode M s o).1 := Wf.encodeObject _ o none h ho

theorem Wf.encodeSQLID (h : Wf M s) {o : Nat} (ho : o < s.count) : Keep M s (encodeSQLID M s o).1 := by
  unfold SQLObjects.encodeSQLID
  rw [h.getSQLID]
  cases reg M s o with
  | none => exact h.encode ho
  | some n => exact ⟨h, rfl⟩

theorem Wf.storeValue (h : Wf M s) (f : Nat) (v : Val) (hv : ∀ k, v = .obj k → k < s.count) : Keep M s (storeValue M s f v).1 :=
  h.encodeValue f v (fun _ _ hs hk => hs.encodeSQLID hk) hv

theorem Wf.storeValues (f : Nat) (vs : List Val) : ∀ {s : St}, Wf M s → (∀ k, .obj k ∈ vs → k < s.count) →
    Keep M s (storeValues M f s vs).1 := by
  induction vs with
  | nil => intro s h _; exact ⟨h, rfl⟩
  | cons v vs ih =>
    intro s h hv
    have h1 := h.storeValue f v (fun k e => hv k (by rw [e]; exact List.mem_cons_self ..))
    unfold SQLObjects.storeValues
    revert h1
    rcases SQLObjects.storeValue M s f v with ⟨s1, c⟩
    intro h1
    cases c with
    | none => exact h1
    | some c =>
      have h2 := ih h1.wf (fun k hk => by rw [h1.count]; exact hv k (List.mem_cons_of_mem _ hk))
      exact ⟨h2.wf, h2.count.trans h1.count⟩

/-! ## Reading -/

/-- Some rows have got objects. -/
structure More (M : Meta) (s s' : St) : Prop where
  rows : s'.rows = s.rows
  col : s'.col = s.col
  lists : s'.lists = s.lists
  roots : s'.roots = s.roots
  count : s.count ≤ s'.count
  cls : ∀ o, o < s.count → s'.cls o = s.cls o
  reg : ∀ o, o < s.count → reg M s' o = reg M s o
  objs : ∀ n o, s.objs n = some o → s'.objs n = some o

theorem More.refl : More M s s := ⟨rfl, rfl, rfl, rfl, Nat.le_refl _, fun _ _ => rfl, fun _ _ => rfl, fun _ _ h => h⟩

theorem More.trans (h : More M s s') (h' : More M s' s'') : More M s s'' :=
  ⟨h'.rows.trans h.rows, h'.col.trans h.col, h'.lists.trans h.lists, h'.roots.trans h.roots, Nat.le_trans h.count h'.count,
    fun o ho => (h'.cls o (Nat.lt_of_lt_of_le ho h.count)).trans (h.cls o ho),
    fun o ho => (h'.reg o (Nat.lt_of_lt_of_le ho h.count)).trans (h.reg o ho), fun n o e => h'.objs n o (h.objs n o e)⟩

/-- a result that is not another one later, as long as nothing is written -/
structure Lasting {α : Type} (M : Meta) (s : St) (read : St → St × α) : Prop where
  wf : Wf M (read s).1
  more : More M s (read s).1
  again : ∀ s', Wf M s' → More M (read s).1 s' → read s' = (s', (read s).2)

theorem Lasting.pure {α : Type} (h : Wf M s) (x : St → α) (hx : ∀ s', More M s s' → x s' = x s) : Lasting M s (fun s => (s, x s)) :=
  ⟨h, More.refl, fun s' _ hm => by simp only [hx s' hm]⟩

theorem Wf.decodeObject (h : Wf M s) (n : Nat) : Lasting M s (fun s => decodeObject M s n) := by
  cases ho : s.objs n with
  | some o =>
    have e : SQLObjects.decodeObject M s n = (s, some o) := by simp [SQLObjects.decodeObject, ho]
    refine ⟨by simp only [e]; exact h, by simp only [e]; exact More.refl, ?_⟩
    intro s' _ hm
    simp only [e] at hm ⊢
    simp [SQLObjects.decodeObject, hm.objs n o ho]
  | none =>
    cases hr : s.rows n with
    | none =>
      have e : SQLObjects.decodeObject M s n = (s, none) := by simp [SQLObjects.decodeObject, ho, hr]
      refine ⟨by simp only [e]; exact h, by simp only [e]; exact More.refl, ?_⟩
      intro s' hw hm
      simp only [e] at hm ⊢
      have hr' : s'.rows n = none := by rw [hm.rows, hr]
      have : s'.objs n = none := by
        cases hx : s'.objs n with
        | none => rfl
        | some k => have := hw.row k n hx; rw [hr'] at this; cases this
      simp [SQLObjects.decodeObject, this, hr']
    | some r =>
      have e : SQLObjects.decodeObject M s n =
          (setObjectID M { s with cls := upd s.cls s.count r.cls, count := s.count + 1 } s.count n, some s.count) := by
        simp [SQLObjects.decodeObject, ho, hr]
      have hn : n ≠ 0 := by intro e; subst e; rw [h.pos] at hr; cases hr
      have hc : reg M s s.count = none := by
        cases hx : reg M s s.count with
        | none => rfl
        | some m => have := h.small _ _ hx; omega
      have h1 : Wf M { s with cls := upd s.cls s.count r.cls, count := s.count + 1 } :=
        ⟨h.objs, h.zero, fun o m hm => Nat.lt_succ_of_lt (h.small o m hm), h.row, h.pos, fun o f k hk => Nat.lt_succ_of_lt (h.memory o f k hk)⟩
      have h2 := h1.register (o := s.count) (n := n) hn hc ho (by simp [hr]) (by simp)
      have hobj : (setObjectID M { s with cls := upd s.cls s.count r.cls, count := s.count + 1 } s.count n).objs n = some s.count := by
        unfold setObjectID upd; split <;> simp
      refine ⟨by simp only [e]; exact h2, ?_, ?_⟩
      · simp only [e]
        refine ⟨?_, ?_, ?_, ?_, ?_, ?_, ?_, ?_⟩
        · unfold setObjectID; split <;> rfl
        · unfold setObjectID; split <;> rfl
        · unfold setObjectID; split <;> rfl
        · unfold setObjectID; split <;> rfl
        · unfold setObjectID; split <;> simp
        · intro o hlt
          have : o ≠ s.count := by omega
          unfold setObjectID; split <;> simp [upd, this]
        · intro o hlt
          rw [reg_setObjectID _ _ _ hn, if_neg (by omega)]; rfl
        · intro m k hk
          have : m ≠ n := by intro e; subst e; rw [ho] at hk; cases hk
          unfold setObjectID upd; split <;> simp [this, hk]
      · intro s' _ hm
        simp only [e] at hm ⊢
        simp [SQLObjects.decodeObject, hm.objs n _ hobj]

theorem Lasting.map {α β : Type} {r : St → St × α} (h : Lasting M s r) (g : α → β) : Lasting M s (fun s => ((r s).1, g (r s).2)) :=
  ⟨h.wf, h.more, fun s' hw hm => by have := h.again s' hw hm; simp only [this]⟩

theorem Lasting.bind {α β : Type} {r : St → St × α} (h : Lasting M s r) {k : α → St → St × β}
    (hk : Lasting M (r s).1 (k (r s).2)) : Lasting M s (fun s => k (r s).2 (r s).1) :=
  ⟨hk.wf, h.more.trans hk.more, fun s' hw hm => by
    have := h.again s' hw (hk.more.trans hm)
    simp only [this]
    exact hk.again s' hw hm⟩

theorem Wf.decodeValue (h : Wf M s) (f : Nat) (c : Cell) : Lasting M s (fun s => decodeValue M s f c) := by
  cases c with
  | id n =>
    unfold SQLObjects.decodeValue
    by_cases hk : (M.feature f).kind = .object
    · simp only [hk, if_true]
      exact (h.decodeObject n).map fun o => o.elim Val.nil Val.obj
    · simp only [hk, if_false]; exact Lasting.pure h _ fun _ _ => rfl
  | ref n =>
    unfold SQLObjects.decodeValue
    by_cases hk : (M.feature f).kind = .reference
    · simp only [hk, if_true]
      exact (h.decodeObject n).map fun o => o.elim Val.nil Val.obj
    · simp only [hk, if_false]; exact Lasting.pure h _ fun _ _ => rfl
  | _ => exact Lasting.pure h _ fun _ _ => rfl

theorem Wf.decodeValues (f : Nat) (cs : List Cell) : ∀ {s : St}, Wf M s → Lasting M s (fun s => decodeValues M f s cs) := by
  induction cs with
  | nil => intro s h; exact Lasting.pure h _ fun _ _ => rfl
  | cons c cs ih =>
    intro s h
    have h1 := h.decodeValue f c
    exact h1.bind (k := fun v s => ((SQLObjects.decodeValues M f s cs).1, v :: (SQLObjects.decodeValues M f s cs).2))
      ((ih h1.wf).map fun vs => _ :: vs)

theorem Wf.decodeObjects (ns : List Nat) : ∀ {s : St}, Wf M s → Lasting M s (fun s => decodeObjects M s ns) := by
  induction ns with
  | nil => intro s h; exact Lasting.pure h _ fun _ _ => rfl
  | cons n ns ih =>
    intro s h
    have h1 := h.decodeObject n
    have e : (fun s => SQLObjects.decodeObjects M s (n :: ns)) = fun s =>
        (fun (x : Option Nat) s => match x with
          | none => (s, none)
          | some o => ((SQLObjects.decodeObjects M s ns).1, (SQLObjects.decodeObjects M s ns).2.map (o :: ·)))
          (SQLObjects.decodeObject M s n).2 (SQLObjects.decodeObject M s n).1 := by
      funext t
      rw [SQLObjects.decodeObjects]
      rcases SQLObjects.decodeObject M t n with ⟨t1, x⟩
      cases x <;> rfl
    rw [e]
    refine h1.bind (k := fun (x : Option Nat) s => match x with
          | none => (s, none)
          | some o => ((SQLObjects.decodeObjects M s ns).1, (SQLObjects.decodeObjects M s ns).2.map (o :: ·))) ?_
    cases (SQLObjects.decodeObject M s n).2 with
    | none => exact Lasting.pure h1.wf _ fun _ _ => rfl
    | some o => exact (ih h1.wf).map fun os => os.map (o :: ·)

/-- the operations that read, but for those that look for a value -/
theorem Wf.readOp (h : Wf M s) {o : Nat} (ho : o < s.count) (f : Nat) (x y : Res) (k : St → Nat → St × Res)
    (hk : ∀ n, Lasting M s fun s => k s n) : Lasting M s (fun s => read M s o f x y k) := by
  have e : ∀ s', Wf M s' → More M s s' → read M s' o f x y k =
      match reg M s o with
      | none => (s', x)
      | some n => if f ∈ (M.cls (s.cls o)).own then k s' n else (s', y) := by
    intro s' hw hm
    unfold read
    rw [hw.getSQLID, hm.reg o ho]
    cases hr : reg M s o with
    | none => rfl
    | some n => simp [rid, hm.reg o ho, hr, known, hm.cls o ho]
  have e0 := e s h More.refl
  cases hr : reg M s o with
  | none =>
    simp only [hr] at e e0
    refine ⟨by simp only [e0]; exact h, by simp only [e0]; exact More.refl, ?_⟩
    intro s' hw hm; simp only [e0] at hm ⊢; exact e s' hw hm
  | some n =>
    simp only [hr] at e e0
    have hn := hk n
    by_cases hf : f ∈ (M.cls (s.cls o)).own
    · simp only [hf, if_true] at e e0
      refine ⟨by simp only [e0]; exact hn.wf, by simp only [e0]; exact hn.more, ?_⟩
      intro s' hw hm; simp only [e0] at hm ⊢
      rw [e s' hw (hn.more.trans hm)]; exact hn.again s' hw hm
    · simp only [hf, if_false] at e e0
      refine ⟨by simp only [e0]; exact h, by simp only [e0]; exact More.refl, ?_⟩
      intro s' hw hm; simp only [e0] at hm ⊢; exact e s' hw hm

theorem Lasting.congr {α : Type} {r r' : St → St × α} (h : Lasting M s r) (e : ∀ s', More M s s' → r' s' = r s') : Lasting M s r' := by
  have e0 := e s More.refl
  refine ⟨by rw [e0]; exact h.wf, by rw [e0]; exact h.more, ?_⟩
  intro s' hw hm
  rw [e0] at hm ⊢
  rw [e s' (h.more.trans hm)]; exact h.again s' hw hm

/-- an operation that reads answers the same until something is written -/
theorem Wf.lasting (h : Wf M s) (op : Op) (hr : op.isRead = true) (ho : ∀ o ∈ op.objects, o < s.count) :
    Lasting M s (fun s => step M s op) := by
  cases op with
  | get o f i =>
    refine h.readOp (ho o (by simp [Op.objects])) f _ _ _ fun n => ?_
    have h1 := (h.decodeValue f (if (M.feature f).many then ((s.lists n f)[i]?).getD .null else s.col n f)).map Res.val
    refine h1.congr ?_
    intro s' hm
    simp only [getValue, hm.lists, hm.col]
  | isSet o f =>
    refine h.readOp (ho o (by simp [Op.objects])) f _ _ _ fun n => ?_
    exact Lasting.pure h _ fun s' hm => by simp only [hm.lists, hm.col]
  | isEmpty o f =>
    refine h.readOp (ho o (by simp [Op.objects])) f _ _ _ fun n => ?_
    exact Lasting.pure h _ fun s' hm => by simp only [hm.lists]
  | size o f =>
    refine h.readOp (ho o (by simp [Op.objects])) f _ _ _ fun n => ?_
    exact Lasting.pure h _ fun s' hm => by simp only [hm.lists]
  | toArray o f =>
    refine h.readOp (ho o (by simp [Op.objects])) f _ _ _ fun n => ?_
    have h1 := (Wf.decodeValues f (s.lists n f) h).map Res.vals
    refine h1.congr ?_
    intro s' hm
    simp only [hm.lists]
  | getRoots =>
    have h1 := (Wf.decodeObjects s.roots h).map fun os => Res.objs (os.getD [])
    refine h1.congr ?_
    intro s' hm
    simp only [step, hm.roots]
  | getContainer o =>
    have hlt := ho o (by simp [Op.objects])
    have e : ∀ s', Wf M s' → More M s s' → step M s' (.getContainer o) =
        match reg M s o with
        | none => (s', .container none)
        | some n =>
          match (s.rows n).bind (·.container) with
          | none => (s', .container none)
          | some pid =>
            match SQLObjects.decodeObject M s' pid with
            | (s', none) => (s', .container none)
            | (s', some p) => (s', .container (some (p, M.featureAt (s'.cls p)
                ((M.cls (s'.cls p)).static + ((s.rows n).bind (·.feature)).getD 0)))) := by
      intro s' hw hm
      simp only [step, hw.getSQLID, hm.reg o hlt]
      cases hr : reg M s o with
      | none => rfl
      | some n =>
        simp only [Option.isSome_some, rid, hm.reg o hlt, hr, Option.getD_some, hm.rows]
        cases hrow : s.rows n with
        | none => rfl
        | some r =>
          cases hc : r.container with
          | none => simp [hc]
          | some pid =>
            simp only [hc, Option.bind_some]
            rcases SQLObjects.decodeObject M s' pid with ⟨s1, _ | p⟩ <;> rfl
    have e0 := e s h More.refl
    cases hr : reg M s o with
    | none =>
      simp only [hr] at e e0
      refine ⟨by simp only [e0]; exact h, by simp only [e0]; exact More.refl, ?_⟩
      intro s' hw hm; simp only [e0] at hm ⊢; exact e s' hw hm
    | some n =>
      simp only [hr] at e e0
      cases hc : (s.rows n).bind (·.container) with
      | none =>
        simp only [hc] at e e0
        refine ⟨by simp only [e0]; exact h, by simp only [e0]; exact More.refl, ?_⟩
        intro s' hw hm; simp only [e0] at hm ⊢; exact e s' hw hm
      | some pid =>
        simp only [hc] at e e0
        have hd := h.decodeObject pid
        obtain ⟨hw1, hm1, ha1⟩ := hd
        rcases hx : SQLObjects.decodeObject M s pid with ⟨s1, x⟩
        simp only [hx] at e0 hw1 hm1 ha1
        cases x with
        | none =>
          simp only at e0
          refine ⟨by simp only [e0]; exact hw1, by simp only [e0]; exact hm1, ?_⟩
          intro s' hw hm; simp only [e0] at hm ⊢
          rw [e s' hw (hm1.trans hm), ha1 s' hw hm]
        | some p =>
          simp only at e0
          refine ⟨by simp only [e0]; exact hw1, by simp only [e0]; exact hm1, ?_⟩
          intro s' hw hm; simp only [e0] at hm ⊢
          rw [e s' hw (hm1.trans hm), ha1 s' hw hm]
          have hp : p < s1.count := by
            have h1 := ha1 s1 hw1 More.refl
            have : s1.objs pid = some p := by
              unfold SQLObjects.decodeObject at h1
              cases hx' : s1.objs pid with
              | some q => simp only [hx', Prod.mk.injEq, Option.some.injEq, true_and] at h1; rw [h1]
              | none =>
                simp only [hx'] at h1
                cases hrr : s1.rows pid with
                | none => simp [hrr] at h1
                | some r =>
                  simp only [hrr, Prod.mk.injEq, Option.some.injEq] at h1
                  have := congrArg St.count h1.1
                  unfold setObjectID at this
                  split at this <;> simp at this
            exact hw1.small p pid ((hw1.objs p pid).1 this)
          simp only [hm.cls p hp]
  | _ => simp [Op.isRead] at hr

/-- reading again -/
theorem Wf.reads (ops : List Op) (hr : ∀ op ∈ ops, op.isRead = true) : ∀ {s : St}, Wf M s →
    (∀ op ∈ ops, ∀ o ∈ op.objects, o < s.count) → Wf M (run M s ops).1 ∧ More M s (run M s ops).1 := by
  induction ops with
  | nil => intro s h _; exact ⟨h, More.refl⟩
  | cons op ops ih =>
    intro s h ho
    have h1 := h.lasting op (hr op (List.mem_cons_self ..)) (ho op (List.mem_cons_self ..))
    have h2 := ih (fun p hp => hr p (List.mem_cons_of_mem _ hp)) h1.wf
      (fun p hp o hop => Nat.lt_of_lt_of_le (ho p (List.mem_cons_of_mem _ hp) o hop) h1.more.count)
    exact ⟨h2.1, h1.more.trans h2.2⟩

/-! ## All operations -/

theorem Wf.write (h : Wf M s) {o : Nat} (ho : o < s.count) (f : Nat) (x : Res) (k : St → Nat → St × Res)
    (hk : ∀ s1 n, Wf M s1 → s1.count = s.count → Wf M (k s1 n).1 ∧ s.count ≤ (k s1 n).1.count) :
    Wf M (write M s o f x k).1 ∧ s.count ≤ (write M s o f x k).1.count := by
  unfold SQLObjects.write
  have h1 := h.encodeSQLID ho
  revert h1
  rcases SQLObjects.encodeSQLID M s o with ⟨s1, n⟩
  intro h1
  cases n with
  | none => exact ⟨h1.wf, Nat.le_of_eq h1.count.symm⟩
  | some n =>
    simp only
    split
    · exact hk s1 n h1.wf h1.count
    · exact ⟨h1.wf, Nat.le_of_eq h1.count.symm⟩

theorem Wf.searchOp (h : Wf M s) {o : Nat} (f : Nat) (v : Val) (hv : ∀ k, v = .obj k → k < s.count) (x y z : Res)
    (ans : List Cell → Cell → Res) :
    Wf M (read M s o f x y fun s n => search M s n f v z ans).1 ∧
      s.count ≤ (read M s o f x y fun s n => search M s n f v z ans).1.count := by
  unfold read
  rw [h.getSQLID]
  cases reg M s o with
  | none => exact ⟨h, Nat.le_refl _⟩
  | some n =>
    simp only [Option.isSome_some]
    split
    · unfold search
      have h1 := h.storeValue f v hv
      revert h1
      rcases SQLObjects.storeValue M s f v with ⟨s1, c⟩
      intro h1
      cases c <;> exact ⟨h1.wf, Nat.le_of_eq h1.count.symm⟩
    · exact ⟨h, Nat.le_refl _⟩

theorem Wf.setRow (h : Wf M s) (n : Nat) (r : Row → Row) : Wf M { s with rows := upd s.rows n ((s.rows n).map r) } := by
  refine ⟨h.objs, h.zero, h.small, ?_, ?_, h.memory⟩
  · intro o m hm
    have := h.row o m hm
    simp only [upd]; split
    · rename_i e; subst e; simpa using this
    · exact this
  · simp only [upd]; split
    · rename_i e; subst e; rw [h.pos]; rfl
    · exact h.pos

theorem Wf.step (h : Wf M s) (op : Op) (hu : op.unregisters = false) (ho : ∀ o ∈ op.objects, o < s.count) :
    Wf M (step M s op).1 ∧ s.count ≤ (step M s op).1.count := by
  by_cases hr : op.isRead = true
  · have := h.lasting op hr ho
    exact ⟨this.wf, this.more.count⟩
  · cases op with
    | set o f i v =>
      refine h.write (ho o (by simp [Op.objects])) f _ _ fun s1 n h1 hc => ?_
      have hv : ∀ k, v = .obj k → k < s.count := fun k e => ho k (by simp [Op.objects, e, Val.objects])
      have h2 := h1.decodeValue f (if (M.feature f).many then ((s1.lists n f)[i]?).getD .null else s1.col n f)
      simp only [getValue]
      have h3 := h2.wf.storeValue f v (fun k e => by
        have := hv k e; have := h2.more.count; omega)
      have h4 := h2.more.count
      revert h3
      rcases SQLObjects.storeValue M _ f v with ⟨s2, c⟩
      intro h3
      have h5 := h3.count
      cases c with
      | none => exact ⟨h3.wf, by simp only at *; omega⟩
      | some c =>
        simp only at *
        refine ⟨?_, ?_⟩
        · split
          · exact h3.wf.setList _ _ _
          · exact h3.wf.setCol _ _ _
        · split <;> (show s.count ≤ s2.count; omega)
    | unSet o f =>
      refine h.write (ho o (by simp [Op.objects])) f _ _ fun s1 n h1 hc => ?_
      refine ⟨?_, ?_⟩
      · simp only; split
        · exact h1.setList _ _ _
        · exact h1.setCol _ _ _
      · simp only; split <;> (show s.count ≤ s1.count; omega)
    | contains o f v => exact h.searchOp f v (fun k e => ho k (by simp [Op.objects, e, Val.objects])) _ _ _ _
    | indexOf o f v => exact h.searchOp f v (fun k e => ho k (by simp [Op.objects, e, Val.objects])) _ _ _ _
    | lastIndexOf o f v => exact h.searchOp f v (fun k e => ho k (by simp [Op.objects, e, Val.objects])) _ _ _ _
    | add o f i v =>
      refine h.write (ho o (by simp [Op.objects])) f _ _ fun s1 n h1 hc => ?_
      have hv : ∀ k, v = .obj k → k < s1.count := fun k e => hc ▸ ho k (by simp [Op.objects, e, Val.objects])
      split
      · have h3 := h1.storeValue f v hv
        revert h3
        rcases SQLObjects.storeValue M s1 f v with ⟨s2, c⟩
        intro h3
        have h5 := h3.count
        cases c with
        | none => exact ⟨h3.wf, by simp only at *; omega⟩
        | some c => exact ⟨h3.wf.setList _ _ _, by show s.count ≤ s2.count; simp only at *; omega⟩
      · exact ⟨h1, by simp only; omega⟩
    | addAll o f i vs =>
      refine h.write (ho o (by simp [Op.objects])) f _ _ fun s1 n h1 hc => ?_
      have hv : ∀ k, .obj k ∈ vs → k < s1.count := fun k e => hc ▸ ho k (by
        simp only [Op.objects, List.mem_cons, List.mem_flatMap]; exact .inr ⟨_, e, by simp [Val.objects]⟩)
      split
      · have h3 := Wf.storeValues f vs h1 hv
        revert h3
        rcases SQLObjects.storeValues M f s1 vs with ⟨s2, c⟩
        intro h3
        have h5 := h3.count
        cases c with
        | none => exact ⟨h3.wf, by simp only at *; omega⟩
        | some c => exact ⟨h3.wf.setList _ _ _, by show s.count ≤ s2.count; simp only at *; omega⟩
      · exact ⟨h1, by simp only; omega⟩
    | remove o f i =>
      refine h.write (ho o (by simp [Op.objects])) f _ _ fun s1 n h1 hc => ?_
      have h2 := (h1.setList n f ((s1.lists n f).eraseIdx i)).decodeValue f (((s1.lists n f)[i]?).getD .null)
      have h3 := h2.more.count
      exact ⟨h2.wf, by have : (SQLObjects.setList s1 n f ((s1.lists n f).eraseIdx i)).count = s.count := hc
                       simp only at *; omega⟩
    | move o f i j =>
      refine h.write (ho o (by simp [Op.objects])) f _ _ fun s1 n h1 hc => ?_
      cases hx : (s1.lists n f)[i]? with
      | none => exact ⟨h1, by simp only; omega⟩
      | some c =>
        simp only
        split
        · have h2 := (h1.setList n f (((s1.lists n f).eraseIdx i).insertIdx j c)).decodeValue f c
          have h3 := h2.more.count
          exact ⟨h2.wf, by have : (SQLObjects.setList s1 n f (((s1.lists n f).eraseIdx i).insertIdx j c)).count = s.count := hc
                           simp only at *; omega⟩
        · exact ⟨h1, by simp only; omega⟩
    | clear o f =>
      refine h.write (ho o (by simp [Op.objects])) f _ _ fun s1 n h1 hc => ?_
      exact ⟨h1.setList _ _ _, by show s.count ≤ s1.count; omega⟩
    | addRoot o =>
      have h1 := h.encode (ho o (by simp [Op.objects]))
      simp only [SQLObjects.step]
      revert h1
      rcases SQLObjects.encode M s o with ⟨s1, n⟩
      intro h1
      have h2 := h1.count
      cases n with
      | none => exact ⟨h1.wf, by simp only at *; omega⟩
      | some n => exact ⟨h1.wf.tables _ _ _, by show s.count ≤ s1.count; simp only at *; omega⟩
    | removeRoot o =>
      simp only [SQLObjects.step, h.getSQLID]
      cases reg M s o with
      | none => exact ⟨h, Nat.le_refl _⟩
      | some n => exact ⟨h.tables _ _ _, Nat.le_refl _⟩
    | setContainer o c =>
      have h1 := h.encodeSQLID (ho o (by cases c <;> simp [Op.objects]))
      simp only [SQLObjects.step]
      revert h1
      rcases SQLObjects.encodeSQLID M s o with ⟨s1, n⟩
      intro h1
      have h2 := h1.count
      simp only at h2
      cases n with
      | none => exact ⟨h1.wf, by simp only; omega⟩
      | some n =>
        cases c with
        | none => exact ⟨h1.wf.setRow n _, by show s.count ≤ s1.count; omega⟩
        | some pf =>
          obtain ⟨p, f⟩ := pf
          have hp : p < s1.count := by rw [h2]; exact ho p (by simp [Op.objects])
          have h3 := h1.wf.encodeSQLID hp
          simp only
          revert h3
          rcases SQLObjects.encodeSQLID M s1 p with ⟨s2, m⟩
          intro h3
          have h4 := h3.count
          simp only at h4
          cases m with
          | none => exact ⟨h3.wf, by simp only; omega⟩
          | some m => exact ⟨h3.wf.setRow n _, by show s.count ≤ s2.count; omega⟩
    | unRegister o => simp [Op.unregisters] at hu
    | _ => simp [Op.isRead] at hr

theorem Wf.run (ops : List Op) (hu : ∀ op ∈ ops, op.unregisters = false) : ∀ {s : St}, Wf M s → Exist M s ops → Wf M (run M s ops).1 := by
  induction ops with
  | nil => intro s h _; exact h
  | cons op ops ih =>
    intro s h he
    exact ih (fun p hp => hu p (List.mem_cons_of_mem _ hp)) (h.step op (hu op (List.mem_cons_self ..)) he.1).1 he.2

theorem Wf.opened {cls : Nat → Nat} {mem : Nat → Nat → List Val} {count last : Nat} {rows : Nat → Option Row}
    {col : Nat → Nat → Cell} {lists : Nat → Nat → List Cell} {roots : List Nat} (hm : ∀ o f k, .obj k ∈ mem o f → k < count)
    (h0 : rows 0 = none) : Wf M (opened cls mem count last rows col lists roots) := by
  have hr : ∀ o, reg M (SQLObjects.opened cls mem count last rows col lists roots) o = none := by intro o; simp [reg, SQLObjects.opened]
  refine ⟨?_, rfl, ?_, ?_, h0, hm⟩
  · intro o n; rw [hr]; simp [SQLObjects.opened]
  · intro o n h; rw [hr] at h; cases h
  · intro o n h; simp [SQLObjects.opened] at h

/-! ## Objects taken out of memory -/

theorem step_congr {o : Nat} (h : getSQLID M s' o = getSQLID M s o) (op : Op)
    (ho : op.subject = some o) : step M s' op = step M s op := by
  have he : encodeSQLID M s' o = encodeSQLID M s o := by
    unfold SQLObjects.encodeSQLID
    rw [h]
  have hr : ∀ f x y k, read M s' o f x y k = read M s o f x y k := fun f x y k => by simp only [read, h]
  have hw : ∀ f x k, write M s' o f x k = write M s o f x k := fun f x k => by simp only [SQLObjects.write, he]
  cases op with
  | addRoot => simp [Op.subject] at ho
  | getRoots => simp [Op.subject] at ho
  | unRegister => simp [Op.subject] at ho
  | removeRoot =>
    simp only [Op.subject, Option.some.injEq] at ho; subst ho
    simp only [SQLObjects.step, h]
  | getContainer => simp only [Op.subject, Option.some.injEq] at ho; subst ho; simp only [SQLObjects.step, h]
  | setContainer => simp only [Op.subject, Option.some.injEq] at ho; subst ho; simp only [SQLObjects.step, he]
  | _ => simp only [Op.subject, Option.some.injEq] at ho; subst ho; simp only [SQLObjects.step, hr, hw]

variable {a : Objects} {count : Nat} {cls : Nat → Nat}

theorem Full.unregistered (h : Full M cls count a s) {o : Nat} (hs : M.sql o = true) (op : Op) (ho : op.subject = some o) :
    SQLObjects.step M (clearObjectID M s o) op = SQLObjects.step M s op := by
  by_cases h0 : s.sid o = 0
  · have hz : s.objs 0 = none := by
      cases hx : s.objs 0 with
      | none => rfl
      | some k => have := (h.inv.pos k 0 ((h.inv.objs k 0).1 hx)).1; omega
    have : clearObjectID M s o = s := by
      unfold clearObjectID
      rw [if_pos hs, h0]
      have : upd s.objs 0 none = s.objs := by
        funext n; unfold upd; split
        · rename_i e; rw [e, hz]
        · rfl
      rw [this]
    rw [this]
  · have hr : reg M s o = some (s.sid o) := by simp [reg, hs, h0]
    have hobj := (h.inv.objs o _).2 hr
    obtain ⟨r, hrow, -⟩ := h.inv.row o _ hr
    have e1 : SQLObjects.getSQLID M s o = (s, s.sid o, true) := by
      simp [SQLObjects.getSQLID, SQLObjects.getObjectID, hs, hobj]
    have e2 : SQLObjects.getSQLID M (clearObjectID M s o) o = (s, s.sid o, true) := by
      have hc : clearObjectID M s o = { s with objs := upd s.objs (s.sid o) none } := by unfold clearObjectID; rw [if_pos hs]
      rw [hc]
      have e3 : SQLObjects.getObjectID M { s with objs := upd s.objs (s.sid o) none } o = (s.sid o, false) := by
        simp [SQLObjects.getObjectID, hs, upd]
      unfold SQLObjects.getSQLID
      rw [e3]
      simp only [Bool.false_eq_true, if_false, ne_eq, h0, not_false_eq_true, hrow, Option.isSome_some, and_self, if_true, setObjectID, hs,
        Prod.mk.injEq, and_true]
      have a1 : upd (upd s.objs (s.sid o) none) (s.sid o) (some o) = s.objs := by
        funext n; unfold upd; split
        · rename_i e; rw [e, hobj]
        · rfl
      have a2 : upd s.sid o (s.sid o) = s.sid := by
        funext n; unfold upd; split
        · rename_i e; rw [e]
        · rfl
      rw [a1, a2]
    exact step_congr (e2.trans e1.symm) op ho

theorem Full.unregister {o : Nat} (hs : M.sql o = true) {op : Op} (ho : op.subject = some o) (rest : List Op) (ops : List Op) :
    ∀ {a : Objects} {s : St}, Full M cls count a s → AllOk M cls count a (ops ++ op :: rest) →
    (SQLObjects.run M s (ops ++ .unRegister o :: op :: rest)).2 = Spec.run M cls a (ops ++ .unRegister o :: op :: rest) := by
  induction ops with
  | nil =>
    intro a s h hok
    have h1 := Full.run (op :: rest) h hok
    have h2 := h.unregistered hs op ho
    have h4 : Spec.run M cls a (.unRegister o :: op :: rest) = .unit :: Spec.run M cls a (op :: rest) := rfl
    rw [List.nil_append, h4, ← h1]
    simp only [SQLObjects.run]
    have h3 : (SQLObjects.step M s (.unRegister o)) = (clearObjectID M s o, .unit) := rfl
    rw [h3]
    simp only [h2]
  | cons p ops ih =>
    intro a s h hok
    obtain ⟨h1, h2⟩ := h.step p hok.1
    simp only [List.cons_append, SQLObjects.run, Spec.run]
    rw [h1, ih h2 hok.2]

end Verif.SQLObjects
