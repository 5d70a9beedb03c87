import Verif.Proofs.SQLObjects

/-!
# The operations on the objects of a SQL store
-/

namespace Verif.SQLObjects

open Spec

variable {M : Meta} {s s' : St} {a b : Objects} {count : Nat} {cls : Nat → Nat}

theorem map_insertIdx {α β : Type} (g : α → β) (l : List α) (i : Nat) (x : α) :
    (l.map g).insertIdx i (g x) = (l.insertIdx i x).map g := by
  apply List.ext_getElem?
  intro j
  simp only [List.getElem?_insertIdx, List.getElem?_map, List.length_map]
  split
  · rfl
  · split
    · split <;> simp_all
    · rfl

theorem map_eraseIdx {α β : Type} (g : α → β) (l : List α) (i : Nat) : (l.map g).eraseIdx i = (l.eraseIdx i).map g := by
  apply List.ext_getElem?
  intro j
  simp only [List.getElem?_eraseIdx, List.getElem?_map]
  split <;> rfl

theorem mem_of_mem_insertIdx {α : Type} {l : List α} {i : Nat} {x y : α} (h : y ∈ l.insertIdx i x) : y = x ∨ y ∈ l := by
  obtain ⟨j, hj⟩ := List.getElem?_of_mem h
  rw [List.getElem?_insertIdx] at hj
  split at hj
  · exact .inr (List.mem_of_getElem? hj)
  · split at hj
    · split at hj
      · simp only [Option.some.injEq] at hj; exact .inl hj.symm
      · cases hj
    · exact .inr (List.mem_of_getElem? hj)

/-- The database says what the specification says. -/
structure Full (M : Meta) (cls : Nat → Nat) (count : Nat) (a : Objects) (s : St) : Prop where
  inv : Inv M cls count a (fun _ => False) s
  stored : ∀ o, a.stored o → (reg M s o).isSome
  roots : s.roots = a.roots.map (rid M s)
  rooted : ∀ o ∈ a.roots, (reg M s o).isSome

theorem Full.congr (h : Full M cls count a s) (h1 : b.one = a.one) (h2 : b.many = a.many) (h3 : b.container = a.container)
    (h4 : b.roots = a.roots) (h5 : ∀ o, b.stored o → (reg M s o).isSome) : Full M cls count b s := by
  obtain ⟨bo, bm, bc, bs, br⟩ := b
  obtain ⟨ao, am, ac, as, ar⟩ := a
  simp only at h1 h2 h3 h4 h5
  subst h1 h2 h3 h4
  have i := h.inv
  exact ⟨⟨i.num, i.size, i.kinds, i.pos, i.objs, i.row, i.rows, i.holds, i.fresh, i.free, i.memory, i.single⟩, h5, h.roots, h.rooted⟩

theorem unreg_le (M : Meta) (s : St) : unreg M s ≤ s.count := by
  have := List.countP_le_length (p := fun o => (reg M s o).isNone) (l := List.range s.count)
  simpa [unreg] using this

/-- what a registered object contains is registered -/
theorem Full.under (h : Inv M cls count a (fun _ => False) s) {o k : Nat} (ho : (reg M s o).isSome) (hk : Under M cls a o k) :
    (reg M s k).isSome := by
  induction hk with
  | here => exact ho
  | one k f j _ hf hx hm hv ih =>
    obtain ⟨n, hn⟩ := Option.isSome_iff_exists.1 ih
    have := h.holds k n f hn id (by rw [h.kinds]; exact hf)
    simp only [Holds, hm, Bool.false_eq_true, if_false] at this
    exact (this.2 _ hv).2
  | many k f j _ hf hx hm hv ih =>
    obtain ⟨n, hn⟩ := Option.isSome_iff_exists.1 ih
    exact (h.good_mem hn id (by rw [h.kinds]; exact hf) hm _ hv).2

theorem Full.ext {P : Nat → Nat → Prop} (h : Full M cls count a s) (i : Inv M cls count a (fun _ => False) s') (e : Ext M P s s') :
    Full M cls count a s' := by
  have hs : ∀ o, (reg M s o).isSome → (reg M s' o).isSome := by
    intro o ho
    obtain ⟨n, hn⟩ := Option.isSome_iff_exists.1 ho
    rw [e.reg o n hn]; rfl
  refine ⟨i, fun o ho => hs o (h.stored o ho), ?_, fun o ho => hs o (h.rooted o ho)⟩
  rw [e.roots, h.roots]
  exact List.map_congr_left fun o ho => (e.rid (h.rooted o ho)).symm

theorem Full.encode (h : Full M cls count a s) {o : Nat} (ho : a.top count o) :
    ∃ s' i, encode M s o = (s', some i) ∧ Full M cls count (a.store M cls o) s' ∧ Ext M (fun _ _ => True) s s' ∧
      reg M s' o = some i := by
  obtain ⟨s', i, h1, h2, h3, h4⟩ := encodeObject_inv (M := M) (cls := cls) (count := count) (a := a) (s.count + 1) s (fun _ => False) o none
    h.inv (Nat.lt_succ_of_le (unreg_le M s)) ho.1 (by
      intro hr
      have : a.container o = none := by
        rcases ho.2 with hs | hc
        · have := h.stored o hs; simp [hr] at this
        · exact hc
      rw [this])
  refine ⟨s', i, h1, ?_, h3, h4⟩
  refine (h.ext h2 h3).congr rfl rfl rfl rfl ?_
  intro k hk
  rcases hk with hk | hk
  · exact (h.ext h2 h3).stored k hk
  · exact Full.under h2 (by simp [h4]) hk

theorem Full.encodeSQLID (h : Full M cls count a s) {o : Nat} (ho : a.top count o) :
    ∃ s' i, encodeSQLID M s o = (s', some i) ∧ Full M cls count (a.store M cls o) s' ∧ Ext M (fun _ _ => True) s s' ∧
      reg M s' o = some i := by
  unfold SQLObjects.encodeSQLID
  rw [h.inv.getSQLID]
  cases hr : reg M s o with
  | none => exact h.encode ho
  | some n =>
    refine ⟨s, n, by simp [rid, hr], ?_, Ext.refl, hr⟩
    refine h.congr rfl rfl rfl rfl ?_
    intro k hk
    rcases hk with hk | hk
    · exact h.stored k hk
    · exact Full.under h.inv (by simp [hr]) hk

theorem store_top (a : Objects) (o k : Nat) (hk : a.top count k) : (a.store M cls o).top count k :=
  ⟨hk.1, hk.2.imp .inl id⟩

theorem store_settable (a : Objects) (o f : Nat) (v : Val) (hv : a.settable M count f v) : (a.store M cls o).settable M count f v := by
  cases v with
  | obj k => exact hv.imp (fun h => ⟨h.1, store_top a o k h.2⟩) (fun h => ⟨h.1, .inl h.2⟩)
  | _ => exact hv

theorem storeValue_settable (a : Objects) (f : Nat) (w v : Val) (hv : a.settable M count f v) :
    (a.storeValue M cls f w).settable M count f v := by
  unfold Objects.storeValue
  split
  · split
    · exact store_settable a _ f v hv
    · exact hv
  · exact hv

/-- a value that is set -/
theorem Full.storeValue (h : Full M cls count a s) {f : Nat} {v : Val} (hv : a.settable M count f v) :
    ∃ s', storeValue M s f v = (s', some (cellOf M s' f v)) ∧ Full M cls count (a.storeValue M cls f v) s' ∧
      Ext M (fun _ _ => True) s s' ∧ (v ≠ .nil → Good M s' f v) := by
  unfold SQLObjects.storeValue
  cases v with
  | nil => exact ⟨s, rfl, h, Ext.refl, fun e => absurd rfl e⟩
  | data n =>
    have hk : (M.feature f).kind = .data := hv
    exact ⟨s, by simp [encodeValue, cellOf, hk], h, Ext.refl, fun _ => hk⟩
  | obj k =>
    rcases hv with ⟨hk, ht⟩ | ⟨hk, hs⟩
    · obtain ⟨s', i, h1, h2, h3, h4⟩ := h.encodeSQLID ht
      refine ⟨s', by simp [encodeValue, hk, h1, cellOf, rid, h4], ?_, h3, fun _ => ⟨by simp [hk], by simp [h4]⟩⟩
      simpa [Objects.storeValue, hk] using h2
    · obtain ⟨n, hn⟩ := Option.isSome_iff_exists.1 (h.stored k hs)
      have := h.inv.pos k n hn
      refine ⟨s, ?_, by simpa [Objects.storeValue, hk] using h, Ext.refl, fun _ => ⟨by simp [hk], by simp [hn]⟩⟩
      simp only [encodeValue, hk, h.inv.getObjectID, cellOf, rid, hn, Option.getD_some]
      simp [show n ≠ 0 by omega]
  | _ => exact absurd hv id

theorem Full.storeValues (f : Nat) (hm : (M.feature f).many = true) (vs : List Val) : ∀ {a : Objects} {s : St}, Full M cls count a s →
    (∀ v ∈ vs, a.settable M count f v) →
    ∃ s', storeValues M f s vs = (s', some (vs.map (cellOf M s' f))) ∧
      Full M cls count (vs.foldl (fun b v => b.storeValue M cls f v) a) s' ∧ Ext M (fun _ _ => True) s s' ∧ ∀ v ∈ vs, Good M s' f v := by
  induction vs with
  | nil => intro a s h _; exact ⟨s, rfl, h, Ext.refl, by simp⟩
  | cons v vs ih =>
    intro a s h hv
    obtain ⟨s1, h1, h2, h3, h4⟩ := h.storeValue (hv v (List.mem_cons_self ..))
    have hv0 : v ≠ .nil := by
      intro e; subst e
      have := hv _ (List.mem_cons_self ..); simp [Objects.settable, hm] at this
    have hg := h4 hv0
    obtain ⟨s', h5, h6, h7, h8⟩ := ih h2 (fun w hw => storeValue_settable a f v w (hv w (List.mem_cons_of_mem _ hw)))
    refine ⟨s', ?_, h6, h3.trans h7, ?_⟩
    · simp only [SQLObjects.storeValues, h1, h5, List.map_cons, h7.cell hg, Option.map_some]
    · intro w hw
      rcases List.mem_cons.1 hw with rfl | hw
      · exact h7.good hg
      · exact h8 w hw

/-! ## Reading -/

theorem Full.decodeObject (h : Full M cls count a s) {o n : Nat} (hr : reg M s o = some n) : decodeObject M s n = (s, some o) := by
  simp [SQLObjects.decodeObject, (h.inv.objs o n).2 hr]

theorem Full.decodeValue (h : Full M cls count a s) {f : Nat} {v : Val} (hv : Good M s f v) :
    decodeValue M s f (cellOf M s f v) = (s, v) := by
  cases v with
  | data n => simp [SQLObjects.decodeValue, cellOf, show (M.feature f).kind = .data from hv]
  | obj k =>
    obtain ⟨n, hn⟩ := Option.isSome_iff_exists.1 hv.2
    have hd := h.decodeObject hn
    cases hk : (M.feature f).kind with
    | data => exact absurd hk hv.1
    | object => simp [SQLObjects.decodeValue, cellOf, hk, rid, hn, hd]
    | reference => simp [SQLObjects.decodeValue, cellOf, hk, rid, hn, hd]
  | _ => exact absurd hv id

theorem Full.decodeValues (h : Full M cls count a s) (f : Nat) (l : List Val) (hl : ∀ v ∈ l, Good M s f v) :
    decodeValues M f s (l.map (cellOf M s f)) = (s, l) := by
  induction l with
  | nil => rfl
  | cons v l ih =>
    simp only [List.map_cons, SQLObjects.decodeValues, h.decodeValue (hl v (List.mem_cons_self ..)),
      ih fun w hw => hl w (List.mem_cons_of_mem _ hw)]

theorem Full.decodeObjects (h : Full M cls count a s) (l : List Nat) (hl : ∀ o ∈ l, (reg M s o).isSome) :
    decodeObjects M s (l.map (rid M s)) = (s, some l) := by
  induction l with
  | nil => rfl
  | cons o l ih =>
    obtain ⟨n, hn⟩ := Option.isSome_iff_exists.1 (hl o (List.mem_cons_self ..))
    have hd := h.decodeObject hn
    simp only [List.map_cons, SQLObjects.decodeObjects, rid, hn, Option.getD_some, hd]
    have := ih fun w hw => hl w (List.mem_cons_of_mem _ hw)
    rw [this]; rfl

/-- the lists of an object in the store -/
theorem Full.lists (h : Full M cls count a s) {o n f : Nat} (hr : reg M s o = some n) (hf : f ∈ M.all (cls o))
    (hm : (M.feature f).many = true) : s.lists n f = (a.many o f).map (cellOf M s f) ∧ ∀ v ∈ a.many o f, Good M s f v := by
  have := h.inv.holds o n f hr id (by rw [h.inv.kinds]; exact hf)
  simpa only [Holds, hm, if_true] using this

theorem Full.column (h : Full M cls count a s) {o n f : Nat} (hr : reg M s o = some n) (hf : f ∈ M.all (cls o))
    (hm : ¬ (M.feature f).many = true) :
    s.col n f = (a.one o f).elim .null (cellOf M s f) ∧ ∀ v, a.one o f = some v → Good M s f v := by
  have := h.inv.holds o n f hr id (by rw [h.inv.kinds]; exact hf)
  simpa only [Holds, if_neg hm] using this

theorem decodeValue_null (f : Nat) (hd : (M.feature f).many = false → (M.feature f).default.getD 0 = 0) :
    decodeValue M s f .null = (s, Spec.absent (M.feature f)) := by
  unfold decodeValue Spec.absent
  by_cases h : (M.feature f).kind = .data ∧ (M.feature f).many = false
  · rw [if_pos h, if_pos h, hd h.2]
  · rw [if_neg h, if_neg h]

theorem Full.getValue (h : Full M cls count a s) {o n f : Nat} (hr : reg M s o = some n) (hf : f ∈ M.all (cls o))
    (ha : a.readable M o f) (i : Nat) : getValue M s n f i = (s, a.value M o f i) := by
  unfold SQLObjects.getValue Objects.value
  by_cases hm : (M.feature f).many = true
  · obtain ⟨h1, h2⟩ := h.lists hr hf hm
    rw [if_pos hm, if_pos hm, h1, List.getElem?_map]
    cases hi : (a.many o f)[i]? with
    | none => exact decodeValue_null f (by simp [hm])
    | some v => exact h.decodeValue (h2 v (List.mem_of_getElem? hi))
  · obtain ⟨h1, h2⟩ := h.column hr hf hm
    rw [if_neg hm, if_neg hm, h1]
    cases hi : a.one o f with
    | none => exact decodeValue_null f (fun _ => ha hi)
    | some v => exact h.decodeValue (h2 v hi)

theorem cellOf_inj (h : Full M cls count a s) {f : Nat} {v w : Val} (hv : Good M s f v) (hw : Good M s f w)
    (e : cellOf M s f v = cellOf M s f w) : v = w := by
  have h1 := h.decodeValue hv
  rw [e, h.decodeValue hw] at h1
  exact (Prod.mk.inj h1).2.symm

theorem cellOf_ne_null {f : Nat} {v : Val} (hv : Good M s f v) : cellOf M s f v ≠ .null := by
  cases v with
  | data n => simp [cellOf]
  | obj k => simp only [cellOf]; split <;> simp
  | _ => exact absurd hv id

theorem mem_cells (h : Full M cls count a s) {f : Nat} {v : Val} {l : List Val} (hv : Good M s f v) (hl : ∀ w ∈ l, Good M s f w) :
    cellOf M s f v ∈ l.map (cellOf M s f) ↔ v ∈ l := by
  rw [List.mem_map]
  constructor
  · rintro ⟨w, hw, e⟩; rw [← cellOf_inj h (hl w hw) hv e]; exact hw
  · intro hv'; exact ⟨v, hv', rfl⟩

theorem idxOf_cells (h : Full M cls count a s) {f : Nat} {v : Val} {l : List Val} (hv : Good M s f v) (hl : ∀ w ∈ l, Good M s f w) :
    (l.map (cellOf M s f)).idxOf (cellOf M s f v) = l.idxOf v := by
  induction l with
  | nil => rfl
  | cons w l ih =>
    have hw := hl w (List.mem_cons_self ..)
    have ih := ih fun u hu => hl u (List.mem_cons_of_mem _ hu)
    simp only [List.map_cons, List.idxOf_cons, ih]
    by_cases e : w = v
    · subst e; simp
    · have : cellOf M s f w ≠ cellOf M s f v := fun e' => e (cellOf_inj h hw hv e')
      rw [beq_false_of_ne e, beq_false_of_ne this]

/-! ## Writing -/

theorem Full.setList (h : Full M cls count a s) {o n f : Nat} (hr : reg M s o = some n) (hm : (M.feature f).many = true)
    (l : List Val) (hl : ∀ v ∈ l, Good M s f v) :
    Full M cls count (a.setMany o f l) (setList s n f (l.map (cellOf M s f))) := by
  have i := h.inv
  have hp := i.pos o n hr
  refine ⟨⟨i.num, i.size, i.kinds, i.pos, i.objs, i.row, i.rows, ?_, ?_, ?_, i.memory, i.single⟩, h.stored, h.roots, h.rooted⟩
  · intro k m g hk _ hg
    by_cases hkg : k = o ∧ g = f
    · obtain ⟨rfl, rfl⟩ := hkg
      have : m = n := by
        have hk' : reg M s k = some m := hk
        rw [hr] at hk'; simpa using hk'.symm
      subst this
      unfold Holds
      rw [if_pos hm]
      simp only [SQLObjects.setList, Objects.setMany, upd2_eq]
      exact ⟨rfl, hl⟩
    · have := i.holds k m g hk id hg
      have hmn : m ≠ n ∨ g ≠ f := by
        by_cases hmn : m = n
        · subst hmn
          have : k = o := i.inj hk hr
          exact .inr fun e => hkg ⟨this, e⟩
        · exact .inl hmn
      have hko : k ≠ o ∨ g ≠ f := by
        by_cases hko : k = o
        · exact .inr fun e => hkg ⟨hko, e⟩
        · exact .inl hko
      unfold Holds at this ⊢
      simp only [SQLObjects.setList, Objects.setMany, upd2_ne _ hmn, upd2_ne _ hko]
      exact this
  · intro k g hk
    have hko : k ≠ o := by intro e; subst e; rw [show reg M s k = none from hk] at hr; cases hr
    simp only [Objects.setMany, upd2_ne _ (.inl hko : k ≠ o ∨ g ≠ f)]
    exact i.fresh k g hk
  · intro m g hm'
    have : m ≠ n := by have : s.last < m := hm'; omega
    simp only [SQLObjects.setList, upd2_ne _ (.inl this : m ≠ n ∨ g ≠ f)]
    exact i.free m g hm'

theorem Full.setCol (h : Full M cls count a s) {o n f : Nat} (hr : reg M s o = some n) (hm : ¬ (M.feature f).many = true)
    (v : Option Val) (hv : ∀ w, v = some w → Good M s f w) :
    Full M cls count (a.setOne o f v) (setCol s n f (v.elim .null (cellOf M s f))) := by
  have i := h.inv
  have hp := i.pos o n hr
  refine ⟨⟨i.num, i.size, i.kinds, i.pos, i.objs, i.row, i.rows, ?_, ?_, ?_, i.memory, i.single⟩, h.stored, h.roots, h.rooted⟩
  · intro k m g hk _ hg
    by_cases hkg : k = o ∧ g = f
    · obtain ⟨rfl, rfl⟩ := hkg
      have : m = n := by
        have hk' : reg M s k = some m := hk
        rw [hr] at hk'; simpa using hk'.symm
      subst this
      unfold Holds
      rw [if_neg hm]
      simp only [SQLObjects.setCol, Objects.setOne, upd2_eq]
      exact ⟨rfl, hv⟩
    · have := i.holds k m g hk id hg
      have hmn : m ≠ n ∨ g ≠ f := by
        by_cases hmn : m = n
        · subst hmn
          have : k = o := i.inj hk hr
          exact .inr fun e => hkg ⟨this, e⟩
        · exact .inl hmn
      have hko : k ≠ o ∨ g ≠ f := by
        by_cases hko : k = o
        · exact .inr fun e => hkg ⟨hko, e⟩
        · exact .inl hko
      unfold Holds at this ⊢
      simp only [SQLObjects.setCol, Objects.setOne, upd2_ne _ hmn, upd2_ne _ hko]
      exact this
  · intro k g hk
    have hko : k ≠ o := by intro e; subst e; rw [show reg M s k = none from hk] at hr; cases hr
    simp only [Objects.setOne, upd2_ne _ (.inl hko : k ≠ o ∨ g ≠ f)]
    exact i.fresh k g hk
  · intro m g hm'
    have : m ≠ n := by have : s.last < m := hm'; omega
    simp only [SQLObjects.setCol, upd2_ne _ (.inl this : m ≠ n ∨ g ≠ f)]
    exact i.free m g hm'

/-- the container of an object -/
theorem Full.setContainer (h : Full M cls count a s) {o n : Nat} (hr : reg M s o = some n) (c : Option (Nat × Nat)) (r : Row → Row)
    (hr' : ∀ x, x.cls = s.cls o → (r x).cls = s.cls o ∧ ContRow M s c (r x)) :
    Full M cls count { a with container := upd a.container o c } { s with rows := upd s.rows n ((s.rows n).map r) } := by
  have i := h.inv
  refine ⟨⟨i.num, i.size, i.kinds, i.pos, i.objs, ?_, ?_, i.holds, i.fresh, i.free, ?_, i.single⟩, h.stored, h.roots, h.rooted⟩
  · intro k m hk
    by_cases hko : k = o
    · subst hko
      have : m = n := by
        have hk' : reg M s k = some m := hk
        rw [hr] at hk'; simpa using hk'.symm
      subst this
      obtain ⟨x, h1, h2, _⟩ := i.row k m hr
      obtain ⟨h4, h5⟩ := hr' x h2
      exact ⟨r x, by simp [upd, h1], h4, by simp only [upd, if_true]; exact h5⟩
    · have hmn : m ≠ n := fun e => hko (i.inj hk (e ▸ hr))
      obtain ⟨x, h1, h2, h3⟩ := i.row k m hk
      exact ⟨x, by simpa [upd, hmn] using h1, h2, by simp only [upd, hko, if_false]; exact h3⟩
  · intro m hm
    by_cases hmn : m = n
    · have := i.pos o n hr; subst hmn; exact this.2
    · exact i.rows m (by simpa [upd, hmn] using hm)
  · intro k f v hv
    obtain ⟨h1, h2⟩ := i.memory k f v hv
    refine ⟨h1, ?_⟩
    cases v with
    | obj j =>
      refine ⟨h2.1, h2.2.1, ?_⟩
      intro hj
      have hjo : j ≠ o := by intro e; subst e; rw [show reg M s j = none from hj] at hr; cases hr
      simpa [upd, hjo] using h2.2.2 hj
    | _ => exact h2

/-! ## Steps -/

theorem Full.read (h : Full M cls count a s) {o f : Nat} (hf : f ∈ (M.cls (cls o)).own) (ho : a.stored o) :
    ∃ n, reg M s o = some n ∧ ∀ x y k, read M s o f x y k = k s n := by
  obtain ⟨n, hn⟩ := Option.isSome_iff_exists.1 (h.stored o ho)
  refine ⟨n, hn, ?_⟩
  intro x y k
  unfold SQLObjects.read
  rw [h.inv.getSQLID]
  simp [hn, rid, known, h.inv.kinds, hf]

theorem Full.write (h : Full M cls count a s) {o f : Nat} (hf : f ∈ (M.cls (cls o)).own) (ho : a.top count o) :
    ∃ s' n, reg M s' o = some n ∧ (∀ x k, write M s o f x k = k s' n) ∧
      Full M cls count (a.store M cls o) s' := by
  obtain ⟨s', n, h1, h2, h3, h4⟩ := h.encodeSQLID ho
  refine ⟨s', n, h4, ?_, h2⟩
  intro x k
  unfold SQLObjects.write
  rw [h1]
  simp [known, h2.inv.kinds, hf]

theorem mem_all {o f : Nat} (hf : f ∈ (M.cls (cls o)).own) : f ∈ M.all (cls o) := List.mem_append_right _ hf

theorem storeValue_fields (a : Objects) (f : Nat) (v : Val) : (a.storeValue M cls f v).one = a.one ∧
    (a.storeValue M cls f v).many = a.many ∧ (a.storeValue M cls f v).container = a.container := by
  unfold Objects.storeValue
  split
  · split <;> exact ⟨rfl, rfl, rfl⟩
  · exact ⟨rfl, rfl, rfl⟩

theorem foldl_fields (vs : List Val) (f : Nat) : ∀ a : Objects, (vs.foldl (fun b v => b.storeValue M cls f v) a).many = a.many := by
  induction vs with
  | nil => intro a; rfl
  | cons v vs ih => intro a; rw [List.foldl_cons, ih, (storeValue_fields a f v).2.1]

/-- a search -/
theorem Full.search (h : Full M cls count a s) {o n f : Nat} (hr : reg M s o = some n) (hf : f ∈ M.all (cls o))
    (hm : (M.feature f).many = true) {v : Val} (hv : a.searchable M f v) (x : Res) (ans : List Cell → Cell → Res) :
    SQLObjects.search M s n f v x ans = (s, ans ((a.many o f).map (cellOf M s f)) (cellOf M s f v)) ∧ Good M s f v := by
  have hg : Good M s f v := by
    cases v with
    | data n => exact hv
    | obj k => exact ⟨hv.1, h.stored k hv.2⟩
    | _ => exact absurd hv id
  refine ⟨?_, hg⟩
  have : SQLObjects.storeValue M s f v = (s, some (cellOf M s f v)) := by
    unfold SQLObjects.storeValue
    cases v with
    | data n => simp [encodeValue, cellOf, show (M.feature f).kind = .data from hv]
    | obj k =>
      obtain ⟨m, hk⟩ := Option.isSome_iff_exists.1 hg.2
      have hp := h.inv.pos k m hk
      cases hkd : (M.feature f).kind with
      | data => exact absurd hkd hg.1
      | object => simp [encodeValue, hkd, SQLObjects.encodeSQLID, h.inv.getSQLID, hk, cellOf]
      | reference =>
        simp only [encodeValue, hkd, h.inv.getObjectID, cellOf, rid, hk, Option.getD_some]
        simp [show m ≠ 0 by omega]
    | _ => exact absurd hv id
  unfold SQLObjects.search
  rw [this]
  simp only [cellOf_ne_null hg, if_false, (h.lists hr hf hm).1]

/-- **refinement**: an operation answers what the specification says, and so will the next ones -/
theorem Full.step (h : Full M cls count a s) (op : Op) (hop : Ok M cls count a op) :
    (step M s op).2 = (Spec.step M cls a op).2 ∧ Full M cls count (Spec.step M cls a op).1 (step M s op).1 := by
  cases op with
  | get o f i =>
    obtain ⟨n, hn, e⟩ := h.read hop.1 hop.2.1
    simp only [SQLObjects.step, Spec.step, e, h.getValue hn (mem_all hop.1) hop.2.2]
    exact ⟨trivial, h⟩
  | set o f i v =>
    obtain ⟨s', n, hn, e, h'⟩ := h.write hop.1 hop.2.1
    obtain ⟨s'', h1, h2, h3, h4⟩ := h'.storeValue (store_settable a o f v hop.2.2.1)
    have hf := mem_all hop.1
    simp only [SQLObjects.step, Spec.step, e, h'.getValue hn hf hop.2.2.2, h1]
    refine ⟨rfl, ?_⟩
    have hn' := h3.reg _ _ hn
    by_cases hm : (M.feature f).many = true
    · simp only [hm, if_true]
      have hv0 : v ≠ .nil := by
        intro e; subst e; have := hop.2.2.1; simp [Objects.settable, hm] at this
      obtain ⟨h5, h6⟩ := h2.lists hn' hf hm
      rw [h5, ← List.map_set]
      have hmany := (storeValue_fields (M := M) (cls := cls) (a.store M cls o) f v).2.1
      rw [hmany] at h6 ⊢
      apply h2.setList hn' hm
      intro w hw
      rcases List.mem_or_eq_of_mem_set hw with hw | rfl
      · exact h6 w hw
      · exact h4 hv0
    · simp only [hm]
      have := h2.setCol hn' hm (toOption v) (by
        intro w hw
        cases v <;> simp only [toOption, reduceCtorEq, Option.some.injEq] at hw
        all_goals first | exact absurd hop.2.2.1 id | (subst hw; exact h4 (by simp)))
      have he : (toOption v).elim Cell.null (cellOf M s'' f) = cellOf M s'' f v := by cases v <;> rfl
      rw [he] at this
      exact this
  | isSet o f =>
    obtain ⟨n, hn, e⟩ := h.read hop.1 hop.2.1
    have hf := mem_all hop.1
    simp only [SQLObjects.step, Spec.step, e]
    refine ⟨?_, h⟩
    by_cases hm : (M.feature f).many = true
    · simp only [hm, if_true, (h.lists hn hf hm).1]
      cases hl : a.many o f <;> simp
    · simp only [hm, (h.column hn hf hm).1]
      have hg := (h.column hn hf hm).2
      cases hv : a.one o f with
      | none => simp [hop.2.2 hv]
      | some v =>
        have := hg v hv
        cases v with
        | data d => cases (M.feature f).default <;> simp [cellOf]
        | obj k => cases (M.feature f).default <;> cases hk : (M.feature f).kind <;> simp [cellOf, hk]
        | _ => exact absurd this id
  | unSet o f =>
    obtain ⟨s', n, hn, e, h'⟩ := h.write hop.1 hop.2.1
    simp only [SQLObjects.step, Spec.step, e]
    refine ⟨trivial, ?_⟩
    by_cases hm : (M.feature f).many = true
    · simp only [hm, if_true]
      exact h'.setList hn hm [] (by simp)
    · simp only [hm]
      have := h'.setCol hn hm ((M.feature f).default.map .data) (by
        intro w hw
        cases hd : (M.feature f).default with
        | none => simp [hd] at hw
        | some d =>
          simp only [hd, Option.map_some, Option.some.injEq] at hw
          subst hw
          show (M.feature f).kind = .data
          have hk := hop.2.2
          cases hkd : (M.feature f).kind with
          | data => rfl
          | object => have := hk (by simp [hkd]); rw [hd] at this; cases this
          | reference => have := hk (by simp [hkd]); rw [hd] at this; cases this)
      have he : ((M.feature f).default.map Val.data).elim Cell.null (cellOf M s' f) = (M.feature f).default.elim .null .data := by
        cases (M.feature f).default <;> rfl
      rw [he] at this
      exact this
  | isEmpty o f =>
    obtain ⟨n, hn, e⟩ := h.read hop.1 hop.2.1
    simp only [SQLObjects.step, Spec.step, e, (h.lists hn (mem_all hop.1) hop.2.2).1]
    exact ⟨by cases a.many o f <;> simp, h⟩
  | size o f =>
    obtain ⟨n, hn, e⟩ := h.read hop.1 hop.2.1
    simp only [SQLObjects.step, Spec.step, e, (h.lists hn (mem_all hop.1) hop.2.2).1, List.length_map]
    exact ⟨trivial, h⟩
  | contains o f v =>
    obtain ⟨n, hn, e⟩ := h.read hop.1 hop.2.1
    obtain ⟨h1, h2⟩ := h.search hn (mem_all hop.1) hop.2.2.1 hop.2.2.2 (.bool false) fun l c => .bool (decide (c ∈ l))
    have hl := (h.lists hn (mem_all hop.1) hop.2.2.1).2
    simp only [SQLObjects.step, Spec.step, e, h1, mem_cells h h2 hl]
    exact ⟨trivial, h⟩
  | indexOf o f v =>
    obtain ⟨n, hn, e⟩ := h.read hop.1 hop.2.1
    obtain ⟨h1, h2⟩ := h.search hn (mem_all hop.1) hop.2.2.1 hop.2.2.2 (.int (-1)) fun l c => .int (firstIdx l c)
    have hl := (h.lists hn (mem_all hop.1) hop.2.2.1).2
    simp only [SQLObjects.step, Spec.step, e, h1]
    simp only [firstIdx, mem_cells h h2 hl, idxOf_cells h h2 hl]
    exact ⟨trivial, h⟩
  | lastIndexOf o f v =>
    obtain ⟨n, hn, e⟩ := h.read hop.1 hop.2.1
    obtain ⟨h1, h2⟩ := h.search hn (mem_all hop.1) hop.2.2.1 hop.2.2.2 (.int (-1)) fun l c => .int (lastIdx l c)
    have hl := (h.lists hn (mem_all hop.1) hop.2.2.1).2
    have hr := idxOf_cells h h2 (l := (a.many o f).reverse) (by intro w hw; exact hl w (List.mem_reverse.1 hw))
    simp only [SQLObjects.step, Spec.step, e, h1]
    simp only [lastIdx, mem_cells h h2 hl, List.length_map, ← List.map_reverse, hr]
    exact ⟨trivial, h⟩
  | add o f i v =>
    obtain ⟨s', n, hn, e, h'⟩ := h.write hop.1 hop.2.1
    have hf := mem_all hop.1
    have hm := hop.2.2.1
    simp only [SQLObjects.step, Spec.step, e, (h'.lists hn hf hm).1, List.length_map]
    show (if i ≤ (a.many o f).length then _ else _ : St × Res).2 = _ ∧ Full M cls count _ (if i ≤ (a.many o f).length then _ else _ : St × Res).1
    by_cases hi : i ≤ (a.many o f).length
    · rw [if_pos hi, if_pos hi]
      obtain ⟨s'', h1, h2, h3, h4⟩ := h'.storeValue (store_settable a o f v hop.2.2.2)
      have hv0 : v ≠ .nil := by
        intro e; subst e; have := hop.2.2.2; simp [Objects.settable, hm] at this
      have hn' := h3.reg _ _ hn
      obtain ⟨h5, h6⟩ := h2.lists hn' hf hm
      have hmany := (storeValue_fields (M := M) (cls := cls) (a.store M cls o) f v).2.1
      rw [hmany] at h5 h6
      rw [h1]
      refine ⟨rfl, ?_⟩
      simp only
      rw [h5, map_insertIdx]
      apply h2.setList hn' hm
      intro w hw
      rcases mem_of_mem_insertIdx hw with rfl | hw
      · exact h4 hv0
      · exact h6 w hw
    · rw [if_neg hi, if_neg hi]; exact ⟨rfl, h'⟩
  | addAll o f i vs =>
    obtain ⟨s', n, hn, e, h'⟩ := h.write hop.1 hop.2.1
    have hf := mem_all hop.1
    have hm := hop.2.2.1
    simp only [SQLObjects.step, Spec.step, e, (h'.lists hn hf hm).1, List.length_map]
    show (if i ≤ (a.many o f).length then _ else _ : St × Res).2 = _ ∧ Full M cls count _ (if i ≤ (a.many o f).length then _ else _ : St × Res).1
    by_cases hi : i ≤ (a.many o f).length
    · rw [if_pos hi, if_pos hi]
      obtain ⟨s'', h1, h2, h3, h4⟩ := Full.storeValues f hm vs h' (fun v hv => store_settable a o f v (hop.2.2.2 v hv))
      have hn' := h3.reg _ _ hn
      obtain ⟨h5, h6⟩ := h2.lists hn' hf hm
      have hmany := foldl_fields (M := M) (cls := cls) vs f (a.store M cls o)
      rw [hmany] at h5 h6
      rw [h1]
      refine ⟨rfl, ?_⟩
      simp only
      rw [h5, ← List.map_take, ← List.map_drop, ← List.map_append, ← List.map_append]
      apply h2.setList hn' hm
      intro w hw
      rw [List.mem_append, List.mem_append] at hw
      rcases hw with (hw | hw) | hw
      · exact h6 w (List.mem_of_mem_take hw)
      · exact h4 w hw
      · exact h6 w (List.mem_of_mem_drop hw)
    · rw [if_neg hi, if_neg hi]; exact ⟨rfl, h'⟩
  | remove o f i =>
    obtain ⟨s', n, hn, e, h'⟩ := h.write hop.1 hop.2.1
    have hf := mem_all hop.1
    have hm := hop.2.2
    obtain ⟨h1, h2⟩ := h'.lists hn hf hm
    have h1 : s'.lists n f = (a.many o f).map (cellOf M s' f) := h1
    have h2 : ∀ v ∈ a.many o f, Good M s' f v := h2
    have h3 := h'.setList hn hm ((a.many o f).eraseIdx i) (fun w hw => h2 w (List.mem_of_mem_eraseIdx hw))
    simp only [SQLObjects.step, Spec.step, e, h1, map_eraseIdx]
    show (.val (SQLObjects.decodeValue M _ f ((((a.many o f).map (cellOf M s' f))[i]?).getD .null)).2 : Res) = _ ∧
      Full M cls count _ (SQLObjects.decodeValue M _ f ((((a.many o f).map (cellOf M s' f))[i]?).getD .null)).1
    rw [List.getElem?_map]
    cases hi : (a.many o f)[i]? with
    | none =>
      simp only [Option.map_none, Option.getD_none, decodeValue_null (M := M) f (by simp [hm])]
      exact ⟨by simp [Spec.absent, hm], h3⟩
    | some v =>
      have hg := h2 v (List.mem_of_getElem? hi)
      have := h3.decodeValue (f := f) (v := v) hg
      simp only [Option.map_some, Option.getD_some]
      rw [show cellOf M s' f v = cellOf M (SQLObjects.setList s' n f (((a.many o f).eraseIdx i).map (cellOf M s' f))) f v from rfl, this]
      exact ⟨rfl, h3⟩
  | move o f i j =>
    obtain ⟨s', n, hn, e, h'⟩ := h.write hop.1 hop.2.1
    have hf := mem_all hop.1
    have hm := hop.2.2
    obtain ⟨h1, h2⟩ := h'.lists hn hf hm
    have h1 : s'.lists n f = (a.many o f).map (cellOf M s' f) := h1
    have h2 : ∀ v ∈ a.many o f, Good M s' f v := h2
    simp only [SQLObjects.step, Spec.step, e, h1, List.length_map, List.getElem?_map]
    cases hi : (a.many o f)[i]? with
    | none => exact ⟨rfl, h'⟩
    | some v =>
      simp only [Option.map_some]
      by_cases hj : j < (a.many o f).length
      · simp only [if_pos hj]
        have hg := h2 v (List.mem_of_getElem? hi)
        have h3 := h'.setList hn hm (((a.many o f).eraseIdx i).insertIdx j v) (by
          intro w hw
          rcases mem_of_mem_insertIdx hw with rfl | hw
          · exact hg
          · exact h2 w (List.mem_of_mem_eraseIdx hw))
        have := h3.decodeValue (f := f) (v := v) hg
        rw [map_eraseIdx, map_insertIdx]
        rw [show cellOf M s' f v =
          cellOf M (SQLObjects.setList s' n f ((((a.many o f).eraseIdx i).insertIdx j v).map (cellOf M s' f))) f v from rfl, this]
        exact ⟨rfl, h3⟩
      · simp only [if_neg hj]; exact ⟨trivial, h'⟩
  | clear o f =>
    obtain ⟨s', n, hn, e, h'⟩ := h.write hop.1 hop.2.1
    simp only [SQLObjects.step, Spec.step, e]
    exact ⟨trivial, h'.setList hn hop.2.2 [] (by simp)⟩
  | toArray o f =>
    obtain ⟨n, hn, e⟩ := h.read hop.1 hop.2.1
    obtain ⟨h1, h2⟩ := h.lists hn (mem_all hop.1) hop.2.2
    simp only [SQLObjects.step, Spec.step, e, h1, h.decodeValues f _ h2]
    exact ⟨trivial, h⟩
  | addRoot o =>
    obtain ⟨s', n, h1, h2, h3, h4⟩ := h.encode hop
    simp only [SQLObjects.step, Spec.step, h1]
    have i := h2.inv
    refine ⟨trivial, ⟨⟨i.num, i.size, i.kinds, i.pos, i.objs, i.row, i.rows, i.holds, i.fresh, i.free, i.memory, i.single⟩, h2.stored, ?_, ?_⟩⟩
    · show s'.roots ++ [n] = _
      rw [h2.roots, List.map_append]
      show _ = _ ++ [rid M s' o]
      rw [rid, h4]; rfl
    · intro k hk
      rcases List.mem_append.1 hk with hk | hk
      · exact h2.rooted k hk
      · rw [List.mem_singleton.1 hk]; show (reg M s' o).isSome; simp [h4]
  | removeRoot o =>
    obtain ⟨n, hn⟩ := Option.isSome_iff_exists.1 (h.stored o hop)
    simp only [SQLObjects.step, Spec.step, h.inv.getSQLID, hn, Option.isSome_some]
    have i := h.inv
    refine ⟨trivial, ⟨⟨i.num, i.size, i.kinds, i.pos, i.objs, i.row, i.rows, i.holds, i.fresh, i.free, i.memory, i.single⟩, h.stored, ?_, ?_⟩⟩
    · show s.roots.filter (· ≠ rid M s o) = (a.roots.filter (· ≠ o)).map (rid M s)
      rw [h.roots, List.filter_map]
      congr 1
      apply List.filter_congr
      intro k hk
      obtain ⟨m, hm⟩ := Option.isSome_iff_exists.1 (h.rooted k hk)
      have : rid M s k = rid M s o ↔ k = o := by
        constructor
        · intro e; simp only [rid, hm, hn, Option.getD_some] at e; subst e; exact i.inj hm hn
        · rintro rfl; rfl
      simp [this]
    · intro k hk; exact h.rooted k (List.mem_filter.1 hk).1
  | getRoots =>
    simp only [SQLObjects.step, Spec.step]
    rw [h.roots, h.decodeObjects a.roots h.rooted]
    exact ⟨rfl, h⟩
  | setContainer o c =>
    cases c with
    | none =>
      obtain ⟨s', n, h1, h2, h3, h4⟩ := h.encodeSQLID (o := o) hop
      simp only [SQLObjects.step, Spec.step, h1]
      exact ⟨trivial, h2.setContainer h4 none (fun r => ⟨r.cls, none, none⟩) (fun x hx => ⟨hx, rfl⟩)⟩
    | some pf =>
      obtain ⟨p, f⟩ := pf
      obtain ⟨s', n, h1, h2, h3, h4⟩ := h.encodeSQLID (o := o) hop.1
      obtain ⟨s'', m, h5, h6, h7, h8⟩ := h2.encodeSQLID (o := p) (store_top a o p hop.2.1)
      simp only [SQLObjects.step, Spec.step, h1, h5]
      refine ⟨trivial, h6.setContainer (h7.reg _ _ h4) (some (p, f))
        (fun r => ⟨r.cls, some m, some (M.featureID (s''.cls p) f)⟩) (fun x hx => ⟨hx, ?_⟩)⟩
      exact ⟨by rw [h6.inv.kinds]; exact hop.2.2, m, h8, rfl, rfl⟩
  | getContainer o =>
    obtain ⟨n, hn⟩ := Option.isSome_iff_exists.1 (h.stored o hop)
    obtain ⟨r, h1, h2, h3⟩ := h.inv.row o n hn
    simp only [SQLObjects.step, Spec.step, h.inv.getSQLID, hn, Option.isSome_some, rid, Option.getD_some, h1]
    unfold ContRow at h3
    cases hc : a.container o with
    | none => rw [hc] at h3; simp only at h3; rw [h3]; exact ⟨rfl, h⟩
    | some pf =>
      obtain ⟨p, f⟩ := pf
      rw [hc] at h3; simp only at h3
      obtain ⟨h4, pid, h5, h6, h7⟩ := h3
      rw [h6]
      simp only [h.decodeObject h5, h7, h.inv.num.1, Option.getD_some]
      refine ⟨?_, h⟩
      have : M.featureAt (s.cls p) (((0 : Nat) : Int) + M.featureID (s.cls p) f) = some f := by
        simp only [Meta.featureID, h4, if_true, Meta.featureAt]
        have hlt := List.idxOf_lt_length_iff.2 h4
        rw [if_neg (by omega), show (((0 : Nat) : Int) + ((List.idxOf f (M.all (s.cls p)) : Nat) : Int)).toNat = (M.all (s.cls p)).idxOf f by omega,
          List.getElem?_eq_getElem hlt, List.getElem_idxOf]
      simp only [this, Option.map_some]
  | unRegister o => exact absurd hop id

theorem Full.run (ops : List Op) : ∀ {a : Objects} {s : St}, Full M cls count a s → AllOk M cls count a ops →
    (run M s ops).2 = Spec.run M cls a ops := by
  induction ops with
  | nil => intro a s _ _; rfl
  | cons op ops ih =>
    intro a s h hops
    obtain ⟨h1, h2⟩ := h.step op hops.1
    simp only [SQLObjects.run, Spec.run, h1, ih h2 hops.2]

/-- nothing is in the database of a new store -/
theorem Full.init (hn : Numbered M) {mem : Nat → Nat → List Val} {container : Nat → Option (Nat × Nat)}
    (hm : Memory M cls mem container count) : Full M cls count (Spec.start mem container) (SQLObjects.init cls mem count) := by
  have hr : ∀ o, reg M (SQLObjects.init cls mem count) o = none := by intro o; simp [reg, SQLObjects.init]
  refine ⟨⟨hn, rfl, rfl, ?_, ?_, ?_, ?_, ?_, ?_, ?_, ?_, ?_⟩, ?_, rfl, ?_⟩
  · intro o n h; rw [hr] at h; cases h
  · intro o n; rw [hr]; simp [SQLObjects.init]
  · intro o n h; rw [hr] at h; cases h
  · intro n h; simp [SQLObjects.init] at h
  · intro o n f h; rw [hr] at h; cases h
  · intro o f _; exact ⟨rfl, rfl⟩
  · intro n f _; exact ⟨rfl, rfl⟩
  · intro o f v hv
    obtain ⟨h1, h2⟩ := hm.1 o f v hv
    refine ⟨h1, ?_⟩
    cases v with
    | obj k => exact ⟨h2.1, h2.2.1, fun _ => h2.2.2⟩
    | _ => exact h2
  · exact hm.2
  · intro o h; exact absurd h id
  · intro o h; cases h

end Verif.SQLObjects
