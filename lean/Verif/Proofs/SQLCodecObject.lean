import Verif.Proofs.SQLCodecRun

/-! Proofs for C59: the features of an object. -/

namespace Verif.SQLCodec

open Spec
open Verif.Convert (Text Time Value formatNat)

variable {F : Type} {env : Env F} {g : Graph F} {opt : Opt} {objects classes : List Nat}

/-- the items of an object in a table -/
def own (table : Text) (k : Nat) : Text → Nat → Prop := fun t id => t = table ∧ id = k + 1

theorem insertItem_run {st : St F} (h : Inv env objects classes st) {k : Nat} (hk : k < st.objs.length) (table : Text) (idx : Nat) (cell : Cell F) :
    Run env g opt objects classes nope (own table k) st (insertItem st table (k + 1) idx cell) ∧
      itemsOf (insertItem st table (k + 1) idx cell) table (k + 1) = itemsOf st table (k + 1) ++ [(k + 1, idx, cell)] := by
  refine ⟨⟨⟨List.prefix_refl _, List.prefix_refl _, List.prefix_refl _, List.prefix_refl _, fun _ hx => hx, List.prefix_refl _,
    ⟨rfl, rfl⟩, fun _ _ _ _ => rfl, ?_⟩, ?_, fun j o hj ho => by have := lt_of_get ho; simp only [insertItem] at this; omega⟩, ?_⟩
  · intro t id _ hn
    simp only [itemsOf, insertItem]
    split
    · subst_vars
      rw [List.filter_append]
      have : ¬ (k + 1 = id) := fun e => hn ⟨rfl, e.symm⟩
      simp [this]
    · rfl
  · refine ⟨h.once, h.sub, h.size, h.pkgs, h.pkgReg, h.clsRows, h.clsFound, h.clsCreated, h.enumRows, h.enumFound, h.tables, h.created, h.rows, ?_⟩
    intro t r hr
    simp only [insertItem] at hr ⊢
    split at hr
    · rcases List.mem_append.1 hr with hr | hr
      · exact h.lists t r hr
      · simp only [List.mem_singleton] at hr
        subst hr
        exact ⟨by simp, hk⟩
    · exact h.lists t r hr
  · simp [itemsOf, insertItem, List.filter_append]

theorem insertRow_run {st : St F} (h : Inv env objects classes st) {k : Nat} (hk : k < st.objs.length) (table : Text) (cells : List (Cell F)) :
    Run env g opt objects classes (own table k) nope st (insertRow st table (k + 1) cells) ∧
      rowsOf (insertRow st table (k + 1) cells) table (k + 1) = rowsOf st table (k + 1) ++ [(k + 1, cells)] := by
  refine ⟨⟨⟨List.prefix_refl _, List.prefix_refl _, List.prefix_refl _, List.prefix_refl _, fun _ hx => hx, List.prefix_refl _,
    ⟨rfl, rfl⟩, ?_, fun _ _ _ _ => rfl⟩, ?_, fun j o hj ho => by have := lt_of_get ho; simp only [insertRow] at this; omega⟩, ?_⟩
  · intro t id _ hn
    simp only [rowsOf, insertRow]
    split
    · subst_vars
      rw [List.filter_append]
      have : ¬ (k + 1 = id) := fun e => hn ⟨rfl, e.symm⟩
      simp [this]
    · rfl
  · refine ⟨h.once, h.sub, h.size, h.pkgs, h.pkgReg, h.clsRows, h.clsFound, h.clsCreated, h.enumRows, h.enumFound, h.tables, h.created, ?_, h.lists⟩
    intro t r hr
    simp only [insertRow] at hr ⊢
    split at hr
    · rcases List.mem_append.1 hr with hr | hr
      · exact h.rows t r hr
      · simp only [List.mem_singleton] at hr
        subst hr
        exact ⟨by simp, hk⟩
    · exact h.rows t r hr
  · simp [rowsOf, insertRow, List.filter_append]

theorem own_le {table : Text} {k n : Nat} (hk : k < n) : ∀ (t : Text) (id : Nat), own table k t id → id ≤ n := by
  rintro _ _ ⟨-, rfl⟩; exact hk

theorem items_spec (hv : Valid env g opt objects classes) {n : Nat} {enc : St F → Nat → Option Nat → Option (St F × Nat)}
    (henc : Good env g opt objects classes n enc) {k : Nat} {f : Feature F} (hs : isSaved f) (table : Text) (es : List (Elem Nat F))
    (idx : Nat) {st : St F} (h : Inv env objects classes st) (hn : todo objects st.objs < n) (hk : k < st.objs.length)
    (he : ∀ e ∈ es, ElemFits env g objects f e) :
    ∃ (st' : St F) (rows : List (Nat × Nat × Cell F)), encodeItems env g enc (k + 1) f table idx es st = some st' ∧
      Run env g opt objects classes nope (own table k) st st' ∧
      itemsOf st' table (k + 1) = itemsOf st table (k + 1) ++ rows ∧ rows.map (·.2.1) = List.range' idx rows.length ∧
      (∀ r ∈ rows, r.1 = k + 1) ∧
      List.Forall₂ (fun (e : Elem Nat F) (r : Nat × Nat × Cell F) => CellOK env g st'.objs st'.enums k f e r.2.2) es rows := by
  induction es generalizing idx st with
  | nil => exact ⟨st, [], rfl, Run.refl h, by simp, rfl, by simp, .nil⟩
  | cons e es ih =>
    obtain ⟨st1, cell, a1, a2, a3⟩ := elem_spec hv henc h hn hk hs (he e (by simp))
    have hk1 : k < st1.objs.length := Nat.lt_of_lt_of_le hk a2.ext.objs.length_le
    obtain ⟨b1, b2⟩ := insertItem_run (g := g) (opt := opt) a2.inv hk1 table idx cell
    have hk2 : k < (insertItem st1 table (k + 1) idx cell).objs.length := hk1
    obtain ⟨st', rows, c1, c2, c3, c4, c5, c6⟩ := ih (idx + 1) b1.inv (Nat.lt_of_le_of_lt (todo_mono a2.ext.objs) hn) hk2
      (fun x hx => he x (by simp [hx]))
    have a2' : Run env g opt objects classes nope (own table k) st st1 := a2.weaken (fun _ _ h => h) (fun _ _ h => h.elim)
    refine ⟨st', (k + 1, idx, cell) :: rows, by simp [encodeItems, a1, c1], (a2'.trans b1 (nope_le _) (own_le hk)).trans c2 (nope_le _) (own_le hk),
      ?_, ?_, ?_, ?_⟩
    · rw [c3, b2, a2.ext.lists _ _ hk (fun h => h)]
      simp
    · simp [c4, List.range'_succ]
    · intro r hr
      rcases List.mem_cons.1 hr with rfl | hr
      · rfl
      · exact c5 r hr
    · refine .cons ?_ c6
      exact CellOK_mono c2.ext.objs c2.ext.enums hk2 a3

theorem SameVal_default (g : Graph F) (objs : List Nat) (k : Nat) (f : Feature F) (d : Option (Value F)) :
    SameVal g objs k f (.one (d.map .data)) (.one (d.map .data)) := by
  cases d <;> simp [SameVal, SameElem]

theorem column_spec (hv : Valid env g opt objects classes) {n : Nat} {enc : St F → Nat → Option Nat → Option (St F × Nat)}
    (henc : Good env g opt objects classes n enc) {o c i k : Nat} {f : Feature F} (ho : o ∈ objects)
    (hc : c ∈ g.cls o :: env.supers (g.cls o)) (hf : (env.features c)[i]? = some f) (hcol : (kindOf f).isColumn = true)
    {st : St F} (h : Inv env objects classes st) (hn : todo objects st.objs < n) (hk : k < st.objs.length) :
    ∃ (st' : St F) (cell : Cell F), encodeColumn env g opt enc (k + 1) o c i f st = some (st', cell) ∧
      Run env g opt objects classes nope nope st st' ∧ ColOK env g st'.objs st'.enums k o c (i, f) cell := by
  obtain ⟨hs, hm⟩ := (isColumn_iff f).1 hcol
  have htr : isTransient f = false := isTransient_saved f hs (hv.parents c (hv.cls o ho c hc) f (List.mem_of_getElem? hf))
  have hfit := hv.slots o ho c hc i f hf hs
  -- an element that is written
  have helem : ∀ e : Elem Nat F, g.val o c i = .one (some e) → ElemFits env g objects f e → shouldEncode g opt o c i f = true →
      ∃ (st' : St F) (cell : Cell F), encodeColumn env g opt enc (k + 1) o c i f st = some (st', cell) ∧
      Run env g opt objects classes nope nope st st' ∧ ColOK env g st'.objs st'.enums k o c (i, f) cell := by
    intro e hval hef hsh
    obtain ⟨st', cell, a1, a2, e', a3, a4⟩ := elem_spec hv henc h hn hk hs hef
    refine ⟨st', cell, by simp [encodeColumn, htr, hsh, hval, a1], a2, some e', a3, ?_⟩
    simp only [hval, Option.map_some, Option.getD_some, SameVal]
    exact a4
  have hnull : encodeColumn env g opt enc (k + 1) o c i f st = some (st, .null) → g.val o c i = .one (f.default.map .data) →
      (f.isReference = true → f.default = none) → (f.isReference = false → f.default = zeroOf env f) →
      ∃ (st' : St F) (cell : Cell F), encodeColumn env g opt enc (k + 1) o c i f st = some (st', cell) ∧
      Run env g opt objects classes nope nope st st' ∧ ColOK env g st'.objs st'.enums k o c (i, f) cell := by
    intro henc hval hr hz
    obtain ⟨r, r1, r2⟩ := null_spec env f hs.1 hm hs.2 hr hz
    refine ⟨st, .null, henc, Run.refl h, r, r1 _ _, ?_⟩
    simp only [hval, r2]
    exact SameVal_default g _ k f _
  by_cases hset : g.isSet o c i = true
  · simp only [SlotFits, hset, if_true] at hfit
    obtain ⟨h1, h2⟩ := hfit
    cases hval : g.val o c i with
    | list l => simp [hval, ValFits, hm] at h1
    | one x =>
      cases x with
      | none => exact absurd hval h2
      | some e =>
        rw [hval] at h1
        exact helem e hval h1.2 (by simp [shouldEncode, hset])
  · simp only [SlotFits, hset, Bool.false_eq_true, if_false] at hfit
    obtain ⟨h1, h2, h3⟩ := hfit
    simp only [defaultVal, hm, Bool.false_eq_true, if_false] at h1
    cases hr : f.isReference with
    | true =>
      have hd := h2 hm hr
      refine hnull ?_ h1 (fun _ => hd) (fun h => by simp [hr] at h)
      simp [encodeColumn, h1, hd]
    | false =>
      have h4 := h3 hm hr
      split at h4
      · rename_i hkd
        obtain ⟨v, v1, v2⟩ := h4
        exact helem (.data v) (by simp [h1, v1]) ⟨hr, v2⟩ (by simp [shouldEncode, hkd])
      · rename_i hkd
        refine hnull ?_ h1 (fun h => by simp [hr] at h) (fun _ => h4)
        have : shouldEncode g opt o c i f = false := by
          simp only [shouldEncode, hset, Bool.false_or]
          cases h1 : opt.keepDefaults <;> cases h2 : f.literal <;> simp [h1, h2] at hkd ⊢
        simp [encodeColumn, this]

theorem list_spec (hv : Valid env g opt objects classes) {n : Nat} {enc : St F → Nat → Option Nat → Option (St F × Nat)}
    (henc : Good env g opt objects classes n enc) {o c i k : Nat} {f : Feature F} (ho : o ∈ objects)
    (hc : c ∈ g.cls o :: env.supers (g.cls o)) (hf : (env.features c)[i]? = some f) (htab : (kindOf f).isTable = true)
    {st : St F} (h : Inv env objects classes st) (hn : todo objects st.objs < n) (hk : k < st.objs.length)
    (hempty : itemsOf st (listTable env c f) (k + 1) = []) :
    ∃ st' : St F, encodeList env g opt enc (k + 1) o c i f st = some st' ∧
      Run env g opt objects classes nope (own (listTable env c f) k) st st' ∧
      ListOK env g st'.objs st'.enums k o c i f (itemsOf st' (listTable env c f) (k + 1)) := by
  obtain ⟨hs, hm⟩ := (isTable_iff f).1 htab
  have htr : isTransient f = false := isTransient_saved f hs (hv.parents c (hv.cls o ho c hc) f (List.mem_of_getElem? hf))
  have hfit := hv.slots o ho c hc i f hf hs
  by_cases hset : g.isSet o c i = true
  · simp only [SlotFits, hset, if_true] at hfit
    obtain ⟨h1, h2⟩ := hfit
    cases hval : g.val o c i with
    | one x => cases x <;> simp [hval, ValFits, hm] at h1
    | list l =>
      rw [hval] at h1
      obtain ⟨-, -, h3⟩ := h1
      obtain ⟨st', rows, a1, a2, a3, a4, a5, a6⟩ := items_spec hv henc hs (listTable env c f) l 1 h hn hk h3
      rw [hempty, List.nil_append] at a3
      refine ⟨st', by simp [encodeList, htr, shouldEncode, hset, hval, a1], a2, l, hval, ?_, ?_, ?_⟩
      · rw [a3]; exact a4
      · rw [a3]; exact a5
      · rw [a3]; exact a6
  · simp only [SlotFits, hset, Bool.false_eq_true, if_false] at hfit
    obtain ⟨h1, -, -⟩ := hfit
    simp only [defaultVal, hm, if_true] at h1
    refine ⟨st, by simp [encodeList, h1, encodeItems], Run.refl h, [], h1, ?_, ?_, ?_⟩ <;> rw [hempty]
    · rfl
    · simp
    · exact .nil

/-- the items of an object in the tables of a class, from a feature on -/
def ownFrom (env : Env F) (c i k : Nat) : Text → Nat → Prop := fun t id =>
  id = k + 1 ∧ ∃ (j : Nat) (f : Feature F), i ≤ j ∧ (env.features c)[j]? = some f ∧ (kindOf f).isTable = true ∧ t = listTable env c f

theorem ownFrom_le {c i k n : Nat} (hk : k < n) : ∀ (t : Text) (id : Nat), ownFrom env c i k t id → id ≤ n := by
  rintro _ _ ⟨rfl, -⟩; exact hk

theorem features_spec (hv : Valid env g opt objects classes) {n : Nat} {enc : St F → Nat → Option Nat → Option (St F × Nat)}
    (henc : Good env g opt objects classes n enc) {o c k : Nat} (ho : o ∈ objects)
    (hc : c ∈ g.cls o :: env.supers (g.cls o)) (fs : List (Feature F)) (i : Nat) (hfs : ∀ j : Nat, fs[j]? = (env.features c)[i + j]?)
    {st : St F} (h : Inv env objects classes st) (hn : todo objects st.objs < n) (hk : k < st.objs.length)
    (hempty : ∀ (j : Nat) (f : Feature F), i ≤ j → (env.features c)[j]? = some f → (kindOf f).isTable = true →
      itemsOf st (listTable env c f) (k + 1) = []) :
    ∃ (st' : St F) (cells : List (Cell F)), encodeFeatures env g opt enc (k + 1) o c i fs st = some (st', cells) ∧
      Run env g opt objects classes nope (ownFrom env c i k) st st' ∧
      List.Forall₂ (ColOK env g st'.objs st'.enums k o c) (columnFeatures i fs) cells ∧
      ∀ (j : Nat) (f : Feature F), i ≤ j → (env.features c)[j]? = some f → (kindOf f).isTable = true →
        ListOK env g st'.objs st'.enums k o c j f (itemsOf st' (listTable env c f) (k + 1)) := by
  have hnd := hv.tables
  rw [List.nodup_append] at hnd
  have hcc := hv.cls o ho c hc
  induction fs generalizing i st with
  | nil =>
    refine ⟨st, [], rfl, Run.refl h, .nil, ?_⟩
    intro j f hj hf
    have := hfs (j - i)
    rw [show i + (j - i) = j by omega, hf] at this
    simp at this
  | cons f fs ih =>
    have hf : (env.features c)[i]? = some f := by have := hfs 0; simpa using this.symm
    have hfs' : ∀ j : Nat, fs[j]? = (env.features c)[i + 1 + j]? := by
      intro j
      have := hfs (j + 1)
      rw [show i + 1 + j = i + (j + 1) by omega, ← this]
      simp
    have hsucc : ∀ (t : Text) (id : Nat), ownFrom env c (i + 1) k t id → ownFrom env c i k t id := by
      rintro t id ⟨h1, j, f', h2, h3⟩
      exact ⟨h1, j, f', by omega, h3⟩
    by_cases hcol : (kindOf f).isColumn = true
    · obtain ⟨st1, cell, a1, a2, a3⟩ := column_spec hv henc ho hc hf hcol h hn hk
      have hk1 : k < st1.objs.length := Nat.lt_of_lt_of_le hk a2.ext.objs.length_le
      obtain ⟨st', cells, b1, b2, b3, b4⟩ := ih (i + 1) hfs' a2.inv (Nat.lt_of_le_of_lt (todo_mono a2.ext.objs) hn) hk1 (by
        intro j f' hj hf' ht
        rw [a2.ext.lists _ _ hk (fun h => h)]
        exact hempty j f' (by omega) hf' ht)
      refine ⟨st', cell :: cells, by simp [encodeFeatures, hcol, a1, b1], ?_, ?_, ?_⟩
      · exact (a2.weaken (fun _ _ h => h) (fun _ _ h => h.elim)).trans (b2.weaken (fun _ _ h => h) hsucc) (nope_le _) (ownFrom_le hk)
      · simp only [columnFeatures, hcol, if_true]
        exact .cons (ColOK_mono b2.ext.objs b2.ext.enums hk1 a3) b3
      · intro j f' hj hf' ht
        by_cases e : i = j
        · subst e
          rw [hf] at hf'
          cases hf'
          exfalso
          cases h1 : kindOf f <;> simp [h1, Kind.isColumn, Kind.isTable] at hcol ht
        · exact b4 j f' (by omega) hf' ht
    · by_cases htab : (kindOf f).isTable = true
      · obtain ⟨st1, a1, a2, a3⟩ := list_spec hv henc ho hc hf htab h hn hk (hempty i f (by omega) hf htab)
        have hk1 : k < st1.objs.length := Nat.lt_of_lt_of_le hk a2.ext.objs.length_le
        have hinj : ∀ (j : Nat) (f' : Feature F), i + 1 ≤ j → (env.features c)[j]? = some f' → (kindOf f').isTable = true →
            listTable env c f' ≠ listTable env c f := by
          intro j f' hj hf' ht e
          have := (listTable_inj env classes hnd.2.1 c c j i f' f hcc hcc hf' hf ht htab e).2
          omega
        obtain ⟨st', cells, b1, b2, b3, b4⟩ := ih (i + 1) hfs' a2.inv (Nat.lt_of_le_of_lt (todo_mono a2.ext.objs) hn) hk1 (by
          intro j f' hj hf' ht
          rw [a2.ext.lists _ _ hk (fun h => hinj j f' hj hf' ht h.1)]
          exact hempty j f' (by omega) hf' ht)
        refine ⟨st', cells, by simp [encodeFeatures, hcol, htab, a1, b1], ?_, ?_, ?_⟩
        · refine (a2.weaken (fun _ _ h => h) ?_).trans (b2.weaken (fun _ _ h => h) hsucc) (nope_le _) (ownFrom_le hk)
          rintro t id ⟨h1, h2⟩
          exact ⟨h2, i, f, Nat.le_refl _, hf, htab, h1⟩
        · simp only [columnFeatures, hcol, Bool.false_eq_true, if_false]
          exact b3
        · intro j f' hj hf' ht
          by_cases e : i = j
          · subst e
            rw [hf] at hf'
            cases hf'
            rw [b2.ext.lists _ _ hk1]
            · exact ListOK_mono b2.ext.objs b2.ext.enums hk1 a3
            · rintro ⟨-, j, f', h1, h2, h3, h4⟩
              exact hinj j f' h1 h2 h3 h4.symm
          · exact b4 j f' (by omega) hf' ht
      · obtain ⟨st', cells, b1, b2, b3, b4⟩ := ih (i + 1) hfs' h hn hk (fun j f' hj => hempty j f' (by omega))
        refine ⟨st', cells, by simp [encodeFeatures, hcol, htab, b1], b2.weaken (fun _ _ h => h) hsucc, ?_, ?_⟩
        · simp only [columnFeatures, hcol, Bool.false_eq_true, if_false]
          exact b3
        · intro j f' hj hf' ht
          by_cases e : i = j
          · subst e
            rw [hf] at hf'
            cases hf'
            exact absurd ht htab
          · exact b4 j f' (by omega) hf' ht

/-- the rows of an object in the tables of some classes -/
def rowsIn (env : Env F) (cs : List Nat) (k : Nat) : Text → Nat → Prop := fun t id => id = k + 1 ∧ ∃ c ∈ cs, t = classTable env c

def itemsIn (env : Env F) (cs : List Nat) (k : Nat) : Text → Nat → Prop := fun t id =>
  id = k + 1 ∧ ∃ c ∈ cs, ∃ (j : Nat) (f : Feature F), (env.features c)[j]? = some f ∧ (kindOf f).isTable = true ∧ t = listTable env c f

theorem rowsIn_le {cs : List Nat} {k n : Nat} (hk : k < n) : ∀ (t : Text) (id : Nat), rowsIn env cs k t id → id ≤ n := by
  rintro _ _ ⟨rfl, -⟩; exact hk

theorem itemsIn_le {cs : List Nat} {k n : Nat} (hk : k < n) : ∀ (t : Text) (id : Nat), itemsIn env cs k t id → id ≤ n := by
  rintro _ _ ⟨rfl, -⟩; exact hk

theorem notRows (hv : Valid env g opt objects classes) {c : Nat} {cs : List Nat} {k : Nat} (hc : c ∈ classes) (hcs : ∀ d ∈ cs, d ∈ classes)
    (hn : c ∉ cs) : ¬ rowsIn env cs k (classTable env c) (k + 1) := by
  have hnd := hv.tables
  rw [List.nodup_append] at hnd
  rintro ⟨-, d, hd, he⟩
  exact hn (classTable_inj env classes hnd.2.1 c d hc (hcs d hd) he ▸ hd)

theorem notItems (hv : Valid env g opt objects classes) {c : Nat} {cs : List Nat} {k : Nat} (hc : c ∈ classes) (hcs : ∀ d ∈ cs, d ∈ classes)
    (hn : c ∉ cs) : ∀ (i : Nat) (f : Feature F), (env.features c)[i]? = some f → (kindOf f).isTable = true →
      ¬ itemsIn env cs k (listTable env c f) (k + 1) := by
  have hnd := hv.tables
  rw [List.nodup_append] at hnd
  rintro i f hf ht ⟨-, d, hd, j, f', h1, h2, he⟩
  exact hn ((listTable_inj env classes hnd.2.1 c d i j f f' hc (hcs d hd) hf h1 ht h2 he).1 ▸ hd)

theorem classes_spec (hv : Valid env g opt objects classes) {n : Nat} {enc : St F → Nat → Option Nat → Option (St F × Nat)}
    (henc : Good env g opt objects classes n enc) {o k : Nat} (ho : o ∈ objects) (cs : List Nat) (hnd : cs.Nodup)
    (hcs : ∀ c ∈ cs, c ∈ g.cls o :: env.supers (g.cls o))
    {st : St F} (h : Inv env objects classes st) (hn : todo objects st.objs < n) (hk : k < st.objs.length)
    (hempty : ∀ c ∈ cs, ClassEmpty env st k c) :
    ∃ st' : St F, encodeClasses env g opt enc (k + 1) o cs st = some st' ∧
      Run env g opt objects classes (rowsIn env cs k) (itemsIn env cs k) st st' ∧ ∀ c ∈ cs, ClassDone env g st' k o c := by
  induction cs generalizing st with
  | nil => exact ⟨st, rfl, Run.refl h, by simp⟩
  | cons c cs ih =>
    have hc := hcs c (by simp)
    have hcc := hv.cls o ho c hc
    have hcs' : ∀ d ∈ cs, d ∈ classes := fun d hd => hv.cls o ho d (hcs d (by simp [hd]))
    obtain ⟨n1, n2⟩ := List.nodup_cons.1 hnd
    have he := hempty c (by simp)
    obtain ⟨st1, cells, a1, a2, a3, a4⟩ := features_spec hv henc ho hc (env.features c) 0 (fun j => by simp) h hn hk
      (fun j f _ hf ht => he.items j f hf ht)
    have hk1 : k < st1.objs.length := Nat.lt_of_lt_of_le hk a2.ext.objs.length_le
    obtain ⟨b1, b2⟩ := insertRow_run (g := g) (opt := opt) a2.inv hk1 (classTable env c) cells
    have hdone : ClassDone env g (insertRow st1 (classTable env c) (k + 1) cells) k o c := by
      refine ⟨⟨cells, ?_, a3⟩, fun i f hf ht => a4 i f (by omega) hf ht⟩
      rw [b2, a2.ext.rows _ _ hk (fun h => h), he.row]
      rfl
    have e1 : Run env g opt objects classes (rowsIn env [c] k) (itemsIn env [c] k) st (insertRow st1 (classTable env c) (k + 1) cells) := by
      refine (a2.weaken (fun _ _ h => h.elim) ?_).trans (b1.weaken ?_ (fun _ _ h => h.elim)) (rowsIn_le hk) (itemsIn_le hk)
      · rintro t id ⟨h1, j, f, -, h2, h3, h4⟩
        exact ⟨h1, c, by simp, j, f, h2, h3, h4⟩
      · rintro t id ⟨h1, h2⟩
        exact ⟨h2, c, by simp, h1⟩
    have hk2 : k < (insertRow st1 (classTable env c) (k + 1) cells).objs.length := hk1
    obtain ⟨st', c1, c2, c3⟩ := ih n2 (fun d hd => hcs d (by simp [hd])) b1.inv (Nat.lt_of_le_of_lt (todo_mono a2.ext.objs) hn) hk2 (by
      intro d hd
      have hdc : d ∉ [c] := by
        simp only [List.mem_singleton]
        rintro rfl
        exact n1 hd
      exact (hempty d (by simp [hd])).mono hk e1.ext (notRows hv (hcs' d hd) (by simpa using hcc) hdc)
        (notItems hv (hcs' d hd) (by simpa using hcc) hdc))
    refine ⟨st', by simp [encodeClasses, a1, c1], ?_, ?_⟩
    · refine (e1.weaken ?_ ?_).trans (c2.weaken ?_ ?_) (rowsIn_le hk) (itemsIn_le hk)
      · rintro t id ⟨h1, d, h2, h3⟩
        simp only [List.mem_singleton] at h2
        exact ⟨h1, d, by simp [h2], h3⟩
      · rintro t id ⟨h1, d, h2, h3⟩
        simp only [List.mem_singleton] at h2
        exact ⟨h1, d, by simp [h2], h3⟩
      · rintro t id ⟨h1, d, h2, h3⟩
        exact ⟨h1, d, by simp [h2], h3⟩
      · rintro t id ⟨h1, d, h2, h3⟩
        exact ⟨h1, d, by simp [h2], h3⟩
    · intro d hd
      rcases List.mem_cons.1 hd with rfl | hd
      · exact hdone.mono hk2 c2.ext (notRows hv hcc hcs' n1) (notItems hv hcc hcs' n1)
      · exact c3 d hd

theorem object_spec (hv : Valid env g opt objects classes) (n : Nat) : Good env g opt objects classes n (encodeObject env g opt n) := by
  induction n with
  | zero => intro st o cont _ _ hn; omega
  | succ n ih =>
    intro st o cont h ho hn
    by_cases hm : o ∈ st.objs
    · exact ⟨st, st.objs.idxOf o + 1, by simp [encodeObject, hm], Run.refl h, get_idxOf hm⟩
    · obtain ⟨st1, cls, a1, a2, a3, a4, a5⟩ := class_spec hv h ho
      -- the state with the row of the object
      let st2 : St F :=
        { st1 with db := { st1.db with objects := st1.db.objects ++ [objectRow env g opt cls o cont] }, objs := st1.objs ++ [o] }
      have hlen : st2.objs.length = st.objs.length + 1 := by simp [st2, a3]
      have h2 : Inv env objects classes st2 := by
        have hi := a2.inv
        refine ⟨?_, ?_, ?_, hi.pkgs, hi.pkgReg, hi.clsRows, hi.clsFound, hi.clsCreated, hi.enumRows, hi.enumFound, hi.tables, hi.created, ?_, ?_⟩
        · simp only [st2, a3]
          rw [List.nodup_append]
          refine ⟨h.once, by simp, ?_⟩
          intro a ha b hb
          simp only [List.mem_singleton] at hb
          subst hb
          intro e
          subst e
          exact hm ha
        · intro x hx
          simp only [st2, List.mem_append, List.mem_singleton] at hx
          rcases hx with hx | rfl
          · exact hi.sub x hx
          · exact ho
        · simp [st2, hi.size]
        · intro t r hr
          have := hi.rows t r hr
          simp only [st2, List.length_append, List.length_singleton]
          omega
        · intro t r hr
          have := hi.lists t r hr
          simp only [st2, List.length_append, List.length_singleton]
          omega
      have e2 : Ext nope nope st st2 := by
        refine a2.ext.trans ⟨List.prefix_append _ _, List.prefix_refl _, List.prefix_refl _, List.prefix_refl _, fun _ hx => hx,
          List.prefix_append _ _, ⟨rfl, rfl⟩, fun _ _ _ _ => rfl, fun _ _ _ _ => rfl⟩
      have hid : st1.db.objects.length + 1 = st.objs.length + 1 := by rw [a2.inv.size, a3]
      have hclasses : ∀ c ∈ g.cls o :: env.supers (g.cls o), c ∈ classes := hv.cls o ho
      have hempty : ∀ c : Nat, ClassEmpty env st2 st.objs.length c := by
        intro c
        refine ⟨?_, ?_⟩
        · simp only [rowsOf, List.filter_eq_nil_iff, decide_eq_true_eq]
          intro r hr e
          have := (a2.inv.rows _ r hr).2
          rw [a3] at this
          omega
        · intro i f _ _
          simp only [itemsOf, List.filter_eq_nil_iff, decide_eq_true_eq]
          intro r hr e
          have := (a2.inv.lists _ r hr).2
          rw [a3] at this
          omega
      have htodo : todo objects st2.objs < n := by
        have : todo objects st2.objs < todo objects st.objs := by
          simp only [st2, a3]
          exact todo_lt ho hm
        omega
      obtain ⟨st', b1, b2, b3⟩ := classes_spec hv ih (k := st.objs.length) ho _ (hv.hierarchy o ho) (fun c hc => hc) h2 htodo
        (by omega) (fun c _ => hempty c)
      refine ⟨st', st.objs.length + 1, ?_, ⟨?_, b2.inv, ?_⟩, ?_⟩
      · simp only [encodeObject, hm, if_false, a1, hid]
        rw [b1]
        rfl
      · have hr : ∀ (t : Text) (id : Nat), id ≤ st.objs.length → ¬ rowsIn env (g.cls o :: env.supers (g.cls o)) st.objs.length t id := by
          rintro t id hle ⟨rfl, -⟩
          omega
        have hi : ∀ (t : Text) (id : Nat), id ≤ st.objs.length → ¬ itemsIn env (g.cls o :: env.supers (g.cls o)) st.objs.length t id := by
          rintro t id hle ⟨rfl, -⟩
          omega
        have e3 := b2.ext
        refine ⟨e2.objs.trans e3.objs, e2.pkgs.trans e3.pkgs, e2.classes.trans e3.classes, e2.enums.trans e3.enums,
          fun x hx => e3.created x (e2.created x hx), e2.objects.trans e3.objects, ⟨e3.hasIDs.1.trans e2.hasIDs.1, e3.hasIDs.2.trans e2.hasIDs.2⟩,
          ?_, ?_⟩
        · intro t id hle hn
          rw [e3.rows t id (by omega) (hr t id hle), e2.rows t id hle hn]
        · intro t id hle hn
          rw [e3.lists t id (by omega) (hi t id hle), e2.lists t id hle hn]
      · intro j o' hj ho'
        by_cases e : j = st.objs.length
        · subst e
          have hget : st2.objs[st.objs.length]? = some o := by simp [st2, a3]
          have := prefix_get b2.ext.objs hget
          rw [this] at ho'
          cases ho'
          refine ⟨⟨cls, cont, ?_, ?_⟩, b3, ?_⟩
          · refine prefix_get b2.ext.objects ?_
            have : st.objs.length = st1.db.objects.length := by omega
            simp [st2, this]
          · exact get_mono b2.ext.classes a4
          · intro c hc hn
            exact (hempty c).mono (by omega) b2.ext (notRows hv hc hclasses hn) (notItems hv hc hclasses hn)
        · exact b2.done j o' (by omega) ho'
      · have hget : get st2.objs (st.objs.length + 1) = some o := by simp [st2, a3, get]
        exact get_mono b2.ext.objs hget

end Verif.SQLCodec
