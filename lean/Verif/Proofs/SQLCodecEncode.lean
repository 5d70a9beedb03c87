import Verif.Proofs.SQLCodec
import Mathlib.Data.List.Nodup

/-! Proofs for C59: the encoder. -/

namespace Verif.SQLCodec

open Spec
open Verif.Convert (Text Time Value formatNat)

variable {F : Type}

theorem prefix_get {β : Type} {a b : List β} (h : a <+: b) {i : Nat} {x : β} (hx : a[i]? = some x) : b[i]? = some x := by
  obtain ⟨t, rfl⟩ := h
  have : i < a.length := by
    rcases Nat.lt_or_ge i a.length with h | h
    · exact h
    · simp [h] at hx
  rw [List.getElem?_append_left this]
  exact hx

theorem lt_of_get {β : Type} {a : List β} {i : Nat} {x : β} (hx : a[i]? = some x) : i < a.length := by
  rcases Nat.lt_or_ge i a.length with h | h
  · exact h
  · simp [h] at hx

theorem get_mono {β : Type} {a b : List β} (h : a <+: b) {i : Nat} {x : β} (hx : get a i = some x) : get b i = some x := by
  unfold get at *
  split at hx
  · simp at hx
  · rw [if_neg (by assumption)]
    exact prefix_get h hx

theorem getElem?_idxOf {β : Type} [BEq β] [LawfulBEq β] {l : List β} {x : β} (h : x ∈ l) : l[l.idxOf x]? = some x := by
  have := List.idxOf_lt_length_iff.2 h
  simp [this]

theorem get_idxOf {β : Type} [BEq β] [LawfulBEq β] {l : List β} {x : β} (h : x ∈ l) : get l (l.idxOf x + 1) = some x := by
  simp [get, getElem?_idxOf h]

theorem get_last {β : Type} (l : List β) (x : β) : get (l ++ [x]) (l.length + 1) = some x := by
  simp [get]

/-- the rows of an object -/
def rowsOf (st : St F) (t : Text) (id : Nat) : List (Nat × List (Cell F)) := (st.db.rows t).filter fun r => r.1 = id

def itemsOf (st : St F) (t : Text) (id : Nat) : List (Nat × Nat × Cell F) := (st.db.lists t).filter fun r => r.1 = id

/-- what is always true of the encoder -/
structure Inv (env : Env F) (objects classes : List Nat) (st : St F) : Prop where
  once : st.objs.Nodup
  sub : ∀ o ∈ st.objs, o ∈ objects
  size : st.db.objects.length = st.objs.length
  pkgs : st.db.packages = st.pkgs.map env.nsURI
  pkgReg : ∀ p ∈ st.pkgs, env.registry (env.nsURI p) = some p
  clsRows : List.Forall₂ (fun (c : Nat) (row : Nat × Text) => get st.pkgs row.1 = some (env.pkg c) ∧ row.2 = env.name c)
    st.classes st.db.classes
  clsFound : ∀ c ∈ st.classes, env.findClass (env.pkg c) (env.name c) = some c
  clsCreated : ∀ c ∈ st.classes, ∀ d ∈ c :: env.supers c, d ∈ st.created
  enumRows : List.Forall₂ (fun (e : Nat × Text) (row : Nat × Text × Text) =>
    get st.pkgs row.1 = some (env.typePkg e.1) ∧ row.2 = (env.typeName e.1, e.2)) st.enums st.db.enums
  enumFound : ∀ e ∈ st.enums, env.findEnum (env.typePkg e.1) (env.typeName e.1) = some e.1 ∧ e.2 ∈ env.literals e.1
  tables : ∀ t : Text, t ∈ st.db.tables ↔ t ∈ commonTables ∨ ∃ c ∈ st.created, t ∈ tableNames env c
  created : ∀ c ∈ st.created, c ∈ classes
  rows : ∀ (t : Text) (r : Nat × List (Cell F)), r ∈ st.db.rows t → 1 ≤ r.1 ∧ r.1 ≤ st.objs.length
  lists : ∀ (t : Text) (r : Nat × Nat × Cell F), r ∈ st.db.lists t → 1 ≤ r.1 ∧ r.1 ≤ st.objs.length

/-- the state grows; the rows of the objects stay, but those in `exR` and `exL` -/
structure Ext (exR exL : Text → Nat → Prop) (st st' : St F) : Prop where
  objs : st.objs <+: st'.objs
  pkgs : st.pkgs <+: st'.pkgs
  classes : st.classes <+: st'.classes
  enums : st.enums <+: st'.enums
  created : ∀ c ∈ st.created, c ∈ st'.created
  objects : st.db.objects <+: st'.db.objects
  hasIDs : st'.db.hasIDs = st.db.hasIDs ∧ st'.db.hasContainers = st.db.hasContainers
  rows : ∀ (t : Text) (id : Nat), id ≤ st.objs.length → ¬ exR t id → rowsOf st' t id = rowsOf st t id
  lists : ∀ (t : Text) (id : Nat), id ≤ st.objs.length → ¬ exL t id → itemsOf st' t id = itemsOf st t id

def nope : Text → Nat → Prop := fun _ _ => False

theorem Ext.refl (exR exL : Text → Nat → Prop) (st : St F) : Ext exR exL st st :=
  ⟨List.prefix_refl _, List.prefix_refl _, List.prefix_refl _, List.prefix_refl _, fun _ h => h, List.prefix_refl _, ⟨rfl, rfl⟩,
    fun _ _ _ _ => rfl, fun _ _ _ _ => rfl⟩

theorem Ext.trans {exR exL : Text → Nat → Prop} {a b c : St F} (h : Ext exR exL a b) (k : Ext exR exL b c) : Ext exR exL a c :=
  ⟨h.objs.trans k.objs, h.pkgs.trans k.pkgs, h.classes.trans k.classes, h.enums.trans k.enums, fun x hx => k.created x (h.created x hx),
    h.objects.trans k.objects, ⟨k.hasIDs.1.trans h.hasIDs.1, k.hasIDs.2.trans h.hasIDs.2⟩,
    fun t id hid he => (k.rows t id (Nat.le_trans hid h.objs.length_le) he).trans (h.rows t id hid he),
    fun t id hid he => (k.lists t id (Nat.le_trans hid h.objs.length_le) he).trans (h.lists t id hid he)⟩

theorem Ext.weaken {exR exL exR' exL' : Text → Nat → Prop} {a b : St F} (h : Ext exR exL a b)
    (h1 : ∀ (t : Text) (id : Nat), exR t id → exR' t id) (h2 : ∀ (t : Text) (id : Nat), exL t id → exL' t id) : Ext exR' exL' a b :=
  ⟨h.objs, h.pkgs, h.classes, h.enums, h.created, h.objects, h.hasIDs, fun t id hid he => h.rows t id hid (fun x => he (h1 t id x)),
    fun t id hid he => h.lists t id hid (fun x => he (h2 t id x))⟩

/-- the cell is read as the element -/
def CellOK (env : Env F) (g : Graph F) (objs : List Nat) (enums : List (Nat × Text)) (k : Nat) (f : Feature F) (e : Elem Nat F)
    (cell : Cell F) : Prop :=
  ∃ e' : Elem Ref F, decodeCell env enums objs.length f (kindOf f) cell = some (some e') ∧ SameElem g objs k f e e'

/-- the cell of a column is read as the value of the feature -/
def ColOK (env : Env F) (g : Graph F) (objs : List Nat) (enums : List (Nat × Text)) (k o c : Nat) (p : Nat × Feature F)
    (cell : Cell F) : Prop :=
  ∃ r : Option (Elem Ref F), decodeCell env enums objs.length p.2 (kindOf p.2) cell = some r ∧
    SameVal g objs k p.2 (g.val o c p.1) ((r.map fun e => Val.one (some e)).getD (defaultVal p.2))

/-- the rows of a list are read as the value of the feature -/
def ListOK (env : Env F) (g : Graph F) (objs : List Nat) (enums : List (Nat × Text)) (k o c i : Nat) (f : Feature F)
    (rows : List (Nat × Nat × Cell F)) : Prop :=
  ∃ l : List (Elem Nat F), g.val o c i = .list l ∧ rows.map (·.2.1) = List.range' 1 rows.length ∧ (∀ r ∈ rows, r.1 = k + 1) ∧
    List.Forall₂ (fun (e : Elem Nat F) (r : Nat × Nat × Cell F) => CellOK env g objs enums k f e r.2.2) l rows

theorem decodeObject_mono {n n' : Nat} (hn : n ≤ n') {i : Int} {r : Option (Elem Ref F)} (h : decodeObject n i = some r) :
    decodeObject n' i = some r := by
  unfold decodeObject at *
  split at h
  · rw [if_pos (by omega)]
    exact h
  · simp at h

theorem decodeCell_mono (env : Env F) {enums enums' : List (Nat × Text)} (he : enums <+: enums') {n n' : Nat} (hn : n ≤ n')
    {f : Feature F} {k : Kind} {cell : Cell F} {r : Option (Elem Ref F)} (h : decodeCell env enums n f k cell = some r) :
    decodeCell env enums' n' f k cell = some r := by
  cases k <;> cases cell <;> simp only [decodeCell] at h ⊢ <;> try exact h
  · split at h
    · simp at h
    · rw [if_neg (by assumption)]
      simp only [Option.map_eq_some_iff] at h ⊢
      obtain ⟨e, h1, h2⟩ := h
      exact ⟨e, get_mono he h1, h2⟩
  · exact decodeObject_mono hn h
  · exact decodeObject_mono hn h
  · split at h
    · rw [if_pos (by assumption)]; exact h
    · rw [if_neg (by assumption)]
      split at h
      · exact decodeObject_mono hn h
      · exact h
  · split at h
    · rw [if_pos (by assumption)]; exact h
    · rw [if_neg (by assumption)]
      split at h
      · exact decodeObject_mono hn h
      · exact h

theorem SameElem_mono (g : Graph F) {objs objs' : List Nat} (ho : objs <+: objs') {k : Nat} (hk : k < objs.length) {f : Feature F}
    {e : Elem Nat F} {e' : Elem Ref F} (h : SameElem g objs k f e e') : SameElem g objs' k f e e' := by
  cases e <;> cases e' <;> simp only [SameElem] at h ⊢ <;> try exact h
  rename_i o r
  cases r with
  | copy i => exact prefix_get ho h
  | proxy u c =>
    simp only at h ⊢
    obtain ⟨h1, h2, h3⟩ := h
    refine ⟨h1, ?_, h3⟩
    obtain ⟨t, rfl⟩ := ho
    rw [List.take_append_of_le_length (by omega)]
    exact h2

theorem SameVal_mono (g : Graph F) {objs objs' : List Nat} (ho : objs <+: objs') {k : Nat} (hk : k < objs.length) {f : Feature F}
    {v : Val Nat F} {v' : Val Ref F} (h : SameVal g objs k f v v') : SameVal g objs' k f v v' := by
  rcases v with (_ | e) | l <;> rcases v' with (_ | e') | l' <;> simp only [SameVal] at h ⊢
  · exact SameElem_mono g ho hk h
  · exact h.imp fun _ _ => SameElem_mono g ho hk

theorem CellOK_mono {env : Env F} {g : Graph F} {objs objs' : List Nat} (ho : objs <+: objs') {enums enums' : List (Nat × Text)}
    (he : enums <+: enums') {k : Nat} (hk : k < objs.length) {f : Feature F} {e : Elem Nat F} {cell : Cell F}
    (h : CellOK env g objs enums k f e cell) : CellOK env g objs' enums' k f e cell := by
  obtain ⟨e', h1, h2⟩ := h
  exact ⟨e', decodeCell_mono env he ho.length_le h1, SameElem_mono g ho hk h2⟩

theorem ColOK_mono {env : Env F} {g : Graph F} {objs objs' : List Nat} (ho : objs <+: objs') {enums enums' : List (Nat × Text)}
    (he : enums <+: enums') {k : Nat} (hk : k < objs.length) {o c : Nat} {p : Nat × Feature F} {cell : Cell F}
    (h : ColOK env g objs enums k o c p cell) : ColOK env g objs' enums' k o c p cell := by
  obtain ⟨r, h1, h2⟩ := h
  exact ⟨r, decodeCell_mono env he ho.length_le h1, SameVal_mono g ho hk h2⟩

theorem ListOK_mono {env : Env F} {g : Graph F} {objs objs' : List Nat} (ho : objs <+: objs') {enums enums' : List (Nat × Text)}
    (he : enums <+: enums') {k : Nat} (hk : k < objs.length) {o c i : Nat} {f : Feature F} {rows : List (Nat × Nat × Cell F)}
    (h : ListOK env g objs enums k o c i f rows) : ListOK env g objs' enums' k o c i f rows := by
  obtain ⟨l, h1, h2, h3, h4⟩ := h
  exact ⟨l, h1, h2, h3, h4.imp fun _ _ => CellOK_mono ho he hk⟩

/-- the rows of an object and its class are complete -/
structure ClassDone (env : Env F) (g : Graph F) (st : St F) (k o c : Nat) : Prop where
  row : ∃ cells : List (Cell F), rowsOf st (classTable env c) (k + 1) = [(k + 1, cells)] ∧
    List.Forall₂ (ColOK env g st.objs st.enums k o c) (columnFeatures 0 (env.features c)) cells
  items : ∀ (i : Nat) (f : Feature F), (env.features c)[i]? = some f → (kindOf f).isTable = true →
    ListOK env g st.objs st.enums k o c i f (itemsOf st (listTable env c f) (k + 1))

/-- there are no rows of an object for a class -/
structure ClassEmpty (env : Env F) (st : St F) (k c : Nat) : Prop where
  row : rowsOf st (classTable env c) (k + 1) = []
  items : ∀ (i : Nat) (f : Feature F), (env.features c)[i]? = some f → (kindOf f).isTable = true →
    itemsOf st (listTable env c f) (k + 1) = []

/-- what was written of an object -/
structure Complete (env : Env F) (g : Graph F) (opt : Opt) (classes : List Nat) (st : St F) (k o : Nat) : Prop where
  row : ∃ (cls : Nat) (container : Option Nat), st.db.objects[k]? = some (objectRow env g opt cls o container) ∧
    get st.classes cls = some (g.cls o)
  done : ∀ c ∈ g.cls o :: env.supers (g.cls o), ClassDone env g st k o c
  nothing : ∀ c ∈ classes, c ∉ g.cls o :: env.supers (g.cls o) → ClassEmpty env st k c

theorem ClassDone.mono {env : Env F} {g : Graph F} {exR exL : Text → Nat → Prop} {st st' : St F} {k o c : Nat}
    (h : ClassDone env g st k o c) (hk : k < st.objs.length) (he : Ext exR exL st st')
    (h1 : ¬ exR (classTable env c) (k + 1))
    (h2 : ∀ (i : Nat) (f : Feature F), (env.features c)[i]? = some f → (kindOf f).isTable = true → ¬ exL (listTable env c f) (k + 1)) :
    ClassDone env g st' k o c := by
  obtain ⟨⟨cells, r1, r2⟩, r3⟩ := h
  refine ⟨⟨cells, ?_, r2.imp fun _ _ => ColOK_mono he.objs he.enums hk⟩, ?_⟩
  · rw [he.rows _ _ (by omega) h1]
    exact r1
  · intro i f hf ht
    rw [he.lists _ _ (by omega) (h2 i f hf ht)]
    exact ListOK_mono he.objs he.enums hk (r3 i f hf ht)

theorem ClassEmpty.mono {env : Env F} {exR exL : Text → Nat → Prop} {st st' : St F} {k c : Nat}
    (h : ClassEmpty env st k c) (hk : k < st.objs.length) (he : Ext exR exL st st')
    (h1 : ¬ exR (classTable env c) (k + 1))
    (h2 : ∀ (i : Nat) (f : Feature F), (env.features c)[i]? = some f → (kindOf f).isTable = true → ¬ exL (listTable env c f) (k + 1)) :
    ClassEmpty env st' k c := by
  refine ⟨?_, ?_⟩
  · rw [he.rows _ _ (by omega) h1]
    exact h.row
  · intro i f hf ht
    rw [he.lists _ _ (by omega) (h2 i f hf ht)]
    exact h.items i f hf ht

theorem Complete.mono {env : Env F} {g : Graph F} {opt : Opt} {classes : List Nat} {exR exL : Text → Nat → Prop} {st st' : St F} {k o : Nat}
    (h : Complete env g opt classes st k o) (hk : k < st.objs.length) (he : Ext exR exL st st')
    (h1 : ∀ t : Text, ¬ exR t (k + 1)) (h2 : ∀ t : Text, ¬ exL t (k + 1)) : Complete env g opt classes st' k o := by
  obtain ⟨⟨cls, cont, r1, r2⟩, r3, r4⟩ := h
  exact ⟨⟨cls, cont, prefix_get he.objects r1, get_mono he.classes r2⟩, fun c hc => (r3 c hc).mono hk he (h1 _) (fun _ _ _ _ => h2 _),
    fun c hc hn => (r4 c hc hn).mono hk he (h1 _) (fun _ _ _ _ => h2 _)⟩

/-- a run of the encoder: the objects that are new are complete -/
structure Run (env : Env F) (g : Graph F) (opt : Opt) (objects classes : List Nat) (exR exL : Text → Nat → Prop) (st st' : St F) : Prop where
  ext : Ext exR exL st st'
  inv : Inv env objects classes st'
  done : ∀ (k o : Nat), st.objs.length ≤ k → st'.objs[k]? = some o → Complete env g opt classes st' k o

section

variable {env : Env F} {g : Graph F} {opt : Opt} {objects classes : List Nat}

theorem Run.refl {exR exL : Text → Nat → Prop} {st : St F} (h : Inv env objects classes st) :
    Run env g opt objects classes exR exL st st :=
  ⟨Ext.refl _ _ _, h, fun k o hk ho => by have := lt_of_get ho; omega⟩

theorem Run.trans {exR exL : Text → Nat → Prop} {a b c : St F} (h : Run env g opt objects classes exR exL a b)
    (k : Run env g opt objects classes exR exL b c) (hR : ∀ (t : Text) (id : Nat), exR t id → id ≤ a.objs.length)
    (hL : ∀ (t : Text) (id : Nat), exL t id → id ≤ a.objs.length) : Run env g opt objects classes exR exL a c := by
  refine ⟨h.ext.trans k.ext, k.inv, ?_⟩
  intro j o hj ho
  by_cases hb : b.objs.length ≤ j
  · exact k.done j o hb ho
  · have ho' : b.objs[j]? = some o := by
      obtain ⟨t, ht⟩ := k.ext.objs
      rw [← ht, List.getElem?_append_left (by omega)] at ho
      exact ho
    refine (h.done j o hj ho').mono (by omega) k.ext ?_ ?_
    · intro t ht
      have := hR t _ ht
      omega
    · intro t ht
      have := hL t _ ht
      omega

theorem Run.weaken {exR exL exR' exL' : Text → Nat → Prop} {a b : St F} (h : Run env g opt objects classes exR exL a b)
    (h1 : ∀ (t : Text) (id : Nat), exR t id → exR' t id) (h2 : ∀ (t : Text) (id : Nat), exL t id → exL' t id) :
    Run env g opt objects classes exR' exL' a b :=
  ⟨h.ext.weaken h1 h2, h.inv, h.done⟩

/-- objects not yet written -/
def todo (objects : List Nat) (objs : List Nat) : Nat := objects.countP fun x => x ∉ objs

theorem todo_mono {objs objs' : List Nat} (h : objs <+: objs') : todo objects objs' ≤ todo objects objs := by
  refine List.countP_mono_left ?_
  intro x _ hx
  simp only [decide_eq_true_eq] at hx ⊢
  exact fun hm => hx (h.subset hm)

theorem todo_lt {objs : List Nat} {o : Nat} (ho : o ∈ objects) (hn : o ∉ objs) : todo objects (objs ++ [o]) < todo objects objs := by
  unfold todo
  induction objects with
  | nil => simp at ho
  | cons x l ih =>
    have hle : todo l (objs ++ [o]) ≤ todo l objs := todo_mono (List.prefix_append _ _)
    simp only [todo] at hle
    simp only [List.countP_cons]
    by_cases hx : x = o
    · subst hx
      simp [hn]
      simp at hle
      omega
    · have := ih (by simpa [Ne.symm hx] using ho)
      simp only [List.mem_append, List.mem_singleton, hx, or_false] at *
      omega

/-- `enc` writes objects -/
def Good (env : Env F) (g : Graph F) (opt : Opt) (objects classes : List Nat) (n : Nat)
    (enc : St F → Nat → Option Nat → Option (St F × Nat)) : Prop :=
  ∀ (st : St F) (o : Nat) (container : Option Nat), Inv env objects classes st → o ∈ objects → todo objects st.objs < n →
    ∃ (st' : St F) (id : Nat), enc st o container = some (st', id) ∧ Run env g opt objects classes nope nope st st' ∧
      get st'.objs id = some o

end

end Verif.SQLCodec
