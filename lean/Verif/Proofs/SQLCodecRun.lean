import Verif.Proofs.SQLCodecEncode
import Mathlib.Data.List.Perm.Subperm

/-! Proofs for C59: the steps of the encoder. -/

namespace Verif.SQLCodec

open Spec
open Verif.Convert (Text Time Value formatNat)

variable {F : Type} {env : Env F} {g : Graph F} {opt : Opt} {objects classes : List Nat}

/-! ### Tables -/

theorem lower_key (c : Nat) : lower (keyColumn env c) = keyName env c := by
  simp only [keyColumn, keyName, lower_append, lower_lower]
  rfl

theorem columns_names (c : Nat) : (classColumns env c).map lower = columnNames env c := by
  simp only [classColumns, columnNames, List.map_cons, lower_key, List.map_map, List.cons.injEq, true_and]
  have : (fun f : Feature F => (kindOf f).isColumn) = fun f => decide (isSaved f) && !f.many := by
    funext f
    have := isColumn_iff f
    cases h : (kindOf f).isColumn <;> simp only [h, Bool.false_eq_true, false_iff, true_iff] at this
    · symm
      rw [Bool.and_eq_false_iff]
      by_cases hs : isSaved f
      · refine Or.inr ?_
        simp only [hs, true_and, Bool.not_eq_false] at this
        simp [this]
      · exact Or.inl (by simp [hs])
    · simp [this]
  rw [this]
  rfl

theorem table_filter (fs : List (Feature F)) : fs.filter (fun f => decide (isSaved f) && f.many) = fs.filter fun f => (kindOf f).isTable := by
  apply List.filter_congr
  intro f _
  have := isTable_iff f
  cases h : (kindOf f).isTable <;> simp only [h, Bool.false_eq_true, false_iff, true_iff] at this
  · rw [Bool.and_eq_false_iff]
    by_cases hs : isSaved f
    · refine Or.inr ?_
      simpa [hs] using this
    · exact Or.inl (by simp [hs])
  · simp [this]

theorem mem_tableNames {t : Text} {c : Nat} : t ∈ tableNames env c ↔
    t = classTable env c ∨ ∃ f ∈ env.features c, (kindOf f).isTable = true ∧ t = lower (listTable env c f) := by
  simp only [tableNames, table_filter, List.mem_cons, List.mem_map, List.mem_filter]
  constructor
  · rintro (h | ⟨f, ⟨h1, h2⟩, h3⟩)
    · exact Or.inl h
    · exact Or.inr ⟨f, h1, h2, h3.symm⟩
  · rintro (h | ⟨f, h1, h2, h3⟩)
    · exact Or.inl h
    · exact Or.inr ⟨f, ⟨h1, h2⟩, h3.symm⟩

theorem list_columns (hv : Valid env g opt objects classes) {c : Nat} (hc : c ∈ classes) {f : Feature F} (hf : f ∈ env.features c)
    (ht : (kindOf f).isTable = true) : ((listColumns env c f).map lower).Nodup := by
  obtain ⟨h1, h2⟩ := (isTable_iff f).1 ht
  have hk : keyName env c ≠ idx := by
    intro h
    have := congrArg (fun l : Text => l.getLast?) h
    simp [keyName, idx] at this
  have hi : lower [105, 100, 120] = idx := rfl
  by_cases hr : isResolving f
  · have : kindOf f = .objectReferenceList := by
      obtain ⟨r1, r2, r3⟩ := hr
      have hcn : f.container = false := by
        have := h1.2
        simp only [isParent, r1, r2, true_and, Bool.not_eq_true] at this
        exact this
      simp [kindOf, h1.1, r1, r2, r3, h2, hcn]
    have hu : keyName env c ≠ [117, 114, 105] := by
      intro h
      have := congrArg (fun l : Text => l.getLast?) h
      simp [keyName] at this
    simp only [listColumns, this, if_true, List.map_cons, List.map_nil, lower_key, hi]
    have hu' : lower [117, 114, 105] = [117, 114, 105] := rfl
    have hk' : keyName env c ≠ [105, 100, 120] := hk
    simp [hk', hu', hu, idx]
  · have hne : kindOf f ≠ .objectReferenceList := by
      intro h
      apply hr
      unfold kindOf at h
      unfold isResolving
      have := basicKind_column f.typeName
      revert h
      cases f.transient <;> cases f.isReference <;> cases f.containment <;> cases f.container <;> cases f.many <;> cases f.resolveProxies <;>
        cases f.isEnum <;> simp
      all_goals (intro h; rw [h] at this; simp [Kind.isColumn] at this)
    obtain ⟨h3, h4⟩ := hv.lists c hc f hf h1 h2 hr
    simp only [listColumns, hne, if_false, List.map_cons, List.map_nil, lower_key, hi]
    simp [hk, Ne.symm h3, Ne.symm h4]

theorem createLists_spec (c : Nat) (fs : List (Feature F)) (db : DB F)
    (h1 : ∀ f ∈ fs, (kindOf f).isTable = true → ((listColumns env c f).map lower).Nodup)
    (h2 : ((fs.filter fun f => (kindOf f).isTable).map fun f => lower (listTable env c f)).Nodup)
    (h3 : ∀ f ∈ fs, (kindOf f).isTable = true → lower (listTable env c f) ∉ db.tables) :
    ∃ T : List Text, createLists env c fs db = some { db with tables := T } ∧
      ∀ t : Text, t ∈ T ↔ t ∈ db.tables ∨ ∃ f ∈ fs, (kindOf f).isTable = true ∧ t = lower (listTable env c f) := by
  induction fs generalizing db with
  | nil => exact ⟨db.tables, rfl, by simp⟩
  | cons f fs ih =>
    simp only [createLists]
    by_cases hf : (kindOf f).isTable = true
    · simp only [hf, if_true, createTable]
      rw [if_neg (by
        simp only [not_or, Decidable.not_not]
        exact ⟨h3 f (by simp) hf, h1 f (by simp) hf⟩)]
      simp only [List.filter_cons, hf, if_true, List.map_cons, List.nodup_cons] at h2
      obtain ⟨T, t1, t2⟩ := ih { db with tables := lower (listTable env c f) :: db.tables } (fun x hx => h1 x (by simp [hx])) h2.2 (by
        intro x hx hk hm
        simp only [List.mem_cons] at hm
        rcases hm with hm | hm
        · exact h2.1 (List.mem_map.2 ⟨x, List.mem_filter.2 ⟨hx, hk⟩, hm⟩)
        · exact h3 x (by simp [hx]) hk hm)
      refine ⟨T, t1, ?_⟩
      intro t
      rw [t2]
      simp only [List.mem_cons, exists_eq_or_imp, hf, true_and]
      grind
    · simp only [hf, Bool.false_eq_true, if_false]
      simp only [List.filter_cons, hf, Bool.false_eq_true, if_false] at h2
      obtain ⟨T, t1, t2⟩ := ih db (fun x hx => h1 x (by simp [hx])) h2 (fun x hx => h3 x (by simp [hx]))
      refine ⟨T, t1, ?_⟩
      intro t
      rw [t2]
      simp [hf]

theorem createClass_spec (hv : Valid env g opt objects classes) {st : St F} (h : Inv env objects classes st) {c : Nat} (hc : c ∈ classes) :
    ∃ st' : St F, createClass env st c = some st' ∧ Run env g opt objects classes nope nope st st' ∧ st'.objs = st.objs ∧
      c ∈ st'.created := by
  by_cases hm : c ∈ st.created
  · exact ⟨st, by simp [createClass, hm], Run.refl h, rfl, hm⟩
  · have hnd := hv.tables
    rw [List.nodup_append] at hnd
    obtain ⟨-, n1, n2⟩ := hnd
    have hfresh : ∀ t ∈ tableNames env c, t ∉ st.db.tables := by
      intro t ht hin
      rw [h.tables] at hin
      rcases hin with hin | ⟨d, hd, hin⟩
      · exact n2 t hin t (List.mem_flatMap.2 ⟨c, hc, ht⟩) rfl
      · have := flatMap_inj classes _ n1 c d hc (h.created d hd) t ht hin
        exact hm (this ▸ hd)
    have hnames : (tableNames env c).Nodup := flatMap_nodup classes _ n1 c hc
    simp only [tableNames, List.nodup_cons, table_filter] at hnames
    have hct : lower (classTable env c) = classTable env c := lower_lower _
    have hfirst : createTable st.db (classTable env c) (classColumns env c) =
        some { st.db with tables := classTable env c :: st.db.tables } := by
      simp only [createTable, hct]
      rw [if_neg]
      simp only [not_or, Decidable.not_not]
      refine ⟨hfresh _ (by simp [tableNames, classTable]), ?_⟩
      rw [columns_names]
      exact hv.columns c hc
    obtain ⟨T, t1, t2⟩ := createLists_spec (env := env) c (env.features c) { st.db with tables := classTable env c :: st.db.tables }
      (fun f hf ht => list_columns hv hc hf ht) hnames.2 (by
        intro f hf ht hin
        obtain ⟨i, hi⟩ := List.getElem?_of_mem hf
        simp only [List.mem_cons] at hin
        rcases hin with hin | hin
        · refine hnames.1 ?_
          have e : lower (listTable env c f) = lower (env.name c) := hin
          have m : lower (listTable env c f) ∈ ((env.features c).filter fun f => (kindOf f).isTable).map
              fun f => lower (lower (env.name c) ++ [95] ++ f.name) := List.mem_map.2 ⟨f, List.mem_filter.2 ⟨hf, ht⟩, rfl⟩
          rw [e] at m
          exact m
        · exact hfresh _ (listTable_mem env c i f hi ht) hin)
    refine ⟨{ st with db := { st.db with tables := T }, created := st.created ++ [c] },
      by simp only [createClass, hm, if_false, hfirst, Option.bind_some, t1, Option.map_some], ?_, rfl, by simp⟩
    refine ⟨⟨List.prefix_refl _, List.prefix_refl _, List.prefix_refl _, List.prefix_refl _, fun x hx => by simp [hx], List.prefix_refl _,
      ⟨rfl, rfl⟩, fun _ _ _ _ => rfl, fun _ _ _ _ => rfl⟩, ?_, fun k o hk ho => by have := lt_of_get ho; simp at this; omega⟩
    refine ⟨h.once, h.sub, h.size, h.pkgs, h.pkgReg, h.clsRows, h.clsFound, fun x hx d hd => by simp [h.clsCreated x hx d hd], h.enumRows,
      h.enumFound, ?_, ?_, h.rows, h.lists⟩
    · intro t
      simp only
      rw [t2]
      simp only [List.mem_cons, h.tables, List.mem_append]
      constructor
      · rintro ((h1 | h1 | ⟨d, h1, h2⟩) | h1)
        · exact Or.inr ⟨c, by simp, mem_tableNames.2 (Or.inl h1)⟩
        · exact Or.inl h1
        · exact Or.inr ⟨d, Or.inl h1, h2⟩
        · exact Or.inr ⟨c, by simp, mem_tableNames.2 (Or.inr h1)⟩
      · rintro (h1 | ⟨d, h1 | h1, h2⟩)
        · exact Or.inl (Or.inr (Or.inl h1))
        · exact Or.inl (Or.inr (Or.inr ⟨d, h1, h2⟩))
        · simp only [List.not_mem_nil, or_false] at h1
          subst h1
          rcases mem_tableNames.1 h2 with h2 | h2
          · exact Or.inl (Or.inl h2)
          · exact Or.inr h2
    · intro d hd
      simp only [List.mem_append, List.mem_singleton] at hd
      rcases hd with hd | rfl
      · exact h.created d hd
      · exact hc

theorem nope_le (n : Nat) : ∀ (t : Text) (id : Nat), nope t id → id ≤ n := fun _ _ h => h.elim

theorem createClasses_spec (hv : Valid env g opt objects classes) (cs : List Nat) {st : St F} (h : Inv env objects classes st)
    (hc : ∀ c ∈ cs, c ∈ classes) :
    ∃ st' : St F, createClasses env cs st = some st' ∧ Run env g opt objects classes nope nope st st' ∧ st'.objs = st.objs ∧
      ∀ c ∈ cs, c ∈ st'.created := by
  induction cs generalizing st with
  | nil => exact ⟨st, rfl, Run.refl h, rfl, by simp⟩
  | cons c cs ih =>
    obtain ⟨st1, a1, a2, a3, a4⟩ := createClass_spec hv h (hc c (by simp))
    obtain ⟨st2, b1, b2, b3, b4⟩ := ih a2.inv (fun x hx => hc x (by simp [hx]))
    refine ⟨st2, by simp [createClasses, a1, b1], a2.trans b2 (nope_le _) (nope_le _), b3.trans a3, ?_⟩
    intro x hx
    rcases List.mem_cons.1 hx with rfl | hx
    · exact b2.ext.created _ a4
    · exact b4 x hx

/-! ### Packages, classes, literals -/

theorem forall₂_append {α β : Type} {R : α → β → Prop} {a : List α} {b : List β} {x : α} {y : β} (h : List.Forall₂ R a b) (hxy : R x y) :
    List.Forall₂ R (a ++ [x]) (b ++ [y]) := by
  induction h with
  | nil => exact .cons hxy .nil
  | cons h1 _ ih => exact .cons h1 ih

theorem package_spec {st : St F} (h : Inv env objects classes st) {p : Nat} (hp : env.registry (env.nsURI p) = some p) :
    Run env g opt objects classes nope nope st (encodePackage env st p).1 ∧ (encodePackage env st p).1.objs = st.objs ∧
      (encodePackage env st p).1.classes = st.classes ∧ (encodePackage env st p).1.enums = st.enums ∧
      (encodePackage env st p).1.created = st.created ∧ (encodePackage env st p).1.db.classes = st.db.classes ∧
      (encodePackage env st p).1.db.enums = st.db.enums ∧
      get (encodePackage env st p).1.pkgs (encodePackage env st p).2 = some p := by
  by_cases hm : p ∈ st.pkgs
  · have e : encodePackage env st p = (st, st.pkgs.idxOf p + 1) := by simp [encodePackage, hm]
    rw [e]
    exact ⟨Run.refl h, rfl, rfl, rfl, rfl, rfl, rfl, get_idxOf hm⟩
  · have e : encodePackage env st p = ({ st with db := { st.db with packages := st.db.packages ++ [env.nsURI p] }, pkgs := st.pkgs ++ [p] },
        st.db.packages.length + 1) := by simp [encodePackage, hm]
    rw [e]
    refine ⟨?_, rfl, rfl, rfl, rfl, rfl, rfl, ?_⟩
    · refine ⟨⟨List.prefix_refl _, List.prefix_append _ _, List.prefix_refl _, List.prefix_refl _, fun _ hx => hx, List.prefix_refl _,
        ⟨rfl, rfl⟩, fun _ _ _ _ => rfl, fun _ _ _ _ => rfl⟩, ?_, fun k o hk ho => by have := lt_of_get ho; simp at this; omega⟩
      refine ⟨h.once, h.sub, h.size, by simp [h.pkgs], ?_, h.clsRows.imp ?_, h.clsFound, h.clsCreated, h.enumRows.imp ?_, h.enumFound,
        h.tables, h.created, h.rows, h.lists⟩
      · intro q hq
        simp only [List.mem_append, List.mem_singleton] at hq
        rcases hq with hq | rfl
        · exact h.pkgReg q hq
        · exact hp
      · exact fun _ _ hx => ⟨get_mono (List.prefix_append _ _) hx.1, hx.2⟩
      · exact fun _ _ hx => ⟨get_mono (List.prefix_append _ _) hx.1, hx.2⟩
    · simp only
      rw [h.pkgs, List.length_map]
      exact get_last _ _

theorem class_spec (hv : Valid env g opt objects classes) {st : St F} (h : Inv env objects classes st) {o : Nat} (ho : o ∈ objects) :
    ∃ (st' : St F) (id : Nat), encodeClass env st (g.cls o) = some (st', id) ∧ Run env g opt objects classes nope nope st st' ∧
      st'.objs = st.objs ∧ get st'.classes id = some (g.cls o) ∧ ∀ c ∈ g.cls o :: env.supers (g.cls o), c ∈ st'.created := by
  obtain ⟨st1, a1, a2, a3, a4⟩ := createClasses_spec hv (env.supers (g.cls o) ++ [g.cls o]) h (by
    intro c hc
    refine hv.cls o ho c ?_
    simp only [List.mem_append, List.mem_singleton] at hc
    exact List.mem_cons.2 hc.symm)
  have a4 : ∀ c ∈ g.cls o :: env.supers (g.cls o), c ∈ st1.created := by
    intro c hc
    refine a4 c ?_
    simp only [List.mem_append, List.mem_singleton]
    exact (List.mem_cons.1 hc).symm
  by_cases hm : g.cls o ∈ st1.classes
  · exact ⟨st1, st1.classes.idxOf (g.cls o) + 1, by simp [encodeClass, a1, hm], a2, a3, get_idxOf hm, a4⟩
  · obtain ⟨p1, p2, p3, p4, p5, p6, p7, p8⟩ := package_spec (g := g) (opt := opt) a2.inv (hv.registered o ho)
    have hlen : st1.db.classes.length = st1.classes.length := a2.inv.clsRows.length_eq.symm
    refine ⟨{ (encodePackage env st1 (env.pkg (g.cls o))).1 with
        db := { (encodePackage env st1 (env.pkg (g.cls o))).1.db with
          classes := (encodePackage env st1 (env.pkg (g.cls o))).1.db.classes ++
            [((encodePackage env st1 (env.pkg (g.cls o))).2, env.name (g.cls o))] },
        classes := (encodePackage env st1 (env.pkg (g.cls o))).1.classes ++ [g.cls o] },
      (encodePackage env st1 (env.pkg (g.cls o))).1.db.classes.length + 1,
      by simp only [encodeClass, a1, Option.map_some, hm, if_false], ?_, p2.trans a3, ?_, ?_⟩
    · refine (a2.trans p1 (nope_le _) (nope_le _)).trans (b := (encodePackage env st1 (env.pkg (g.cls o))).1) ?_ (nope_le _) (nope_le _)
      have hi := p1.inv
      generalize encodePackage env st1 (env.pkg (g.cls o)) = r at *
      refine ⟨⟨List.prefix_refl _, List.prefix_refl _, List.prefix_append _ _, List.prefix_refl _, fun _ hx => hx, List.prefix_refl _,
        ⟨rfl, rfl⟩, fun _ _ _ _ => rfl, fun _ _ _ _ => rfl⟩, ?_, fun k o hk ho => by have := lt_of_get ho; simp at this; omega⟩
      refine ⟨hi.once, hi.sub, hi.size, hi.pkgs, hi.pkgReg, forall₂_append hi.clsRows ⟨p8, rfl⟩, ?_, ?_, hi.enumRows, hi.enumFound, hi.tables,
        hi.created, hi.rows, hi.lists⟩
      · intro c hc
        simp only [List.mem_append, List.mem_singleton] at hc
        rcases hc with hc | rfl
        · exact hi.clsFound c hc
        · exact hv.found o ho
      · intro c hc
        simp only [List.mem_append, List.mem_singleton] at hc
        rcases hc with hc | rfl
        · exact hi.clsCreated c hc
        · intro d hd
          rw [p5]
          exact a4 d hd
    · simp only [p6, p3, hlen]
      exact get_last _ _
    · intro c hc
      simp only [p5]
      exact a4 c hc

theorem literal_spec {st : St F} (h : Inv env objects classes st) {e : Nat} {s : Text}
    (hp : env.registry (env.nsURI (env.typePkg e)) = some (env.typePkg e)) (he : env.findEnum (env.typePkg e) (env.typeName e) = some e)
    (hs : s ∈ env.literals e) :
    Run env g opt objects classes nope nope st (encodeLiteral env st e s).1 ∧
      get (encodeLiteral env st e s).1.enums (encodeLiteral env st e s).2 = some (e, s) := by
  by_cases hm : (e, s) ∈ st.enums
  · have eq : encodeLiteral env st e s = (st, st.enums.idxOf (e, s) + 1) := by simp [encodeLiteral, hm]
    rw [eq]
    exact ⟨Run.refl h, get_idxOf hm⟩
  · obtain ⟨p1, p2, p3, p4, p5, p6, p7, p8⟩ := package_spec (g := g) (opt := opt) h hp
    have hlen : st.db.enums.length = st.enums.length := h.enumRows.length_eq.symm
    simp only [encodeLiteral, hm, if_false]
    refine ⟨p1.trans ?_ (nope_le _) (nope_le _), ?_⟩
    · have hi := p1.inv
      generalize encodePackage env st (env.typePkg e) = r at *
      refine ⟨⟨List.prefix_refl _, List.prefix_refl _, List.prefix_refl _, List.prefix_append _ _, fun _ hx => hx, List.prefix_refl _,
        ⟨rfl, rfl⟩, fun _ _ _ _ => rfl, fun _ _ _ _ => rfl⟩, ?_, fun k o hk ho => by have := lt_of_get ho; simp at this; omega⟩
      refine ⟨hi.once, hi.sub, hi.size, hi.pkgs, hi.pkgReg, hi.clsRows, hi.clsFound, hi.clsCreated, forall₂_append hi.enumRows ⟨p8, rfl⟩, ?_,
        hi.tables, hi.created, hi.rows, hi.lists⟩
      intro x hx
      simp only [List.mem_append, List.mem_singleton] at hx
      rcases hx with hx | rfl
      · exact hi.enumFound x hx
      · exact ⟨he, hs⟩
    · rw [p7, p4, hlen]
      exact get_last _ _

/-! ### Elements -/

theorem objs_le (h : Inv env objects classes st) : st.objs.length ≤ objects.length :=
  (List.Nodup.subperm h.once h.sub).length_le

theorem copy_spec {st : St F} {id o : Nat} (h : get st.objs id = some o) :
    decodeObject (F := F) st.objs.length (id : Int) = some (some (.ref (.copy (id - 1)))) ∧ st.objs[id - 1]? = some o := by
  unfold get at h
  split at h
  · simp at h
  · have := lt_of_get h
    refine ⟨?_, h⟩
    unfold decodeObject
    rw [if_pos (by omega)]
    simp

theorem kindOf_ref (f : Feature F) (hs : isSaved f) (hr : f.isReference = true) :
    kindOf f = if f.containment = false ∧ f.resolveProxies = true then (if f.many = true then .objectReferenceList else .objectReference)
      else if f.many = true then .objectList else .object := by
  obtain ⟨h1, h2⟩ := hs
  revert h2
  unfold isParent kindOf
  rw [h1, hr]
  cases f.containment <;> cases f.container <;> cases f.resolveProxies <;> simp

theorem elem_spec (hv : Valid env g opt objects classes) {n : Nat} {enc : St F → Nat → Option Nat → Option (St F × Nat)}
    (henc : Good env g opt objects classes n enc) {st : St F} (h : Inv env objects classes st) (hn : todo objects st.objs < n)
    {k : Nat} (hk : k < st.objs.length) {f : Feature F} (hs : isSaved f) {e : Elem Nat F} (he : ElemFits env g objects f e) :
    ∃ (st' : St F) (cell : Cell F), encodeElem env g enc st (k + 1) f (kindOf f) e = some (st', cell) ∧
      Run env g opt objects classes nope nope st st' ∧ CellOK env g st'.objs st'.enums k f e cell := by
  cases e with
  | data v =>
    obtain ⟨hr, hd⟩ := he
    by_cases hm : f.many = true ∨ f.isEnum = false
    · obtain ⟨cell, c1, c2⟩ := data_spec env g f v hs.1 hr hm hd
      exact ⟨st, cell, c1 _ _ _, Run.refl h, .data v, c2 _ _, rfl⟩
    · simp only [not_or, Bool.not_eq_true, Bool.not_eq_false] at hm
      have hkd : kindOf f = .enum := by rw [kindOf_attribute f hs.1 hr]; simp [hm]
      simp only [DataFits, hm, Bool.false_eq_true, if_false, if_true] at hd
      obtain ⟨d1, d2, d3, d4⟩ := hd
      obtain ⟨l1, l2⟩ := literal_spec (g := g) (opt := opt) h d3 d4 d1
      refine ⟨_, _, by simp only [hkd, encodeElem, d1, if_true]; rfl, l1, .data v, ?_, rfl⟩
      simp only [hkd, decodeCell]
      rw [if_neg (by omega)]
      simp only [Int.toNat_natCast, l2, Option.map_some]
      rcases d2 with d2 | ⟨d2, d5⟩
      · simp [d2]
      · simp [d2, d5]
  | ref o =>
    obtain ⟨hr, hd⟩ := he
    have hkd := kindOf_ref f hs hr
    by_cases hp : f.containment = false ∧ f.resolveProxies = true
    · rw [if_pos hp] at hd hkd
      obtain ⟨u1, u2, u3⟩ := parseInt64_uri env _ hd
      by_cases hm : o ∈ st.objs
      · have hlt := List.idxOf_lt_length_iff.2 hm
        have hle := objs_le h
        have hsz := hv.size
        have hpi := parseInt64_format (st.objs.idxOf o + 1) (by omega)
        have hco := copy_spec (get_idxOf hm)
        refine ⟨st, .text (formatNat (st.objs.idxOf o + 1)), ?_, Run.refl h, .ref (.copy (st.objs.idxOf o)), ?_, getElem?_idxOf hm⟩
        · rw [hkd]
          split <;> simp [encodeElem, hm]
        · rw [hkd]
          split <;> simp only [decodeCell, formatNat_ne, if_false, hpi] <;> exact hco.1
      · refine ⟨st, .text (env.relativize (g.uri o)), ?_, Run.refl h, .ref (.proxy (g.uri o) f.refType), ?_, ⟨hr, hp.1, hp.2⟩, ?_, rfl, rfl⟩
        · rw [hkd]
          split <;> simp [encodeElem, hm]
        · rw [hkd]
          split <;> simp only [decodeCell, u1, if_false, u2, u3]
        · exact fun hx => hm (List.mem_of_mem_take hx)
    · rw [if_neg hp] at hd hkd
      obtain ⟨st', id, e1, e2, e3⟩ := henc st o (some (k + 1)) h hd hn
      have hco := copy_spec (F := F) e3
      refine ⟨st', .int id, ?_, e2, .ref (.copy (id - 1)), ?_, hco.2⟩
      · rw [hkd]
        split <;> simp [encodeElem, e1]
      · rw [hkd]
        split <;> simp only [decodeCell] <;> exact hco.1

end Verif.SQLCodec
