import Verif.Spec.SQLSettings

namespace Verif.SQLSettingsProofs

open Verif.SQLSettings Verif.SQLSettingsSpec

theorem fold_key : fold keyCol = "objectid".toList := by decide +kernel
theorem fold_class : fold classCol = "classid".toList := by decide +kernel
theorem fold_container : fold containerCol = "containerid".toList := by decide +kernel
theorem fold_feature : fold featureCol = "containerfeatureid".toList := by decide +kernel

theorem fold_ne : fold classCol ≠ fold keyCol ∧ fold containerCol ≠ fold keyCol ∧ fold featureCol ≠ fold keyCol ∧
    fold containerCol ≠ fold classCol ∧ fold featureCol ≠ fold classCol ∧ fold featureCol ≠ fold containerCol ∧
    fold keyCol ≠ fold classCol ∧ fold keyCol ≠ fold containerCol ∧ fold keyCol ≠ fold featureCol ∧
    fold classCol ≠ fold containerCol ∧ fold classCol ≠ fold featureCol ∧ fold containerCol ≠ fold featureCol := by
  decide +kernel

/-- a name with a column of its own -/
def Own (n : Name) : Prop := n ≠ [] ∧ n ≠ keyCol

instance (n : Name) : Decidable (Own n) := by unfold Own; infer_instance

theorem own_fold {n : Name} (hf : Free n) (h : Own n) :
    fold n ≠ fold keyCol ∧ fold n ≠ fold classCol ∧ fold n ≠ fold containerCol ∧ fold n ≠ fold featureCol ∧
    fold keyCol ≠ fold n ∧ fold classCol ≠ fold n ∧ fold containerCol ≠ fold n ∧ fold featureCol ≠ fold n := by
  rcases hf with hf | hf
  · exact absurd hf h.2
  · rw [fold_key, fold_class, fold_container, fold_feature]
    simp only [taken, List.map_cons, List.map_nil, List.mem_cons, List.not_mem_nil, or_false, not_or] at hf
    obtain ⟨a, b, c, d⟩ := hf
    exact ⟨a, b, c, d, Ne.symm a, Ne.symm b, Ne.symm c, Ne.symm d⟩

theorem columns_own {n : Name} (h : Own n) (c : Bool) :
    columns n c = [keyCol, classCol] ++ (if c then [containerCol, featureCol] else []) ++ [n] := by
  unfold columns
  have : n.length > 0 := List.length_pos_iff.2 h.1
  simp [this, h.2]

theorem columns_not {n : Name} (h : ¬ Own n) (c : Bool) :
    columns n c = [keyCol, classCol] ++ (if c then [containerCol, featureCol] else []) := by
  unfold columns
  unfold Own at h
  by_cases h1 : n = []
  · simp [h1]
  · have : n = keyCol := Decidable.not_not.1 fun h2 => h ⟨h1, h2⟩
    simp [this]

theorem dup_columns {n : Name} (hf : Free n) (c : Bool) : dupCols (columns n c) = false := by
  obtain ⟨a1, a2, a3, a4, a5, a6, a7, a8, a9, a10, a11, a12⟩ := fold_ne
  by_cases h : Own n
  · obtain ⟨b1, b2, b3, b4, b5, b6, b7, b8⟩ := own_fold hf h
    rw [columns_own h]
    cases c <;> simp [dupCols, hasCol, *]
  · rw [columns_not h]
    cases c <;> simp [dupCols, hasCol, *]

/-- the settings of who uses a database with that layout -/
structure Fits (s : Settings) (n : Name) (c : Bool) : Prop where
  schema : s.schema = some (columns n c)
  own : s.isObjectID = decide (Own n)
  name : s.idName = n
  cont : s.isContainerID = c

/-- the row of an object -/
def rowOf (n : Name) (c : Bool) (k : Int) (o : Obj) : List Cell :=
  [.int k, .int o.cls] ++
    (if c then (if o.container.1 > 0 then [.int o.container.1, .int o.container.2] else [.null, .null]) else []) ++
    (if Own n then [.text (o.id.getD nilText)] else [])

/-- the database of that layout with these objects -/
structure Made (v : Int) (n : Name) (c : Bool) (objs : List Obj) (db : DB) : Prop where
  version : db.version = v
  cols : db.cols = some (columns n c)
  rows : db.rows = objs.mapIdx fun i o => rowOf n c (i + 1) o
  seq : db.seq = objs.length
  props : ∃ l, db.props = .table l ∧ l.lookup keyCol = (if n = [] then none else some n) ∧
    l.lookup containerCol = (if c then some "true".toList else none)

theorem insertRow_fits {s : Settings} {n : Name} {c : Bool} (hf : Free n) (hs : Fits s n c) (o : Obj) {db : DB}
    (hc : db.cols = some (columns n c)) :
    insertRow (columns n c) (objectArgs s o) db =
      some ({ db with rows := db.rows ++ [rowOf n c (db.seq + 1) o], seq := db.seq + 1 }, ((db.seq : Int) + 1)) := by
  obtain ⟨a1, a2, a3, a4, a5, a6, a7, a8, a9, a10, a11, a12⟩ := fold_ne
  unfold insertRow
  rw [hc]
  simp only [objectArgs, hs.own, hs.cont, rowOf]
  by_cases h : Own n
  · obtain ⟨b1, b2, b3, b4, b5, b6, b7, b8⟩ := own_fold hf h
    rw [columns_own h]
    cases c
    · simp [hasCol, cellAt, *]
    · by_cases hp : o.container.1 > 0 <;> simp [hasCol, cellAt, *]
  · rw [columns_not h]
    cases c
    · simp [hasCol, cellAt, *]
    · by_cases hp : o.container.1 > 0 <;> simp [hasCol, cellAt, *]

theorem encodeObjects_made {s : Settings} {n : Name} {c : Bool} (hf : Free n) (hs : Fits s n c) {v : Int} (os : List Obj) :
    ∀ {db : DB} {objs : List Obj}, Made v n c objs db →
    ∃ db', encodeObjects s os db = (db', .ok ()) ∧ Made v n c (objs ++ os) db' := by
  induction os with
  | nil => intro db objs h; exact ⟨db, rfl, by simpa using h⟩
  | cons o os ih =>
    intro db objs h
    have e := insertRow_fits hf hs o h.cols
    have : Made v n c (objs ++ [o]) { db with rows := db.rows ++ [rowOf n c (db.seq + 1) o], seq := db.seq + 1 } := by
      refine ⟨h.version, h.cols, ?_, ?_, h.props⟩
      · simp [h.rows, h.seq, List.mapIdx_append]
      · simp [h.seq]
    obtain ⟨db', e', m'⟩ := ih this
    refine ⟨db', ?_, by simpa using m'⟩
    simp only [encodeObjects, encodeObject, hs.schema, e]
    exact e'

theorem decide_own (n : Name) : (decide (n ≠ []) && decide (n ≠ keyCol)) = decide (Own n) := by
  by_cases h1 : n = [] <;> by_cases h2 : n = keyCol <;> simp [Own, h1, h2]

theorem columns_if (n : Name) (c : Bool) : columns (if decide (Own n) then n else []) c = columns n c := by
  by_cases h : Own n
  · simp [h]
  · simp [h, columns_not h, columns_not (show ¬ Own [] from fun h => h.1 rfl)]

theorem key_ne_container : keyCol ≠ containerCol := by decide +kernel

/-- the properties written on an empty table -/
theorem props_new (s : Settings) (v : Int) (cols : List Name) (rows : List (List Cell)) (q : Nat) :
    ∃ l, encodeProperties s ⟨v, .table [], some cols, rows, q⟩ = (⟨v, .table l, some cols, rows, q⟩, .ok ()) ∧
      l.lookup keyCol = (if s.idName = [] then none else some s.idName) ∧
      l.lookup containerCol = (if s.isContainerID then some "true".toList else none) := by
  refine ⟨_, rfl, ?_⟩
  have h1 : (containerCol == keyCol) = false := by decide +kernel
  have h2 : (keyCol == containerCol) = false := by decide +kernel
  have h3 : ¬ containerCol = keyCol := by decide +kernel
  have h4 : ¬ ([] : Name) = "true".toList := by decide +kernel
  by_cases hn : s.idName = []
  · by_cases hc : s.isContainerID
    · cases hq : s.forced <;> simp [properties, hn, hc, setProp, h1, h2, h3, h4, List.lookup] <;> rfl
    · simp [properties, hn, hc, setProp, h1, h2, h3, h4, List.lookup]
  · have hl : s.idName.length > 0 := List.length_pos_iff.2 hn
    have hn' : ¬ [] = s.idName := Ne.symm hn
    by_cases hc : s.isContainerID
    · cases hq : s.forced <;> simp [properties, hn, hn', hl, hc, setProp, h1, h2, h3, h4, List.lookup, key_ne_container]
    · cases hq : s.forced <;> simp [properties, hn, hn', hl, hc, setProp, h1, h2, h3, h4, List.lookup]

/-- the version that a store or an encoder writes and asks for -/
def verOf (o : Opts) : Int := match o.version with | .int64 n => n | _ => codecVersion

theorem parse_true : parseBool "true".toList = some true := by decide +kernel

theorem encode_made {o : Opts} {m : Option Manager} (hm : m.isSome) (hf : Free o.objectID) (objs : List Obj) :
    ∃ db, encode o m objs DB.empty = (db, .ok ()) ∧ Made (verOf o) o.objectID o.containerID objs db := by
  have hid : (if o.objectID.length > 0 && m.isSome then o.objectID else []) = o.objectID := by
    by_cases h : o.objectID = []
    · simp [h]
    · have : o.objectID.length > 0 := List.length_pos_iff.2 h
      simp [this, hm]
  have hs : Fits (encoderSettings o m) o.objectID o.containerID := by
    refine ⟨?_, ?_, ?_, rfl⟩
    · simp only [encoderSettings, hid]
    · simp only [encoderSettings, hid, decide_own]
    · simp only [encoderSettings, hid]
  obtain ⟨l, e, hl1, hl2⟩ := props_new (encoderSettings o m) (verOf o) (columns o.objectID o.containerID) [] 0
  rw [hs.name] at hl1
  rw [hs.cont] at hl2
  have h0 : Made (verOf o) o.objectID o.containerID [] ⟨verOf o, .table l, some (columns o.objectID o.containerID), [], 0⟩ :=
    ⟨rfl, rfl, rfl, rfl, l, rfl, hl1, hl2⟩
  obtain ⟨db', e', m'⟩ := encodeObjects_made hf hs objs h0
  refine ⟨db', ?_, m'⟩
  have hv : (encoderSettings o m).version = verOf o := rfl
  simp only [encode, encodeSchema, hs.schema, encodeVersion, DB.empty, createProps, createObjects, dup_columns hf, hv,
    Bool.false_eq_true, if_false, e]
  exact e'

theorem open_empty {o : Opts} {m : Option Manager} (hm : m.isSome) (hf : Free o.objectID) :
    ∃ db s, openStore o m DB.empty = (db, .ok s) ∧ Fits s o.objectID true ∧ s.manager = m ∧
      Made (verOf o) o.objectID true [] db := by
  have hown : (storeSettings o m).isObjectID = decide (Own o.objectID) := by
    simp only [storeSettings, hm, Bool.and_true, ← decide_own]
    congr 1
    simp [List.length_pos_iff]
  let s : Settings := { storeSettings o m with schema := some (columns o.objectID true) }
  have hs : Fits s o.objectID true := ⟨rfl, hown, rfl, rfl⟩
  have hd : decodeSchema (storeSettings o m) DB.empty = .ok s := by
    simp only [decodeSchema, decodeProperties, DB.empty, List.lookup_nil, Option.getD_none, List.length_nil, gt_iff_lt, Nat.lt_irrefl,
      decide_false, Bool.and_false, Bool.false_eq_true, if_false, hown]
    have : (if decide (Own o.objectID) = true then (storeSettings o m).idName else []) =
      (if decide (Own o.objectID) = true then o.objectID else []) := rfl
    rw [this, columns_if, ← hown]
    rfl
  obtain ⟨l, e, hl1, hl2⟩ := props_new s (verOf o) (columns o.objectID true) [] 0
  refine ⟨⟨verOf o, .table l, some (columns o.objectID true), [], 0⟩, s, ?_, hs, rfl, ⟨rfl, rfl, rfl, rfl, l, rfl, hl1, hl2⟩⟩
  have hv : decodeVersion (storeSettings o m) DB.empty = true := rfl
  have hv' : s.version = verOf o := rfl
  simp only [openStore, hv, if_true, hd, encodeSchema, hs.schema, encodeVersion]
  simp only [DB.empty, createProps, createObjects, dup_columns hf, hv', Bool.false_eq_true, if_false, e]

theorem foldl_same (l : List (Name × Name)) (es : List (Name × Name)) (h : ∀ e ∈ es, (l.lookup e.1).getD [] = e.2) (a : List (Name × Name)) :
    es.foldl (fun a e => if (l.lookup e.1).getD [] ≠ e.2 then setProp a e.1 e.2 else a) a = a := by
  induction es with
  | nil => rfl
  | cons e es ih =>
    simp only [List.foldl_cons, h e (by simp), ne_eq, not_true_eq_false, if_false]
    exact ih fun e he => h e (by simp [he])

theorem open_made {o : Opts} {m : Option Manager} {n : Name} {v : Int} {objs : List Obj} {db : DB} (hm : m.isSome)
    (hv : verOf o = v) (hn : n ≠ [] ∨ o.objectID = []) (h : Made v n true objs db) :
    ∃ s, openStore o m db = (db, .ok s) ∧ Fits s n true ∧ s.manager = m := by
  obtain ⟨l, hl, hl1, hl2⟩ := h.props
  have hver : decodeVersion (storeSettings o m) db = true := by
    have : (storeSettings o m).version = v := hv
    simp [decodeVersion, this, h.version]
  have hms : (storeSettings o m).manager = m := rfl
  have hd : ∃ s, decodeSchema (storeSettings o m) db = .ok s ∧ Fits s n true ∧ s.manager = m ∧ s.version = v ∧ s.ifNotExists = true ∧
      s.forced = false := by
    simp only [decodeSchema, decodeProperties, hl, hl1, hl2, if_true, parse_true, hms, hm, Bool.true_and]
    by_cases h0 : n = []
    · have ho : o.objectID = [] := hn.resolve_left fun h => h h0
      refine ⟨_, rfl, ⟨?_, ?_, ?_, rfl⟩, ?_, ?_, ?_, ?_⟩ <;> simp [h0, storeSettings, ho, Own, columns] <;> exact hv
    · have hlen : n.length > 0 := List.length_pos_iff.2 h0
      have hown : decide (n ≠ keyCol) = decide (Own n) := by rw [← decide_own]; simp [h0]
      simp only [h0, if_false, Option.getD_some, hlen, decide_true, if_true, Bool.and_true, hown]
      refine ⟨_, rfl, ⟨?_, ?_, ?_, rfl⟩, rfl, hv, rfl, rfl⟩
      · show some (columns (if decide (Own n) then n else []) true) = _
        rw [columns_if]
      · rfl
      · rfl
  obtain ⟨s, hd, hs, hsm, hsv, hsi, hsf⟩ := hd
  refine ⟨s, ?_, hs, hsm⟩
  have hev : encodeVersion s db = db := by
    simp only [encodeVersion, hsv, ← h.version]
  have hes : encodeSchema s db = (db, .ok ()) := by
    simp [encodeSchema, hs.schema, createProps, hl, createObjects, h.cols, hsi]
  have hep : encodeProperties s db = (db, .ok ()) := by
    simp only [encodeProperties, hl, hsf, Bool.false_eq_true, if_false]
    rw [foldl_same]
    · rw [← hl]
    · intro e he
      simp only [properties, hs.name, hs.cont, if_true, List.mem_append] at he
      rcases he with he | he
      · by_cases h0 : n = []
        · simp [h0] at he
        · have hlen : n.length > 0 := List.length_pos_iff.2 h0
          simp only [hlen, if_true, List.mem_singleton] at he
          simp [he, hl1, h0]
      · simp only [List.mem_singleton] at he
        simp [he, hl2]
  simp only [openStore, hver, if_true, hd, hev, hes, hep]

theorem session_made {u : Use} {n : Name} {v : Int} {objs : List Obj} {db : DB} (hf : Free n) (hm : u.manager.isSome)
    (hv : verOf u.opts = v) (hn : n ≠ [] ∨ u.opts.objectID = []) (h : Made v n true objs db) :
    ∃ db', session u.opts u.manager u.objs db = (db', .ok ()) ∧ Made v n true (objs ++ u.objs) db' := by
  obtain ⟨s, e, hs, _⟩ := open_made hm hv hn h
  obtain ⟨db', e', m'⟩ := encodeObjects_made hf hs u.objs h
  exact ⟨db', by simp only [session, e, e'], m'⟩

theorem uses_made {n : Name} {v : Int} (hf : Free n) (us : List Use) :
    ∀ {db : DB} {objs : List Obj}, (∀ u ∈ us, u.manager.isSome) → (∀ u ∈ us, verOf u.opts = v) → (∀ u ∈ us, n ≠ [] ∨ u.opts.objectID = []) →
    Made v n true objs db → (uses us db).2 ∧ Made v n true (objs ++ us.flatMap (·.objs)) (uses us db).1 := by
  induction us with
  | nil => intro db objs _ _ _ h; exact ⟨trivial, by simpa [uses] using h⟩
  | cons u us ih =>
    intro db objs hm hv hn h
    obtain ⟨db', e, m'⟩ := session_made hf (hm u (by simp)) (hv u (by simp)) (hn u (by simp)) h
    have := ih (fun u hu => hm u (by simp [hu])) (fun u hu => hv u (by simp [hu])) (fun u hu => hn u (by simp [hu])) m'
    simp only [uses, e]
    exact ⟨⟨trivial, this.1⟩, by simpa using this.2⟩

/-- the row of a key -/
theorem find_made {v : Int} {n : Name} {c : Bool} {objs : List Obj} {db : DB} (h : Made v n c objs db) {i : Nat} {o : Obj}
    (ho : objs[i]? = some o) : findRow (columns n c) (i + 1) db.rows = some (rowOf n c (i + 1) o) := by
  have key : ∀ k o, cellAt (columns n c) (rowOf n c k o) keyCol = .int k := by
    intro k o; simp [columns, rowOf, cellAt]
  unfold findRow
  rw [h.rows, List.find?_eq_some_iff_getElem]
  obtain ⟨hi, he⟩ := List.getElem?_eq_some_iff.1 ho
  refine ⟨by simp [key], i, by simpa using hi, by simp [he], ?_⟩
  intro j hj
  simp only [List.getElem_mapIdx, key, Cell.int.injEq, Bool.not_eq_true', decide_eq_false_iff_not]
  omega

theorem cells {n : Name} (hf : Free n) (c : Bool) (k : Int) (o : Obj) :
    hasCol (columns n c) classCol = true ∧ cellAt (columns n c) (rowOf n c k o) classCol = .int o.cls ∧
    (Own n → hasCol (columns n c) n = true ∧ cellAt (columns n c) (rowOf n c k o) n = .text (o.id.getD nilText)) ∧
    (c = true → hasCol (columns n c) containerCol = true ∧ hasCol (columns n c) featureCol = true ∧
      cellAt (columns n c) (rowOf n c k o) containerCol = (if o.container.1 > 0 then .int o.container.1 else .null) ∧
      cellAt (columns n c) (rowOf n c k o) featureCol = (if o.container.1 > 0 then .int o.container.2 else .null)) := by
  obtain ⟨a1, a2, a3, a4, a5, a6, a7, a8, a9, a10, a11, a12⟩ := fold_ne
  by_cases h : Own n
  · obtain ⟨b1, b2, b3, b4, b5, b6, b7, b8⟩ := own_fold hf h
    rw [columns_own h]
    cases c
    · simp [hasCol, cellAt, rowOf, *]
    · by_cases hp : o.container.1 > 0 <;> simp [hasCol, cellAt, rowOf, *]
  · rw [columns_not h]
    cases c
    · simp [hasCol, cellAt, rowOf, *]
    · by_cases hp : o.container.1 > 0 <;> simp [hasCol, cellAt, rowOf, *]

/-- an ID that was read from its place is set -/
theorem read_id {m : Option Manager} {n : Name} {objs : List Obj} (ht : Takes m n objs) {i : Nat} {o : Obj} (ho : objs[i]? = some o)
    (hid : o.id.isSome) :
    setID m (if decide (Own n) then some (.text (o.id.getD nilText)) else if n = keyCol then some (.int (i + 1)) else none) =
      some (expectedID n (i + 1) o) := by
  obtain ⟨m', rfl, ht⟩ := ht
  have ht := ht i o
  obtain ⟨t, hid⟩ := Option.isSome_iff_exists.1 hid
  have hk : ("objectID".toList : Name) = keyCol := rfl
  unfold expectedID at ht ⊢
  rw [hk] at ht ⊢
  by_cases h0 : n = []
  · have : ¬ ([] : Name) = keyCol := by decide +kernel
    simp [h0, Own, setID, this]
  · by_cases h1 : n = keyCol
    · have : keyCol ≠ [] := by decide +kernel
      simp [h1, Own, setID, this] at ht ⊢
      exact ht ho
    · simp [h0, h1, Own, setID, hid] at ht ⊢
      exact ht ho

theorem decodeObject_made {s : Settings} {v : Int} {n : Name} {c : Bool} {objs : List Obj} {db : DB} (hf : Free n) (hs : Fits s n c)
    (h : Made v n c objs db) (ht : Takes s.manager n objs) {i : Nat} {o : Obj} (ho : objs[i]? = some o) (hid : o.id.isSome) :
    decodeObject s (i + 1) db = .ok (o.cls, expectedID n (i + 1) o) := by
  obtain ⟨c1, c2, c3, _⟩ := cells hf c (i + 1) o
  have hg : (hasCol (columns n c) classCol && (!s.isObjectID || hasCol (columns n c) s.idName)) = true := by
    rw [c1, hs.own, hs.name]
    by_cases h : Own n
    · simp [h, (c3 h).1]
    · simp [h]
  rw [hs.own, hs.name] at hg
  have hv : (if decide (Own n) = true then some (IdVal.text (cellAt (columns n c) (rowOf n c (i + 1) o) n).toText)
      else if n = keyCol then some (.int (i + 1)) else none) =
      (if decide (Own n) then some (.text (o.id.getD nilText)) else if n = keyCol then some (.int (i + 1)) else none) := by
    by_cases h : Own n
    · simp [h, (c3 h).2, Cell.toText]
    · simp [h]
  simp only [decodeObject, hs.schema, h.cols, hs.own, hs.name, hg, if_true, find_made h ho, hv, read_id ht ho hid, c2, Cell.toInt]

theorem getContainer_made {v : Int} {n : Name} {objs : List Obj} {db : DB} (hf : Free n) (h : Made v n true objs db) {i : Nat} {o : Obj}
    (ho : objs[i]? = some o) : getContainer (i + 1) db = .ok (expectedContainer o) := by
  obtain ⟨_, _, _, c4⟩ := cells hf true (i + 1) o
  obtain ⟨d1, d2, d3, d4⟩ := c4 rfl
  simp only [getContainer, h.cols, d1, d2, Bool.and_self, if_true, find_made h ho, d3, d4, expectedContainer]
  by_cases hp : o.container.1 > 0
  · have h1 : ¬ o.container.1 = -1 := by omega
    have h2 : ¬ o.container.1 = 0 := by omega
    simp [hp, Cell.toInt, h1, h2]
  · simp [hp, Cell.toInt]

/-- the decoder reads the settings of the database -/
theorem decodeSchema_made {o : Opts} {m : Option Manager} {v : Int} {n : Name} {c : Bool} {objs : List Obj} {db : DB} (hm : m.isSome)
    (h : Made v n c objs db) : ∃ s, decodeSchema (decoderSettings o m) db = .ok s ∧ Fits s n c ∧ s.manager = m := by
  obtain ⟨l, hl, hl1, hl2⟩ := h.props
  have hms : (decoderSettings o m).manager = m := rfl
  simp only [decodeSchema, decodeProperties, hl, hl1, hl2, hms, hm, Bool.true_and]
  by_cases h0 : n = []
  · cases c
    · refine ⟨_, rfl, ⟨?_, ?_, ?_, ?_⟩, ?_⟩ <;> simp [h0, decoderSettings, Own, columns]
    · simp only [if_true, parse_true]
      refine ⟨_, rfl, ⟨?_, ?_, ?_, ?_⟩, ?_⟩ <;> simp [h0, decoderSettings, Own, columns]
  · have hlen : n.length > 0 := List.length_pos_iff.2 h0
    have hown : decide (n ≠ keyCol) = decide (Own n) := by rw [← decide_own]; simp [h0]
    simp only [h0, if_false, Option.getD_some, hlen, decide_true, if_true, Bool.and_true, hown]
    cases c
    · refine ⟨_, rfl, ⟨?_, rfl, rfl, rfl⟩, rfl⟩
      show some (columns (if decide (Own n) then n else []) false) = _
      rw [columns_if]
    · simp only [if_true, parse_true]
      refine ⟨_, rfl, ⟨?_, rfl, rfl, rfl⟩, rfl⟩
      show some (columns (if decide (Own n) then n else []) true) = _
      rw [columns_if]

theorem mapM_mapIdx {α β γ : Type} (f : β → Option γ) (g : Nat → α → β) (r : Nat → α → γ) (l : List α)
    (h : ∀ i a, l[i]? = some a → f (g i a) = some (r i a)) : (l.mapIdx g).mapM f = some (l.mapIdx r) := by
  induction l generalizing g r with
  | nil => simp
  | cons a l ih =>
    simp only [List.mapIdx_cons, List.mapM_cons, h 0 a rfl]
    rw [ih _ _ fun i b hb => h (i + 1) b (by simpa using hb)]
    rfl

end Verif.SQLSettingsProofs
