import Verif.Proofs.SQLTextNames
import Verif.Proofs.SQLTextRows

/-!
# C78: the names of a metamodel are the names of its tables, and statements do what the list operations mean

`Spec.lex` is how SQLite reads a text; `Reads text stmts` says that it reads exactly these statements.
-/

namespace Verif.SQLText

open Spec

/-! ## Names -/

/-- A name is written so that it is read as this name exactly if it begins with a letter or `_` and goes on with letters, digits, `_` and `$`, or
begins with a dot and has no quote. -/
theorem C78_names {up : Char → Char} (hup : Spec.UpOk up) (n : Text) :
    (escape up n).bind lex = some [.id n] ↔ Plain n = true ∨ ∃ t, n = '.' :: t ∧ '"' ∉ t :=
  escape_iff (caseOk hup) n

/-! ## Tables -/

/-- The texts that create the tables of a class are read as: a table with the name of the class, its key and its single values, and for each list a
table with an index. -/
theorem C78_create_partial {up low : Char → Char} (hup : Spec.UpOk up) (hlow : LowOk low) {m : Nat → Class} (hm : PlainNames m) (o : Options) (c : Nat) :
    (classTables low o m c).map (fun t => (render up (createQuery t)).bind lex) =
    (classStmts o.createIfNotExists (fun c => (m c).name.map low) m c).map fun s => some (s.flatMap Stmt.tokens) :=
  create_class hlow hm (caseOk hup) c

/-- The tables every database has are created as tables with these names and columns; their names begin with a dot, those of classes do not. -/
theorem C78_system_partial {up low : Char → Char} (hup : Spec.UpOk up) (hlow : LowOk low) {m : Nat → Class} (hm : PlainNames m) {o : Options}
    (ho : o.objectIDName = [] ∨ Plain o.objectIDName = true) {t : Table} (ht : t ∈ systemTables o) :
    (∃ a fs cs, render up (createQuery t) = some a ∧ Reads a [.createTable o.createIfNotExists t.name cs fs] ∧ cs.map (·.name) = t.columns.map (·.name)) ∧
    t.name.head? = some '.' ∧ ∀ c, ((m c).name.map low).head? ≠ some '.' := by
  have hs : t.createIfNotExists = o.createIfNotExists ∧ t.indexes = [] ∧ t.name.head? = some '.' := by
    simp only [systemTables, List.mem_cons, List.not_mem_nil, or_false] at ht
    rcases ht with rfl | rfl | rfl | rfl | rfl | rfl <;> exact ⟨rfl, rfl, rfl⟩
  obtain ⟨a, h1, h2⟩ := reads_create (caseOk hup) (systemTables_ok ho ht)
  rw [hs.1, hs.2.1] at h2
  refine ⟨⟨a, _, _, h1, h2, by rw [List.map_map]; rfl⟩, hs.2.2, ?_⟩
  · intro c he
    have hp := plain_low hlow (hm c).1
    cases hn : (m c).name.map low with
    | nil => rw [hn] at he; cases he
    | cons d t =>
      rw [hn] at he hp
      cases he
      simp only [Plain, Bool.and_eq_true] at hp
      exact absurd hp.1 (by decide)

/-- No two tables or indexes have the same name, no two columns of a table have the same name, and what is referred to is created: for classes with
different names without `_` (and other than `idx`), whose features have different names that are not the key of the class nor, for lists, `idx`. -/
theorem C78_different_partial {low : Char → Char} {m : Nat → Class} {cs : List Nat} (hn : cs.Nodup) (b : Bool)
    (hd : ∀ c ∈ cs, ∀ d ∈ cs, c ≠ d → fold ((m c).name.map low) ≠ fold ((m d).name.map low))
    (hu : ∀ c ∈ cs, '_' ∉ (m c).name.map low ∧ fold ((m c).name.map low) ≠ "IDX".toList)
    (hf : ∀ c ∈ cs, ((m c).features.map fun f => fold f.name).Nodup ∧ ∀ f ∈ (m c).features,
      fold f.name ≠ fold ((m c).name.map low ++ "ID".toList) ∧ (f.kind = .dataList ∨ (∃ r, f.kind = .objectList r) → fold f.name ≠ "IDX".toList))
    (hr : ∀ c ∈ cs, ∀ f ∈ (m c).features, ∀ r, f.kind = .object r ∨ f.kind = .objectList r → r ∈ cs) :
    let stmts := cs.flatMap fun c => (classStmts b (fun c => (m c).name.map low) m c).flatten
    NoClash stmts ∧ ∀ s ∈ stmts, ∀ tk ∈ references s, tk = (".enums".toList, "enumID".toList) ∨ Creates stmts tk.1 tk.2 := by
  refine ⟨no_clash ⟨hn, hd, fun c hc => (hu c hc).1, fun c hc => (hu c hc).2⟩ ?_, fun s hs tk htk => references_created hr hs htk⟩
  intro c hc
  exact ⟨(hf c hc).1, fun f hfm => ((hf c hc).2 f hfm).1, fun f hfm hk => ((hf c hc).2 f hfm).2 hk⟩

/-! ## Rows -/

/-- Rows are inserted with a value for each column; the values of a column of an object are read and written by its number. -/
theorem C78_rows_partial {up low : Char → Char} (hup : Spec.UpOk up) (hlow : LowOk low) {m : Nat → Class} (hm : PlainNames m) {o : Options} {c : Nat}
    {t : Table} (ht : t ∈ classTables low o m c) {d : Text} (hd : d ∈ t.columns.map (·.name)) :
    let key := (m c).name.map low ++ "ID".toList
    (∃ a, render up (insertQuery t) = some a ∧ Reads a [.insert false t.name (t.columns.map (·.name)) (some key)]) ∧
    (∃ a, render up (insertOrReplaceQuery t) = some a ∧ Reads a [.insert true t.name (t.columns.map (·.name)) none]) ∧
    (∃ a, render up (selectOneColumnQuery t d) = some a ∧ Reads a [.select (.columns [d]) { table := t.name, conds := [.eq key] }]) ∧
    (∃ a, render up (updateQuery t d) = some a ∧ Reads a [.update t.name d (.matching [.eq key]) none]) ∧
    (∃ a, render up (removeRowQuery t d) = some a ∧ Reads a [.delete t.name (.matching [.eq d]) none]) ∧
    (∃ a, render up (selectKeyQuery t) = some a ∧ Reads a [.select .all { table := t.name, conds := [.eq key] }]) ∧
    (∃ a, render up (selectRowsQuery t) = some a ∧ Reads a [.select .all { table := t.name }]) ∧
    (∃ a, render up (selectListsQuery t d) = some a ∧
      Reads a [.select (.columns [key, d]) { table := t.name, order := [(key, true), ("idx".toList, true)] }]) := by
  obtain ⟨d', hd', rfl⟩ := List.mem_map.1 hd
  have hc := classTables_column hlow hm c ht hd'
  have hok := classTables_ok hlow hm c ht
  have hu := caseOk hup
  have hi := reads_insert hu hok
  rw [hc.key] at hi
  exact ⟨hi, reads_insertOrReplace hu hok, reads_selectOneColumn hu hc, reads_update hu hc, reads_removeRow hu hc, reads_selectKey hu hc,
    reads_selectRows hu hc.name, reads_selectLists hu hc⟩

/-! ## Lists

`table` is the content of the table of a list, `l` the list of object `x` in it. -/

/-- the table of a list, and what is known of its columns -/
theorem list_table {low : Char → Char} (hlow : LowOk low) {m : Nat → Class} (hm : PlainNames m) {o : Options} {c : Nat} {f : Feature}
    (hf : f ∈ (m c).features) {t : Table} (ht : featureTable low o m c f = some t) {v : Text} {ty : String} {r : Option (Text × Text)}
    (hv : many (fun c => (m c).name.map low) f = some (v, ty, r)) :
    ColumnOk t ((m c).name.map low ++ "ID".toList) v ∧ t.columns.map (·.name) = [(m c).name.map low ++ "ID".toList, "idx".toList, v] ∧
    t ∈ classTables low o m c := by
  have hmem : t ∈ classTables low o m c := List.mem_cons_of_mem _ (List.mem_filterMap.2 ⟨f, hf, ht⟩)
  obtain ⟨w, hw, rfl⟩ := Option.map_eq_some_iff.1 ht
  have hname : w.name = v := by
    unfold valueColumn at hw
    unfold many at hv
    cases hk : f.kind <;> rw [hk] at hw hv <;> cases hw <;> cases hv <;> rfl
  have hcol := classTables_column hlow hm c hmem (d := w) (by simp)
  rw [hname] at hcol
  refine ⟨hcol, ?_, hmem⟩
  simp only [List.map_cons, List.map_nil, hname]
  rfl

/-- What is asked about a list: the value at a position, all values, how many, whether there are any, whether one is among them, and where it is first
and last. -/
theorem C78_ask_partial {up low : Char → Char} (hup : Spec.UpOk up) (hlow : LowOk low) {m : Nat → Class} (hm : PlainNames m) {o : Options} {c : Nat}
    {f : Feature} (hf : f ∈ (m c).features) {t : Table} (ht : featureTable low o m c f = some t) {v : Text} {ty : String} {r : Option (Text × Text)}
    (hv : many (fun c => (m c).name.map low) f = some (v, ty, r)) {V : Type} [DecidableEq V] {le : V → V → Bool} (ha : Antisymm le)
    {table : List (Row V)} {x : V} (hx : le x x = true) {l : List V} (hl : ListOf le table ((m c).name.map low ++ "ID".toList) v x l) :
    (∃ a q, render up (selectOneQuery t v) = some a ∧ Reads a [.select (.columns [v]) q] ∧ q.table = t.name ∧
      ∀ i, (q.rows le [x] 0 i table).map (fun r => r.cell v) = l[i]?.toList) ∧
    (∃ a q, render up (selectAllQuery t v) = some a ∧ Reads a [.select (.columns [v]) q] ∧ q.table = t.name ∧
      (q.rows le [x] 0 0 table).map (fun r => r.cell v) = l) ∧
    (∃ a q, render up (countQuery t) = some a ∧ Reads a [.select .count q] ∧ q.table = t.name ∧ (q.rows le [x] 0 0 table).length = l.length) ∧
    (∃ a q, render up (existsQuery t) = some a ∧ Reads a [.select .exists q] ∧ q.table = t.name ∧ (q.rows le [x] 0 0 table = [] ↔ l = [])) ∧
    (∃ a q, render up (containsQuery t v) = some a ∧ Reads a [.select (.columns [rowid]) q] ∧ q.table = t.name ∧
      ∀ y, le y y = true → (q.rows le [x, y] 0 0 table ≠ [] ↔ y ∈ l)) ∧
    (∃ a q b p, render up (indexOfQuery t v) = some a ∧ Reads a [.select (.columns ["idx".toList]) q] ∧ q.table = t.name ∧
      render up (idxToListIndexQuery t) = some b ∧ Reads b [.select .count p] ∧ p.table = t.name ∧
      ∀ y, le y y = true → (q.rows le [x, y] 0 0 table).map (fun r => (p.rows le [x, r.cell "idx".toList] 0 0 table).length) =
        (l.findIdx? fun z => decide (z = y)).toList) ∧
    (∃ a q b p, render up (lastIndexOfQuery t v) = some a ∧ Reads a [.select (.columns ["idx".toList]) q] ∧ q.table = t.name ∧
      render up (idxToListIndexQuery t) = some b ∧ Reads b [.select .count p] ∧ p.table = t.name ∧
      ∀ y, le y y = true → (q.rows le [x, y] 0 0 table).map (fun r => (p.rows le [x, r.cell "idx".toList] 0 0 table).length) =
        ((l.reverse.findIdx? fun z => decide (z = y)).map fun i => l.length - 1 - i).toList) := by
  obtain ⟨hc, -, -⟩ := list_table hlow hm hf ht hv
  have hu := caseOk hup
  refine ⟨?_, ?_, ?_, ?_, ?_, ?_, ?_⟩
  · obtain ⟨a, h1, h2⟩ := reads_selectOne hu hc
    exact ⟨a, _, h1, h2, rfl, fun i => Rows.select_one ha hx hl i⟩
  · obtain ⟨a, h1, h2⟩ := reads_selectAll hu hc
    exact ⟨a, _, h1, h2, rfl, Rows.select_all ha hx hl⟩
  · obtain ⟨a, h1, h2⟩ := reads_count hu hc
    exact ⟨a, _, h1, h2, rfl, Rows.count hx hl⟩
  · obtain ⟨a, h1, h2⟩ := reads_exists hu hc
    refine ⟨a, _, h1, h2, rfl, ?_⟩
    rw [← List.length_eq_zero_iff, Rows.count hx hl, List.length_eq_zero_iff]
  · obtain ⟨a, h1, h2⟩ := reads_contains hu hc
    exact ⟨a, _, h1, h2, rfl, fun y hy => Rows.contains hx hl hy⟩
  · obtain ⟨a, h1, h2⟩ := reads_indexOf hu hc
    obtain ⟨b, h3, h4⟩ := reads_idxToListIndex hu hc
    exact ⟨a, _, b, _, h1, h2, rfl, h3, h4, rfl, fun y hy => Rows.index_of ha hx hl hy⟩
  · obtain ⟨a, h1, h2⟩ := reads_lastIndexOf hu hc
    obtain ⟨b, h3, h4⟩ := reads_idxToListIndex hu hc
    exact ⟨a, _, b, _, h1, h2, rfl, h3, h4, rfl, fun y hy => Rows.last_index_of ha hx hl hy⟩

/-- What changes a list: a value set, removed (and returned), all removed, one inserted, one moved (and returned).  The lists of other objects stay as they
are. -/
theorem C78_change_partial {up low : Char → Char} (hup : Spec.UpOk up) (hlow : LowOk low) {m : Nat → Class} (hm : PlainNames m) {o : Options} {c : Nat}
    {f : Feature} (hf : f ∈ (m c).features) {t : Table} (ht : featureTable low o m c f = some t) {v : Text} {ty : String} {r : Option (Text × Text)}
    (hv : many (fun c => (m c).name.map low) f = some (v, ty, r))
    (hname : fold f.name ≠ fold ((m c).name.map low ++ "ID".toList) ∧ fold f.name ≠ fold "idx".toList)
    {V : Type} [DecidableEq V] {le : V → V → Bool} (ha : Antisymm le)
    {table : List (Row V)} (hn : (table.map Row.rowid).Nodup) {x : V} (hx : le x x = true) {l : List V} :
    let key := (m c).name.map low ++ "ID".toList
    ListOf le table key v x l →
    (∃ a rows, render up (updateValueQuery t v) = some a ∧ Reads a [.update t.name v rows none] ∧ ∀ i y,
      ListOf le (updated le v y rows [x] i table) key v x (l.set i y) ∧
      ∀ x' l', x' ≠ x → ListOf le table key v x' l' → ListOf le (updated le v y rows [x] i table) key v x' l') ∧
    (∃ a rows, render up (removeQuery t v) = some a ∧ Reads a [.delete t.name rows (some v)] ∧ ∀ i,
      ListOf le (deleted le rows [x] i table) key v x (l.eraseIdx i) ∧
      (table.filter fun r => rows.chosen le [x] i table r).map (fun r => r.cell v) = l[i]?.toList ∧
      ∀ x' l', x' ≠ x → ListOf le table key v x' l' → ListOf le (deleted le rows [x] i table) key v x' l') ∧
    (∃ a rows, render up (clearQuery t) = some a ∧ Reads a [.delete t.name rows none] ∧
      ListOf le (deleted le rows [x] 0 table) key v x [] ∧
      ∀ x' l', x' ≠ x → ListOf le table key v x' l' → ListOf le (deleted le rows [x] 0 table) key v x' l') ∧
    (∃ a b q, render up (insertQuery t) = some a ∧ Reads a [.insert false t.name [key, "idx".toList, v] (some key)] ∧
      render up (listIndexToIdxQuery t) = some b ∧ Reads b [.select (.columns ["idx".toList]) q] ∧ q.table = t.name ∧
      ∀ i (row : Row V), row.cell key = x →
        (∀ j r, q.rows le [x] 1 j table = [r] →
          (j < i → le (r.cell "idx".toList) (row.cell "idx".toList) = true ∧ r.cell "idx".toList ≠ row.cell "idx".toList) ∧
          (i ≤ j → le (row.cell "idx".toList) (r.cell "idx".toList) = true ∧ row.cell "idx".toList ≠ r.cell "idx".toList)) →
        ListOf le (table ++ [row]) key v x (l.take i ++ row.cell v :: l.drop i) ∧
        ∀ x' l', x' ≠ x → ListOf le table key v x' l' → ListOf le (table ++ [row]) key v x' l') ∧
    (∃ a rows b q, render up (updateIdxQuery t v) = some a ∧ Reads a [.update t.name "idx".toList rows (some v)] ∧
      render up (listIndexToIdxQuery t) = some b ∧ Reads b [.select (.columns ["idx".toList]) q] ∧ q.table = t.name ∧
      ∀ i j y z, l[i]? = some y →
        (∀ p r, p ≠ i → q.rows le [x] 1 p table = [r] →
          ((if p < i then p else p - 1) < j → le (r.cell "idx".toList) z = true ∧ r.cell "idx".toList ≠ z) ∧
          (j ≤ (if p < i then p else p - 1) → le z (r.cell "idx".toList) = true ∧ z ≠ r.cell "idx".toList)) →
        ListOf le (updated le "idx".toList z rows [x] i table) key v x ((l.eraseIdx i).take j ++ y :: (l.eraseIdx i).drop j) ∧
        (table.filter fun r => rows.chosen le [x] i table r).map (fun r => r.cell v) = [y] ∧
        ∀ x' l', x' ≠ x → ListOf le table key v x' l' → ListOf le (updated le "idx".toList z rows [x] i table) key v x' l') := by
  intro key hl
  obtain ⟨hc, hcols, hmem⟩ := list_table hlow hm hf ht hv
  have hu := caseOk hup
  have hlast : (fold key).getLast? = some 'D' := key_last (table := fun c => (m c).name.map low) c
  have k1 : key ≠ "idx".toList := by
    intro e; rw [e] at hlast; revert hlast; decide
  have k2 : key ≠ "uri".toList := by
    intro e; rw [e] at hlast; revert hlast; decide
  have k3 : v = f.name ∨ v = "uri".toList := by
    unfold many at hv
    split at hv <;> cases hv <;> simp
  have k4 : v ≠ key ∧ v ≠ "idx".toList := by
    rcases k3 with k3 | k3 <;> rw [k3]
    · exact ⟨fun e => hname.1 (by rw [e]), fun e => hname.2 (by rw [e])⟩
    · exact ⟨Ne.symm k2, by decide⟩
  obtain ⟨b, hb1, hb2⟩ := reads_listIndexToIdx hu hc
  refine ⟨?_, ?_, ?_, ?_, ?_⟩
  · obtain ⟨a, h1, h2⟩ := reads_updateValue hu hc
    exact ⟨a, _, h1, h2, fun i y => ⟨Rows.update_value ha hx hl hn k4.1 k4.2 i y, fun x' l' hne h' => Rows.updated_other ha hx hl hn k4.1 hne h' i y⟩⟩
  · obtain ⟨a, h1, h2⟩ := reads_remove hu hc
    exact ⟨a, _, h1, h2, fun i => ⟨Rows.remove ha hx hl hn i, Rows.returned ha hx hl hn i, fun x' l' hne h' => Rows.remove_other ha hx hl hn hne h' i⟩⟩
  · obtain ⟨a, h1, h2⟩ := reads_clear hu hc
    exact ⟨a, _, h1, h2, Rows.clear hx, fun x' l' hne h' => Rows.clear_other hne h'⟩
  · obtain ⟨a, h1, h2⟩ := reads_insert hu (classTables_ok hlow hm c hmem)
    rw [hc.key] at h2
    have h2' : Reads a [.insert false t.name [key, "idx".toList, v] (some key)] := by
      have := h2
      rw [show t.columns.map Column.name = [key, "idx".toList, v] from hcols] at this
      exact this
    exact ⟨a, b, _, h1, h2', hb1, hb2, rfl, fun i row hk hpos =>
      ⟨Rows.insert hx hl hk hpos ha, fun x' l' hne h' => Rows.insert_other (by rw [hk]; exact Ne.symm hne) h'⟩⟩
  · obtain ⟨a, h1, h2⟩ := reads_updateIdx hu hc
    refine ⟨a, _, b, _, h1, h2, hb1, hb2, rfl, fun i j y z hi hpos => ⟨Rows.move ha hx hl hn k1 k4.2 hi hpos, ?_, ?_⟩⟩
    · have := Rows.returned (t := t.name) ha hx hl hn i
      rw [hi] at this
      exact this
    · intro x' l' hne h'
      exact Rows.updated_other ha hx hl hn (Ne.symm k1) hne h' i z

/-! ## A case -/

namespace Example

def low (c : Char) : Char := if 65 ≤ c.toNat ∧ c.toNat ≤ 90 then Char.ofNat (c.toNat + 32) else c

def model (cs : List (String × List (String × Kind))) (c : Nat) : Class :=
  match cs[c]? with
  | some (n, fs) => ⟨n.toList, fs.map fun f => ⟨f.1.toList, f.2⟩⟩
  | none => ⟨"Other".toList, []⟩

/-- libraries with books, and books with an order and tags -/
def library : Nat → Class :=
  model [("Library", [("name", .text), ("books", .objectList 1), ("owner", .object 0)]), ("Book", [("Order", .integer), ("tags", .dataList)])]

def text (ps : List Piece) : Option String := (render upper ps).map String.ofList

example : text (createQuery (classTable low {} library 0)) =
    some "CREATE TABLE library (libraryID INTEGER PRIMARY KEY,name TEXT,owner INTEGER,FOREIGN KEY(owner) REFERENCES library(libraryID));" := by
  decide +kernel

example : ((featureTable low {} library 1 ⟨"tags".toList, .dataList⟩).bind fun t => text (createQuery t)) =
    some "CREATE TABLE book_tags (bookID INTEGER,idx REAL,tags TEXT,FOREIGN KEY(bookID) REFERENCES book(bookID));\nCREATE INDEX \"idx_book_tags_bookID_idx\" ON book_tags(bookID,idx);" := by
  decide +kernel

/-- a keyword is quoted -/
example : text (updateQuery (classTable low {} library 1) "Order".toList) = some "UPDATE book SET \"Order\"=? WHERE bookID=?" := by decide +kernel

theorem upOk : Spec.UpOk upper := by
  refine ⟨fun _ _ => rfl, fun c => ?_⟩
  constructor
  · intro e
    by_cases ha : c.toNat < 128
    · have hdec : ∀ i : Fin 128, upper (Char.ofNat i.1) = '"' → Char.ofNat i.1 = '"' := by decide +kernel
      have := hdec ⟨c.toNat, ha⟩
      simp only [Char.ofNat_toNat] at this
      exact this e
    · unfold upper at e
      rw [if_neg (by omega)] at e
      exact e
  · rintro rfl; decide

theorem lowOk : LowOk low := by
  intro c
  by_cases ha : c.toNat < 128
  · have hdec : ∀ i : Fin 128, (idStart (Char.ofNat i.1) = true → idStart (low (Char.ofNat i.1)) = true) ∧
        (idChar (Char.ofNat i.1) = true → idChar (low (Char.ofNat i.1)) = true) := by decide +kernel
    have := hdec ⟨c.toNat, ha⟩
    simpa only [Char.ofNat_toNat] using this
  · unfold low
    rw [if_neg (by omega)]
    exact ⟨id, id⟩

theorem plainNames : PlainNames library := by
  intro c
  match c with
  | 0 => decide +kernel
  | 1 => decide +kernel
  | c + 2 =>
    have : library (c + 2) = ⟨"Other".toList, []⟩ := rfl
    rw [this]; exact ⟨by decide, by simp⟩

def cells (l : List (String × Nat)) (c : Text) : Nat := ((l.find? fun p => p.1.toList = c).map (·.2)).getD 0

/-- the tags of two books; numbers stand for values -/
def rows : List (Row Nat) :=
  [⟨1, cells [("bookID", 7), ("idx", 2), ("tags", 30)]⟩, ⟨2, cells [("bookID", 8), ("idx", 1), ("tags", 50)]⟩,
   ⟨3, cells [("bookID", 7), ("idx", 1), ("tags", 40)]⟩, ⟨4, cells [("bookID", 7), ("idx", 5), ("tags", 30)]⟩]

def le (a b : Nat) : Bool := decide (a ≤ b)

theorem antisymm : Antisymm le := fun a b h1 h2 => Nat.le_antisymm (of_decide_eq_true h1) (of_decide_eq_true h2)

theorem lists : ListOf le rows "bookID".toList "tags".toList 7 [40, 30, 30] ∧ ListOf le rows "bookID".toList "tags".toList 8 [50] := by
  refine ⟨⟨[rows[2], rows[0], rows[3]], ?_, by decide +kernel, by decide +kernel⟩, ⟨[rows[1]], ?_, by decide +kernel, by decide +kernel⟩⟩
  · have : (rows.filter fun r => decide (r.cell "bookID".toList = 7)) = [rows[0], rows[2], rows[3]] := rfl
    rw [this]; exact List.Perm.swap ..
  · have : (rows.filter fun r => decide (r.cell "bookID".toList = 8)) = [rows[1]] := rfl
    rw [this]

/-- the theorems apply to it -/
example := C78_create_partial upOk lowOk plainNames {} 0
example := C78_rows_partial upOk lowOk plainNames (o := {}) (c := 0) (t := classTable low {} library 0) (List.mem_cons_self ..) (d := "owner".toList)
  (by decide +kernel)
example := C78_ask_partial upOk lowOk plainNames (o := {}) (c := 1) (f := ⟨"tags".toList, .dataList⟩) (by decide) (by rfl) (by rfl) antisymm rfl lists.1
example := C78_change_partial upOk lowOk plainNames (o := {}) (c := 1) (f := ⟨"tags".toList, .dataList⟩) (by decide) (by rfl) (by rfl)
  (by decide +kernel) antisymm (by decide) (x := 7) rfl lists.1

example := C78_different_partial (low := low) (m := library) (cs := [0, 1]) (by decide) true (by decide +kernel) (by decide +kernel)
  (by
    intro c hc
    refine ⟨by revert c; decide +kernel, ?_⟩
    intro f hf
    simp only [List.mem_cons, List.not_mem_nil, or_false] at hc
    have h : ∀ f ∈ (library c).features, fold f.name ≠ fold ((library c).name.map low ++ "ID".toList) ∧ fold f.name ≠ "IDX".toList := by
      rcases hc with rfl | rfl <;> decide +kernel
    exact ⟨(h f hf).1, fun _ => (h f hf).2⟩)
  (by
    intro c hc f hf r hr
    simp only [List.mem_cons, List.not_mem_nil, or_false] at hc
    rcases hc with rfl | rfl
    · have : f ∈ [⟨"name".toList, .text⟩, ⟨"books".toList, .objectList 1⟩, ⟨"owner".toList, .object 0⟩] := hf
      simp only [List.mem_cons, List.not_mem_nil, or_false] at this
      rcases this with rfl | rfl | rfl <;> simp at hr <;> subst hr <;> decide
    · have : f ∈ [⟨"Order".toList, .integer⟩, ⟨"tags".toList, .dataList⟩] := hf
      simp only [List.mem_cons, List.not_mem_nil, or_false] at this
      rcases this with rfl | rfl <;> simp at hr)

end Example

/-! ## Where it does not hold -/

open Example in
/-- A feature without name ends in a panic. -/
theorem C78_empty_violated : render upper (createQuery (classTable low {} (model [("A", [("", .text)])]) 0)) = none := by decide +kernel

open Example in
/-- The name of a class can contain a statement: this one creates a table `t`, removes the table `b` and creates no table for the class. -/
theorem C78_injection_violated :
    (render upper (createQuery (classTable low {} (model [("t(a); DROP TABLE b; --", [])]) 0))).bind lex =
    some ([.kw "CREATE".toList, .kw "TABLE".toList, .id "t".toList, .sym '(', .id "a".toList, .sym ')', .sym ';',
      .kw "DROP".toList, .kw "TABLE".toList, .id "b".toList, .sym ';']) := by decide +kernel

open Example in
/-- A name with a space is read as a shorter name and a type. -/
theorem C78_space_violated : ((render upper (createQuery (classTable low {} (model [("A", [("given name", .text)])]) 0))).bind lex).map
    (fun l => (l.drop 8).take 4) = some [.sym ',', .id "given".toList, .id "name".toList, .id "TEXT".toList] := by decide +kernel

open Example in
/-- Classes with names that differ in case (or of different packages) have the same table. -/
theorem C78_case_violated : ¬ NoClash ([0, 1].flatMap fun c => (classStmts false (fun c => (model [("Item", []), ("ITEM", [])] c).name.map low)
    (model [("Item", []), ("ITEM", [])]) c).flatten) := by
  intro h
  exact absurd h.1 (by decide +kernel)

def clash (b : Bool) (cs : List (String × List (String × Kind))) : List Stmt :=
  (List.range cs.length).flatMap fun c =>
    (classStmts b (fun c => (Example.model cs c).name.map Example.low) (Example.model cs) c).flatten

/-- The table of a class can be the table of a list of another class. -/
theorem C78_list_violated : ¬ NoClash (clash false [("A", [("b", .dataList)]), ("A_b", [])]) := by
  intro h
  exact absurd h.1 (by decide +kernel)

/-- An index can have the name of another index, or of a table. -/
theorem C78_index_violated :
    ¬ NoClash (clash false [("A", [("a_f_a", .dataList)]), ("A_a", [("f", .dataList)])]) ∧
    ¬ NoClash (clash false [("A", [("f", .dataList)]), ("Idx", [("a_f_aID_idx", .dataList)])]) := by
  constructor <;> intro h <;> exact absurd h.1 (by decide +kernel)

/-- A feature can have the name of the key, or of the position; or two features differ in case. -/
theorem C78_column_violated :
    ¬ NoClash (clash false [("Item", [("itemID", .integer)])]) ∧ ¬ NoClash (clash false [("Item", [("idx", .dataList)])]) ∧
    ¬ NoClash (clash false [("Item", [("a", .integer), ("A", .text)])]) := by
  refine ⟨?_, ?_, ?_⟩ <;> intro h <;> exact absurd h.2 (by decide +kernel)

/-- `NULL` is not found in a list that has it. -/
theorem C78_null_violated : ∃ (le : Option Nat → Option Nat → Bool) (table : List (Row (Option Nat))), Antisymm le ∧
    ListOf le table "aID".toList "f".toList (some 1) [none] ∧
    ({ table := "a_f".toList, conds := [.eq "aID".toList, .eq "f".toList] } : Query).rows le [some 1, none] 0 0 table = [] := by
  refine ⟨fun a b => match a, b with | some a, some b => decide (a ≤ b) | _, _ => false,
    [⟨1, fun c => if c = "aID".toList then some 1 else if c = "idx".toList then some 5 else none⟩], ?_, ?_, rfl⟩
  · intro a b h1 h2
    cases a <;> cases b <;> simp at h1 h2 ⊢
    omega
  · exact ⟨[⟨1, fun c => if c = "aID".toList then some 1 else if c = "idx".toList then some 5 else none⟩], .refl _,
      List.pairwise_singleton .., by decide +kernel⟩

end Verif.SQLText
