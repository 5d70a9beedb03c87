import Verif.Proofs.SQLTextQueries

/-!
# Creation of tables and insertion of rows
-/

namespace Verif.SQLText

open Spec

variable {up : Char → Char} {t : Table} {k c : Text}

/-! ## Lists of columns -/

theorem sep_cons (p : List Tok) (ps : List (List Tok)) : sep (p :: ps) = p ++ ps.flatMap (.sym ',' :: ·) := by
  induction ps generalizing p with
  | nil => simp [sep]
  | cons q ps ih => simp [sep, ih]

theorem sep_append {a b : List (List Tok)} (h : a ≠ []) : sep (a ++ b) = sep a ++ b.flatMap (.sym ',' :: ·) := by
  cases a with
  | nil => exact absurd rfl h
  | cons p a => rw [List.cons_append, sep_cons, sep_cons]; simp

theorem toks_commas (l : List (List Piece)) : toks (commas l) = sep (l.map toks) := by
  cases l with
  | nil => rfl
  | cons p l =>
    rw [List.map_cons, sep_cons]
    simp only [commas, toks_append]
    congr 1
    induction l with
    | nil => rfl
    | cons q l ih =>
      rw [List.flatMap_cons, toks_append, ih, List.map_cons, List.flatMap_cons]
      congr 1

theorem fits_more (l : List (List Piece)) (h : ∀ q ∈ l, fits false q = true) : ∀ o, fits o (l.flatMap fun q => w "," :: q) = true := by
  induction l with
  | nil => intro o; rfl
  | cons q l ih =>
    intro o
    rw [List.flatMap_cons, List.cons_append, fits, fits_append, ih fun r hr => h r (List.mem_cons_of_mem _ hr)]
    have h1 : pieceBreaks (w ",") = true := by decide
    have h2 : pieceOpens (w ",") = false := by decide
    rw [h1, h2, h q (List.mem_cons_self ..)]
    simp

theorem fits_commas (l : List (List Piece)) (h : ∀ q ∈ l, fits false q = true) : fits false (commas l) = true := by
  cases l with
  | nil => rfl
  | cons q l =>
    rw [commas, fits_append, h q (List.mem_cons_self ..), fits_more l fun r hr => h r (List.mem_cons_of_mem _ hr)]
    rfl

theorem ok_commas {l : List (List Piece)} (h : ∀ q ∈ l, ∀ p ∈ q, p.Ok) : ∀ p ∈ commas l, p.Ok := by
  cases l with
  | nil => simp [commas]
  | cons q l =>
    intro p hp
    simp only [commas, List.mem_append, List.mem_flatMap, List.mem_cons] at hp
    rcases hp with hp | ⟨r, hr, rfl | hp⟩
    · exact h q (List.mem_cons_self ..) p hp
    · exact okw (by decide)
    · exact h r (List.mem_cons_of_mem _ hr) p hp

theorem opens_name (x : Text) : pieceOpens (.name x) = true := rfl
theorem breaks_name (x : Text) : pieceBreaks (.name x) = false := rfl
theorem opens_lit (x : Text) : pieceOpens (.lit x) = opens x := rfl

/-- pieces that begin with a break fit after anything -/
theorem fits_any {p : Piece} {ps : List Piece} (hb : pieceBreaks p = true) (o : Bool) : fits o (p :: ps) = fits false (p :: ps) := by
  simp [fits, hb]

def types : List Text := ["INTEGER".toList, "TEXT".toList, "REAL".toList, "BLOB".toList]

/-- a table all of whose names can be read -/
structure TableOk (t : Table) : Prop where
  name : Good t.name
  key : ∀ k, t.key = some k → Good k
  nonempty : t.columns ≠ []
  columns : ∀ c ∈ t.columns, Good c.name ∧ c.type ∈ types ∧ ∀ table key, c.reference = some (table, key) → Good table ∧ Good key
  indexes : ∀ i ∈ t.indexes, ∀ c ∈ i, Good c

theorem type_ok {ty : Text} (h : ty ∈ types) : okText ty = true ∧ toksOf ty = [.id ty] ∧ opens ty = true ∧ brk ty = false := by
  have hall : ∀ ty ∈ types, okText ty = true ∧ toksOf ty = [.id ty] ∧ opens ty = true ∧ brk ty = false := by decide +kernel
  exact hall ty h

theorem toks_column (c : Column) (h : c.type ∈ types) :
    toks (columnPieces c) = ColumnDef.tokens ⟨c.name, c.type, c.primary, c.auto⟩ := by
  obtain ⟨n, ty, p, a, r⟩ := c
  simp only [types, List.mem_cons, List.not_mem_nil, or_false] at h
  rcases h with rfl | rfl | rfl | rfl <;> cases p <;> cases a <;> rfl

theorem fits_column (c : Column) (h : c.type ∈ types) : fits false (columnPieces c) = true := by
  obtain ⟨n, ty, p, a, r⟩ := c
  simp only [types, List.mem_cons, List.not_mem_nil, or_false] at h
  rcases h with rfl | rfl | rfl | rfl <;> cases p <;> cases a <;> rfl

theorem ok_column {c : Column} (h1 : Good c.name) (h : c.type ∈ types) : ∀ p ∈ columnPieces c, p.Ok := by
  have h2 : (Piece.lit c.type).Ok := (type_ok h).1
  have a1 : (w " ").Ok := okw (by decide)
  have a2 : (w " PRIMARY KEY").Ok := okw (by decide)
  have a3 : (w " AUTOINCREMENT").Ok := okw (by decide)
  have h3 : (Piece.name c.name).Ok := h1
  intro p hp
  unfold columnPieces at hp
  cases hpr : c.primary <;> cases ha : c.auto <;> simp [hpr, ha] at hp <;> rcases hp with rfl | rfl | rfl | hp <;> try assumption
  · subst hp; exact a2
  · rcases hp with rfl | rfl <;> assumption

/-- the foreign keys of a table -/
def foreign (t : Table) : List (Text × Text × Text) := t.columns.filterMap fun c => c.reference.map fun r => (c.name, r.1, r.2)

def foreignToks (f : Text × Text × Text) : List Tok :=
  kws ["FOREIGN", "KEY"] ++ [.sym '(', .id f.1, .sym ')', .kw "REFERENCES".toList, .id f.2.1, .sym '(', .id f.2.2, .sym ')']

theorem toks_references (l : List Column) : toks (l.flatMap referencePieces) =
    ((l.filterMap fun c => c.reference.map fun r => (c.name, r.1, r.2)).map foreignToks).flatMap (.sym ',' :: ·) := by
  induction l with
  | nil => rfl
  | cons c l ih =>
    rw [List.flatMap_cons, toks_append, ih]
    rcases hr : c.reference with _ | ⟨table, key⟩
    · simp [referencePieces, hr, toks]
    · simp only [List.filterMap_cons, hr, Option.map_some, List.map_cons, List.flatMap_cons]
      congr 1
      simp only [referencePieces, hr]
      rfl

theorem fits_references (l : List Column) : ∀ o, fits o (l.flatMap referencePieces) = true := by
  induction l with
  | nil => intro o; rfl
  | cons c l ih =>
    intro o
    rw [List.flatMap_cons, fits_append, ih, Bool.and_true]
    rcases hr : c.reference with _ | ⟨table, key⟩
    · simp [referencePieces, hr, fits]
    · simp only [referencePieces, hr]
      rw [fits_any (by decide)]
      rfl

theorem ok_references {l : List Column} (h : ∀ c ∈ l, Good c.name ∧ ∀ table key, c.reference = some (table, key) → Good table ∧ Good key) :
    ∀ p ∈ l.flatMap referencePieces, p.Ok := by
  intro p hp
  obtain ⟨c, hc, hp⟩ := List.mem_flatMap.1 hp
  obtain ⟨h1, h2⟩ := h c hc
  rcases hr : c.reference with _ | ⟨table, key⟩
  · simp [referencePieces, hr] at hp
  · obtain ⟨g1, g2⟩ := h2 table key hr
    clear h
    have : ∀ p ∈ referencePieces c, p.Ok := by
      simp only [referencePieces, hr, List.forall_mem_cons]
      exact ⟨okw (by decide), h1, okw (by decide), g1, okw (by decide), g2, okw (by decide), by simp⟩
    exact this p hp

theorem names_facts {l : List Text} (h : ∀ c ∈ l, Good c) :
    fits false (commas (l.map fun c => [Piece.name c])) = true ∧ (∀ p ∈ commas (l.map fun c => [Piece.name c]), p.Ok) ∧
    toks (commas (l.map fun c => [Piece.name c])) = sep (l.map fun c => [.id c]) := by
  refine ⟨fits_commas _ ?_, ok_commas ?_, ?_⟩
  · intro q hq; obtain ⟨c, _, rfl⟩ := List.mem_map.1 hq; rfl
  · intro q hq p hp
    obtain ⟨c, hc, rfl⟩ := List.mem_map.1 hq
    simp at hp; subst hp; exact h c hc
  · rw [toks_commas, List.map_map]; rfl

/-- the name of an index -/
def indexName (table : Text) (index : List Text) : Text := "idx_".toList ++ table ++ index.flatMap fun c => '_' :: c

theorem index_lit {table : Text} {index : List Text} (h1 : '"' ∉ table) (h2 : ∀ c ∈ index, '"' ∉ c) :
    let l := "\"idx_".toList ++ table ++ index.flatMap (fun c => '_' :: c) ++ "\" ON ".toList
    okText l = true ∧ toksOf l = [.id (indexName table index), .kw "ON".toList] ∧ opens l = false := by
  have hq : '"' ∉ indexName table index := by
    unfold indexName
    simp only [List.mem_append, List.mem_flatMap, List.mem_cons, not_or, not_exists, not_and]
    exact ⟨⟨by decide, h1⟩, fun c hc => ⟨by decide, h2 c hc⟩⟩
  have hl : "\"idx_".toList ++ table ++ index.flatMap (fun c => '_' :: c) ++ "\" ON ".toList =
      ('"' :: indexName table index ++ ['"']) ++ " ON ".toList := by
    have e1 : "\"idx_".toList = '"' :: "idx_".toList := by decide
    have e2 : "\" ON ".toList = '"' :: " ON ".toList := by decide
    rw [e1, e2]
    simp [indexName]
  have hf : feedAll .start (('"' :: indexName table index ++ ['"']) ++ " ON ".toList) =
      (.start, [.id (indexName table index), .kw "ON".toList]) := by
    rw [feedAll_append, feedAll_quote hq]
    have := feedAll_break (s := .quoteEnd (indexName table index)) rfl (by simp) (a := " ON ".toList) (by decide)
    rw [this]
    have h0 : feedAll .start " ON ".toList = (.start, [.kw "ON".toList]) := by decide
    rw [h0]; rfl
  simp only
  rw [hl]
  refine ⟨?_, ?_, ?_⟩
  · unfold okText; rw [hf]; simp [finish]
  · unfold toksOf lex; rw [hf]; rfl
  · unfold opens; rw [hf]; rfl

theorem ifNot_facts (t : Table) : toks (ifNotExists t) = ifNot t.createIfNotExists ∧ fits false (ifNotExists t) = true ∧
    opensAfter false (ifNotExists t) = false ∧ ∀ p ∈ ifNotExists t, p.Ok := by
  unfold ifNotExists
  cases t.createIfNotExists with
  | false => exact ⟨rfl, rfl, rfl, by simp⟩
  | true => exact ⟨rfl, by decide, by decide, by
      intro p hp; simp at hp; subst hp; exact okw (by decide)⟩

theorem index_facts (h : TableOk t) {index : List Text} (hi : index ∈ t.indexes) :
    toks (indexPieces t index) = Stmt.tokens (.createIndex t.createIfNotExists (indexName t.name index) t.name index) ∧
    (∀ o, fits o (indexPieces t index) = true) ∧ ∀ p ∈ indexPieces t index, p.Ok := by
  obtain ⟨n1, n2, n3⟩ := names_facts (h.indexes index hi)
  obtain ⟨l1, l2, l3⟩ := index_lit h.name.quote (fun c hc => (h.indexes index hi c hc).quote)
  obtain ⟨i1, i2, i3, i4⟩ := ifNot_facts t
  unfold indexPieces
  refine ⟨?_, ?_, ?_⟩
  · have e1 : toks [w "\n", w "CREATE INDEX "] = kws ["CREATE", "INDEX"] := by decide
    have e2 : ∀ l, toks (w ");" :: l) = .sym ')' :: .sym ';' :: toks l := fun l => rfl
    have e3 : ∀ l, toks (w "(" :: l) = .sym '(' :: toks l := fun l => rfl
    have e4 : ∀ (x : Text) l, toks (.lit x :: l) = toksOf x ++ toks l := fun _ _ => rfl
    have e5 : ∀ (x : Text) l, toks (.name x :: l) = .id x :: toks l := fun _ _ => rfl
    have e6 : ∀ l, toks (w "\n" :: w "CREATE INDEX " :: l) = kws ["CREATE", "INDEX"] ++ toks l := fun l => rfl
    simp only [List.cons_append, e6, toks_append, e4, e5, e3, e2, n3, l2, i1, Stmt.tokens]
    simp [List.append_assoc, toks]
  · intro o
    rw [List.cons_append, List.cons_append, List.cons_append, fits_any (by decide)]
    have b1 : pieceBreaks (w "\n") = true ∧ pieceOpens (w "\n") = false := by decide
    have b2 : pieceOpens (w "CREATE INDEX ") = false := by decide
    have b3 : pieceBreaks (w "(") = true ∧ pieceOpens (w "(") = false := by decide
    have b4 : ∀ o, fits o [w ");"] = true := by decide
    have l3' := l3
    simp only [List.append_assoc] at l3'
    simp only [List.cons_append, List.append_assoc, List.nil_append]
    simp only [fits, fits_append, i2, i3, b1, b2, b3, b4, n1, l3',  opens_name, breaks_name, opens_lit, l3]
    simp
    exact Or.inr (by decide)
  · intro p hp
    simp only [List.cons_append, List.mem_cons, List.mem_append, List.not_mem_nil, or_false, or_assoc] at hp
    rcases hp with rfl | rfl | hp | rfl | rfl | rfl | hp | rfl
    · exact okw (by decide)
    · exact okw (by decide)
    · exact i4 p hp
    · exact l1
    · exact h.name
    · exact okw (by decide)
    · exact n2 p hp
    · exact okw (by decide)

theorem indexes_facts (h : TableOk t) (l : List (List Text)) (hl : ∀ i ∈ l, i ∈ t.indexes) :
    toks (l.flatMap (indexPieces t)) = (l.map fun i => Stmt.createIndex t.createIfNotExists (indexName t.name i) t.name i).flatMap Stmt.tokens ∧
    (∀ o, fits o (l.flatMap (indexPieces t)) = true) ∧ ∀ p ∈ l.flatMap (indexPieces t), p.Ok := by
  induction l with
  | nil => exact ⟨rfl, fun _ => rfl, by simp⟩
  | cons i l ih =>
    obtain ⟨a1, a2, a3⟩ := index_facts h (hl i (List.mem_cons_self ..))
    obtain ⟨b1, b2, b3⟩ := ih fun j hj => hl j (List.mem_cons_of_mem _ hj)
    rw [List.flatMap_cons]
    refine ⟨?_, ?_, ?_⟩
    · rw [toks_append, a1, b1]; rfl
    · intro o; rw [fits_append, a2, b2]; rfl
    · intro p hp
      rcases List.mem_append.1 hp with hp | hp
      · exact a3 p hp
      · exact b3 p hp

theorem reads_create (hup : CaseOk up) (h : TableOk t) : ∃ a, render up (createQuery t) = some a ∧
    Reads a (.createTable t.createIfNotExists t.name (t.columns.map fun c => ⟨c.name, c.type, c.primary, c.auto⟩) (foreign t) ::
      t.indexes.map fun i => .createIndex t.createIfNotExists (indexName t.name i) t.name i) := by
  obtain ⟨i1, i2, i3, i4⟩ := ifNot_facts t
  obtain ⟨x1, x2, x3⟩ := indexes_facts h t.indexes fun _ hi => hi
  have c1 : fits false (commas (t.columns.map columnPieces)) = true := by
    refine fits_commas _ ?_
    intro q hq
    obtain ⟨c, hc, rfl⟩ := List.mem_map.1 hq
    exact fits_column c (h.columns c hc).2.1
  have c2 : toks (commas (t.columns.map columnPieces)) = sep ((t.columns.map fun c => (⟨c.name, c.type, c.primary, c.auto⟩ : ColumnDef)).map ColumnDef.tokens) := by
    rw [toks_commas, List.map_map, List.map_map]
    congr 1
    refine List.map_congr_left ?_
    intro c hc
    exact toks_column c (h.columns c hc).2.1
  have c3 : ∀ p ∈ commas (t.columns.map columnPieces), p.Ok := by
    refine ok_commas ?_
    intro q hq
    obtain ⟨c, hc, rfl⟩ := List.mem_map.1 hq
    exact ok_column (h.columns c hc).1 (h.columns c hc).2.1
  have r3 := ok_references fun c hc => ⟨(h.columns c hc).1, (h.columns c hc).2.2⟩
  unfold createQuery
  refine reads_of hup ?_ ?_ ?_
  · have b1 : pieceOpens (w "CREATE TABLE ") = false := by decide
    have b2 : pieceBreaks (w " (") = true ∧ pieceOpens (w " (") = false := by decide
    have b3 : pieceBreaks (w ");") = true ∧ pieceOpens (w ");") = false := by decide
    simp only [List.cons_append, List.append_assoc, fits, fits_append, b1, b2, b3, i2, i3, c1, fits_references, x2, opens_name, breaks_name, opens_lit]
    simp
  · intro p hp
    simp only [List.cons_append, List.append_assoc, List.mem_cons, List.mem_append] at hp
    rcases hp with rfl | hp | rfl | rfl | hp | hp | rfl | hp
    · exact okw (by decide)
    · exact i4 p hp
    · exact h.name
    · exact okw (by decide)
    · exact c3 p hp
    · exact r3 p hp
    · exact okw (by decide)
    · exact x3 p hp
  · have e1 : ∀ l, toks (w "CREATE TABLE " :: l) = kws ["CREATE", "TABLE"] ++ toks l := fun _ => rfl
    have e2 : ∀ l, toks (w " (" :: l) = .sym '(' :: toks l := fun _ => rfl
    have e3 : ∀ l, toks (w ");" :: l) = .sym ')' :: .sym ';' :: toks l := fun _ => rfl
    have e5 : ∀ (x : Text) l, toks (.name x :: l) = .id x :: toks l := fun _ _ => rfl
    simp only [List.cons_append, e1, toks_append, e5, e2, e3, i1, c2, toks_references, x1, List.flatMap_cons, Stmt.tokens]
    rw [sep_append (by simpa using h.nonempty)]
    simp only [List.append_assoc, List.cons_append, List.nil_append, foreign]
    rfl

/-! ## Insertions -/

theorem insert_facts (h : TableOk t) :
    (∀ q, fits true (w ") RETURNING " :: q) = true → fits false (insertPieces t ++ w ") RETURNING " :: q) = true) ∧
    fits false (insertPieces t ++ [w ")"]) = true ∧ (∀ p ∈ insertPieces t, p.Ok) ∧
    toks (insertPieces t) = .id t.name :: .sym '(' :: sep ((t.columns.map Column.name).map fun c => [.id c]) ++
      .sym ')' :: .kw "VALUES".toList :: .sym '(' :: sep ((t.columns.map Column.name).map fun _ => [.param]) := by
  have hm : (t.columns.map fun c => [Piece.name c.name]) = (t.columns.map Column.name).map fun c => [Piece.name c] := by
    rw [List.map_map]; rfl
  obtain ⟨n1, n2, n3⟩ := names_facts (l := t.columns.map Column.name) (by
    intro c hc; obtain ⟨d, hd, rfl⟩ := List.mem_map.1 hc; exact (h.columns d hd).1)
  have q1 : fits false (commas (t.columns.map fun _ => [w "?"])) = true := by
    refine fits_commas _ ?_
    intro q hq; obtain ⟨c, _, rfl⟩ := List.mem_map.1 hq; decide
  have q2 : ∀ p ∈ commas (t.columns.map fun _ => [w "?"]), p.Ok := by
    refine ok_commas ?_
    intro q hq p hp; obtain ⟨c, _, rfl⟩ := List.mem_map.1 hq
    simp at hp; subst hp; exact okw (by decide)
  have q3 : toks (commas (t.columns.map fun _ => [w "?"])) = sep ((t.columns.map Column.name).map fun _ => [.param]) := by
    rw [toks_commas, List.map_map, List.map_map]; rfl
  have b1 : pieceBreaks (w " (") = true ∧ pieceOpens (w " (") = false := by decide
  have b2 : pieceBreaks (w ") VALUES (") = true ∧ pieceOpens (w ") VALUES (") = false := by decide
  unfold insertPieces
  rw [hm]
  refine ⟨?_, ?_, ?_, ?_⟩
  · intro q hq
    have hq' : ∀ o, fits o (w ") RETURNING " :: q) = true := by
      intro o
      rw [fits_any (by decide)]
      rw [fits_any (by decide)] at hq
      exact hq
    simp only [List.cons_append, List.append_assoc, fits, fits_append, b1, b2, n1, q1, opens_name, breaks_name, opens_lit]
    have := hq' (opensAfter false (commas (t.columns.map fun _ => [w "?"])))
    simp only [fits, Bool.and_eq_true] at this
    simp [this.1, this.2]
  · have b4 : ∀ o, fits o [w ")"] = true := by decide
    simp only [List.cons_append, List.append_assoc, fits_append, b4, n1, q1]
    simp only [fits, fits_append, b1, b2, n1, q1, b4, opens_name, breaks_name, opens_lit]
    simp
    exact Or.inr (by decide)
  · intro p hp
    simp only [List.cons_append, List.mem_cons, List.mem_append] at hp
    rcases hp with rfl | rfl | hp | rfl | hp
    · exact h.name
    · exact okw (by decide)
    · exact n2 p hp
    · exact okw (by decide)
    · exact q2 p hp
  · have e2 : ∀ l, toks (w " (" :: l) = .sym '(' :: toks l := fun _ => rfl
    have e3 : ∀ l, toks (w ") VALUES (" :: l) = .sym ')' :: .kw "VALUES".toList :: .sym '(' :: toks l := fun _ => rfl
    have e5 : ∀ (x : Text) l, toks (.name x :: l) = .id x :: toks l := fun _ _ => rfl
    simp only [List.cons_append, toks_append, e5, e2, e3, n3, q3]

theorem reads_insert (hup : CaseOk up) (h : TableOk t) : ∃ a, render up (insertQuery t) = some a ∧
    Reads a [.insert false t.name (t.columns.map Column.name) (some (t.key.getD rowid))] := by
  obtain ⟨f1, -, f3, f4⟩ := insert_facts h
  have e1 : ∀ l, toks (w "INSERT INTO " :: l) = .kw "INSERT".toList :: .kw "INTO".toList :: toks l := fun _ => rfl
  have e2 : ∀ l, toks (w ") RETURNING " :: l) = .sym ')' :: .kw "RETURNING".toList :: toks l := fun _ => rfl
  have b1 : pieceOpens (w "INSERT INTO ") = false := by decide
  unfold insertQuery
  rcases hk : t.key with _ | k
  · refine reads_of hup ?_ ?_ ?_
    · simp only [List.cons_append, fits, b1]
      rw [f1 _ (by decide)]; rfl
    · intro p hp
      simp only [List.cons_append, List.mem_cons, List.mem_append, List.not_mem_nil, or_false] at hp
      rcases hp with rfl | hp | rfl | rfl
      · exact okw (by decide)
      · exact f3 p hp
      · exact okw (by decide)
      · exact okw (by decide)
    · simp only [List.cons_append, toks_append, e1, e2, f4, List.flatMap_cons, List.flatMap_nil, Stmt.tokens]
      simp only [List.append_assoc, List.cons_append]
      rfl
  · refine reads_of hup ?_ ?_ ?_
    · simp only [List.cons_append, fits, b1]
      rw [f1 _ (by rfl)]; rfl
    · intro p hp
      simp only [List.cons_append, List.mem_cons, List.mem_append, List.not_mem_nil, or_false] at hp
      rcases hp with rfl | hp | rfl | rfl
      · exact okw (by decide)
      · exact f3 p hp
      · exact okw (by decide)
      · exact h.key k hk
    · simp only [List.cons_append, toks_append, e1, e2, f4, List.flatMap_cons, List.flatMap_nil, Stmt.tokens]
      simp only [List.append_assoc, List.cons_append]
      rfl

theorem reads_insertOrReplace (hup : CaseOk up) (h : TableOk t) : ∃ a, render up (insertOrReplaceQuery t) = some a ∧
    Reads a [.insert true t.name (t.columns.map Column.name) none] := by
  obtain ⟨-, f2, f3, f4⟩ := insert_facts h
  have e1 : ∀ l, toks (w "INSERT OR REPLACE INTO " :: l) = .kw "INSERT".toList :: kws ["OR", "REPLACE"] ++ .kw "INTO".toList :: toks l := fun _ => rfl
  have e2 : toks [w ")"] = [.sym ')'] := rfl
  have b1 : pieceOpens (w "INSERT OR REPLACE INTO ") = false := by decide
  unfold insertOrReplaceQuery
  refine reads_of hup ?_ ?_ ?_
  · simp only [List.cons_append, fits, b1]
    rw [f2]; rfl
  · intro p hp
    simp only [List.cons_append, List.mem_cons, List.mem_append, List.not_mem_nil, or_false] at hp
    rcases hp with rfl | hp | rfl
    · exact okw (by decide)
    · exact f3 p hp
    · exact okw (by decide)
  · simp only [List.cons_append, toks_append, e1, e2, f4, List.flatMap_cons, List.flatMap_nil, Stmt.tokens]
    simp only [List.append_assoc, List.cons_append, if_true]
    rfl

end Verif.SQLText
