import Verif.Model.SQLText

/-!
# What the text of SQL statements means

How SQLite reads a text (its tokenizer), the form of the statements, and what they do.  Names of tables and columns are the same for
SQLite if they differ only in the case of ASCII letters.
-/

namespace Verif.SQLText.Spec

open Verif.SQLText (Text)

/-! ## Tokens -/

inductive Tok where
  | kw (t : Text)
  | id (t : Text)
  | sym (c : Char)
  | num (t : Text)
  | param
deriving DecidableEq, Repr

/-- https://www.sqlite.org/lang_keywords.html -/
def keywords : List Text :=
  ["ABORT", "ACTION", "ADD", "AFTER", "ALL", "ALTER", "ALWAYS", "ANALYZE", "AND", "AS", "ASC", "ATTACH", "AUTOINCREMENT",
   "BEFORE", "BEGIN", "BETWEEN", "BY", "CASCADE", "CASE", "CAST", "CHECK", "COLLATE", "COLUMN", "COMMIT", "CONFLICT", "CONSTRAINT",
   "CREATE", "CROSS", "CURRENT", "CURRENT_DATE", "CURRENT_TIME", "CURRENT_TIMESTAMP", "DATABASE", "DEFAULT", "DEFERRABLE", "DEFERRED",
   "DELETE", "DESC", "DETACH", "DISTINCT", "DO", "DROP", "EACH", "ELSE", "END", "ESCAPE", "EXCEPT", "EXCLUDE", "EXCLUSIVE", "EXISTS",
   "EXPLAIN", "FAIL", "FILTER", "FIRST", "FOLLOWING", "FOR", "FOREIGN", "FROM", "FULL", "GENERATED", "GLOB", "GROUP", "GROUPS",
   "HAVING", "IF", "IGNORE", "IMMEDIATE", "IN", "INDEX", "INDEXED", "INITIALLY", "INNER", "INSERT", "INSTEAD", "INTERSECT", "INTO",
   "IS", "ISNULL", "JOIN", "KEY", "LAST", "LEFT", "LIKE", "LIMIT", "MATCH", "MATERIALIZED", "NATURAL", "NO", "NOT", "NOTHING", "NOTNULL",
   "NULL", "NULLS", "OF", "OFFSET", "ON", "OR", "ORDER", "OTHERS", "OUTER", "OVER", "PARTITION", "PLAN", "PRAGMA", "PRECEDING",
   "PRIMARY", "QUERY", "RAISE", "RANGE", "RECURSIVE", "REFERENCES", "REGEXP", "REINDEX", "RELEASE", "RENAME", "REPLACE", "RESTRICT",
   "RETURNING", "RIGHT", "ROLLBACK", "ROW", "ROWS", "SAVEPOINT", "SELECT", "SET", "TABLE", "TEMP", "TEMPORARY", "THEN", "TIES", "TO",
   "TRANSACTION", "TRIGGER", "UNBOUNDED", "UNION", "UNIQUE", "UPDATE", "USING", "VACUUM", "VALUES", "VIEW", "VIRTUAL", "WHEN", "WHERE",
   "WINDOW", "WITH", "WITHOUT"].map String.toList

/-- ASCII letters in upper case -/
def upper (c : Char) : Char := if 97 ≤ c.toNat ∧ c.toNat ≤ 122 then Char.ofNat (c.toNat - 32) else c

def isLetter (c : Char) : Bool := (65 ≤ c.toNat && c.toNat ≤ 90) || (97 ≤ c.toNat && c.toNat ≤ 122)
def isDigit (c : Char) : Bool := 48 ≤ c.toNat && c.toNat ≤ 57

/-- characters names begin with, and go on with -/
def idStart (c : Char) : Bool := isLetter c || c = '_' || 128 ≤ c.toNat
def idChar (c : Char) : Bool := idStart c || isDigit c || c = '$'

def isSpace (c : Char) : Bool := c = ' ' || c = '\n' || c = '\t' || c = '\r' || c = '\x0c'

/-- a word is a keyword or a name -/
def word (t : Text) : Tok := if t.map upper ∈ keywords then .kw (t.map upper) else .id t

/-- what the tokenizer is in -/
inductive State where
  | start
  | word (t : Text)
  | quoted (t : Text)
  | quoteEnd (t : Text)
  | number (t : Text)
  | param
  | dash
  | comment
  | bad
deriving DecidableEq, Repr

/-- a character that begins a token -/
def first (c : Char) : State × List Tok :=
  if isSpace c then (.start, [])
  else if idStart c then (.word [c], [])
  else if isDigit c then (.number [c], [])
  else if c = '"' then (.quoted [], [])
  else if c = '?' then (.param, [])
  else if c = '-' then (.dash, [])
  else if c ∈ "(),;=<>*.+".toList then (.start, [.sym c])
  else (.bad, [])

def out (t : Tok) (r : State × List Tok) : State × List Tok := (r.1, t :: r.2)

/-- One character.  Names are words, or in double quotes (a double quote in a name is written twice); comments begin with `--`.  Other ways to
write names, texts, numbers and comments are not read (`bad`). -/
def feed : State → Char → State × List Tok
  | .start, c => first c
  | .word t, c => if idChar c then (.word (t ++ [c]), []) else out (Spec.word t) (first c)
  | .quoted t, c => if c = '"' then (.quoteEnd t, []) else (.quoted (t ++ [c]), [])
  | .quoteEnd t, c => if c = '"' then (.quoted (t ++ [c]), []) else out (.id t) (first c)
  | .number t, c => if isDigit c then (.number (t ++ [c]), []) else if idChar c then (.bad, []) else out (.num t) (first c)
  | .param, c => if idChar c then (.bad, []) else out .param (first c)
  | .dash, c => if c = '-' then (.comment, []) else out (.sym '-') (first c)
  | .comment, c => if c = '\n' then (.start, []) else (.comment, [])
  | .bad, _ => (.bad, [])

def feedAll : State → Text → State × List Tok
  | s, [] => (s, [])
  | s, c :: t => let r := feed s c; let q := feedAll r.1 t; (q.1, r.2 ++ q.2)

def finish : State → Option (List Tok)
  | .start => some []
  | .word t => some [Spec.word t]
  | .quoted _ => none
  | .quoteEnd t => some [.id t]
  | .number t => some [.num t]
  | .param => some [.param]
  | .dash => some [.sym '-']
  | .comment => some []
  | .bad => none

/-- the tokens of a text -/
def lex (t : Text) : Option (List Tok) := let r := feedAll .start t; (finish r.1).map (r.2 ++ ·)

/-- a name that is read as itself without quotes -/
def Plain : Text → Bool
  | [] => false
  | c :: t => idStart c && t.all idChar

/-- the same name for SQLite -/
def fold (t : Text) : Text := t.map upper

/-! ## Statements -/

def kws (l : List String) : List Tok := l.map fun s => .kw s.toList

def sep : List (List Tok) → List Tok
  | [] => []
  | [p] => p
  | p :: ps => p ++ .sym ',' :: sep ps

structure ColumnDef where
  name : Text
  type : Text
  primary : Bool
  auto : Bool
deriving DecidableEq, Repr

/-- A condition: the column is, or is below, a parameter. -/
inductive Cond where
  | eq (column : Text)
  | lt (column : Text)
deriving DecidableEq, Repr

inductive Count where
  | none
  | one
  | param
deriving DecidableEq, Repr

/-- `SELECT … FROM table WHERE … ORDER BY … LIMIT … OFFSET ?`; `order` tells which columns the rows are ordered by, `true` for ascending. -/
structure Query where
  table : Text
  conds : List Cond := []
  order : List (Text × Bool) := []
  limit : Count := .none
  offset : Bool := false
deriving DecidableEq, Repr

/-- What is asked for: all columns, some columns, the number of rows, or whether there are any. -/
inductive Wanted where
  | all
  | columns (l : List Text)
  | count
  | exists
deriving DecidableEq, Repr

/-- The rows an update or deletion is for. -/
inductive Rows where
  | matching (conds : List Cond)
  | among (q : Query)
deriving DecidableEq, Repr

inductive Stmt where
  | createTable (ifNotExists : Bool) (name : Text) (columns : List ColumnDef) (foreign : List (Text × Text × Text))
  | createIndex (ifNotExists : Bool) (name table : Text) (columns : List Text)
  | insert (orReplace : Bool) (table : Text) (columns : List Text) (returning : Option Text)
  | select (wanted : Wanted) (q : Query)
  | update (table column : Text) (rows : Rows) (returning : Option Text)
  | delete (table : Text) (rows : Rows) (returning : Option Text)
deriving DecidableEq, Repr

def rowid : Text := "rowid".toList

def ifNot (b : Bool) : List Tok := if b then kws ["IF", "NOT", "EXISTS"] else []

def ColumnDef.tokens (c : ColumnDef) : List Tok :=
  [.id c.name, .id c.type] ++ if c.primary then kws ["PRIMARY", "KEY"] ++ (if c.auto then kws ["AUTOINCREMENT"] else []) else []

def Cond.tokens : Cond → List Tok
  | .eq c => [.id c, .sym '=', .param]
  | .lt c => [.id c, .sym '<', .param]

def conds : List Cond → List Tok
  | [] => []
  | [c] => c.tokens
  | c :: cs => c.tokens ++ .kw "AND".toList :: conds cs

def filterTokens (l : List Cond) : List Tok := if l = [] then [] else .kw "WHERE".toList :: conds l

/-- what follows `SELECT …` -/
def Query.tokens (q : Query) : List Tok :=
  .kw "FROM".toList :: .id q.table :: filterTokens q.conds ++
    (if q.order = [] then [] else kws ["ORDER", "BY"] ++ sep (q.order.map fun o => [.id o.1, if o.2 then .kw "ASC".toList else .kw "DESC".toList])) ++
    (match q.limit with | .none => [] | .one => [.kw "LIMIT".toList, .num "1".toList] | .param => [.kw "LIMIT".toList, .param]) ++
    if q.offset then [.kw "OFFSET".toList, .param] else []

def Wanted.tokens (q : List Tok) : Wanted → List Tok
  | .all => .kw "SELECT".toList :: .sym '*' :: q
  | .columns l => .kw "SELECT".toList :: sep (l.map fun c => [.id c]) ++ q
  | .count => .kw "SELECT".toList :: .id "COUNT".toList :: .sym '(' :: .sym '*' :: .sym ')' :: q
  | .exists => .kw "SELECT".toList :: .kw "EXISTS".toList :: .sym '(' :: .kw "SELECT".toList :: .num "1".toList :: q ++ [.sym ')']

def Rows.tokens : Rows → List Tok
  | .matching l => filterTokens l
  | .among q => .kw "WHERE".toList :: .id rowid :: .kw "IN".toList :: .sym '(' :: .kw "SELECT".toList :: .id rowid :: q.tokens ++ [.sym ')']

def returning : Option Text → List Tok
  | none => []
  | some c => [.kw "RETURNING".toList, .id c]

/-- the tokens of a statement -/
def Stmt.tokens : Stmt → List Tok
  | .createTable b n cs fs =>
    kws ["CREATE", "TABLE"] ++ ifNot b ++ .id n :: .sym '(' ::
      sep (cs.map ColumnDef.tokens ++ fs.map fun f => kws ["FOREIGN", "KEY"] ++ [.sym '(', .id f.1, .sym ')', .kw "REFERENCES".toList,
        .id f.2.1, .sym '(', .id f.2.2, .sym ')']) ++ [.sym ')', .sym ';']
  | .createIndex b n t cs =>
    kws ["CREATE", "INDEX"] ++ ifNot b ++ [.id n, .kw "ON".toList, .id t, .sym '('] ++ sep (cs.map fun c => [.id c]) ++ [.sym ')', .sym ';']
  | .insert r t cs k =>
    .kw "INSERT".toList :: (if r then kws ["OR", "REPLACE"] else []) ++ .kw "INTO".toList :: .id t :: .sym '(' :: sep (cs.map fun c => [.id c]) ++
      .sym ')' :: .kw "VALUES".toList :: .sym '(' :: sep (cs.map fun _ => [.param]) ++ .sym ')' :: returning k
  | .select wanted q => wanted.tokens q.tokens
  | .update t c rows k => .kw "UPDATE".toList :: .id t :: .kw "SET".toList :: .id c :: .sym '=' :: .param :: rows.tokens ++ returning k
  | .delete t rows k => kws ["DELETE", "FROM"] ++ .id t :: rows.tokens ++ returning k

/-- SQLite reads the text as these statements. -/
def Reads (text : Text) (stmts : List Stmt) : Prop := lex text = some (stmts.flatMap Stmt.tokens)

/-! ## What the statements do

Rows have numbers (`rowid`) and a value in each column; values are in an order `le`.  `NULL` is not comparable, not even to itself. -/

variable {V : Type} [DecidableEq V] (le : V → V → Bool)

structure Row (V : Type) where
  rowid : Nat
  cell : Text → V

def Cond.holds (le : V → V → Bool) (row : Row V) : Cond → V → Bool
  | .eq c, v => decide (row.cell c = v) && le v v
  | .lt c, v => le (row.cell c) v && decide (row.cell c ≠ v)

/-- all conditions hold, each with its parameter -/
def holdAll (row : Row V) : List Cond → List V → Bool
  | [], _ => true
  | c :: cs, v :: vs => c.holds le row v && holdAll row cs vs
  | _ :: _, [] => false

/-- the order of the rows -/
def before (a b : Row V) : List (Text × Bool) → Bool
  | [] => true
  | (c, asc) :: l =>
    if a.cell c = b.cell c then before a b l else if asc then le (a.cell c) (b.cell c) else le (b.cell c) (a.cell c)

def insertRow (order : List (Text × Bool)) (a : Row V) : List (Row V) → List (Row V)
  | [] => [a]
  | b :: l => if before le a b order then a :: b :: l else b :: insertRow order a l

def sortRows (order : List (Text × Bool)) : List (Row V) → List (Row V)
  | [] => []
  | a :: l => insertRow le order a (sortRows order l)

/-- The rows of a query: `args` are the parameters of the conditions, `limit` and `offset` those of `LIMIT` and `OFFSET`. -/
def Query.rows (q : Query) (args : List V) (limit offset : Nat) (table : List (Row V)) : List (Row V) :=
  let found := sortRows le q.order (table.filter fun r => holdAll le r q.conds args)
  let rest := if q.offset then found.drop offset else found
  match q.limit with
  | .none => rest
  | .one => rest.take 1
  | .param => rest.take limit

def Rows.chosen (rows : Rows) (args : List V) (offset : Nat) (table : List (Row V)) (r : Row V) : Bool :=
  match rows with
  | .matching l => holdAll le r l args
  | .among q => decide (r.rowid ∈ (q.rows le args 0 offset table).map Row.rowid)

/-- the column `column` of a row set to `v` -/
def Row.put (r : Row V) (column : Text) (v : V) : Row V := ⟨r.rowid, fun c => if c = column then v else r.cell c⟩

/-- the table after `UPDATE table SET column = v` -/
def updated (column : Text) (v : V) (rows : Rows) (args : List V) (offset : Nat) (table : List (Row V)) : List (Row V) :=
  table.map fun r => if rows.chosen le args offset table r then r.put column v else r

/-- the table after `DELETE FROM table` -/
def deleted (rows : Rows) (args : List V) (offset : Nat) (table : List (Row V)) : List (Row V) :=
  table.filter fun r => !rows.chosen le args offset table r

/-- The list of object `o` in a table with the object in column `key`, the position in `idx` and the value in `value`: the values of the rows of the
object, in the order of their positions, that are all different. -/
def ListOf (table : List (Row V)) (key value : Text) (o : V) (l : List V) : Prop :=
  ∃ rows : List (Row V), rows.Perm (table.filter fun r => decide (r.cell key = o)) ∧
    rows.Pairwise (fun a b => le (a.cell "idx".toList) (b.cell "idx".toList) = true ∧ a.cell "idx".toList ≠ b.cell "idx".toList) ∧
    rows.map (fun r => r.cell value) = l

/-- `le` is an order (of the values of a column that can be compared) -/
def Antisymm : Prop := ∀ a b, le a b = true → le b a = true → a = b

/-! ## The statements a metamodel should lead to -/

open Verif.SQLText (Class Feature Kind)

/-- How a single value is stored: the type of the column, and the table and the key referred to. -/
def single (table : Nat → Text) : Kind → Option (String × Option (Text × Text))
  | .object r => some ("INTEGER", some (table r, table r ++ "ID".toList))
  | .objectReference => some ("TEXT", none)
  | .enum => some ("INTEGER", some (".enums".toList, "enumID".toList))
  | .real => some ("REAL", none)
  | .integer => some ("INTEGER", none)
  | .text => some ("TEXT", none)
  | .blob => some ("BLOB", none)
  | .transient | .objectList _ | .objectReferenceList | .dataList => none

/-- How the values of a list are stored: the column, its type, and the table and the key referred to. -/
def many (table : Nat → Text) (f : Feature) : Option (Text × String × Option (Text × Text)) :=
  match f.kind with
  | .objectList r => some (f.name, "INTEGER", some (table r, table r ++ "ID".toList))
  | .objectReferenceList => some ("uri".toList, "TEXT", none)
  | .dataList => some (f.name, "TEXT", none)
  | _ => none

/-- For a class: a table with a number for each object and the single values, and a table for each list, with the number of the object, the
position and the value, and an index. -/
def classStmts (b : Bool) (table : Nat → Text) (m : Nat → Class) (c : Nat) : List (List Stmt) :=
  let key := table c ++ "ID".toList
  [.createTable b (table c)
    (⟨key, "INTEGER".toList, true, false⟩ ::
      (m c).features.filterMap fun f => (single table f.kind).map fun s => ⟨f.name, s.1.toList, false, false⟩)
    ((m c).features.filterMap fun f => (single table f.kind).bind fun s => s.2.map fun r => (f.name, r.1, r.2))] ::
  (m c).features.filterMap fun f => (many table f).map fun s =>
    let name := table c ++ "_".toList ++ f.name
    [.createTable b name [⟨key, "INTEGER".toList, false, false⟩, ⟨"idx".toList, "REAL".toList, false, false⟩, ⟨s.1, s.2.1.toList, false, false⟩]
      ((key, table c, key) :: (s.2.2.map fun r => (s.1, r.1, r.2)).toList),
     .createIndex b ("idx_".toList ++ name ++ "_".toList ++ key ++ "_idx".toList) name [key, "idx".toList]]

/-- the name of what a statement creates; tables and indexes must have different names -/
def created : Stmt → List Text
  | .createTable _ n _ _ => [n]
  | .createIndex _ n _ _ => [n]
  | _ => []

def columnsOf : Stmt → List Text
  | .createTable _ _ cs _ => cs.map (·.name)
  | _ => []

def references : Stmt → List (Text × Text)
  | .createTable _ _ _ fs => fs.map fun f => f.2
  | _ => []

/-- There are not two tables or indexes with the same name, nor two columns of a table. -/
def NoClash (stmts : List Stmt) : Prop :=
  ((stmts.flatMap created).map fold).Nodup ∧ ∀ s ∈ stmts, ((columnsOf s).map fold).Nodup

/-- a table with this key is created -/
def Creates (stmts : List Stmt) (table key : Text) : Prop :=
  ∃ b cs fs d, .createTable b table cs fs ∈ stmts ∧ d ∈ cs ∧ d.name = key ∧ d.primary = true

/-- All names of a metamodel can be written without quotes. -/
def PlainNames (m : Nat → Class) : Prop := ∀ c, Plain (m c).name = true ∧ ∀ f ∈ (m c).features, Plain f.name = true

/-- the mapping to lower case keeps letters letters -/
def LowOk (low : Char → Char) : Prop := ∀ c, (idStart c = true → idStart (low c) = true) ∧ (idChar c = true → idChar (low c) = true)

/-- the mapping to upper case does the same to ASCII characters as SQLite, and nothing else becomes a quote -/
def UpOk (up : Char → Char) : Prop := (∀ c : Char, c.toNat < 128 → up c = upper c) ∧ ∀ c, up c = '"' ↔ c = '"'

end Verif.SQLText.Spec
