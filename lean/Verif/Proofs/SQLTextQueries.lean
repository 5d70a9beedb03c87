import Verif.Proofs.SQLText

/-!
# The statements of tables
-/

namespace Verif.SQLText

open Spec

variable {up : Char → Char} {t : Table} {k c : Text}

theorem reads_of (hup : CaseOk up) {ps : List Piece} {stmts : List Stmt} (hfit : fits false ps = true) (hok : ∀ p ∈ ps, p.Ok)
    (ht : toks ps = stmts.flatMap Stmt.tokens) : ∃ a, render up ps = some a ∧ Reads a stmts := by
  obtain ⟨a, h1, h2⟩ := render_lex hup hfit hok
  exact ⟨a, h1, by rw [Reads, h2, ht]⟩

theorem keyName_eq (hk : t.key = some k) : keyName t = .name k := by simp [keyName, hk]

theorem okw {s : String} (h : okText s.toList = true) : (w s).Ok := h

/-- the names used by the statements for a column -/
structure ColumnOk (t : Table) (k c : Text) : Prop where
  name : Good t.name
  key : t.key = some k
  keyGood : Good k
  column : Good c

def idx : Text := "idx".toList

theorem one_toks : toksOf " ASC, idx ASC LIMIT 1 OFFSET ?".toList =
    [.kw "ASC".toList, .sym ',', .id idx, .kw "ASC".toList, .kw "LIMIT".toList, .num "1".toList, .kw "OFFSET".toList, .param] := by decide

theorem one_toks_among : toksOf " ASC, idx ASC LIMIT 1 OFFSET ?)".toList =
    [.kw "ASC".toList, .sym ',', .id idx, .kw "ASC".toList, .kw "LIMIT".toList, .num "1".toList, .kw "OFFSET".toList, .param, .sym ')'] := by decide

theorem one_toks_returning : toksOf " ASC, idx ASC LIMIT 1 OFFSET ?) RETURNING ".toList =
    [.kw "ASC".toList, .sym ',', .id idx, .kw "ASC".toList, .kw "LIMIT".toList, .num "1".toList, .kw "OFFSET".toList, .param, .sym ')',
      .kw "RETURNING".toList] := by decide

section
variable (hup : CaseOk up) (h : ColumnOk t k c)
include hup h

theorem reads_update : ∃ a, render up (updateQuery t c) = some a ∧ Reads a [.update t.name c (.matching [.eq k]) none] := by
  unfold updateQuery
  rw [keyName_eq h.key]
  exact reads_of hup (by rfl) (by
    simp only [List.forall_mem_cons]
    exact ⟨okw (by decide), h.name, okw (by decide), h.column, okw (by decide), h.keyGood, okw (by decide), by simp⟩) rfl

theorem reads_selectOneColumn :
    ∃ a, render up (selectOneColumnQuery t c) = some a ∧ Reads a [.select (.columns [c]) { table := t.name, conds := [.eq k] }] := by
  unfold selectOneColumnQuery
  rw [keyName_eq h.key]
  exact reads_of hup (by rfl) (by
    simp only [List.forall_mem_cons]
    exact ⟨okw (by decide), h.column, okw (by decide), h.name, okw (by decide), h.keyGood, okw (by decide), by simp⟩) rfl

theorem reads_removeRow : ∃ a, render up (removeRowQuery t c) = some a ∧ Reads a [.delete t.name (.matching [.eq c]) none] := by
  unfold removeRowQuery
  exact reads_of hup (by rfl) (by
    simp only [List.forall_mem_cons]
    exact ⟨okw (by decide), h.name, okw (by decide), h.column, okw (by decide), by simp⟩) rfl

theorem reads_updateValue : ∃ a, render up (updateValueQuery t c) = some a ∧
    Reads a [.update t.name c (.among { table := t.name, conds := [.eq k], order := [(k, true), (idx, true)], limit := .one, offset := true }) none] := by
  unfold updateValueQuery
  rw [keyName_eq h.key]
  exact reads_of hup (by rfl) (by
    simp only [List.forall_mem_cons]
    exact ⟨okw (by decide), h.name, okw (by decide), h.column, okw (by decide), h.name, okw (by decide), h.keyGood, okw (by decide),
      okw (by decide), h.keyGood, okw (by decide), by simp⟩) (by simp only [toks, pieceToks, w, one_toks_among]; rfl)

theorem reads_updateIdx : ∃ a, render up (updateIdxQuery t c) = some a ∧
    Reads a [.update t.name idx (.among { table := t.name, conds := [.eq k], order := [(k, true), (idx, true)], limit := .one, offset := true })
      (some c)] := by
  unfold updateIdxQuery
  rw [keyName_eq h.key]
  exact reads_of hup (by rfl) (by
    simp only [List.forall_mem_cons]
    exact ⟨okw (by decide), h.name, okw (by decide), h.name, okw (by decide), h.keyGood, okw (by decide),
      okw (by decide), h.keyGood, okw (by decide), h.column, by simp⟩) (by simp only [toks, pieceToks, w, one_toks_returning]; rfl)

theorem reads_selectOne : ∃ a, render up (selectOneQuery t c) = some a ∧
    Reads a [.select (.columns [c]) { table := t.name, conds := [.eq k], order := [(k, true), (idx, true)], limit := .one, offset := true }] := by
  unfold selectOneQuery
  rw [keyName_eq h.key]
  exact reads_of hup (by rfl) (by
    simp only [List.forall_mem_cons]
    exact ⟨okw (by decide), h.column, okw (by decide), h.name, okw (by decide), h.keyGood, okw (by decide), h.keyGood, okw (by decide), by simp⟩) (by simp only [toks, pieceToks, w, one_toks]; rfl)

theorem reads_selectAll : ∃ a, render up (selectAllQuery t c) = some a ∧
    Reads a [.select (.columns [c]) { table := t.name, conds := [.eq k], order := [(k, true), (idx, true)] }] := by
  unfold selectAllQuery
  rw [keyName_eq h.key]
  exact reads_of hup (by rfl) (by
    simp only [List.forall_mem_cons]
    exact ⟨okw (by decide), h.column, okw (by decide), h.name, okw (by decide), h.keyGood, okw (by decide), h.keyGood, okw (by decide), by simp⟩) rfl

theorem reads_exists : ∃ a, render up (existsQuery t) = some a ∧ Reads a [.select .exists { table := t.name, conds := [.eq k] }] := by
  unfold existsQuery
  rw [keyName_eq h.key]
  exact reads_of hup (by rfl) (by
    simp only [List.forall_mem_cons]
    exact ⟨okw (by decide), h.name, okw (by decide), h.keyGood, okw (by decide), by simp⟩) rfl

theorem reads_clear : ∃ a, render up (clearQuery t) = some a ∧ Reads a [.delete t.name (.matching [.eq k]) none] := by
  unfold clearQuery
  rw [keyName_eq h.key]
  exact reads_of hup (by rfl) (by
    simp only [List.forall_mem_cons]
    exact ⟨okw (by decide), h.name, okw (by decide), h.keyGood, okw (by decide), by simp⟩) rfl

theorem reads_count : ∃ a, render up (countQuery t) = some a ∧ Reads a [.select .count { table := t.name, conds := [.eq k] }] := by
  unfold countQuery
  rw [keyName_eq h.key]
  exact reads_of hup (by rfl) (by
    simp only [List.forall_mem_cons]
    exact ⟨okw (by decide), h.name, okw (by decide), h.keyGood, okw (by decide), by simp⟩) rfl

theorem reads_contains : ∃ a, render up (containsQuery t c) = some a ∧
    Reads a [.select (.columns [rowid]) { table := t.name, conds := [.eq k, .eq c] }] := by
  unfold containsQuery
  rw [keyName_eq h.key]
  exact reads_of hup (by rfl) (by
    simp only [List.forall_mem_cons]
    exact ⟨okw (by decide), h.name, okw (by decide), h.keyGood, okw (by decide), h.column, okw (by decide), by simp⟩) rfl

theorem reads_indexOf : ∃ a, render up (indexOfQuery t c) = some a ∧
    Reads a [.select (.columns [idx]) { table := t.name, conds := [.eq k, .eq c], order := [(idx, true)], limit := .one }] := by
  unfold indexOfQuery
  rw [keyName_eq h.key]
  exact reads_of hup (by rfl) (by
    simp only [List.forall_mem_cons]
    exact ⟨okw (by decide), h.name, okw (by decide), h.keyGood, okw (by decide), h.column, okw (by decide), by simp⟩) rfl

theorem reads_lastIndexOf : ∃ a, render up (lastIndexOfQuery t c) = some a ∧
    Reads a [.select (.columns [idx]) { table := t.name, conds := [.eq k, .eq c], order := [(idx, false)], limit := .one }] := by
  unfold lastIndexOfQuery
  rw [keyName_eq h.key]
  exact reads_of hup (by rfl) (by
    simp only [List.forall_mem_cons]
    exact ⟨okw (by decide), h.name, okw (by decide), h.keyGood, okw (by decide), h.column, okw (by decide), by simp⟩) rfl

theorem reads_idxToListIndex : ∃ a, render up (idxToListIndexQuery t) = some a ∧
    Reads a [.select .count { table := t.name, conds := [.eq k, .lt idx] }] := by
  unfold idxToListIndexQuery
  rw [keyName_eq h.key]
  exact reads_of hup (by rfl) (by
    simp only [List.forall_mem_cons]
    exact ⟨okw (by decide), h.name, okw (by decide), h.keyGood, okw (by decide), by simp⟩) rfl

theorem reads_listIndexToIdx : ∃ a, render up (listIndexToIdxQuery t) = some a ∧
    Reads a [.select (.columns [idx]) { table := t.name, conds := [.eq k], order := [(idx, true)], limit := .param, offset := true }] := by
  unfold listIndexToIdxQuery
  rw [keyName_eq h.key]
  exact reads_of hup (by rfl) (by
    simp only [List.forall_mem_cons]
    exact ⟨okw (by decide), h.name, okw (by decide), h.keyGood, okw (by decide), by simp⟩) rfl

theorem reads_remove : ∃ a, render up (removeQuery t c) = some a ∧
    Reads a [.delete t.name (.among { table := t.name, conds := [.eq k], order := [(k, true), (idx, true)], limit := .one, offset := true }) (some c)] := by
  unfold removeQuery
  rw [keyName_eq h.key]
  exact reads_of hup (by rfl) (by
    simp only [List.forall_mem_cons]
    exact ⟨okw (by decide), h.name, okw (by decide), h.name, okw (by decide), h.keyGood, okw (by decide),
      okw (by decide), h.keyGood, okw (by decide), h.column, by simp⟩) (by simp only [toks, pieceToks, w, one_toks_returning]; rfl)

theorem reads_selectLists : ∃ a, render up (selectListsQuery t c) = some a ∧
    Reads a [.select (.columns [k, c]) { table := t.name, order := [(k, true), (idx, true)] }] := by
  unfold selectListsQuery selectQuery
  rw [keyName_eq h.key, h.key]
  exact reads_of hup (by rfl) (by
    simp only [Option.getD_some, List.cons_append, List.nil_append, List.map_cons, List.map_nil, commas, List.flatMap_cons, List.flatMap_nil,
      reduceCtorEq, if_false, if_true, List.forall_mem_cons, List.append_nil]
    exact ⟨okw (by decide), h.keyGood, okw (by decide), h.column, okw (by decide), h.name, okw (by decide), h.keyGood, okw (by decide), by simp⟩) rfl

theorem reads_selectKey : ∃ a, render up (selectKeyQuery t) = some a ∧ Reads a [.select .all { table := t.name, conds := [.eq k] }] := by
  unfold selectKeyQuery selectQuery
  rw [keyName_eq h.key]
  exact reads_of hup (by rfl) (by
    simp only [List.cons_append, List.nil_append, 
      reduceCtorEq, if_false, if_true, List.forall_mem_cons, List.append_nil]
    exact ⟨okw (by decide), okw (by decide), okw (by decide), h.name, okw (by decide), h.keyGood, okw (by decide), by simp⟩) rfl

omit h in
theorem reads_selectRows (hn : Good t.name) : ∃ a, render up (selectRowsQuery t) = some a ∧ Reads a [.select .all { table := t.name }] := by
  unfold selectRowsQuery selectQuery
  exact reads_of hup (by rfl) (by
    simp only [List.cons_append, List.nil_append, 
      if_true, List.forall_mem_cons, List.append_nil]
    exact ⟨okw (by decide), okw (by decide), okw (by decide), hn, by simp⟩) rfl

end

end Verif.SQLText
