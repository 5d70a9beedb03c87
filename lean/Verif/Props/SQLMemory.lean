import Verif.Proofs.SQLMemory
/-!
# C89: users of different SQL databases do not affect each other

Documents are loaded and saved and stores are used at the same time, in memory or in files: each has what it would have alone, other files
are not touched, and no temporary file and no database in memory is left.
-/

namespace Verif.Props

open Verif.SQLMemory Verif.Spec.SQLMemory

/-- Users with different base names, at most one of which saves in memory: whatever the order of their steps, each has read what they expect;
the files of stores have the new rows; other files are as they were; nothing is left in memory.  Missing: documents with the same base name,
two that are saved in memory at the same time, names with `?`, `#` or `%` in memory, documents of less than 20 bytes. -/
theorem C89_isolated_partial (files : Name → Option Content) (users : List User)
    (hplain : ∀ u ∈ users, ∀ n ∈ memoryOf u, Plain n) (hapart : Apart users)
    (hfresh : ∀ u ∈ users, Fresh files u) (hlong : ∀ u ∈ users, Long u) (schedule : List Nat)
    (hdone : ∀ x ∈ (run (start files users) schedule).users, x.1 = []) :
    (∀ (i : Nat) u, users[i]? = some u → ∃ x, (run (start files users) schedule).users[i]? = some x ∧ x.2 = expected u) ∧
    (∀ u ∈ users, ∀ f ∈ filesOf u, (run (start files users) schedule).sys.files f = left (files f) u f) ∧
    (∀ f, (∀ u ∈ users, f ∉ filesOf u) → (run (start files users) schedule).sys.files f = files f) ∧
    (∀ n, (run (start files users) schedule).sys.mems n = none) :=
  Verif.Proofs.SQLMemory.isolated files users hplain hapart hfresh hlong schedule hdone

namespace C89

def a : Name := ['a']
def b : Name := ['b']
def dir1 : Name := ['1', '/']
def dir2 : Name := ['2', '/']
def t1 : Name := ['t', '1']
def t2 : Name := ['t', '2']
def t3 : Name := ['t', '3']

/-- the files of two stores and another file -/
def files (f : Name) : Option Content :=
  if f = dir1 ++ a then some [1, 2] else if f = dir2 ++ a then some [5] else if f = b then some [9] else none

def all : List User :=
  [.reader true b none t1 [10, 11] 4096, .writer true t2 [20, 21], .store true dir1 a [3], .reader false a (some ['x']) t3 [30] 4096]

/-- each makes a step in turn -/
def turns (n k : Nat) : List Nat := (List.range n).flatMap fun _ => List.range k

/-- one after the other, but the second begins in the middle of the first -/
def late (n k : Nat) : List Nat := List.replicate n 0 ++ List.replicate k 1 ++ List.replicate 20 0 ++ List.replicate 20 1

example : (∀ u ∈ all, ∀ n ∈ memoryOf u, Plain n) ∧ Apart all ∧ (∀ u ∈ all, Fresh files u) ∧ (∀ u ∈ all, Long u) ∧
    (∀ x ∈ (run (start files all) (turns 10 4)).users, x.1 = []) := by
  refine ⟨?_, ?_, ?_, ?_, by decide +kernel⟩
  · intro u hu; simp only [all, List.mem_cons, List.not_mem_nil, or_false] at hu
    rcases hu with rfl | rfl | rfl | rfl <;> simp only [memoryOf, if_true, Plain] <;> decide
  · simp only [Apart, all]; decide
  · intro u hu; simp only [all, List.mem_cons, List.not_mem_nil, or_false] at hu
    rcases hu with rfl | rfl | rfl | rfl <;> simp only [Fresh] <;> decide
  · intro u hu; simp only [all, List.mem_cons, List.not_mem_nil, or_false] at hu
    rcases hu with rfl | rfl | rfl | rfl <;> simp [Long]

end C89

open C89

/-- Two resources are saved in memory at the same time: each document has rows of both, or the rows of the other are missing in one. -/
theorem C89_writers_violated :
    let c := run (start files [.writer true t1 [1, 2], .writer true t2 [7, 8]]) (turns 10 2)
    (∀ x ∈ c.users, x.1 = []) ∧ c.users.map (·.2) = [.got [1, 7, 2, 8], .got [1, 7, 2, 8]] := by decide +kernel

/-- Two documents with the same base name are loaded in memory: the first is loaded with the rows of the second. -/
theorem C89_readers_violated :
    let c := run (start files [.reader true a none t1 [1] 4096, .reader true a none t2 [7] 4096]) (late 4 5)
    (∀ x ∈ c.users, x.1 = []) ∧ c.users.map (·.2) = [.got [7], .got [7]] := by decide +kernel

/-- Two stores with the same base name, in memory: in the end the file of the first has the rows of the second. -/
theorem C89_stores_violated :
    let c := run (start files [.store true dir1 a [3], .store true dir2 a [6]]) (late 4 5)
    (∀ x ∈ c.users, x.1 = []) ∧ files (dir1 ++ a) = some [1, 2] ∧ c.sys.files (dir1 ++ a) = some [5, 6, 3] := by decide +kernel

/-- A document is loaded in memory while a store with the same base name is used: the file of the store is replaced by the document. -/
theorem C89_store_replaced_violated :
    let c := run (start files [.store true dir1 a [3], .reader true a none t1 [7] 4096]) (late 4 7)
    (∀ x ∈ c.users, x.1 = []) ∧ c.sys.files (dir1 ++ a) = some [7, 3] := by decide +kernel

/-- A document named `b#1` is loaded in memory: the database is the file `b` of the working directory, which is replaced. -/
theorem C89_name_violated :
    let c := run (start files [.reader true ['b', '#', '1'] none t1 [7] 4096]) (turns 12 1)
    (∀ x ∈ c.users, x.1 = []) ∧ files b = some [9] ∧ c.sys.files b = some [7] := by decide +kernel

/-- In general: with `#` in its name, a database in memory is a file, the name of which is what comes before. -/
theorem C89_hash_violated (before after : Name) (h : Plain before) : memory (before ++ '#' :: after) = .file before := by
  obtain ⟨h1, h2, h3⟩ := h
  have hm := Verif.Proofs.SQLMemory.takeWhile_mid (p := fun c => decide (c ≠ '?' ∧ c ≠ '#')) (a := before)
    (b := after ++ "?mode=memory&cache=shared".toList) (c := '#')
    (by intro x hx; simp only [decide_eq_true_eq]; exact ⟨fun e => h1 (e ▸ hx), fun e => h2 (e ▸ hx)⟩) (by decide)
  simp only [memory, uriTarget, uriPath, uriQuery, List.append_assoc, List.cons_append, hm.1, hm.2,
    Verif.Proofs.SQLMemory.percent_plain before h3]
  rw [if_neg (by simp [params])]

/-- A document of less than 20 bytes is not an error but a panic, if it is loaded in memory. -/
theorem C89_panic_violated (files : Name → Option Content) (name tmp : Name) (dbPath : Option Name) (doc : Content) (bytes : Nat)
    (h : bytes < 20) : (run (start files [.reader true name dbPath tmp doc bytes]) [0]).users = [([], .panicked)] := by
  simp [run, start, step, program, readerProgram, h, note]

end Verif.Props
