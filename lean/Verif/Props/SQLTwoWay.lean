import Verif.Proofs.SQLTwoWay
/-!
# C88: two-way references that are loaded from a SQL database

Objects that are loaded have in their two-way references what was saved, whatever the order in which tables are read.
-/

namespace Verif.Props

open Verif.SQLTwoWay Verif.Spec.SQLTwoWay

/-- Lists and values are given to the objects one after the other, in any order: every object has in every reference what it had, in some
order; single values are what they were.  Missing: the order of lists, goroutines that interrupt each other. -/
theorem C88_members_partial (e : Refs) (db : Nat → Nat → List Nat) (reads : List (Nat × Nat × List Nat))
    (hc : Consistent e db) (hf : Faithful db reads) (hr : Complete e db reads) (r o : Nat) :
    (loadAll e init reads r o).Perm (db r o) ∧ (e.many r = false → loadAll e init reads r o = db r o) := by
  have hp := Verif.Proofs.SQLTwoWay.loadAll_mem hc hf hr r o
  refine ⟨hp, fun hm => ?_⟩
  have hl := hc.single r o hm
  match hd : db r o, hl with
  | [], _ => rw [hd] at hp; exact hp.eq_nil
  | [v], _ => rw [hd] at hp; exact List.perm_singleton.1 hp

/-- The lists of a reference are in the order they had, if all are read before the opposite reference (or the opposite is not stored, which is
the case of the container of an object). -/
theorem C88_order_partial (e : Refs) (db : Nat → Nat → List Nat) (first rest : List (Nat × Nat × List Nat)) (r : Nat)
    (hc : Consistent e db) (hf : Faithful db (first ++ rest)) (hb : ∀ x ∈ first, x.1 ≠ e.opp r)
    (hr : ∀ o, db r o ≠ [] → (r, o, db r o) ∈ first) (o : Nat) :
    loadAll e init (first ++ rest) r o = db r o :=
  Verif.Proofs.SQLTwoWay.loadAll_order hc r first rest hf hb hr o

/-- Goroutines that interrupt each other at any point: if only one of two opposite references is stored, every object has in every reference
what it had, in the order it had for the references that are stored.  Missing: references that are stored on both sides. -/
theorem C88_goroutines_partial (e : Refs) (db : Nat → Nat → List Nat) (threads : List (List (Nat × Nat × List Nat)))
    (hc : Consistent e db) (hf : Faithful db threads.flatten) (hn : threads.flatten.Nodup) (h1 : OneSide e db threads.flatten)
    (schedule : List Nat)
    (hd : ∀ l ∈ (run e ⟨init, threads.map (·.map fun x => .load x.1 x.2.1 x.2.2)⟩ schedule).threads, l = []) (r o : Nat) :
    ((run e ⟨init, threads.map (·.map fun x => .load x.1 x.2.1 x.2.2)⟩ schedule).state r o).Perm (db r o) ∧
      ((∀ x ∈ threads.flatten, x.1 ≠ e.opp r) →
        (run e ⟨init, threads.map (·.map fun x => .load x.1 x.2.1 x.2.2)⟩ schedule).state r o = db r o) :=
  Verif.Proofs.SQLTwoWay.goroutines hc threads hf hn h1 schedule hd r o

/-- The goroutines come to an end, whatever they have done so far. -/
theorem C88_ends_partial (e : Refs) (db : Nat → Nat → List Nat) (threads : List (List (Nat × Nat × List Nat)))
    (hc : Consistent e db) (hf : Faithful db threads.flatten) (hn : threads.flatten.Nodup) (h1 : OneSide e db threads.flatten)
    (schedule : List Nat) :
    ∃ more, ∀ l ∈ (run e ⟨init, threads.map (·.map fun x => .load x.1 x.2.1 x.2.2)⟩ (schedule ++ more)).threads, l = [] := by
  have h0 := Verif.Proofs.SQLTwoWay.running_start hc threads hf hn h1
  have h2 := Verif.Proofs.SQLTwoWay.running_run hc h0 schedule
  obtain ⟨more, h⟩ := Verif.Proofs.SQLTwoWay.ends hc _ _ h2 (Nat.le_refl _)
  exact ⟨more, by rw [Verif.Proofs.SQLTwoWay.run_append]; exact h⟩

namespace C88

/-- authors (0) and books (1) of each other; the books of a shelf (2) and the shelf of a book (3) -/
def refs : Refs where
  opp r := if r = 0 then 1 else if r = 1 then 0 else if r = 2 then 3 else if r = 3 then 2 else r
  many r := r ≠ 3

/-- book 10 has the authors 1 and 0, book 11 the author 0; the shelf 20 has the books 11 and 10 -/
def db (r o : Nat) : List Nat :=
  if r = 0 ∧ o = 10 then [1, 0] else if r = 0 ∧ o = 11 then [0]
  else if r = 1 ∧ o = 0 then [11, 10] else if r = 1 ∧ o = 1 then [10]
  else if r = 2 ∧ o = 20 then [11, 10]
  else if r = 3 ∧ o = 10 then [20] else if r = 3 ∧ o = 11 then [20] else []

theorem consistent : Consistent refs db where
  opposite r := by simp only [refs]; grind
  symmetric r o v := by
    match r with
    | 0 => simp [refs, db]; grind
    | 1 => simp [refs, db]; grind
    | 2 => simp [refs, db]; grind
    | 3 => simp [refs, db]; grind
    | r + 4 => simp [refs, db]
  nodup r o := by simp only [db]; grind
  single r o h := by simp only [refs, db] at *; grind
  self r o h := by simp only [refs, db] at *; grind

def books : List (Nat × Nat × List Nat) := [(0, 10, [1, 0]), (0, 11, [0]), (3, 10, [20]), (3, 11, [20])]
def authors : List (Nat × Nat × List Nat) := [(1, 0, [11, 10]), (1, 1, [10])]
def shelves : List (Nat × Nat × List Nat) := [(2, 20, [11, 10])]

theorem faithful : Faithful db (books ++ authors ++ shelves) := by simp only [Faithful]; decide

theorem complete (reads : List (Nat × Nat × List Nat)) (h : ∀ x ∈ books ++ authors ++ shelves, x ∈ reads) :
    Complete refs db reads := by
  intro r
  left
  intro o ho
  apply h
  simp only [books, authors, shelves, db] at *
  grind

/-- only the books of a shelf are stored -/
def oneSide : List (List (Nat × Nat × List Nat)) := [shelves, [(0, 10, [1, 0]), (0, 11, [0])]]

example : Consistent refs db ∧ Faithful db (books ++ authors ++ shelves) ∧ Complete refs db (books ++ authors ++ shelves) ∧
    loadAll refs init (books ++ authors ++ shelves) 0 10 = [1, 0] ∧ loadAll refs init (books ++ authors ++ shelves) 3 10 = [20] :=
  ⟨consistent, faithful, complete _ (fun _ h => h), by decide, by decide⟩

example : (∀ x ∈ books, x.1 ≠ refs.opp 0) ∧ (∀ o, db 0 o ≠ [] → (0, o, db 0 o) ∈ books) :=
  ⟨by decide, by intro o ho; simp only [books, db] at *; grind⟩

example : Faithful db oneSide.flatten ∧ oneSide.flatten.Nodup ∧ OneSide refs db oneSide.flatten ∧
    (∀ l ∈ (run refs ⟨init, oneSide.map (·.map fun x => .load x.1 x.2.1 x.2.2)⟩ [0, 1, 1, 0, 1, 0, 1, 1]).threads, l = []) ∧
    (run refs ⟨init, oneSide.map (·.map fun x => .load x.1 x.2.1 x.2.2)⟩ [0, 1, 1, 0, 1, 0, 1, 1]).state 2 20 = [11, 10] := by
  refine ⟨by simp only [Faithful]; decide, by decide, ?_, by decide, by decide⟩
  intro r
  match r with
  | 0 => exact .inl ⟨by decide, by intro o; simp [oneSide, shelves, db]; grind⟩
  | 1 => exact .inr ⟨by decide, by intro o; simp [oneSide, shelves, db, refs]; grind⟩
  | 2 => exact .inl ⟨by decide, by intro o; simp [oneSide, shelves, db]⟩
  | 3 => exact .inr ⟨by decide, by intro o; simp [oneSide, shelves, db, refs]⟩
  | r + 4 => exact .inl ⟨by simp [oneSide, shelves, refs], by intro o; simp [oneSide, shelves, db]⟩

end C88

open C88 in
/-- The list on the other side is in the order of the objects that were read: an author has their books in another order. -/
theorem C88_order_violated : Consistent refs db ∧ Faithful db (books ++ authors ++ shelves) ∧
    Complete refs db (books ++ authors ++ shelves) ∧ db 1 0 = [11, 10] ∧ loadAll refs init (books ++ authors ++ shelves) 1 0 = [10, 11] :=
  ⟨consistent, faithful, complete _ (fun _ h => h), by decide, by decide⟩

open C88 in
/-- The order of a list depends on which class is read first, which is the order of a map of Go. -/
theorem C88_classes_violated : Consistent refs db ∧ Faithful db (books ++ authors ++ shelves) ∧
    Complete refs db (books ++ authors ++ shelves) ∧ Complete refs db (shelves ++ authors ++ books) ∧ db 2 20 = [11, 10] ∧
    loadAll refs init (shelves ++ authors ++ books) 2 20 = [11, 10] ∧ loadAll refs init (books ++ authors ++ shelves) 2 20 = [10, 11] :=
  ⟨consistent, faithful, complete _ (fun _ h => h), complete _ (by decide), by decide, by decide, by decide⟩

open C88 in
/-- Two goroutines that read both sides: an object is two times in a unique list, on both sides. -/
theorem C88_goroutines_violated :
    ∃ schedule, (∀ l ∈ (run refs ⟨init, [[.load 0 11 [0]], [.load 1 0 [11]]]⟩ schedule).threads, l = []) ∧
      (run refs ⟨init, [[.load 0 11 [0]], [.load 1 0 [11]]]⟩ schedule).state 0 11 = [0, 0] ∧
      (run refs ⟨init, [[.load 0 11 [0]], [.load 1 0 [11]]]⟩ schedule).state 1 0 = [11, 11] :=
  ⟨[0, 1, 0, 1], by decide, by decide, by decide⟩

open C88 in
/-- The same with a single value on one side: the book is two times in the list of the shelf. -/
theorem C88_single_violated :
    ∃ schedule, (∀ l ∈ (run refs ⟨init, [[.load 2 20 [10]], [.load 3 10 [20]]]⟩ schedule).threads, l = []) ∧
      (run refs ⟨init, [[.load 2 20 [10]], [.load 3 10 [20]]]⟩ schedule).state 2 20 = [10, 10] :=
  ⟨[1, 0, 0, 1, 1], by decide, by decide⟩

end Verif.Props
