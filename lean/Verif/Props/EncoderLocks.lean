import Verif.Proofs.EncoderLocksRun

/-!
# C77: storing objects from several goroutines stores each once
-/

namespace Verif.EncoderLocks

open Spec

variable {C : Cfg} {rank : Nat → Nat}

/-- Whatever the goroutines, what they store and the order they proceed in: each object, class, package and literal is written at most once,
no two goroutines have the lock of the same one, and no mutex is unlocked that is not locked, although mutexes go back to the pool while they
are locked. -/
theorem C77_once (hC : Acyclic C rank) (xs : List (List Nat)) (sched : List (Nat × Option Nat)) (s : St)
    (hs : run C (init xs) sched = some s) :
    s.rows.Nodup ∧ s.fatal = false ∧ ∀ (i j : Nat) (t u : Thread) (x : Nat), s.threads[i]? = some t → s.threads[j]? = some u →
      x ∈ t.held → x ∈ u.held → i = j := by
  have h : Inv rank s := Inv.run hC sched (Inv.init xs) hs
  refine ⟨h.rows, h.fatal, ?_⟩
  intro i j t u x hi hj hx hy
  obtain ⟨m, n, hm⟩ := h.some_of_mem hi (held_refs hx)
  exact h.owner i j t u m hi hj (.inr ⟨x, n, hx, hm⟩) (.inr ⟨x, n, hy, hm⟩)

/-- They do not wait for each other for ever: as long as one of them has something to do, one of them can proceed, and no order of proceeding
goes on for ever. -/
theorem C77_ends (hC : Acyclic C rank) (xs : List (List Nat)) :
    (∀ (sched : List (Nat × Option Nat)) (s : St), run C (init xs) sched = some s → (∃ t ∈ s.threads, ¬ Ended t) →
      ∃ (i : Nat) (c : Option Nat) (s' : St), step C s i c = some s') ∧
    ∃ bound : Nat, ∀ (sched : List (Nat × Option Nat)) (s : St), run C (init xs) sched = some s → sched.length ≤ bound := by
  constructor
  · intro sched s hs ⟨t, ht, he⟩
    have h : Inv rank s := Inv.run hC sched (Inv.init xs) hs
    obtain ⟨i, hi⟩ := List.getElem?_of_mem ht
    obtain ⟨j, hj⟩ := h.proceeds (C := C) hi he
    obtain ⟨s', hs'⟩ := Option.isSome_iff_exists.1 hj
    exact ⟨j, none, s', hs'⟩
  · refine ⟨total C rank (init xs), ?_⟩
    intro sched s hs
    have := total_run hC sched hs
    omega

theorem needs_deps {r x y : Nat} (h : Needs C r x) (hy : y ∈ deps C x) : Needs C r y := .step x y h hy

/-- When all goroutines are done, what is written is what they were asked to store with all that it needs, nothing is locked, and the lock
manager has forgotten all. -/
theorem C77_complete (hC : Acyclic C rank) (xs : List (List Nat)) (sched : List (Nat × Option Nat)) (s : St)
    (hs : run C (init xs) sched = some s) (he : ∀ t ∈ s.threads, Ended t) :
    (∀ x, x ∈ s.rows ↔ ∃ l ∈ xs, ∃ r ∈ l, Needs C r x) ∧ (∀ x, s.locks x = none) ∧ ∀ m, s.locked m = false := by
  have h : Inv rank s := Inv.run hC sched (Inv.init xs) hs
  refine ⟨?_, h.ended he⟩
  have hb := Books.run (C := C) (want := fun x => ∃ l ∈ xs, ∃ r ∈ l, Needs C r x)
    (by rintro x ⟨l, hl, r, hr, hn⟩ y hy; exact ⟨l, hl, r, hr, needs_deps hn hy⟩) sched
    (Books.init xs fun l hl x hx => ⟨l, hl, x, hx, .self⟩) hs
  intro x
  constructor
  · intro hx; exact (hb.1.rows x hx).1
  · rintro ⟨l, hl, r, hr, hn⟩
    induction hn with
    | self =>
      obtain ⟨j, hj⟩ := List.getElem?_of_mem hl
      refine Covered.ended (CoveredBy.covered (hb.2 j r (.inr ⟨⟨l.map .encode, [], .ready⟩, ?_, ?_⟩))) he
      · simp [init, hj]
      · exact .inl (List.mem_map.2 ⟨r, hr, rfl⟩)
    | step y z _ hz ih => exact Covered.ended ((hb.1.rows y ih).2 z hz) he

/-- When one goroutine is done, what it was asked to store has its row, whether it wrote it or found it written by another one.  The full
claim says that all that is needed is written, too, and that holds only when all goroutines are done (`C77_complete`): see
`C77_early_violated`. -/
theorem C77_returns_partial (xs : List (List Nat)) (sched : List (Nat × Option Nat)) (s : St)
    (hs : run C (init xs) sched = some s) (i : Nat) (l : List Nat) (t : Thread) (hl : xs[i]? = some l) (hi : s.threads[i]? = some t)
    (he : Ended t) : ∀ x ∈ l, x ∈ s.rows := by
  intro x hx
  have hb := (Books.run (C := C) (want := fun _ => True) (fun _ _ _ _ => trivial) sched (Books.init xs fun _ _ _ _ => trivial) hs).2 i x
    (.inr ⟨⟨l.map .encode, [], .ready⟩, by simp [init, hl], .inl (List.mem_map.2 ⟨x, hx, rfl⟩)⟩)
  rcases hb with h | ⟨u, hu, h⟩
  · exact h
  · rw [hi] at hu; cases hu
    unfold Owed at h
    rw [he.1, he.2] at h
    simp at h

/-! ## A model: objects 1 and 2 (in 1) of class 3, which has data 4, super type data 5 and package 6 -/

def sample : Cfg where
  pre x := decide (x ≤ 2)
  first x := if x = 3 then [4] else []
  before x := match x with | 1 => [3] | 2 => [3] | 3 => [6] | 4 => [5] | _ => []
  after x := match x with | 1 => [4, 5, 2] | 2 => [4, 5] | _ => []

def sampleRank : Nat → Nat := fun x => match x with | 1 => 5 | 2 => 4 | 3 => 3 | 4 => 2 | 5 => 1 | _ => 0

theorem sample_acyclic : Acyclic sample sampleRank := by
  intro x y hy
  match x with
  | 0 => simp [sample] at hy
  | 1 => simp [sample] at hy; rcases hy with rfl | rfl | rfl | rfl <;> decide
  | 2 => simp [sample] at hy; rcases hy with rfl | rfl | rfl <;> decide
  | 3 => simp [sample] at hy; rcases hy with rfl | rfl <;> decide
  | 4 => simp [sample] at hy; subst hy; decide
  | n + 5 => simp [sample] at hy

/-- the goroutines in turn, those that are blocked left out -/
def turns (C : Cfg) (n : Nat) : Nat → St → St
  | 0, s => s
  | k + 1, s => turns C n k (match step C s (k % n) (some 0) with | some s => s | none => s)

/-- Two goroutines store the object 1, a third one the object 2, in turn: all is written once. -/
example : (turns sample 3 400 (init [[1], [1], [2]])).rows = [5, 4, 6, 3, 1, 2] := by decide +kernel

example : ((turns sample 3 400 (init [[1], [1], [2]])).threads.all fun t => decide (t.todo = [] ∧ t.phase = .ready)) = true := by decide +kernel

/-- Here a mutex that is still locked is taken out of the pool for something else. -/
example : (run sample (init [[5], [6]]) [(0, none), (0, none), (0, none), (0, none), (0, none), (0, none), (0, none), (1, none), (1, some 0)]).map
    (fun s => (s.locks 6, s.locked 0, s.threads.map Thread.phase)) = some (some (0, 1), true, [.unlocking 0, .waiting 6 0]) := by decide

/-- The object 1 has its ID before its features are written: a second goroutine asked to store it is done while the object contained in it
is not written. -/
theorem C77_early_violated : ∃ (C : Cfg) (rank : Nat → Nat) (sched : List (Nat × Option Nat)), Acyclic C rank ∧ Needs C 1 2 ∧
    ((run C (init [[1], [1]]) sched).map fun s => (s.threads[1]?.map fun t => (t.todo, t.phase), s.rows)) = some (some ([], .ready), [1]) := by
  refine ⟨⟨fun _ => true, fun _ => [], fun _ => [], fun x => if x = 1 then [2] else []⟩, fun x => if x = 1 then 1 else 0,
    [(0, none), (0, none), (0, none), (0, none), (0, none), (0, none), (1, none)], ?_, ?_, ?_⟩
  · intro x y hy
    by_cases h : x = 1
    · subst h; simp at hy; subst hy; decide
    · simp [h] at hy
  · exact .step 1 2 .self (by simp)
  · decide

/-- The locks are one for each class, but the map of the data of the classes is the same for all: two goroutines write it at the same
time, which ends the program (`fatal error: concurrent map writes`).  So it is with the maps of the IDs of packages, classes and literals. -/
theorem C77_maps_violated : ∃ (C : Cfg) (rank : Nat → Nat) (sched : List (Nat × Option Nat)), Acyclic C rank ∧
    ((run C (init [[1], [2]]) sched).map fun s => s.threads.map Thread.phase) = some [.writing 1, .writing 2] := by
  refine ⟨⟨fun _ => false, fun _ => [], fun _ => [], fun _ => []⟩, fun _ => 0,
    [(0, none), (0, none), (0, none), (0, none), (0, none), (1, none), (1, none), (1, none), (1, none), (1, none)], ?_, ?_⟩
  · intro x y hy; simp at hy
  · decide

/-- Two goroutines that read the object of the same row may be given two objects: nothing is locked between the question whether there is
one and its making. -/
theorem C77_readers_violated : ∃ sched : List Nat,
    (readRun ⟨[.start 7, .start 7], fun _ => none, 0⟩ sched).map Readers.readers = some [.done 7 0, .done 7 1] :=
  ⟨[0, 1, 0, 1], by decide⟩

/-- A class that is among its own super types: one goroutine that stores its data waits for itself. -/
theorem C77_cycle_violated : ∃ (C : Cfg) (sched : List (Nat × Option Nat)) (s : St), run C (init [[1]]) sched = some s ∧
    s.rows = [] ∧ ∀ i c, step C s i c = none := by
  refine ⟨⟨fun _ => false, fun _ => [], fun _ => [1], fun _ => []⟩, [(0, none), (0, none), (0, none), (0, none), (0, none), (0, none)], _, rfl, rfl, ?_⟩
  intro i c
  match i with
  | 0 => rfl
  | i + 1 => rfl

end Verif.EncoderLocks
