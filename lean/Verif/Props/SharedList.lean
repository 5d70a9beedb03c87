import Verif.Proofs.SharedList

/-!
# C65: lists are independent of each other
-/

namespace Verif.SharedList

open Verif.Spec

variable {α : Type} [DecidableEq α] [Inhabited α]

/-- the lists of a program are the sequences -/
theorem rel_run (grow : Nat → Nat → Nat) : ∀ (calls : List (Call α)) (st : St α) (sp : Spec.St α), Rel st sp → (∀ c ∈ calls, Spec.usesArray c = false ∧ Spec.fair c) →
    (∀ (k : Nat) (c : Call α), calls[k]? = some c → ¬ Spec.movesPastEnd (Spec.run sp (calls.take k)) c) →
    Rel (run grow st calls) (Spec.run sp calls) ∧ answers grow st calls = Spec.answers sp calls
  | [], _, _, hr, _, _ => ⟨hr, rfl⟩
  | c :: cs, st, sp, hr, hu, hm => by
    obtain ⟨h1, h2⟩ := rel_step grow hr c (hu c (by simp)).1 (hu c (by simp)).2 (hm 0 c rfl)
    obtain ⟨h3, h4⟩ := rel_run grow cs _ _ h1 (fun d hd => hu d (by simp [hd])) (fun k d hd => hm (k + 1) d (by simpa using hd))
    exact ⟨h3, by simp only [answers, Spec.answers, h2, h4]⟩

theorem rel_init : Rel (init : St α) Spec.init := ⟨rfl, ⟨by simp [init], by simp [init]⟩, by simp [init]⟩

/-- **C65** (partial): however many lists a program makes, whatever lists it gives to the calls of other lists or of the list itself, and however much room `append` leaves:
each list has the elements that it would have if it were a sequence on its own, and the calls give back the same.
Missing: programs that use the arrays given by `ToArray` for other lists (`C65_adopt_violated`, `C65_insertAll_violated`), moves past the end (C03), the iterator of the hash set (C01). -/
theorem C65_lists_partial (grow : Nat → Nat → Nat) (calls : List (Call α)) (hu : ∀ c ∈ calls, Spec.usesArray c = false ∧ Spec.fair c)
    (hm : ∀ (k : Nat) (c : Call α), calls[k]? = some c → ¬ Spec.movesPastEnd (Spec.run Spec.init (calls.take k)) c) :
    lists (run grow init calls) = (Spec.run Spec.init calls).lists.map (·.1) ∧ answers grow init calls = Spec.answers Spec.init calls := by
  obtain ⟨h1, h2⟩ := rel_run grow calls init Spec.init rel_init hu hm
  exact ⟨by rw [h1.lists, lists, List.map_map]; rfl, h2⟩

theorem track_run (grow : Nat → Nat → Nat) (l : Nat) (t : Slice) : ∀ (calls : List (Call α)) (st : St α) (sp : Spec.St α), Rel st sp → (∀ c ∈ calls, Spec.usesArray c = false ∧ Spec.fair c) →
    (∀ (k : Nat) (c : Call α), calls[k]? = some c → ¬ Spec.movesPastEnd (Spec.run sp (calls.take k)) c) → (∀ c ∈ calls, Spec.keepsArray l c = true) → Track st l t →
    view (run grow st calls).heap t = view st.heap t
  | [], _, _, _, _, _, _, _ => rfl
  | c :: cs, st, sp, hr, hu, hm, hk, ht => by
    obtain ⟨h1, _⟩ := rel_step grow hr c (hu c (by simp)).1 (hu c (by simp)).2 (hm 0 c rfl)
    obtain ⟨h2, h3⟩ := track_step grow hr c (hu c (by simp)).1 (hm 0 c rfl) l t ht (hk c (by simp))
    rw [run, track_run grow l t cs _ _ h1 (fun d hd => hu d (by simp [hd])) (fun k d hd => hm (k + 1) d (by simpa using hd)) (fun d hd => hk d (by simp [hd])) h2, h3]

theorem run_append (grow : Nat → Nat → Nat) : ∀ (xs ys : List (Call α)) (st : St α), run grow st (xs ++ ys) = run grow (run grow st xs) ys
  | [], _, _ => rfl
  | x :: xs, ys, st => by simp only [List.cons_append, run]; exact run_append grow xs ys _

theorem spec_run_append : ∀ (xs ys : List (Call α)) (sp : Spec.St α), Spec.run sp (xs ++ ys) = Spec.run (Spec.run sp xs) ys
  | [], _, _ => rfl
  | x :: xs, ys, sp => by simp only [List.cons_append, Spec.run]; exact spec_run_append xs ys _

theorem held_step (grow : Nat → Nat → Nat) (st : St α) (c : Call α) : ∃ ys, (step grow st c).1.held = st.held ++ ys := by
  cases c <;> simp only [step] <;> (try split) <;> first | exact ⟨_, rfl⟩ | exact ⟨[], by simp⟩

theorem held_run (grow : Nat → Nat → Nat) : ∀ (calls : List (Call α)) (st : St α), ∃ ys, (run grow st calls).held = st.held ++ ys
  | [], st => ⟨[], by simp [run]⟩
  | c :: cs, st => by
    obtain ⟨y1, h1⟩ := held_step grow st c
    obtain ⟨y2, h2⟩ := held_run grow cs (step grow st c).1
    exact ⟨y1 ++ y2, by rw [run, h2, h1, List.append_assoc]⟩

/-- **C65** (partial): the array that `ToArray` gives keeps the elements of the list at this time, whatever is done with all other lists, as long as the list itself only gets `Add`, `AddAll`
and `Clear`.
Missing: the other calls on the list (`C65_array_violated`), programs that use such arrays for other lists. -/
theorem C65_array_partial (grow : Nat → Nat → Nat) (before after : List (Call α)) (l : Nat)
    (hu : ∀ c ∈ before ++ .toArray l :: after, Spec.usesArray c = false ∧ Spec.fair c)
    (hm : ∀ (k : Nat) (c : Call α), (before ++ .toArray l :: after)[k]? = some c → ¬ Spec.movesPastEnd (Spec.run Spec.init ((before ++ .toArray l :: after).take k)) c)
    (hl : l < (lists (run grow init before)).length) (hk : ∀ c ∈ after, Spec.keepsArray l c = true) :
    (arrays (run grow init (before ++ .toArray l :: after)))[(arrays (run grow init before)).length]? = (lists (run grow init before))[l]? := by
  obtain ⟨hr, _⟩ := rel_run grow before init Spec.init rel_init (fun c hc => hu c (by simp [hc])) (fun k c hc => by
    have hkl : k < before.length := (List.getElem?_eq_some_iff.1 hc).1
    have := hm k c (by rw [List.getElem?_append_left hkl]; exact hc)
    rwa [List.take_append_of_le_length (by omega)] at this)
  have hm' : ∀ (k : Nat) (c : Call α), after[k]? = some c → ¬ Spec.movesPastEnd (Spec.run (Spec.step (Spec.run Spec.init before) (.toArray l)).1 (after.take k)) c := by
    intro k c hc
    have := hm (before.length + (k + 1)) c (by rw [List.getElem?_append_right (by omega)]; simpa using hc)
    rw [List.take_append, List.take_of_length_le (by omega), Nat.add_sub_cancel_left, List.take_succ_cons, spec_run_append] at this
    exact this
  rw [run_append, run]
  generalize run grow init before = st at *
  generalize Spec.run Spec.init before = sp at *
  obtain ⟨hr', _⟩ := rel_step grow hr (.toArray l) rfl trivial (by simp [Spec.movesPastEnd])
  simp only [lists, List.length_map] at hl
  obtain ⟨⟨s, u⟩, hls⟩ : ∃ x, st.lists[l]? = some x := ⟨_, List.getElem?_eq_getElem hl⟩
  have ht : Track (step grow st (.toArray l)).1 l s := by
    simp only [step, hls]
    refine ⟨hr.inv.ok l s u hls, fun m t v hmt he => ?_⟩
    have := hr.inv.apart l m s t u v hls hmt he
    subst this
    rw [hls] at hmt
    grind
  have hv := track_run grow l s after _ _ hr' (fun c hc => hu c (by simp [hc])) hm' hk ht
  obtain ⟨ys, hy⟩ := held_run grow after (step grow st (.toArray l)).1
  have hh : (step grow st (.toArray l)).1.held = st.held ++ [s] := by simp [step, hls]
  have hheap : (step grow st (.toArray l)).1.heap = st.heap := by simp [step, hls]
  rw [hheap] at hv
  simp only [arrays, lists, hy, hh, List.getElem?_map, hls, List.length_map, List.append_assoc, Option.map_some]
  rw [List.getElem?_append_right (Nat.le_refl _)]
  simp [hv]

/-- twice the capacity, as for small slices in Go -/
def double (cap needed : Nat) : Nat := if needed ≤ 2 * cap then 2 * cap - needed else 0

/-- three lists that are inserted in each other and in themselves -/
def sample : List (Call Nat) :=
  [.new false [1, 2, 3], .new false [7, 8], .new true [2, 9], .toArray 0, .op 0 (.add 4), .op 1 (.insertAll 1 (.list 0)), .op 0 (.insertAll 1 (.list 0)), .op 2 (.insertAll 0 (.list 1)), .op 1 (.removeAt 0),
    .op 0 (.removeAll (.list 0)), .op 2 (.removeAll (.list 1)), .op 0 (.addAll (.list 2)), .op 1 (.set 0 5)]

example : (∀ c ∈ sample, Spec.usesArray c = false ∧ Spec.fair c) ∧ lists (run double init sample) = [[7, 9], [5, 2, 3, 4, 8], [7, 9]] := by decide +kernel

example : lists (run double init (sample.take 7)) = [[1, 1, 2, 3, 4, 2, 3, 4], [7, 1, 2, 3, 4, 8], [2, 9]] := by decide +kernel

/-- an array is taken, its list grows and is inserted in another one -/
def sampleAfter : List (Call Nat) := [.op 0 (.add 4), .op 1 (.insertAll 1 (.list 0)), .op 1 (.removeAt 0), .op 0 .clear, .op 0 (.addAll (.list 1))]

example : (∀ c ∈ sampleAfter, Spec.keepsArray 0 c = true ∧ Spec.usesArray c = false) ∧
    arrays (run double init ([.new false [1, 2, 3], .new false [7, 8], .op 0 (.add 5), .toArray 0] ++ sampleAfter)) = [[1, 2, 3, 5]] := by decide +kernel

/-- `for _, e := range list.ToArray() { list.Remove(e) }` leaves an element: what is removed is moved in the array -/
theorem C65_array_violated : arrays (run double init [.new false [1, 2, 3], .toArray 0, .op 0 (.remove 1)]) = [[2, 3, default]] ∧
    arrays (run double init [.new false [1, 2, 3], .toArray 0, .op 0 (.set 0 5)]) = [[5, 2, 3]] ∧
    arrays (run double init [.new false [1, 2, 3], .toArray 0, .op 0 (.move 0 2)]) = [[2, 3, 1]] := by decide +kernel

/-- an array also changes when its list is inserted in another one after it got shorter: it has elements of the other list -/
theorem C65_foreign_violated : arrays (run double init [.new false [1, 2, 3], .new false [7, 8], .toArray 0, .op 0 (.removeAt 2), .op 1 (.insertAll 1 (.list 0))]) = [[1, 2, 8]] := by
  decide +kernel

/-- a list that is made over the array of another one changes with it -/
theorem C65_adopt_violated : lists (run double init [.new false [1, 2, 3], .toArray 0, .adopt false 0, .op 0 (.removeAt 0)]) = [[2, 3], [2, 3, default]] := by decide +kernel

/-- inserting an array of a list in a second list changes an element of the first one -/
theorem C65_insertAll_violated : lists (run double init [.new false [1, 2, 3], .new false [7], .op 0 (.removeAt 2), .toArray 0, .op 0 (.add 5)]) = [[1, 2, 5], [7]] ∧
    lists (run double init [.new false [1, 2, 3], .new false [7], .op 0 (.removeAt 2), .toArray 0, .op 0 (.add 5), .op 1 (.insertAll 0 (.held 0))]) = [[1, 2, 7], [1, 2, 7]] := by decide +kernel

/-- a list that is inserted in itself tells that the whole result has been inserted -/
theorem C65_told_violated : told double (run double init [.new false [1, 2]]) 0 0 (.list 0) = [1, 2, 1, 2] ∧ told double (run double init [.new false [1, 2]]) 0 0 (.lit [1, 2]) = [1, 2] := by decide +kernel

end Verif.SharedList
