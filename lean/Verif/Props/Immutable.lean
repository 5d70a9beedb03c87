import Verif.Proofs.Immutable

/-!
# C92: immutable lists and maps

`answer h op` is the answer of `op` after the program `h`.
-/

namespace Verif.Immutable
open Spec

/-- An immutable list answers, whatever the program does later, for the elements the slice had when it was given to `NewImmutableEList`; `d` is what reading
the slice gave before.  Only for programs that keep the discipline `Careful`: the slice given away is not written or appended to any more and not given twice, what `ToArray` gives is not written (it may be
appended to).  Missing: other programs, see the violations. -/
theorem C92_list_partial (h later : List Op) (v l : Nat) (d : List Val) (q : Query)
    (hc : Careful (h ++ [.newList v] ++ later)) (hd : answer h (.read v) = .vals d) (hl : answer h (.newList v) = .ref l) :
    answer (h ++ [.newList v] ++ later) (.ask l q) = listReply d q := by
  unfold Careful at hc
  rw [books_append, books_append] at hc
  obtain ⟨⟨h1, h2⟩, h3⟩ := hc
  obtain ⟨grp, hi⟩ := run_inv init_inv h1
  obtain ⟨grp', hi', -⟩ := step_ok hi h2.1
  simp only [answer, step, Ans.vals.injEq, Ans.ref.injEq] at hd hl
  subst hl
  have ho : (step (run init h) (.newList v)).1.objs[(run init h).objs.length]? = some ⟨(run init h).var v, none⟩ := by simp [step]
  rw [List.foldl_append] at h3
  obtain ⟨o', h4, h5, h6⟩ := run_keeps hi' h3 ho
  have hr : run init (h ++ [.newList v] ++ later) = run (step (run init h) (.newList v)).1 later := by
    rw [run_append, run_append]; rfl
  have hdat : o'.data = none := run_nomap later _ _ _ ho rfl o' h4
  rw [answer_ask, hr, h4]
  simp only
  rw [hdat, reply_list, h5]
  exact congrArg (fun d => listReply d q) hd

/-- An immutable map answers, whatever the program does later, for the elements of the slice and the keys and values of the entries when it was given to `NewImmutableEMap`; of two entries with the same key
the last counts.  For programs that keep the discipline and do not write into the Go map that `ToMap` gives. -/
theorem C92_map_partial (h later : List Op) (v l : Nat) (d : List Val)
    (hc : Careful (h ++ [.newMap v] ++ later)) (hd : answer h (.read v) = .vals d) (hl : answer h (.newMap v) = .ref l)
    (hw : ∀ op ∈ later, ¬ WritesMap l op) :
    ∃ ps, pairs? (run init h).entries d = some ps ∧
      (∀ q, q ≠ .toMap → answer (h ++ [.newMap v] ++ later) (.ask l q) = mapReply d ps q) ∧
      MapOf ps (answer (h ++ [.newMap v] ++ later) (.ask l .toMap)) := by
  unfold Careful at hc
  rw [books_append, books_append] at hc
  obtain ⟨⟨h1, h2⟩, h3⟩ := hc
  obtain ⟨grp, hi⟩ := run_inv init_inv h1
  obtain ⟨grp', hi', -⟩ := step_ok hi h2.1
  simp only [answer, step, Ans.vals.injEq] at hd
  simp only [answer, step] at hl
  cases hm : fill (run init h).entries (cells (run init h).arrays ((run init h).var v)) [] with
  | none => rw [hm] at hl; simp at hl
  | some m =>
    rw [hm] at hl
    simp only [Ans.ref.injEq] at hl
    subst hl
    obtain ⟨ps, hp, hf⟩ := fill_fits _ _ [] [] m ⟨fun _ => rfl, by simp, by simp⟩ hm
    rw [hd] at hp
    simp only [List.nil_append] at hf
    refine ⟨ps, hp, ?_⟩
    have hs : (step (run init h) (.newMap v)).1 = { run init h with objs := (run init h).objs ++ [⟨(run init h).var v, some m⟩] } := by
      simp only [step, hm]
    have ho : (step (run init h) (.newMap v)).1.objs[(run init h).objs.length]? = some ⟨(run init h).var v, some m⟩ := by simp [hs]
    rw [List.foldl_append] at h3
    obtain ⟨o', h4, h5, h6⟩ := run_keeps hi' h3 ho
    have hr : run init (h ++ [.newMap v] ++ later) = run (step (run init h) (.newMap v)).1 later := by
      rw [run_append, run_append]; rfl
    have h7 := h6 hw
    simp only at h7
    have hcells : cells (run (step (run init h) (.newMap v)).1 later).arrays o'.slice = d := by
      rw [h5, hs]; exact hd
    refine ⟨fun q hq => ?_, ?_⟩
    · rw [answer_ask, hr, h4]
      simp only [h7, hcells]
      exact reply_map hf d q hq
    · rw [answer_ask, hr, h4]
      simp only [h7, hcells]
      exact toMap_of hf d

/-- `NewImmutableEMap` panics exactly if an element is no entry or a key cannot be a key of a Go map. -/
theorem C92_make_partial (h : List Op) (v : Nat) (d : List Val) (hd : answer h (.read v) = .vals d) :
    answer h (.newMap v) = .panic ↔ ¬ ∃ ps, pairs? (run init h).entries d = some ps ∧ ∀ p ∈ ps, ¬ ∃ l, p.1 = .bytes l := by
  simp only [answer, step, Ans.vals.injEq] at hd
  simp only [answer, step, hd]
  rw [← fill_none (run init h).entries d []]
  cases fill (run init h).entries d [] <;> simp

/-- Entries and Go map of a map agree: if the keys `ps` of the entries differ, `GetValue` of the key of each entry of the map is its value (as they were when the map was made), and each key and each value
is contained. -/
theorem C92_entries_partial (h later : List Op) (v l : Nat) (d : List Val) (ps : List (Val × Val))
    (hc : Careful (h ++ [.newMap v] ++ later)) (hd : answer h (.read v) = .vals d) (hl : answer h (.newMap v) = .ref l)
    (hw : ∀ op ∈ later, ¬ WritesMap l op) (hps : pairs? (run init h).entries d = some ps) (hn : (ps.map (·.1)).Nodup) (k x : Val) (hp : (k, x) ∈ ps)
    (hx : ¬ ∃ l, x = .bytes l) :
    answer (h ++ [.newMap v] ++ later) (.ask l (.getValue k)) = .val x ∧
    answer (h ++ [.newMap v] ++ later) (.ask l (.containsKey k)) = .bool true ∧
    answer (h ++ [.newMap v] ++ later) (.ask l (.containsValue x)) = .bool true := by
  obtain ⟨ps', h1, h2, -⟩ := C92_map_partial h later v l d hc hd hl hw
  rw [hps] at h1
  simp only [Option.some.injEq] at h1
  subst h1
  have hk : ¬ ∃ l, k = .bytes l := by
    have hm : answer h (.newMap v) ≠ .panic := by rw [hl]; simp
    rw [Ne, C92_make_partial h v d hd, Classical.not_not] at hm
    obtain ⟨ps', h3, h4⟩ := hm
    rw [hps] at h3
    simp only [Option.some.injEq] at h3
    subst h3
    exact h4 _ hp
  rw [h2 _ (by simp), h2 _ (by simp), h2 _ (by simp)]
  have hl := last_nodup hn hp
  have hlive : x ∈ (live ps).map (·.2) := List.mem_map.mpr ⟨(k, x), by simp [live, hp, hl], rfl⟩
  refine ⟨by simp [mapReply, hk, hl], ?_, ?_⟩
  · simp only [mapReply, hk, if_false]
    simp only [Ans.bool.injEq, decide_eq_true_eq]
    exact List.mem_map.mpr ⟨_, hp, rfl⟩
  · have : ¬ Bad ((live ps).map (·.2)) x := fun hb => hx hb.1
    simp only [mapReply, this, if_false, hlive, decide_true]

/-- a program with two lists and a map that keeps the discipline: a slice with room is filled by `append`, made a list, and what `ToArray` gives is appended to -/
def careful : List Op :=
  [.make [.num 1, .num 2] 3, .write 0 1 (.num 7), .append 0 (.bytes [1]) 0, .newList 1, .ask 0 .toArray, .append 2 (.num 9) 0, .append 2 (.num 8) 0,
   .newEntry (.num 1) (.num 5), .newEntry .nil (.num 6), .newEntry (.num 1) .nil, .make [.entry 0, .entry 1, .entry 2] 1, .newMap 5, .setValue 0 (.num 4), .ask 1 .toMap]

example : Careful careful ∧ answer careful (.ask 0 .toArray) = .vals [.num 1, .num 7, .bytes [1]] ∧ answer careful (.ask 0 (.get 1)) = .val (.num 7) ∧
    answer careful (.ask 0 (.indexOf (.num 7))) = .int 1 ∧ answer careful (.ask 0 (.contains (.bytes [1]))) = .panic ∧ answer careful (.ask 0 (.get 3)) = .panic ∧
    answer careful (.ask 1 (.getValue (.num 1))) = .val .nil ∧ answer careful (.ask 1 (.containsValue (.num 6))) = .bool true ∧ answer careful (.ask 0 .change) = .panic := by decide

example : answer (careful.take 3) (.read 1) = .vals [.num 1, .num 7, .bytes [1]] ∧ answer (careful.take 3) (.newList 1) = .ref 0 ∧
    answer (careful.take 11) (.newMap 5) = .ref 1 ∧ ∀ op ∈ careful.drop 12, ¬ WritesMap 1 op := by decide

/-- Violated: writing into what `ToArray` gives changes the list, for every list and every place in it. -/
theorem C92_array_violated (h : List Op) (l i n : Nat) (x : Val) (hs : answer h (.ask l .size) = .int n) (hi : i < n) :
    answer (h ++ [.ask l .toArray, .write (run init h).vars.length i x]) (.ask l (.get i)) = .val x := by
  rw [answer_ask] at hs
  cases ho : (run init h).objs[l]? with
  | none => rw [ho] at hs; simp at hs
  | some o =>
    rw [ho] at hs
    simp only [reply, Ans.int.injEq] at hs
    have hs : (cells (run init h).arrays o.slice).length = n := by omega
    have hlen : i < o.slice.len := by
      simp only [cells, List.length_take] at hs
      omega
    have hr : run init (h ++ [.ask l .toArray, .write (run init h).vars.length i x]) = _ :=
      (run_append init h _).trans (toArray_write (run init h) ho i x hlen)
    rw [answer_ask, hr]
    simp only [ho, reply]
    rw [get_eq]
    simp only [at?]
    have : (cells (store (run init h).arrays o.slice.arr (o.slice.off + i) x) o.slice)[i]? = some x := by
      apply cells_hit
      rw [hs]; exact hi
    simp [this]

/-- Violated: writing into the slice after it was given to `NewImmutableEList` changes the list. -/
theorem C92_slice_violated :
    answer [.make [.num 1] 0, .newList 0] (.ask 0 (.get 0)) = .val (.num 1) ∧
    answer [.make [.num 1] 0, .newList 0, .write 0 0 (.num 2)] (.ask 0 (.get 0)) = .val (.num 2) := by decide

/-- Violated: two lists made of a slice and a shorter piece of it; appending to what `ToArray` of the shorter one gives changes the longer one. -/
theorem C92_prefix_violated :
    let h : List Op := [.make [.num 1, .num 2] 0, .cut 0 0 1, .newList 0, .newList 1]
    answer h (.ask 0 .toArray) = .vals [.num 1, .num 2] ∧
    answer (h ++ [.ask 1 .toArray, .append 2 (.num 3) 0]) (.ask 0 .toArray) = .vals [.num 1, .num 3] := by decide

/-- Violated: a list made by appending to what `ToArray` of another list gives is changed when the same is done once more. -/
theorem C92_extended_violated :
    let h : List Op := [.make [.num 1] 1, .newList 0, .ask 0 .toArray, .append 1 (.num 2) 0, .newList 2]
    answer h (.ask 1 .toArray) = .vals [.num 1, .num 2] ∧
    answer (h ++ [.ask 0 .toArray, .append 3 (.num 3) 0]) (.ask 1 .toArray) = .vals [.num 1, .num 3] := by decide

/-- Violated: writing into what `ToMap` gives changes the map, and the elements of the map no longer fit. -/
theorem C92_toMap_violated :
    let h : List Op := [.newEntry (.num 1) (.num 5), .make [.entry 0] 0, .newMap 0]
    answer h (.ask 0 (.getValue (.num 1))) = .val (.num 5) ∧
    answer (h ++ [.ask 0 .toMap, .delMap 0 (.num 1)]) (.ask 0 (.getValue (.num 1))) = .val .nil ∧
    answer (h ++ [.ask 0 .toMap, .delMap 0 (.num 1)]) (.ask 0 .size) = .int 1 := by decide

/-- Violated: of two entries with the same key only the last counts for `GetValue`, `ContainsValue` and `ToMap`, but `Size` and `Get` have both. -/
theorem C92_twice_violated :
    let h : List Op := [.newEntry (.num 1) (.num 5), .newEntry (.num 1) (.num 6), .make [.entry 0, .entry 1] 0, .newMap 0]
    answer h (.ask 0 .size) = .int 2 ∧ answer h (.ask 0 (.get 0)) = .val (.entry 0) ∧
    answer h (.ask 0 (.getValue (.num 1))) = .val (.num 6) ∧ answer h (.ask 0 (.containsValue (.num 5))) = .bool false ∧
    answer h (.ask 0 .toMap) = .pairs [(.num 1, .num 6)] := by decide

/-- Violated: `SetValue` of an entry of the map changes the element, not what `GetValue` gives. -/
theorem C92_entry_violated :
    let h : List Op := [.newEntry (.num 1) (.num 5), .make [.entry 0] 0, .newMap 0, .setValue 0 (.num 6)]
    (run init h).entries[0]? = some (.num 1, .num 6) ∧ answer h (.ask 0 (.get 0)) = .val (.entry 0) ∧
    answer h (.ask 0 (.getValue (.num 1))) = .val (.num 5) := by decide

end Verif.Immutable
