import Verif.Proofs.SQLPending

/-!
# C40: reading single valued features of the SQL store
-/

namespace Verif.SQLPending

open SQLScheduler

theorem cinv_of_run {fs : Area → Feature} {es : List Event} {c : Client} (h : run fs start es = some c) (hS : Simple fs (apiCalls es)) :
    ∃ ls, CInv fs (apiCalls es) (apiCalls es) ls c := by
  simpa using cinv_run es start c [] [] (cinv_start fs (apiCalls es)) hS (fun a ha => ha) h

/-- **C40** (partial): whatever the goroutines do, when the client is not waiting every call of `Get` and `IsSet` has a
result; the result of `Get` is the value stored by the last `Set` or `UnSet` of the feature before the call.
Missing: objects that are also values of pending writes (`C40_reference_violated`), `SetContainer` and `AddRoot`
(`C40_root_violated`, `C40_container_violated`), operations that fail or are cancelled. -/
theorem C40_get_partial {fs : Area → Feature} {es : List Event} {c : Client} (h : run fs start es = some c)
    (hS : Simple fs (apiCalls es)) (hw : c.waiting = none) :
    c.results.length = (answers fs [] (apiCalls es)).length ∧
      ∀ (i : Nat) (v : Val), (answers fs [] (apiCalls es))[i]? = some (some (Result.value v)) → c.results[i]? = some (Result.value v) := by
  obtain ⟨ls, hi⟩ := cinv_of_run h hS
  obtain ⟨h1, h2⟩ := hi.free hw
  refine ⟨h1, fun i v hv => ?_⟩
  have hl : i < c.results.length := by rw [h1]; exact (List.getElem?_eq_some_iff.mp hv).1
  have hx := List.getElem?_eq_getElem hl
  rw [hx, h2 i _ _ hx hv (Or.inl ⟨v, rfl⟩)]

/-- **C40** (partial): the result of `IsSet` tells whether the value stored by the last `Set` or `UnSet` is not the default
value.  Missing besides the above: values that are the default value (`C40_default_violated`), default values that are
not stored as they are (`C40_unset_violated`). -/
theorem C40_isSet_partial {fs : Area → Feature} {es : List Event} {c : Client} (h : run fs start es = some c)
    (hS : Simple fs (apiCalls es)) (hN : NoDefault fs (apiCalls es)) (hw : c.waiting = none) :
    ∀ (i : Nat) (b : Bool), (answers fs [] (apiCalls es))[i]? = some (some (Result.bool b)) → c.results[i]? = some (Result.bool b) := by
  obtain ⟨ls, hi⟩ := cinv_of_run h hS
  obtain ⟨h1, h2⟩ := hi.free hw
  intro i b hv
  have hl : i < c.results.length := by rw [h1]; exact (List.getElem?_eq_some_iff.mp hv).1
  have hx := List.getElem?_eq_getElem hl
  rw [hx, h2 i _ _ hx hv (Or.inr hN)]

/-- features of the examples: 0 a string, 1 a reference, 2 an int, 3 an int64 -/
def sampleFs (k : Area) : Feature :=
  match k.feat with
  | some 1 => ⟨.ref, .nil⟩
  | some 2 => ⟨.int, .int 0⟩
  | some 3 => ⟨.int64, .int64 7⟩
  | _ => ⟨.str, .str ""⟩

/-- a write read while pending, overwritten and read when executed, unset and read; another feature meanwhile -/
def sampleEs : List Event :=
  [.api (.set 1 0 (.str "a")), .api (.get 1 0), .api (.set 1 0 (.str "b")), .api (.set 1 3 (.int64 4)), .api (.isSet 1 0), .start 0, .start 2,
    .finish 0, .start 1, .finish 1, .api (.get 1 0), .start 3, .finish 3, .api (.isSet 1 0), .finish 2, .start 4, .finish 4,
    .api (.unSet 1 0), .start 5, .finish 5, .api (.get 1 0), .start 6, .finish 6, .api (.isSet 1 0), .start 7, .finish 7,
    .api (.get 1 3), .start 8, .finish 8]

theorem sample_simple : Simple sampleFs (apiCalls sampleEs) where
  calls := by simp [sampleEs, apiCalls]
  values := by
    simp only [sampleEs, apiCalls, List.mem_cons, List.not_mem_nil, or_false, Api.set.injEq, reduceCtorEq, or_self, false_or]
    rintro o f v (⟨rfl, rfl, rfl⟩ | ⟨rfl, rfl, rfl⟩ | ⟨rfl, rfl, rfl⟩) <;> decide
  defaults := by intro k; simp only [sampleFs]; split <;> simp [OfKind]
  objects := by simp [sampleEs, apiCalls, Api.other, Api.call, Val.object]

theorem sample_noDefault : NoDefault sampleFs (apiCalls sampleEs) where
  values := by
    simp only [sampleEs, apiCalls, List.mem_cons, List.not_mem_nil, or_false, Api.set.injEq, reduceCtorEq, or_self, false_or]
    rintro o f v (⟨rfl, rfl, rfl⟩ | ⟨rfl, rfl, rfl⟩ | ⟨rfl, rfl, rfl⟩) <;> decide
  defaults := by simp [sampleEs, apiCalls, sampleFs]

example : ∃ c, run sampleFs start sampleEs = some c ∧ c.waiting = none ∧
    c.results = [.value (.str "a"), .bool true, .value (.str "b"), .bool true, .value (.str ""), .bool false, .value (.int64 4)] ∧
    answers sampleFs [] (apiCalls sampleEs) = c.results.map some := by
  have h : (run sampleFs start sampleEs).map (fun c => (c.waiting, c.results)) =
      some (none, [.value (.str "a"), .bool true, .value (.str "b"), .bool true, .value (.str ""), .bool false, .value (.int64 4)]) := by decide
  have h2 : answers sampleFs [] (apiCalls sampleEs) =
      List.map some [.value (.str "a"), .bool true, .value (.str "b"), .bool true, .value (.str ""), .bool false, .value (.int64 4)] := by decide
  cases hr : run sampleFs start sampleEs with
  | none => rw [hr] at h; simp at h
  | some c =>
    rw [hr] at h
    simp only [Option.map_some, Option.some.injEq, Prod.mk.injEq] at h
    exact ⟨c, rfl, h.1, h.2, by rw [h2, h.2]⟩

/-- the results of an execution -/
def resultsOf (es : List Event) : Option (List Result) := (run sampleFs start es).map Client.results

/-- **C40** is violated: object 1 has the name "a"; while the write that makes it the value of a reference of
object 2 is pending, `Get` of its name returns the object itself. -/
theorem C40_reference_violated : ∃ es, resultsOf es = some [.value (.obj 1)] ∧ answers sampleFs [] (apiCalls es) = [some (.value (.str "a"))] :=
  ⟨[.api (.set 1 0 (.str "a")), .api (.set 2 1 (.obj 1)), .api (.get 1 0)], by decide⟩

/-- **C40** is violated: while `AddRoot` is pending, `Get` of every feature returns nil. -/
theorem C40_root_violated : ∃ es, resultsOf es = some [.value .nil] ∧ answers sampleFs [] (apiCalls es) = [some (.value (.str "a"))] :=
  ⟨[.api (.set 1 0 (.str "a")), .api .addRoot, .api (.get 1 0)], by decide⟩

/-- **C40** is violated: while `SetContainer` of the container 1 of another object is pending, `Get` of the name of 1
returns 1 itself. -/
theorem C40_container_violated : ∃ es, resultsOf es = some [.value (.obj 1)] ∧ answers sampleFs [] (apiCalls es) = [some (.value (.str "a"))] :=
  ⟨[.api (.set 1 0 (.str "a")), .api (.setContainer 2 (some 1) 1), .api (.get 1 0)], by decide⟩

/-- **C40** is violated: a feature set to its default value is set while the write is pending, and not set
afterwards. -/
theorem C40_default_violated : ∃ es, resultsOf es = some [.bool true, .bool false] ∧
    answers sampleFs [] (apiCalls es) = [some (.bool false), some (.bool false)] :=
  ⟨[.api (.set 1 0 (.str "")), .api (.isSet 1 0), .start 0, .finish 0, .api (.isSet 1 0), .start 1, .finish 1], by decide⟩

/-- **C40** is violated: a feature of type int is set after `UnSet`: its column holds an int64, its default value is
an int. -/
theorem C40_unset_violated : ∃ es, resultsOf es = some [.bool true] ∧ answers sampleFs [] (apiCalls es) = [some (.bool false)] :=
  ⟨[.api (.unSet 1 2), .start 0, .finish 0, .api (.isSet 1 2), .start 1, .finish 1], by decide⟩

end Verif.SQLPending
