import Verif.Proofs.SQLErrors

/-!
# C105: An error of the database is not taken for a value
-/

namespace Verif.SQLErrors

/-- features 0, 1 in table 0, feature 2 in table 1 -/
def sample : Env := ⟨fun f => if f < 2 then 0 else 1, fun f => if f = 1 then .data 9 else .nil⟩

/-- A table whose statements are executed, whatever happens in other tables: each call gives back what a record gives back, the value set last. -/
theorem C105_table_partial (E : Env) (ops : List Op) (op : Op) (h : ∀ p ∈ ops ++ [op], E.table p.feature = E.table op.feature → p.works) :
    (step E (run E (init E) ops) op).2 = expected E ops op := by
  have hg := run_good E (E.table op.feature) ops [] (init E) (init_good E _) (fun p hp => h p (by simp [hp]))
  exact (step_works E _ op ops _ rfl (by simpa using hg) (h op (by simp) rfl)).1

/-- a failure in table 1 -/
def other : List Op := [.set 5 2 (.data 3) false false true, .set 4 0 (.data 1) false false false, .get 5 2 false, .set 4 0 (.data 2) true false false]

example : (∀ p ∈ other ++ [.get 4 0 false], sample.table p.feature = sample.table 0 → p.works) ∧
    (answers sample (init sample) (other ++ [.get 4 0 false, .get 4 1 false, .isSet 4 1 false])).map (·.2) =
      [.done, .done, .val .error, .val (.data 1), .val (.data 2), .val (.data 9), .bool false] := by
  refine ⟨fun p hp ht => ?_, by decide⟩
  simp only [other, List.cons_append, List.nil_append, List.mem_cons, List.not_mem_nil, or_false] at hp
  rcases hp with rfl | rfl | rfl | rfl | rfl
  · exact absurd ht (by decide)
  · simp [Op.works]
  · exact absurd ht (by decide)
  · simp [Op.works]
  · simp [Op.works]

/-- Whatever fails: what is got is the error, or the value after some of the calls, all that were made before a certain one. No value is made up. -/
theorem C105_origin (E : Env) (ops : List Op) (o f : Nat) (r : Bool) :
    (step E (run E (init E) ops) (.get o f r)).2 = .val .error ∨
      ∃ n ≤ ops.length, (step E (run E (init E) ops) (.get o f r)).2 = .val (last E (ops.take n) o f) := by
  have key : ∃ n ≤ ops.length, (run E (init E) ops).val o f = last E (ops.take n) o f := by
    -- the first call that leaves something in the queue
    suffices hs : ∀ (ops before : List Op) (s : State), Good E s before (E.table f) →
        ∃ n ≤ ops.length, (run E s ops).val o f = last E (before ++ ops.take n) o f by
      simpa using hs ops [] (init E) (init_good E _)
    intro ops
    induction ops with
    | nil => exact fun before s hg => ⟨0, by simp, by simpa [run] using hg.2 o f rfl⟩
    | cons op ops ih =>
      intro before s hg
      by_cases hgood : Good E (step E s op).1 (before ++ [op]) (E.table f)
      · obtain ⟨n, hn, he⟩ := ih _ _ hgood
        exact ⟨n + 1, by simp only [List.length_cons]; omega, by simpa [run] using he⟩
      · -- it concerns the table, and fails
        have ht : E.table op.feature = E.table f := by
          rcases Nat.decEq (E.table op.feature) (E.table f) with ht | ht
          · exfalso
            apply hgood
            obtain ⟨h1, h2⟩ := step_other E s op _ ht
            refine ⟨⟨h1.1.trans hg.1.1, h1.2.trans hg.1.2⟩, fun p g hp => ?_⟩
            rw [h2 p g hp, last_snoc, gives_other E op p g _ ht hp]
            exact hg.2 p g hp
          · exact ht
        have hfail : ((step E s op).1.readLeft (E.table f) = true ∨ (step E s op).1.writeLeft (E.table f) = true) ∧ (step E s op).1.val o f = s.val o f := by
          have hr : ∀ t, read s t true = ({ s with readLeft := fun u => if u = t then true else s.readLeft u }, false) := by
            intro t; simp [read]
          have hw : ∀ (s : State) t, write s t true = ({ s with writeLeft := fun u => if u = t then true else s.writeLeft u }, false) := by
            intro s t; simp [write]
          have hnw : ¬ op.works := fun hw => hgood (step_works E s op before _ ht hg hw).2
          cases op with
          | get p g r =>
            simp only [Op.feature] at ht
            have : r = true := by simpa [Op.works] using hnw
            subst this
            simp [step, getValue, hr, ht]
          | isSet p g r =>
            simp only [Op.feature] at ht
            have : r = true := by simpa [Op.works] using hnw
            subst this
            simp [step, hr, ht]
          | unset p g w =>
            simp only [Op.feature] at ht
            have : w = true := by simpa [Op.works] using hnw
            subst this
            simp [step, hw, ht]
          | set p g v nr r w =>
            simp only [Op.feature] at ht
            cases nr
            · have : w = true := by simpa [Op.works] using hnw
              subst this
              simp [step, doSet, hw, ht]
            · cases r
              · have : w = true := by simpa [Op.works] using hnw
                subst this
                simp [step, doSet, getValue, ht, read_clean s _ hg.1, hw]
              · simp [step, doSet, getValue, hr, ht, write]
        obtain ⟨h1, h2⟩ := hfail
        refine ⟨0, by simp, ?_⟩
        simp only [run, List.take_zero, List.append_nil]
        rw [(run_stuck E _ ops _ h1).2 o f rfl, h2]
        exact hg.2 o f rfl
  obtain ⟨n, hn, he⟩ := key
  simp only [step, getValue]
  cases hr : (read (run E (init E) ops) (E.table f) r).2 with
  | false => exact .inl (by simp)
  | true =>
    refine .inr ⟨n, hn, ?_⟩
    simp only [if_true, Out.val.injEq]
    rw [← he]
    simp only [read]
    split <;> rfl

/-- Violated, in all states: `Get` gives the error of the database as the value of the feature. -/
theorem C105_get_violated (E : Env) (s : State) (o f : Nat) : (step E s (.get o f true)).2 = .val .error := by
  simp [step, getValue, read]

/-- Violated: after one `Set` that fails, `Get` of any feature of the table gives an error as the value, for any object and whatever is done, although the
database works. -/
theorem C105_after_set_violated (E : Env) (s : State) (ops : List Op) (o f p g : Nat) (v : Val) (hg : E.table g = E.table f) :
    (step E (run E (step E s (.set o f v false false true)).1 ops) (.get p g false)).2 = .val .error := by
  have h : (step E s (.set o f v false false true)).1.writeLeft (E.table f) = true := by simp [step, doSet, write]
  have h2 := (run_stuck E (E.table f) ops _ (.inr h)).1.2 h
  generalize run E (step E s (.set o f v false false true)).1 ops = s' at h2 ⊢
  simp [step, getValue, hg, read, h2]

/-- Violated: after one `Get` that fails, nothing is stored any more in the table, for any object and feature of it, although the database works, and without any sign of
it: `Set` and `UnSet` are as before. -/
theorem C105_after_get_violated (E : Env) (s : State) (ops : List Op) (o f p g : Nat) (hg : E.table g = E.table f) :
    (run E (step E s (.get o f true)).1 ops).val p g = s.val p g := by
  have h : (step E s (.get o f true)).1.readLeft (E.table f) = true := by simp [step, getValue, read]
  rw [(run_stuck E (E.table f) ops _ (.inl h)).2 p g hg]
  simp [step, getValue, read]

example : (answers sample (init sample) [.set 4 0 (.data 1) false false false, .get 4 0 true, .get 4 0 false, .set 4 0 (.data 2) false false false,
    .get 4 0 false]).map (·.2) = [.done, .val .error, .val (.data 1), .done, .val .error] := by decide

end Verif.SQLErrors
