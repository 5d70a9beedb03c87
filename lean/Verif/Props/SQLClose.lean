import Verif.Proofs.SQLClose

/-!
# C82: Serialize and Close take every change made before
-/

namespace Verif.SQLClose

open Verif.SQLScheduler (Call Outcome Phase Op phase pending get Gone Started Inv set read getContainer unRegister)

/-- **C82** (`Close`, partial): if no function fails, every operation called before `Close` has been executed when the
store is closed.  Missing: a function fails or panics (`C82_failure_violated`, `C82_gives_up_violated`), operations called
while `Close` is being executed (`C82_window_violated`) and calls of `Close` after the first one
(`C82_second_violated`). -/
theorem C82_close_partial {A B C : List Label} {s : St} (h : run init (A ++ .close :: B ++ .shut :: C) = some s) (hc : Label.close ∉ A)
    (hn : NoFailure (A ++ B)) (x : Nat) (hx : x < (calls A).length) : Success x (A ++ B) := by
  obtain ⟨s1, s2, h1, h2, -, -⟩ := run_split h
  have hn' : NoFailure (A ++ .close :: B) := fun y => by simpa using hn y
  have hx' : x < (calls (before (A ++ .close :: B))).length := by rw [before_close A B hc]; exact hx
  have hg := allGood h1 hn'
  simp only [step] at h2
  split at h2
  · rename_i ids hcl
    split at h2
    · rename_i hh
      rcases hh with hh | hh
      · rcases waits h1 ids hcl hn' x hx' with h | h
        · simp [hh] at h
        · simpa [Success] using h
      · simp only [List.any_eq_true, rejected, Bool.or_eq_true, decide_eq_true_eq] at hh
        obtain ⟨y, -, hy⟩ := hh
        rcases hy with hy | hy
        · exact absurd hy (hg y).1
        · exact absurd hy (hg y).2
    · simp at h2
  · simp at h2

/-- **C82**: `Close` does not wait for ever.  When no operation has a step left the store is closed, after at most one more
round, whatever has failed, and `Close` returns. -/
theorem C82_returns {ls : List Label} {s : St} (h : run init ls = some s) (hp : ∀ c ∈ calls ls, SQLScheduler.Plain c) (hq : Quiet s)
    (h1 : Label.close ∈ ls) (h2 : Label.shut ∉ ls) :
    ∃ s', (run s [.shut] = some s' ∨ run s [.round, .shut] = some s') ∧ s'.returned = s.returned + 1 := by
  obtain ⟨c1, c2, -⟩ := closing_inv h
  obtain ⟨ids, hcl⟩ : ∃ ids, s.closing = .waiting ids := by
    cases hc : s.closing with
    | opened => exact absurd h1 (c1.mp hc)
    | waiting ids => exact ⟨ids, rfl⟩
    | closed live => exact absurd (c2.mp ⟨live, hc⟩) h2
  have hset : ∀ x, x < s.sched.ops.length → phase s.sched x = some .done ∨ rejected s.sched x = true := by
    intro x hx
    have ho := List.getElem?_eq_getElem hx
    have := SQLScheduler.quiet_settled (run_sched h) hp hq x _ ho
    rcases this with hd | hd | hd
    · exact Or.inl (by simp [phase, ho, hd])
    · exact Or.inr (by simp [rejected, phase, ho, hd])
    · exact Or.inr (by simp [rejected, phase, ho, hd])
  by_cases hs : ids = [] ∨ ids.any (rejected s.sched)
  · refine ⟨{ s with closing := .closed (live s.sched), returned := s.returned + 1 }, Or.inl ?_, rfl⟩
    simp only [run, step, hcl, if_pos hs, Option.bind_some]
  · simp only [not_or] at hs
    have hall : ids ≠ [] ∧ ids.all (fun id => phase s.sched id = some .done) := by
      refine ⟨hs.1, ?_⟩
      simp only [List.all_eq_true, decide_eq_true_eq]
      intro x hx
      rcases hset x (waits_called h ids hcl x hx) with hd | hd
      · exact hd
      · exact absurd (List.any_eq_true.mpr ⟨x, hx, hd⟩) hs.2
    have hs2 : pending s.sched none = [] ∨ (pending s.sched none).any (rejected s.sched) := by
      by_cases h0 : pending s.sched none = []
      · exact Or.inl h0
      · right
        obtain ⟨x, hx⟩ := List.exists_mem_of_ne_nil _ h0
        have hi := inv h
        obtain ⟨k, hk⟩ := SQLScheduler.mem_pending hi.qok hx
        have hl : x < s.sched.ops.length := by
          apply Classical.byContradiction
          intro hc
          exact hi.fresh x (by omega) k hk
        rcases hset x hl with hd | hd
        · have ho := List.getElem?_eq_getElem hl
          simp only [phase, ho, Option.map_some, Option.some.injEq] at hd
          exact absurd hk (hi.done x _ ho hd k)
        · exact List.any_eq_true.mpr ⟨x, hx, hd⟩
    refine ⟨{ s with closing := .closed (live s.sched), returned := s.returned + 1 }, Or.inr ?_, rfl⟩
    simp only [run, step, hcl, if_pos hall, if_pos hs2, Option.bind_some]

/-- **C82**: the store is closed at most once, and no call of a method panics before. -/
theorem C82_once {ls : List Label} {s : St} (h : run init ls = some s) :
    ls.count .shut ≤ 1 ∧ (Label.shut ∉ ls → s.panics = 0) := ⟨(closing_inv h).2.2, no_panic h⟩

/-- **C82** (`Serialize`): when the database is read for `Serialize`, the functions of all writes called before have ended. -/
theorem C82_serialize {A B : List Label} {y : Nat} {s : St} (h : run init (A ++ .op (.start y) :: B) = some s)
    (hn : NoTimeout (A ++ .op (.start y) :: B)) (hy : (calls (A ++ .op (.start y) :: B))[y]? = some serialize) (x : Nat) (cx : Call)
    (hxy : x < y) (hx : (calls (A ++ .op (.start y) :: B))[x]? = some cx) (hw : cx.write = true) : Ended x A := by
  obtain ⟨s1, s2, h1, h2, h3, -⟩ := run_split h
  have hi := inv h3
  have hnA : SQLScheduler.NoTimeout (ops (A ++ [.op (.start y)])) := by
    intro j hj
    have := mem_ops.mp hj
    simp only [List.mem_append, List.mem_singleton] at this
    rcases this with h | h
    · exact hn j (by simp [h])
    · simp at h
  have hst : ∃ oy, s2.sched.ops[y]? = some oy ∧ Started oy.phase := by
    have h4 := (step_op h2).1
    simp only [SQLScheduler.step] at h4
    split at h4
    · rename_i op ho
      split at h4
      · simp only [Option.some.injEq] at h4
        rw [← h4]
        exact ⟨{ op with phase := .running }, by simp [SQLScheduler.setOp, List.getElem?_modify, ho], trivial⟩
      · simp at h4
    · simp at h4
  obtain ⟨oy, hoy, hst⟩ := hst
  have hyl : y < (calls (A ++ [.op (.start y)])).length := by
    have := hi.len
    have h5 := (List.getElem?_eq_some_iff.mp hoy).1
    simp only [calls]; omega
  have pre : ∀ i c, i ≤ y → (calls (A ++ .op (.start y) :: B))[i]? = some c → (calls (A ++ [.op (.start y)]))[i]? = some c := by
    intro i c hiy hc
    have e : A ++ Label.op (.start y) :: B = (A ++ [.op (.start y)]) ++ B := by simp
    rw [e, calls_append, List.getElem?_append_left (by omega)] at hc
    exact hc
  have hx' := pre x cx (by omega) hx
  have hy' := pre y serialize (Nat.le_refl _) hy
  have hxl : x < s2.sched.ops.length := by rw [hi.len]; exact (List.getElem?_eq_some_iff.mp hx').1
  have hox := List.getElem?_eq_getElem hxl
  have hww : (s2.sched.ops[x]).write = true := by rw [hi.write x _ cx hox hx']; exact hw
  have hcov : SQLScheduler.Covered cx serialize := ⟨_, _, Or.inl rfl, Or.inl rfl, Or.inl rfl⟩
  have hd : (s2.sched.ops[x]).phase = .done ∨ (s2.sched.ops[x]).phase = .failed := by
    rcases hi.covers x y _ oy cx serialize hxy hox hoy hx' hy' hcov with hg | ⟨k, hk1, hk2⟩
    · have hown := hi.own x _ cx hox hx' ⟨cx.object, cx.feature⟩ (Or.inl rfl)
      rcases hi.reg x _ hox with hr | ⟨-, hr⟩
      · have h1 : 0 < (s2.sched.ops[x]).keys.count (SQLScheduler.norm ⟨cx.object, cx.feature⟩) := List.count_pos_iff.mpr hown
        rw [← hr] at h1
        exact absurd (List.count_pos_iff.mp h1) (hg _)
      · exact hr
    · exact SQLScheduler.settled hi hnA y x _ oy k hxy hox hoy hww hk1 hk2 hst
  obtain ⟨r, hr⟩ := (hi.ends x _ hox).2 hd
  refine ⟨r, ?_⟩
  have := mem_ops.mp hr
  simpa using this

/-- **C82**: if no function fails, the result of `Serialize` has all writes called before, without error. -/
theorem C82_serialize_complete {A B : List Label} {y : Nat} {s : St} (h : run init (A ++ .op (.start y) :: B) = some s)
    (hn : NoTimeout (A ++ .op (.start y) :: B)) (hf : NoFailure A) (hy : (calls (A ++ .op (.start y) :: B))[y]? = some serialize) (x : Nat)
    (cx : Call) (hxy : x < y) (hx : (calls (A ++ .op (.start y) :: B))[x]? = some cx) (hw : cx.write = true) : Success x A := by
  obtain ⟨r, hr⟩ := C82_serialize h hn hy x cx hxy hx hw
  cases r with
  | ok => exact hr
  | error => exact absurd hr (hf x).1
  | panic => exact absurd hr (hf x).2

/-! ## Examples -/

/-- two writes, the store is serialized and closed -/
def sample : List Label :=
  [.op (.call (set 1 2)), .op (.call (set 1 3)), .op (.call serialize), .op (.start 1), .close, .op (.finish 1 .ok), .op (.start 0), .op (.finish 0 .ok),
    .op (.start 2), .op (.finish 2 .ok), .round]

/-- the hypotheses of `C82_close_partial` -/
example : (run init (sample ++ [.shut])).map (fun s => (s.closing, s.panics, s.returned)) = some (.closed [], 0, 1) ∧ NoFailure sample ∧
    sample = sample.take 4 ++ .close :: sample.drop 5 ∧ Label.close ∉ sample.take 4 ∧ (calls (sample.take 4)).length = 3 :=
  ⟨by decide, by simp [NoFailure, sample], rfl, by decide, by decide⟩

/-- `Close` cannot close the store before, and `Serialize` cannot be executed before -/
example : run init (sample.take 10 ++ [.shut]) = none ∧ run init (sample.take 7 ++ [.shut]) = none ∧ run init (sample.take 7 ++ [.round]) = none ∧
    run init (sample.take 7 ++ [.op (.start 2)]) = none := by decide

/-- the hypotheses of `C82_serialize_complete` -/
example : sample = sample.take 8 ++ .op (.start 2) :: sample.drop 9 ∧ NoTimeout sample ∧ NoFailure (sample.take 8) ∧
    (calls sample)[2]? = some serialize ∧ (calls sample)[1]? = some (set 1 3) :=
  ⟨rfl, by simp [NoTimeout, sample], by simp [NoFailure, sample], by decide, by decide⟩

/-- the hypotheses of `C82_returns`: everything is executed after the call of `Close` -/
example : ∃ s, run init (sample.take 10) = some s ∧ (∀ c ∈ calls (sample.take 10), SQLScheduler.Plain c) ∧ Quiet s ∧
    Label.close ∈ sample.take 10 ∧ Label.shut ∉ sample.take 10 := by
  refine ⟨_, rfl, by decide, ?_, by decide, by decide⟩
  intro l hl
  cases l with
  | call c => simp [SQLScheduler.Internal] at hl
  | timeout id => simp [SQLScheduler.Internal] at hl
  | start id =>
    match id with
    | 0 => rfl
    | 1 => rfl
    | 2 => rfl
    | n + 3 => rfl
  | refuse id =>
    match id with
    | 0 => rfl
    | 1 => rfl
    | 2 => rfl
    | n + 3 => rfl
  | finish id r =>
    match id with
    | 0 => rfl
    | 1 => rfl
    | 2 => rfl
    | n + 3 => rfl

/-! ## Violations -/

/-- **C82** is violated: after a function has panicked, or an operation has been given up, the next `Close` closes the store at
once, whatever is being executed. -/
theorem C82_gives_up_violated {ls : List Label} {s : St} (h : run init ls = some s) (hc : Label.close ∉ ls) (x : Nat)
    (hx : Label.op (.finish x .panic) ∈ ls ∨ Label.op (.refuse x) ∈ ls) : ∃ s', run s [.close, .shut] = some s' := by
  have hx' : x ∈ pending s.sched none ∧ rejected s.sched x = true := by
    rcases hx with hx | hx
    · obtain ⟨⟨k, hk⟩, hp⟩ := panic_pending (run_sched h) (mem_ops.mpr hx)
      exact ⟨pending_of_get hk, by simp [rejected, hp]⟩
    · obtain ⟨h1, h2⟩ := refused_pending (inv h) (mem_ops.mpr hx)
      exact ⟨h1, by simp [rejected, h2]⟩
  have hcl := (closing_inv h).1.mpr hc
  have hs : pending s.sched none = [] ∨ (pending s.sched none).any (rejected s.sched) :=
    Or.inr (List.any_eq_true.mpr ⟨x, hx'⟩)
  exact ⟨_, by simp only [run, step, hcl, if_pos hs, Option.bind_some]; rfl⟩

/-- **C82** is violated: an operation that has not begun when the store is closed is never executed successfully. -/
theorem C82_lost_violated {A B : List Label} {s : St} (h : run init (A ++ .shut :: B) = some s) (x : Nat) (hx : Label.op (.start x) ∉ A) :
    ¬ Success x (A ++ .shut :: B) := by
  obtain ⟨s1, s2, h1, h2, h3, h4⟩ := run_split h
  have hi := inv h1
  have hnr : phase s1.sched x ≠ some .running ∧ ¬ SQLScheduler.Finished x (ops A) := by
    by_cases hl : x < s1.sched.ops.length
    · have ho := List.getElem?_eq_getElem hl
      have hst := hi.starts x _ ho
      rw [List.count_eq_zero_of_not_mem (fun hm => hx (mem_ops.mp hm))] at hst
      have hns : ¬ Started (s1.sched.ops[x]).phase := by
        intro hc
        rw [if_pos hc] at hst
        omega
      have := SQLScheduler.not_started_ne hns
      refine ⟨by simp [phase, ho]; exact this.2.2, fun hf => ?_⟩
      rcases (hi.ends x _ ho).1 hf with hd | hd
      · exact this.1 hd
      · exact this.2.1 hd
    · exact ⟨by simp [phase, List.getElem?_eq_none (Nat.le_of_not_lt hl)], hi.ends' x (by omega)⟩
  have hcl : s2.closing = .closed (live s1.sched) := by
    simp only [step] at h2
    split at h2
    · split at h2
      · simp only [Option.some.injEq] at h2; subst h2; rfl
      · simp at h2
    · simp at h2
  intro hm
  simp only [Success, List.mem_append, List.mem_cons, reduceCtorEq, false_or] at hm
  rcases hm with hm | hm
  · exact hnr.2 ⟨_, mem_ops.mpr hm⟩
  · have := (closed_run B hcl h4).2.2 x hm
    simp only [live, List.mem_filter, decide_eq_true_eq] at this
    exact hnr.1 this.2

/-- a write and a failing write of different objects -/
def failing : List Label :=
  [.op (.call (set 1 2)), .op (.call (set 2 2)), .close, .op (.start 1), .op (.finish 1 .error), .shut]

/-- **C82** is violated: `Close` returns when the function of one operation fails; a write of another object called before is
lost. -/
theorem C82_failure_violated : (run init failing).isSome ∧ (∀ B s, run init (failing ++ B) = some s → ¬ Success 0 (failing ++ B)) ∧
    (run init (failing ++ [.op (.start 0), .op (.finish 0 .error)])).isSome := by
  refine ⟨by decide, fun B s h => ?_, by decide⟩
  have e : failing ++ B = failing.take 5 ++ .shut :: B := rfl
  rw [e] at h ⊢
  exact C82_lost_violated h 0 (by decide)

/-- **C82** is violated: a call that panicked a long time ago. -/
theorem C82_panic_violated : (run init [.op (.call (set 1 2)), .op (.start 0), .op (.finish 0 .panic), .op (.call (set 2 2)), .close, .shut]).isSome := by
  decide

/-- **C82** is violated: a write called while `Close` is being executed, without panic, is lost too, because `Close` has already seen that
there is nothing to wait for. -/
theorem C82_window_violated :
    (run init [.close, .op (.call (set 1 2)), .shut]).map (·.panics) = some 0 ∧
    ∀ B s, run init ([.close, .op (.call (set 1 2))] ++ .shut :: B) = some s → ¬ Success 0 ([.close, .op (.call (set 1 2))] ++ .shut :: B) :=
  ⟨by decide, fun _ _ h => C82_lost_violated h 0 (by decide)⟩

/-- **C82** is violated: a second call of `Close` returns although nothing has been executed. -/
theorem C82_second_violated : (run init [.op (.call (set 1 2)), .close, .close]).map (fun s => (s.returned, s.sched.ops.map (·.phase))) =
    some (1, [.waiting]) := by decide

/-- **C82** is violated: after the store is closed, every call of a method panics, and its operation is registered and executed all the
same. -/
theorem C82_closed_violated {A B : List Label} {s : St} (h : run init (A ++ .shut :: B) = some s) :
    s.panics = (calls B).length ∧ s.sched.ops.length = (calls A).length + (calls B).length := by
  obtain ⟨s1, s2, h1, h2, h3, h4⟩ := run_split h
  have hcl : s2.closing = .closed (live s1.sched) := by
    simp only [step] at h2
    split at h2
    · split at h2
      · simp only [Option.some.injEq] at h2; subst h2; rfl
      · simp at h2
    · simp at h2
  have hns : Label.shut ∉ A := by
    intro hm
    have h5 := (closing_inv h).2.2
    have h6 := List.count_pos_iff.mpr hm
    simp [List.count_append] at h5
    omega
  refine ⟨?_, ?_⟩
  · rw [(closed_run B hcl h4).2.1, (step_other (by simp) h2).2, no_panic h1 hns]; simp
  · rw [(inv h).len]
    have e : A ++ Label.shut :: B = A ++ [.shut] ++ B := by simp
    have h7 := congrArg List.length (calls_append (A ++ [.shut]) B)
    rw [calls_append A] at h7
    simp only [calls] at h7 ⊢
    rw [e, h7]
    simp [ops, SQLScheduler.calls]

/-- the hypotheses of `C82_closed_violated` -/
example : (run init [.close, .shut, .op (.call (set 1 2)), .op (.start 0), .op (.finish 0 .error)]).map (·.panics) = some 1 ∧
    run init [.close, .shut, .op (.call (set 1 2)), .op (.start 0), .op (.finish 0 .ok)] = none := by decide

/-- **C82** is violated: `Serialize` also has a write called after it. -/
theorem C82_later_violated :
    (run init [.op (.call serialize), .op (.call (set 1 2)), .op (.start 1), .op (.finish 1 .ok), .op (.start 0), .op (.finish 0 .ok)]).isSome := by
  decide

/-- **C82** is violated: after the time limit `Serialize` does not wait for a write called before. -/
theorem C82_timeout_violated :
    (run init [.op (.call (set 1 2)), .op (.call serialize), .op (.timeout 1), .op (.start 1), .op (.finish 1 .ok)]).isSome := by decide

end Verif.SQLClose
