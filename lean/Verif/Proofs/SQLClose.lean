import Verif.Spec.SQLClose
import Verif.Proofs.SQLScheduler
import Verif.Props.SQLScheduler

/-!
# Proofs about the end of a SQL store
-/

namespace Verif.SQLClose

open Verif.SQLScheduler (Call Outcome Phase Op phase pending get Gone Started Inv)

/-! ## Executions -/

theorem run_append (s : St) (A B : List Label) : run s (A ++ B) = (run s A).bind (run · B) := by
  induction A generalizing s with
  | nil => rfl
  | cons l A ih =>
    simp only [List.cons_append, run]
    cases step s l with
    | none => rfl
    | some s' => exact ih s'

theorem run_split {A B : List Label} {l : Label} {s : St} (h : run init (A ++ l :: B) = some s) :
    ∃ s1 s2, run init A = some s1 ∧ step s1 l = some s2 ∧ run init (A ++ [l]) = some s2 ∧ run s2 B = some s := by
  rw [run_append] at h
  cases h1 : run init A with
  | none => simp [h1] at h
  | some s1 =>
    rw [h1] at h
    simp only [Option.bind_some, run] at h
    cases h2 : step s1 l with
    | none => simp [h2] at h
    | some s2 =>
      rw [h2] at h
      refine ⟨s1, s2, rfl, h2, ?_, h⟩
      rw [run_append, h1]
      simp [run, h2]

/-- induction over executions -/
theorem run_ind {P : List Label → St → Prop} (h0 : P [] init)
    (hs : ∀ A s l s', run init A = some s → P A s → step s l = some s' → P (A ++ [l]) s') {ls : List Label} {s : St}
    (h : run init ls = some s) : P ls s := by
  have : ∀ (B A : List Label) (s0 : St), run init A = some s0 → P A s0 → run s0 B = some s → P (A ++ B) s := by
    intro B
    induction B with
    | nil => intro A s0 _ hi hr; simp only [run, Option.some.injEq] at hr; subst hr; simpa using hi
    | cons l B ih =>
      intro A s0 hA hi hr
      simp only [run] at hr
      cases hst : step s0 l with
      | none => simp [hst] at hr
      | some s1 =>
        rw [hst] at hr
        have := ih (A ++ [l]) s1 (by rw [run_append, hA]; simp [run, hst]) (hs A s0 l s1 hA hi hst) hr
        simpa using this
  simpa using this ls [] init rfl h0 h

theorem ops_append (A B : List Label) : ops (A ++ B) = ops A ++ ops B := by simp [ops]

theorem calls_append (A B : List Label) : calls (A ++ B) = calls A ++ calls B := by
  simp [calls, ops_append, SQLScheduler.calls_append]

theorem mem_ops {ls : List Label} {l : SQLScheduler.Label} : l ∈ ops ls ↔ Label.op l ∈ ls := by
  simp only [ops, List.mem_filterMap]
  constructor
  · rintro ⟨a, h1, h2⟩
    cases a <;> simp at h2
    subst h2; exact h1
  · intro h; exact ⟨_, h, rfl⟩

/-- what a step of an operation does -/
theorem step_op {s s' : St} {l : SQLScheduler.Label} (h : step s (.op l) = some s') :
    SQLScheduler.step s.sched l = some s'.sched ∧ s'.closing = s.closing ∧ s'.returned = s.returned := by
  simp only [step] at h
  split at h
  · simp at h
  · rename_i t ht
    rw [ht]
    split at h
    · simp at h; subst h; simp
    · split at h
      · simp at h; subst h; simp
      · simp at h
    · simp at h; subst h; simp

/-- what a step of `Close` does -/
theorem step_other {s s' : St} {l : Label} (hl : ∀ x, l ≠ .op x) (h : step s l = some s') : s'.sched = s.sched ∧ s'.panics = s.panics := by
  cases l with
  | op x => exact absurd rfl (hl x)
  | close => simp only [step] at h; split at h <;> simp at h <;> subst h <;> simp
  | round =>
    simp only [step] at h
    split at h
    · split at h
      · simp at h; subst h; simp
      · simp at h
    · simp at h
  | shut =>
    simp only [step] at h
    split at h
    · split at h
      · simp at h; subst h; simp
      · simp at h
    · simp at h

/-- the operations make an execution of the scheduler -/
theorem run_sched {ls : List Label} {s : St} (h : run init ls = some s) : SQLScheduler.run SQLScheduler.init (ops ls) = some s.sched := by
  refine run_ind (P := fun ls s => SQLScheduler.run SQLScheduler.init (ops ls) = some s.sched) rfl ?_ h
  intro A s l s' _ hi hs
  rw [ops_append, SQLScheduler.run_append, hi]
  by_cases hl : ∃ x, l = .op x
  · obtain ⟨x, rfl⟩ := hl
    have := (step_op hs).1
    simp [ops, SQLScheduler.run, this]
  · have h1 := (step_other (fun x e => hl ⟨x, e⟩) hs).1
    cases l with
    | op x => exact absurd ⟨x, rfl⟩ hl
    | _ => simp [ops, SQLScheduler.run, h1]

theorem inv {ls : List Label} {s : St} (h : run init ls = some s) : Inv (ops ls) s.sched := SQLScheduler.inv_run (run_sched h)

/-! ## Without failures -/

theorem ok_of_finished {ls : List Label} (hn : NoFailure ls) {x : Nat} (h : SQLScheduler.Finished x (ops ls)) : Success x ls := by
  obtain ⟨r, hr⟩ := h
  have hr := mem_ops.mp hr
  cases r with
  | ok => exact hr
  | error => exact absurd hr (hn x).1
  | panic => exact absurd hr (hn x).2

theorem NoFailure.left {A B : List Label} (h : NoFailure (A ++ B)) : NoFailure A :=
  fun x => ⟨fun hm => (h x).1 (by simp [hm]), fun hm => (h x).2 (by simp [hm])⟩

/-- a change of one operation -/
theorem phase_setOp (s : SQLScheduler.St) (id i : Nat) (f : Op → Op) :
    phase (SQLScheduler.setOp s id f) i = if i = id then (s.ops[i]?.map fun o => (f o).phase) else phase s i := by
  simp only [phase, SQLScheduler.setOp, List.getElem?_modify]
  by_cases h : id = i
  · subst h; simp [Function.comp_def]
  · have : ¬ i = id := fun e => h e.symm
    simp [h, this]

/-- no promise is rejected -/
def AllGood (s : SQLScheduler.St) : Prop := ∀ i, phase s i ≠ some .failed ∧ phase s i ≠ some .refused

theorem allGood_step {ls : List SQLScheduler.Label} {s s' : SQLScheduler.St} {l : SQLScheduler.Label} (hi : Inv ls s) (h : AllGood s)
    (hs : SQLScheduler.step s l = some s') (he : ∀ x, l ≠ .finish x .error ∧ l ≠ .finish x .panic) : AllGood s' := by
  intro i
  cases l with
  | call c =>
    simp only [SQLScheduler.step, Option.some.injEq] at hs
    subst hs
    simp only [phase, SQLScheduler.call]
    rcases Nat.lt_trichotomy i s.ops.length with hl | hl | hl
    · rw [List.getElem?_append_left hl]; exact h i
    · subst hl; simp
    · rw [List.getElem?_eq_none (by simp; omega)]; simp
  | start id =>
    simp only [SQLScheduler.step] at hs
    split at hs
    · split at hs
      · simp only [Option.some.injEq] at hs
        subst hs
        rw [phase_setOp]
        split
        · cases s.ops[i]? <;> simp
        · exact h i
      · simp at hs
    · simp at hs
  | refuse id =>
    simp only [SQLScheduler.step] at hs
    split at hs
    · rename_i op ho
      split at hs
      · rename_i hb
        obtain ⟨-, hb⟩ := hb
        simp only [SQLScheduler.blocked, List.any_eq_true, Bool.or_eq_true, decide_eq_true_eq] at hb
        obtain ⟨p, -, hb⟩ := hb
        rcases hb with hb | hb
        · exact absurd hb (h p).1
        · exact absurd hb (h p).2
      · simp at hs
    · simp at hs
  | timeout id =>
    simp only [SQLScheduler.step] at hs
    split at hs
    · rename_i op ho
      simp only [Option.some.injEq] at hs
      subst hs
      rw [phase_setOp]
      split
      · have := h i
        simp only [phase] at this
        cases hh : s.ops[i]? <;> simp_all
      · exact h i
    · simp at hs
  | finish id r =>
    have hr : r = .ok := by
      cases r with
      | ok => rfl
      | error => exact absurd rfl (he id).1
      | panic => exact absurd rfl (he id).2
    subst hr
    simp only [SQLScheduler.step] at hs
    split at hs
    · rename_i op ho
      split at hs
      · rename_i hrun
        have hreg : ∀ k, (get s.queues k).count id = op.keys.count k := by
          rcases hi.reg id op ho with hr | ⟨-, hr⟩
          · exact hr
          · simp [hrun] at hr
        have hu := (SQLScheduler.unregisterAll_own id op.keys s.queues hreg).1
        rw [if_neg (by simp)] at hs
        simp only [hu, Option.some.injEq] at hs
        subst hs
        rw [phase_setOp]
        split
        · cases s.ops[i]? <;> simp
        · exact h i
      · simp at hs
    · simp at hs

theorem allGood {ls : List Label} {s : St} (h : run init ls = some s) : NoFailure ls → AllGood s.sched := by
  refine run_ind (P := fun ls s => NoFailure ls → AllGood s.sched) ?_ ?_ h
  · intro _ i; simp [init, SQLScheduler.init, phase]
  · intro A s l s' hA hi hs hn
    by_cases hl : ∃ x, l = .op x
    · obtain ⟨x, rfl⟩ := hl
      refine allGood_step (inv hA) (hi hn.left) (step_op hs).1 (fun y => ⟨?_, ?_⟩)
      · rintro rfl; exact (hn y).1 (by simp)
      · rintro rfl; exact (hn y).2 (by simp)
    · rw [(step_other (fun x e => hl ⟨x, e⟩) hs).1]; exact hi hn.left

/-! ## What `Close` waits for -/

/-- an operation that is not registered has ended -/
theorem pending_or_ended {ls : List SQLScheduler.Label} {s : SQLScheduler.St} (hi : Inv ls s) {x : Nat} (hx : x < (SQLScheduler.calls ls).length) :
    x ∈ pending s none ∨ SQLScheduler.Finished x ls := by
  have hl : x < s.ops.length := by rw [hi.len]; exact hx
  have ho := List.getElem?_eq_getElem hl
  have hc := List.getElem?_eq_getElem hx
  have hk := hi.own x _ _ ho hc ⟨_, _⟩ (Or.inl rfl)
  rcases hi.reg x _ ho with hr | ⟨-, hd⟩
  · have h1 : 0 < (get s.queues (SQLScheduler.norm ⟨(SQLScheduler.calls ls)[x].object, (SQLScheduler.calls ls)[x].feature⟩)).count x := by
      rw [hr]; exact List.count_pos_iff.mpr hk
    obtain ⟨l, h2, h3⟩ := SQLScheduler.mem_get (List.count_pos_iff.mp h1)
    left
    simp only [pending, List.mem_flatMap, List.mem_filter]
    exact ⟨_, ⟨h2, by simp⟩, h3⟩
  · exact Or.inr ((hi.ends x _ ho).2 hd)

theorem pending_of_get {s : SQLScheduler.St} {k : SQLScheduler.Area} {x : Nat} (h : x ∈ get s.queues k) : x ∈ pending s none := by
  obtain ⟨l, h2, h3⟩ := SQLScheduler.mem_get h
  simp only [pending, List.mem_flatMap, List.mem_filter]
  exact ⟨_, ⟨h2, by simp⟩, h3⟩

/-- the calls before the first `Close` -/
def before : List Label → List Label
  | [] => []
  | .close :: _ => []
  | l :: ls => l :: before ls

theorem before_snoc (A : List Label) (l : Label) : before (A ++ [l]) = if Label.close ∈ A ∨ l = .close then before A else A ++ [l] := by
  induction A with
  | nil => cases l <;> simp [before]
  | cons a A ih =>
    cases a with
    | close => simp [before]
    | _ => simp only [List.cons_append, before, ih, List.mem_cons]; grind

theorem before_self {A : List Label} (h : Label.close ∉ A) : before A = A := by
  induction A with
  | nil => rfl
  | cons a A ih =>
    cases a with
    | close => simp at h
    | _ => simp only [List.mem_cons, not_or] at h; simp [before, ih h.2]

theorem before_close (A B : List Label) (h : Label.close ∉ A) : before (A ++ .close :: B) = A := by
  induction A with
  | nil => rfl
  | cons a A ih =>
    cases a with
    | close => simp at h
    | _ => simp only [List.mem_cons, not_or] at h; simp [before, ih h.2]

theorem before_le (A : List Label) : (calls (before A)).length ≤ (calls A).length := by
  induction A with
  | nil => simp [before]
  | cons a A ih =>
    have h1 : ∀ a A, calls (a :: A) = calls [a] ++ calls A := fun a A => by rw [← calls_append]; rfl
    cases a with
    | close => simp [before, calls, ops, SQLScheduler.calls]
    | _ => simp only [before]; rw [h1, h1 _ A]; simp; omega

/-- the state of `Close` and the calls of it -/
theorem closing_inv {ls : List Label} {s : St} (h : run init ls = some s) :
    (s.closing = .opened ↔ Label.close ∉ ls) ∧ ((∃ live, s.closing = .closed live) ↔ Label.shut ∈ ls) ∧ ls.count .shut ≤ 1 := by
  refine run_ind (P := fun ls s => (s.closing = .opened ↔ Label.close ∉ ls) ∧ ((∃ live, s.closing = .closed live) ↔ Label.shut ∈ ls) ∧
    ls.count .shut ≤ 1) ?_ ?_ h
  · simp [init]
  · intro A s l s' _ hi hs
    obtain ⟨h1, h2, h3⟩ := hi
    cases l with
    | op x =>
      rw [(step_op hs).2.1]
      simpa [List.count_append] using ⟨h1, h2, h3⟩
    | close =>
      simp only [step] at hs
      have hc : (A ++ [Label.close]).count .shut ≤ 1 := by simpa [List.count_append] using h3
      cases hcl : s.closing with
      | opened =>
        simp only [hcl, Option.some.injEq] at hs
        subst hs
        refine ⟨by simp, ?_, hc⟩
        rw [hcl] at h2
        simpa using h2
      | waiting ids =>
        simp only [hcl, Option.some.injEq] at hs
        subst hs
        refine ⟨by simp [hcl], ?_, hc⟩
        rw [hcl] at h2
        simpa [hcl] using h2
      | closed live =>
        simp only [hcl, Option.some.injEq] at hs
        subst hs
        refine ⟨by simp [hcl], ?_, hc⟩
        rw [hcl] at h2
        simpa [hcl] using h2
    | round =>
      simp only [step] at hs
      split at hs
      · rename_i ids hcl
        split at hs
        · simp only [Option.some.injEq] at hs
          subst hs
          rw [hcl] at h1 h2
          refine ⟨by simpa using h1, by simpa using h2, by simpa [List.count_append] using h3⟩
        · simp at hs
      · simp at hs
    | shut =>
      simp only [step] at hs
      split at hs
      · rename_i ids hcl
        split at hs
        · simp only [Option.some.injEq] at hs
          subst hs
          rw [hcl] at h1 h2
          refine ⟨by simpa using h1, by simp, ?_⟩
          have : Label.shut ∉ A := by simpa using h2
          simp [List.count_append, List.count_eq_zero_of_not_mem this]
        · simp at hs
      · simp at hs

/-- what `WaitOperations` waits for, or has waited for -/
theorem waits {ls : List Label} {s : St} (h : run init ls = some s) : ∀ ids, s.closing = .waiting ids → NoFailure ls →
    ∀ x, x < (calls (before ls)).length → x ∈ ids ∨ Success x ls := by
  refine run_ind (P := fun ls s => ∀ ids, s.closing = .waiting ids → NoFailure ls →
    ∀ x, x < (calls (before ls)).length → x ∈ ids ∨ Success x ls) ?_ ?_ h
  · simp [init]
  · intro A s l s' hA hi hs ids hc hn x hx
    have hcl := closing_inv hA
    have hi' : (hx : x < (calls (before A)).length) → ∀ ids, s.closing = .waiting ids → x ∈ ids ∨ Success x (A ++ [l]) := by
      intro hx ids hc
      rcases hi ids hc hn.left x hx with h | h
      · exact Or.inl h
      · exact Or.inr (by simp [Success]; exact Or.inl h)
    have fresh : x < (calls A).length → x ∈ pending s.sched none ∨ Success x (A ++ [l]) := by
      intro hx
      rcases pending_or_ended (inv hA) hx with h | h
      · exact Or.inl h
      · exact Or.inr (by have := ok_of_finished hn.left h; simp [Success]; exact Or.inl this)
    have hb : s.closing ≠ .opened ∨ l = .close → before (A ++ [l]) = before A := by
      intro h
      rw [before_snoc, if_pos]
      rcases h with h | h
      · left; exact Decidable.not_not.mp (fun hm => h (hcl.1.mpr hm))
      · exact Or.inr h
    cases l with
    | op y =>
      have h1 := (step_op hs).2.1
      rw [hc] at h1
      rw [hb (Or.inl (by simp [← h1]))] at hx
      exact hi' hx ids h1.symm
    | close =>
      rw [hb (Or.inr rfl)] at hx
      simp only [step] at hs
      split at hs
      · simp only [Option.some.injEq] at hs
        subst hs
        simp only [Closing.waiting.injEq] at hc
        subst hc
        exact fresh (by have := before_le A; omega)
      · simp only [Option.some.injEq] at hs
        subst hs
        exact hi' hx ids hc
    | round =>
      simp only [step] at hs
      split at hs
      · rename_i ids' hcl'
        rw [hb (Or.inl (by simp [hcl']))] at hx
        split at hs
        · simp only [Option.some.injEq] at hs
          subst hs
          simp only [Closing.waiting.injEq] at hc
          subst hc
          exact fresh (by have := before_le A; omega)
        · simp at hs
      · simp at hs
    | shut =>
      simp only [step] at hs
      split at hs
      · split at hs
        · simp only [Option.some.injEq] at hs
          subst hs
          simp at hc
        · simp at hs
      · simp at hs

/-- the operations of a round have been called -/
theorem waits_called {ls : List Label} {s : St} (h : run init ls = some s) : ∀ ids, s.closing = .waiting ids →
    ∀ x ∈ ids, x < s.sched.ops.length := by
  have hp : ∀ A s, run init A = some s → ∀ x ∈ pending s.sched none, x < s.sched.ops.length := by
    intro A s hA x hx
    obtain ⟨k, hk⟩ := SQLScheduler.mem_pending (inv hA).qok hx
    apply Classical.byContradiction
    intro hc
    exact (inv hA).fresh x (by omega) k hk
  refine run_ind (P := fun ls s => ∀ ids, s.closing = .waiting ids → ∀ x ∈ ids, x < s.sched.ops.length) ?_ ?_ h
  · simp [init]
  · intro A s l s' hA hi hs ids hc x hx
    cases l with
    | op y =>
      have hh := step_op hs
      rw [hc] at hh
      have h1 := hi ids hh.2.1.symm x hx
      have hA' : run init (A ++ [.op y]) = some s' := by rw [run_append, hA]; simp [run, hs]
      rw [(inv hA').len, ops_append, SQLScheduler.calls_append]
      rw [(inv hA).len] at h1
      simp; omega
    | close =>
      have h0 := step_other (by simp) hs
      rw [h0.1]
      simp only [step] at hs
      split at hs
      · simp only [Option.some.injEq] at hs
        subst hs
        simp only [Closing.waiting.injEq] at hc
        subst hc
        exact hp A s hA x hx
      · simp only [Option.some.injEq] at hs
        subst hs
        exact hi ids hc x hx
    | round =>
      have h0 := step_other (by simp) hs
      rw [h0.1]
      simp only [step] at hs
      split at hs
      · split at hs
        · simp only [Option.some.injEq] at hs
          subst hs
          simp only [Closing.waiting.injEq] at hc
          subst hc
          exact hp A s hA x hx
        · simp at hs
      · simp at hs
    | shut =>
      simp only [step] at hs
      split at hs
      · split at hs
        · simp only [Option.some.injEq] at hs
          subst hs
          simp at hc
        · simp at hs
      · simp at hs

/-! ## After a refused operation or a panic -/

theorem phase_of_mem {ls : List SQLScheduler.Label} {s : SQLScheduler.St} (hi : Inv ls s) {x : Nat} {ph : Phase} (h : phase s x = some ph) :
    ∃ op, s.ops[x]? = some op ∧ op.phase = ph ∧ x < (SQLScheduler.calls ls).length := by
  simp only [phase] at h
  cases ho : s.ops[x]? with
  | none => simp [ho] at h
  | some op =>
    simp [ho] at h
    refine ⟨op, rfl, h, ?_⟩
    rw [← hi.len]
    exact (List.getElem?_eq_some_iff.mp ho).1

theorem refused_pending {ls : List SQLScheduler.Label} {s : SQLScheduler.St} (hi : Inv ls s) {x : Nat} (h : SQLScheduler.Label.refuse x ∈ ls) :
    x ∈ pending s none ∧ phase s x = some .refused := by
  have hp := hi.refused x h
  obtain ⟨op, ho, hph, hl⟩ := phase_of_mem hi hp
  refine ⟨?_, hp⟩
  rcases pending_or_ended hi hl with h | h
  · exact h
  · have := (hi.ends x op ho).1 h
    simp [hph] at this

theorem panic_pending {ls : List SQLScheduler.Label} {s : SQLScheduler.St} (h : SQLScheduler.run SQLScheduler.init ls = some s) {x : Nat} :
    SQLScheduler.Label.finish x .panic ∈ ls → (∃ k, x ∈ get s.queues k) ∧ phase s x = some .failed := by
  have key : ∀ (B A : List SQLScheduler.Label) (s0 : SQLScheduler.St), SQLScheduler.run SQLScheduler.init A = some s0 →
      (SQLScheduler.Label.finish x .panic ∈ A → (∃ k, x ∈ get s0.queues k)) → SQLScheduler.run s0 B = some s →
      (SQLScheduler.Label.finish x .panic ∈ A ++ B → (∃ k, x ∈ get s.queues k)) := by
    intro B
    induction B with
    | nil => intro A s0 _ hi hr; simp only [SQLScheduler.run, Option.some.injEq] at hr; subst hr; simpa using hi
    | cons l B ih =>
      intro A s0 hA hi hr
      simp only [SQLScheduler.run] at hr
      cases hst : SQLScheduler.step s0 l with
      | none => simp [hst] at hr
      | some s1 =>
        rw [hst] at hr
        have hA1 : SQLScheduler.run SQLScheduler.init (A ++ [l]) = some s1 := by rw [SQLScheduler.run_append, hA]; simp [SQLScheduler.run, hst]
        have := ih (A ++ [l]) s1 hA1 ?_ hr
        · simpa using this
        · intro hm
          have hinv := SQLScheduler.inv_run hA
          by_cases hin : SQLScheduler.Label.finish x .panic ∈ A
          · obtain ⟨k, hk⟩ := hi hin
            have hx : phase s0 x = some .failed := by
              have hlt : x < s0.ops.length := by
                apply Classical.byContradiction; intro hc; exact hinv.fresh x (by omega) k hk
              have ho := List.getElem?_eq_getElem hlt
              rcases (hinv.ends x _ ho).1 ⟨_, hin⟩ with hd | hd
              · exact absurd hk (hinv.done x _ ho hd k)
              · simp [phase, ho, hd]
            refine ⟨k, ?_⟩
            cases l with
            | call c =>
              simp only [SQLScheduler.step, Option.some.injEq] at hst
              subst hst
              obtain ⟨new, -, hreg, -⟩ := SQLScheduler.reg_registerAll
                (fun i => if i = s0.ops.length then c.write else SQLScheduler.writes s0.ops i) s0.ops.length c.areas s0.queues [] []
              exact hreg.mono hk
            | start id =>
              simp only [SQLScheduler.step] at hst
              split at hst
              · split at hst
                · simp only [Option.some.injEq] at hst; subst hst; exact hk
                · simp at hst
              · simp at hst
            | refuse id =>
              simp only [SQLScheduler.step] at hst
              split at hst
              · split at hst
                · simp only [Option.some.injEq] at hst; subst hst; exact hk
                · simp at hst
              · simp at hst
            | timeout id =>
              simp only [SQLScheduler.step] at hst
              split at hst
              · simp only [Option.some.injEq] at hst; subst hst; exact hk
              · simp at hst
            | finish id r =>
              simp only [SQLScheduler.step] at hst
              split at hst
              · rename_i op ho
                split at hst
                · rename_i hrun
                  have hne : x ≠ id := by
                    rintro rfl
                    simp [phase, ho, hrun] at hx
                  split at hst
                  · simp only [Option.some.injEq] at hst; subst hst; exact hk
                  · simp only [Option.some.injEq] at hst
                    subst hst
                    have := (SQLScheduler.unregisterAll_counts id op.keys s0.queues).2.2 k x hne
                    have h1 : 0 < (get s0.queues k).count x := List.count_pos_iff.mpr hk
                    rw [← this] at h1
                    exact List.count_pos_iff.mp h1
                · simp at hst
              · simp at hst
          · have hl : l = .finish x .panic := by
              simp only [List.mem_append, List.mem_singleton] at hm
              rcases hm with h | h
              · exact absurd h hin
              · exact h.symm
            subst hl
            simp only [SQLScheduler.step] at hst
            split at hst
            · rename_i op ho
              split at hst
              · rename_i hrun
                simp only [↓reduceIte, Option.some.injEq] at hst
                subst hst
                have hlt : x < (SQLScheduler.calls A).length := by rw [← hinv.len]; exact (List.getElem?_eq_some_iff.mp ho).1
                rcases pending_or_ended hinv hlt with h | h
                · exact SQLScheduler.mem_pending hinv.qok h
                · have := (hinv.ends x op ho).1 h
                  simp [hrun] at this
              · simp at hst
            · simp at hst
  intro hm
  obtain ⟨k, hk⟩ := key ls [] SQLScheduler.init rfl (by simp) h (by simpa using hm)
  refine ⟨⟨k, hk⟩, ?_⟩
  have hinv := SQLScheduler.inv_run h
  have hlt : x < s.ops.length := by
    apply Classical.byContradiction; intro hc; exact hinv.fresh x (by omega) k hk
  have ho := List.getElem?_eq_getElem hlt
  rcases (hinv.ends x _ ho).1 ⟨_, hm⟩ with hd | hd
  · exact absurd hk (hinv.done x _ ho hd k)
  · simp [phase, ho, hd]

/-! ## After the end -/

/-- the state stays closed -/
theorem closed_run {s s' : St} {live : List Nat} (B : List Label) (hc : s.closing = .closed live) (h : run s B = some s') :
    s'.closing = .closed live ∧ s'.panics = s.panics + (calls B).length ∧ ∀ x, Label.op (.finish x .ok) ∈ B → x ∈ live := by
  induction B generalizing s with
  | nil => simp only [run, Option.some.injEq] at h; subst h; simp [hc, calls, ops, SQLScheduler.calls]
  | cons l B ih =>
    simp only [run] at h
    cases hst : step s l with
    | none => simp [hst] at h
    | some s1 =>
      rw [hst] at h
      have hcb : calls (l :: B) = calls [l] ++ calls B := by rw [← calls_append]; rfl
      cases l with
      | op x =>
        have h1 := step_op hst
        obtain ⟨i1, i2, i3⟩ := ih (h1.2.1.trans hc) h
        refine ⟨i1, ?_, ?_⟩
        · rw [i2, hcb]
          have hx : s1.panics = s.panics + (calls [Label.op x]).length := by
            simp only [step, hc] at hst
            cases hss : SQLScheduler.step s.sched x with
            | none => simp [hss] at hst
            | some t =>
              simp only [hss] at hst
              cases x with
              | call c => simp only [Option.some.injEq] at hst; subst hst; simp [calls, ops, SQLScheduler.calls]
              | finish id r =>
                cases r with
                | ok =>
                  simp only at hst
                  split at hst
                  · simp only [Option.some.injEq] at hst; subst hst; simp [calls, ops, SQLScheduler.calls]
                  · simp at hst
                | _ => simp only [Option.some.injEq] at hst; subst hst; simp [calls, ops, SQLScheduler.calls]
              | _ => simp only [Option.some.injEq] at hst; subst hst; simp [calls, ops, SQLScheduler.calls]
          rw [hx]; simp; omega
        · intro y hy
          simp only [List.mem_cons] at hy
          rcases hy with hy | hy
          · injection hy with hy
            subst hy
            simp only [step, hc] at hst
            split at hst
            · simp at hst
            · split at hst
              · assumption
              · simp at hst
          · exact i3 y hy
      | close =>
        simp only [step, hc, Option.some.injEq] at hst
        subst hst
        obtain ⟨i1, i2, i3⟩ := ih (by rfl) h
        refine ⟨i1, ?_, by simpa using i3⟩
        rw [i2, hcb]; simp [calls, ops, SQLScheduler.calls]
      | round => simp [step, hc] at hst
      | shut => simp [step, hc] at hst

/-- no panic before the store is closed -/
theorem no_panic {ls : List Label} {s : St} (h : run init ls = some s) : Label.shut ∉ ls → s.panics = 0 := by
  refine run_ind (P := fun ls s => Label.shut ∉ ls → s.panics = 0) (by simp [init]) ?_ h
  intro A s l s' hA hi hs hm
  simp only [List.mem_append, List.mem_singleton, not_or] at hm
  have h0 := hi hm.1
  cases l with
  | op x =>
    have hnc : ∀ live, s.closing ≠ .closed live := fun live e => hm.1 ((closing_inv hA).2.1.mp ⟨live, e⟩)
    simp only [step] at hs
    split at hs
    · simp at hs
    · split at hs
      · rename_i hc _; exact absurd hc (hnc _)
      · rename_i hc _; exact absurd hc (hnc _)
      · simp only [Option.some.injEq] at hs; subst hs; exact h0
  | _ => rw [(step_other (by simp) hs).2]; exact h0

end Verif.SQLClose
