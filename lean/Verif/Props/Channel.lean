import Verif.Model.Channel
/-
Property C45: the unbounded channel.
-/
namespace Verif.Spec.Channel
open Verif.Channel

/-- The values sent in a schedule, in order. -/
def sent {α : Type} : List (Act α) → List α
  | [] => []
  | .send v :: as => v :: sent as
  | _ :: as => sent as

/-- The values received, in order. -/
def received {α : Type} : List (Out α) → List α
  | [] => []
  | .value v :: os => v :: received os
  | _ :: os => received os
end Verif.Spec.Channel

namespace Verif.Props
open Verif.Channel Verif.Spec.Channel
variable {α : Type}

/-- `inNil` and `outClosed` only happen after the channel was closed; when `out` is closed nothing is left. -/
def Channel.Inv (s : St α) : Prop := (s.inNil = true → s.inClosed = true) ∧ (s.outClosed = true → s.inClosed = true ∧ s.queue = [])

theorem Channel.inv_step (s s' : St α) (a : Act α) (o : Out α) (hi : Channel.Inv s) (h : step s a = some (s', o)) : Channel.Inv s' := by
  unfold Channel.Inv at *
  cases a <;> simp only [step] at h <;> grind

theorem Channel.run_inv (s s' : St α) (as : List (Act α)) (os : List (Out α)) (hi : Channel.Inv s) (h : run s as = some (s', os)) :
    Channel.Inv s' := by
  induction as generalizing s os with
  | nil => simp only [run, Option.some.injEq, Prod.mk.injEq] at h; rw [← h.1]; exact hi
  | cons a as ih =>
    rw [run] at h
    cases hs : step s a with
    | none => simp [hs] at h
    | some p =>
      obtain ⟨s1, o⟩ := p
      simp only [hs] at h
      cases hr : run s1 as with
      | none => simp [hr] at h
      | some q =>
        obtain ⟨s2, os'⟩ := q
        simp only [hr, Option.some.injEq, Prod.mk.injEq] at h
        obtain ⟨rfl, rfl⟩ := h
        exact ih s1 os' (Channel.inv_step s s1 a o hi hs) hr

/-- One step: what was waiting, followed by what is sent, is what is received, followed by what waits. -/
theorem Channel.step_balance (s s' : St α) (a : Act α) (o : Out α) (h : step s a = some (s', o)) :
    s.queue ++ sent [a] = received [o] ++ s'.queue := by
  cases a <;> simp only [step] at h <;> grind [sent, received]

theorem Channel.sent_cons (a : Act α) (as : List (Act α)) : sent (a :: as) = sent [a] ++ sent as := by cases a <;> rfl

theorem Channel.received_cons (o : Out α) (os : List (Out α)) : received (o :: os) = received [o] ++ received os := by cases o <;> rfl

theorem Channel.run_balance (s s' : St α) (as : List (Act α)) (os : List (Out α)) (h : run s as = some (s', os)) :
    s.queue ++ sent as = received os ++ s'.queue := by
  induction as generalizing s os with
  | nil =>
    simp only [run, Option.some.injEq, Prod.mk.injEq] at h
    obtain ⟨rfl, rfl⟩ := h
    simp [sent, received]
  | cons a as ih =>
    rw [run] at h
    cases hs : step s a with
    | none => simp [hs] at h
    | some p =>
      obtain ⟨s1, o⟩ := p
      simp only [hs] at h
      cases hr : run s1 as with
      | none => simp [hr] at h
      | some q =>
        obtain ⟨s2, os'⟩ := q
        simp only [hr, Option.some.injEq, Prod.mk.injEq] at h
        obtain ⟨rfl, rfl⟩ := h
        rw [Channel.sent_cons, Channel.received_cons, ← List.append_assoc, Channel.step_balance s s1 a o hs, List.append_assoc,
          ih s1 os' hr, List.append_assoc]

/-- **C45**: in every schedule, the values received are the first values sent, in the order sent, none twice. -/
theorem C45_fifo (as : List (Act α)) (s : St α) (os : List (Out α)) (h : run init as = some (s, os)) :
    ∃ waiting, sent as = received os ++ waiting := by
  have := Channel.run_balance _ _ _ _ h
  exact ⟨s.queue, by simpa [init] using this⟩

/-- **C45**: when a consumer sees the end of the stream, every value sent has been received. -/
theorem C45_complete (as : List (Act α)) (s : St α) (os : List (Out α)) (h : run init as = some (s, os)) (he : Out.ended ∈ os) :
    received os = sent as := by
  have hb := Channel.run_balance _ _ _ _ h
  have hq : s.queue = [] := by
    have hinv := Channel.run_inv init s as os ⟨by simp [init], by simp [init]⟩ h
    suffices ho : s.outClosed = true from (hinv.2 ho).2
    have key : ∀ (as : List (Act α)) (s0 s : St α) (os : List (Out α)), run s0 as = some (s, os) →
        (Out.ended ∈ os ∨ s0.outClosed = true) → s.outClosed = true := by
      intro as
      induction as with
      | nil =>
        intro s0 s os h he
        simp only [run, Option.some.injEq, Prod.mk.injEq] at h
        obtain ⟨rfl, rfl⟩ := h
        simpa using he
      | cons a as ih =>
        intro s0 s os h he
        rw [run] at h
        cases hs : step s0 a with
        | none => simp [hs] at h
        | some p =>
          obtain ⟨s1, o⟩ := p
          simp only [hs] at h
          cases hr : run s1 as with
          | none => simp [hr] at h
          | some q =>
            obtain ⟨s2, os'⟩ := q
            simp only [hr, Option.some.injEq, Prod.mk.injEq] at h
            obtain ⟨rfl, rfl⟩ := h
            apply ih s1 s2 os' hr
            have : (o = .ended ∨ s0.outClosed = true) → s1.outClosed = true := by
              cases a <;> simp only [step] at hs <;> grind
            rcases he with he | he
            · rcases List.mem_cons.1 he with he | he
              · exact .inr (this (.inl he.symm))
              · exact .inl he
            · exact .inr (this (.inr he))
    exact key as init s os h (.inl he)
  rw [hq] at hb
  simpa [init] using hb.symm

/-- **C45**: a send never blocks as long as nobody closed the channel, whatever the consumers do. -/
theorem C45_never_blocks (as : List (Act α)) (s : St α) (os : List (Out α)) (h : run init as = some (s, os))
    (hc : Act.closeStore ∉ as) (v : α) : ∃ s', step s (.send v) = some (s', .none) := by
  have hcl : s.inClosed = false := by
    have key : ∀ (as : List (Act α)) (s0 s : St α) (os : List (Out α)), run s0 as = some (s, os) → Act.closeStore ∉ as →
        s0.inClosed = false → s.inClosed = false := by
      intro as
      induction as with
      | nil => intro s0 s os h _ h0; simp only [run, Option.some.injEq, Prod.mk.injEq] at h; rw [← h.1]; exact h0
      | cons a as ih =>
        intro s0 s os h hc h0
        rw [run] at h
        cases hs : step s0 a with
        | none => simp [hs] at h
        | some p =>
          obtain ⟨s1, o⟩ := p
          simp only [hs] at h
          cases hr : run s1 as with
          | none => simp [hr] at h
          | some q =>
            obtain ⟨s2, os'⟩ := q
            simp only [hr, Option.some.injEq, Prod.mk.injEq] at h
            obtain ⟨rfl, rfl⟩ := h
            refine ih s1 s2 os' hr (fun hm => hc (by simp [hm])) ?_
            have : a ≠ .closeStore := fun e => hc (by simp [e])
            cases a <;> simp only [step] at hs <;> grind
    exact key as init s os h hc rfl
  have hinv := Channel.run_inv init s as os ⟨by simp [init], by simp [init]⟩ h
  have h1 : s.inNil = false := by
    cases hn : s.inNil with
    | false => rfl
    | true => have := hinv.1 hn; rw [hcl] at this; cases this
  have h2 : s.outClosed = false := by
    cases hn : s.outClosed with
    | false => rfl
    | true => have := (hinv.2 hn).1; rw [hcl] at this; cases this
  exact ⟨_, by simp only [step, hcl, h1, h2]; rfl⟩

/-- Steps left for `manage` and a consumer after the channel was closed. -/
def Channel.left (s : St α) : Nat := s.queue.length + (!s.inNil).toNat + (!s.outClosed).toNat

/-- **C45**: a closed channel drains: as long as the stream has not ended, `manage` or a consumer can make a step, and every such
step brings the end nearer; so a consumer which keeps receiving sees the end. -/
theorem C45_drains (as : List (Act α)) (s : St α) (os : List (Out α)) (h : run init as = some (s, os)) (hc : s.inClosed = true) :
    (s.outClosed = true ∨ ∃ a ∈ [Act.recv, .seeClosed, .finish], (step s a).isSome) ∧
    (∀ a ∈ [Act.recv, .seeClosed, .finish], ∀ s' o, step s a = some (s', o) → Channel.left s' < Channel.left s ∧ s'.inClosed = true) := by
  refine ⟨?_, ?_⟩
  · cases ho : s.outClosed with
    | true => exact .inl rfl
    | false =>
      right
      cases hq : s.queue with
      | cons x q => exact ⟨.recv, by simp, by simp [step, hq, ho]⟩
      | nil =>
        cases hn : s.inNil with
        | true => exact ⟨.finish, by simp, by simp [step, hq, ho, hn]⟩
        | false => exact ⟨.seeClosed, by simp, by simp [step, hq, ho, hn, hc]⟩
  · intro a ha s' o hs
    simp only [List.mem_cons, List.not_mem_nil, or_false] at ha
    unfold Channel.left
    rcases ha with rfl | rfl | rfl <;> simp only [step] at hs <;> grind

/-- A schedule with sends overtaking receives and a close in the middle. -/
example : (run init [.send 1, .send 2, .recv, .closeLoad, .send 3, .closeStore, .recv, .seeClosed, .recv, .finish, .recvEnd]).map
    (fun p => (received p.2, p.2.contains .ended)) = some ([1, 2, 3], true) := by decide

/-- **C45 violated**: two concurrent calls of Close can both close the channel, which panics: the flag is read and stored in two steps. -/
theorem C45_concurrent_close_violated :
    (run (init : St Nat) [.closeLoad, .closeLoad, .closeStore, .closeStore]).map (·.2) = some [.none, .none, .none, .panic] := by decide

/-- With one call of Close at a time (each stores before the next one reads), Close never panics. -/
theorem C45_sequential_close (s : St α) (as : List (Act α)) (s' : St α) (os : List (Out α))
    (h : run s as = some (s', os)) (hs : s.closers ≤ 1 ∧ (s.closers = 1 → s.flag = false) ∧ (s.inClosed = true → s.flag = true))
    (hseq : ∀ pre post s1 o1, as = pre ++ .closeLoad :: post → run s pre = some (s1, o1) → s1.closers = 0) : Out.panic ∉ os := by
  induction as generalizing s os with
  | nil => simp only [run, Option.some.injEq, Prod.mk.injEq] at h; rw [← h.2]; simp
  | cons a as ih =>
    rw [run] at h
    cases hst : step s a with
    | none => simp [hst] at h
    | some p =>
      obtain ⟨s1, o⟩ := p
      simp only [hst] at h
      cases hr : run s1 as with
      | none => simp [hr] at h
      | some q =>
        obtain ⟨s2, os'⟩ := q
        simp only [hr, Option.some.injEq, Prod.mk.injEq] at h
        obtain ⟨rfl, rfl⟩ := h
        have hload : a = .closeLoad → s.closers = 0 := by
          intro ha
          exact hseq [] as s [] (by simp [ha]) rfl
        have hstep : (s1.closers ≤ 1 ∧ (s1.closers = 1 → s1.flag = false) ∧ (s1.inClosed = true → s1.flag = true)) ∧ o ≠ .panic := by
          cases a <;> simp only [step] at hst <;> grind
        have hrec := ih s1 os' hr hstep.1 (by
          intro pre post t o1 he hp
          refine hseq (a :: pre) post t (o :: o1) (by simp [he]) ?_
          rw [run, hst]
          simp [hp])
        intro hm
        rcases List.mem_cons.1 hm with hm | hm
        · exact hstep.2 hm.symm
        · exact hrec hm

/-- Two calls of Close, one after the other. -/
example : (run (init : St Nat) [.send 1, .closeLoad, .closeStore, .closeLoad, .recv]).map (·.2) =
    some [.none, .none, .none, .none, .value 1] := by decide

end Verif.Props
