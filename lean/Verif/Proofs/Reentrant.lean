import Verif.Spec.Reentrant
import Verif.Proofs.Notify
import Verif.Proofs.EClassRun
/-
Proofs for C86.
-/
namespace Verif.Reentrant
open Verif.EList Verif.Notify Verif.Spec Verif.Spec.Observer

variable {α : Type}

@[simp] theorem upd_same {β : Type} (f : Nat → β) (n : Nat) (b : β) : upd f n b n = b := by simp [upd]
theorem upd_ne {β : Type} (f : Nat → β) (n m : Nat) (b : β) (h : m ≠ n) : upd f n b m = f m := by simp [upd, h]

@[simp] theorem about_nil (n : Nat) : about n ([] : List (Nat × Notif α)) = [] := rfl
theorem about_append (n : Nat) (x y : List (Nat × Notif α)) : about n (x ++ y) = about n x ++ about n y := by
  simp [about, List.filterMap_append]
theorem about_map (n k : Nat) (l : List (Notif α)) : about n (l.map (k, ·)) = if k = n then l else [] := by
  simp only [about, List.filterMap_map]
  by_cases h : k = n <;> simp [Function.comp_def, h]
theorem about_one (n k : Nat) (m : Notif α) : about n [(k, m)] = if k = n then [m] else [] := by
  have := about_map n k [m]; simpa using this

section
variable [DecidableEq α]

theorem notes_append (s : List α × Payload α) (x y : List (Notif α)) :
    notes s (x ++ y) = (notes s x).bind (notes · y) := by
  induction x generalizing s with
  | nil => rfl
  | cons m x ih =>
    simp only [List.cons_append, notes]
    cases note s m with
    | none => rfl
    | some s' => simpa using ih s'

variable [Inhabited α]

theorem nstep_panic (c : NCfg) (data : List α) (op : NOp α) (h : (nstep c data op).1.ret = .panic) : (nstep c data op).2 = [] := by
  revert h
  cases op with
  | op o =>
    cases o <;> simp only [nstep] <;> (repeat' split) <;>
      simp only [nDoAdd, nDoAddAll, nDoInsert, nDoInsertAll, nDoMove, nDoRemove, nDoRemoveRange, nRemoveAll, nDoSet, nDoClear,
        returning, Res.andEmit, Res.returning] <;>
      (repeat' split) <;> simp_all [doClear]
  | _ => simp only [nstep, Res.andEmit] <;> (repeat' split) <;> simp_all

theorem emit_feature (c : NCfg) (e : Event) (o n : Payload α) (p : Int) : ∀ m ∈ emit c e o n p, m.featureID = c.featureID := by
  simp only [emit]; split <;> simp_all

theorem nstep_feature (c : NCfg) (data : List α) (op : NOp α) : ∀ m ∈ (nstep c data op).2, m.featureID = c.featureID := by
  have he := fun e (o n : Payload α) (p : Int) => emit_feature c e o n p
  cases op with
  | op o =>
    cases o <;> simp only [nstep] <;> (repeat' split) <;>
      simp only [nDoAdd, nDoAddAll, nDoInsert, nDoInsertAll, nDoMove, nDoRemove, nDoRemoveRange, nRemoveAll, nDoSet, nDoClear,
        returning, Res.andEmit] <;>
      (repeat' split) <;> first | exact he _ _ _ _ | simp
  | _ => simp only [nstep, Res.andEmit] <;> (repeat' split) <;> first | exact he _ _ _ _ | simp

theorem notes_list (s : List α) (v : Payload α) (ms : List (Notif α)) (h : ∀ m ∈ ms, m.featureID = 0) :
    notes (s, v) ms = (Replay.applyAll s ms).map (·, v) := by
  induction ms generalizing s with
  | nil => rfl
  | cons m ms ih =>
    have h0 := h m (by simp)
    simp only [notes, note, h0, if_pos, Replay.applyAll]
    cases Replay.apply s m with
    | none => rfl
    | some s' => simpa using ih s' (fun x hx => h x (by simp [hx]))

/-- A plain call: what it sends about a notifier with observers leads to what the notifier shows; it says nothing about others; at most one
notification. -/
theorem change_plain (u : Bool) (w : World α) (a : Act α) (hp : plain a) (he : ¬ Observer.pastEnd w a) :
    (change u w a).1.adapters = w.adapters ∧ (change u w a).1.deliver = w.deliver ∧ (change u w a).1.told = w.told ∧
    (change u w a).2.1.length ≤ 1 ∧
    (∀ n, required w n = true → notes (w.shown n) (about n (change u w a).2.1) = some ((change u w a).1.shown n)) ∧
    ((change u w a).2.2 = true → (change u w a).2.1 = []) := by
  cases a with
  | list k op =>
    refine ⟨rfl, rfl, rfl, ?_, ?_, ?_⟩
    · simpa [change] using EClass.nstep_le (listCfg u w k) (w.lists k) op
    · intro n hr
      simp only [change, about_map, World.shown]
      by_cases hk : k = n
      · subst hk
        have hx := nstep_replay (listCfg u w k) hr (w.lists k) op (by
          cases op <;> simp_all [Observer.pastEnd, Notify.pastEnd])
        simp only [if_pos, upd_same]
        rw [notes_list _ _ _ (nstep_feature (listCfg u w k) (w.lists k) op), hx]; rfl
      · simp [hk, upd_ne _ _ _ _ (Ne.symm hk), notes]
    · intro h
      simp only [change] at h ⊢
      rw [nstep_panic]; · rfl
      · revert h; cases (nstep (listCfg u w k) (w.lists k) op).1.ret <;> simp
  | put k v =>
    refine ⟨rfl, rfl, rfl, ?_, ?_, by simp [change]⟩
    · simp only [change, valueNotif]; split <;> simp
    · intro n hr
      by_cases hk : k = n
      · subst hk
        simp [change, valueNotif, hr, about_one, World.shown, notes, note, Replay.applySingle]
      · simp only [change, valueNotif, World.shown]
        split <;> simp [about_one, hk, upd_ne _ _ _ _ (Ne.symm hk), notes]
  | unset k =>
    refine ⟨rfl, rfl, rfl, ?_, ?_, by simp [change]⟩
    · simp only [change, valueNotif]; split <;> simp
    · intro n hr
      by_cases hk : k = n
      · subst hk
        simp [change, valueNotif, hr, about_one, World.shown, notes, note, Replay.applySingle]
      · simp only [change, valueNotif, World.shown]
        split <;> simp [about_one, hk, upd_ne _ _ _ _ (Ne.symm hk), notes]
  | _ => simp [plain] at hp

/-- What the observer at place `k` of `n` is still to be told by the task -/
def due (n k : Nat) : Task α → List (Notif α)
  | .visit n' m i => if n' = n ∧ i ≤ k then [m] else []
  | _ => []

def dueHead (n k : Nat) : List (Task α) → List (Notif α)
  | [] => []
  | t :: _ => due n k t

structure Inv (c0 c : Conf α) (n k a : Nat) : Prop where
  adapters : c.w.adapters = c0.w.adapters
  deliver : c.w.deliver = c0.w.deliver
  plainStack : ∀ x, Task.act x ∈ c.stack → plain x
  plainProgram : ∀ x ∈ c.program, plain x
  later : ∀ t ∈ c.stack.tail, due n k t = []
  sent : about n (c.w.told a) ++ dueHead n k c.stack = about n c.sent
  shown : notes (c0.w.shown n) (about n c.sent) = some (c.w.shown n)

theorem dueHead_nil (n k : Nat) (l : List (Task α)) (h : ∀ t ∈ l, due n k t = []) : dueHead n k l = [] := by
  cases l with
  | nil => rfl
  | cons t l => exact h t (by simp)

theorem inv_step (u : Bool) (react : Reaction α) (c0 c : Conf α) (n a : Nat) (before : List Nat)
    (hd : c0.w.deliver n = true) (ha : Attached (c0.w.adapters n) a before)
    (hq : ∀ b ∈ before, ∀ l s, react b l s = []) (hp : ∀ b l s, ∀ x ∈ react b l s, plain x)
    (he : ∀ x, c.stack.head? = some (.act x) → ¬ Observer.pastEnd c.w x)
    (h : Inv c0 c n before.length a) : Inv c0 (step u react c) n before.length a := by
  obtain ⟨w, stack, program, sent, panics⟩ := c
  obtain ⟨after, hab, hnb, hna⟩ := ha
  have hreq : required w n = true := by
    have e1 := h.deliver; have e2 := h.adapters; simp only at e1 e2
    simp [required, e1, hd, e2, hab]
  cases stack with
  | nil =>
    cases program with
    | nil => exact h
    | cons x p =>
      exact ⟨h.adapters, h.deliver, by simpa [step] using h.plainProgram x (by simp),
        fun y hy => h.plainProgram y (by simp [step] at hy; simp [hy]), by simp [step],
        by simpa [step, dueHead, due] using h.sent, h.shown⟩
  | cons t rest =>
    cases t with
    | act x =>
      have hx := h.plainStack x (by simp)
      obtain ⟨h1, h2, h3, h4, h5, h6⟩ := change_plain u w x hx (he x rfl)
      have hsh := h5 n hreq
      simp only [step]
      · rcases hc : change u w x with ⟨w', ns, panic⟩
        rw [hc] at h1 h2 h3 h4 h6 hsh
        simp only at h1 h2 h3 h4 h6 hsh ⊢
        have hs := h.sent
        simp only [dueHead, due, List.append_nil] at hs
        split
        · rename_i hpan
          rw [h6 hpan] at hsh
          simp only [about_nil, notes, Option.some.injEq] at hsh
          exact ⟨h1.trans h.adapters, h2.trans h.deliver, by simp, h.plainProgram, by simp,
            by simpa [dueHead, h3] using hs, by rw [← hsh]; exact h.shown⟩
        · have hrest : ∀ t ∈ rest, due n before.length t = [] := fun t ht => h.later t (by simpa using ht)
          have hsent : notes (c0.w.shown n) (about n (sent ++ ns)) = some (w'.shown n) := by
            have := h.shown
            simp only at this
            rw [about_append, notes_append, this]; simpa using hsh
          refine ⟨h1.trans h.adapters, h2.trans h.deliver, ?_, h.plainProgram, ?_, ?_, hsent⟩
          · intro y hy
            simp only [List.mem_append, List.mem_map, reduceCtorEq, and_false, exists_false, false_or] at hy
            exact h.plainStack y (by simp [hy])
          · match ns, h4 with
            | [], _ => intro t ht; exact hrest t (List.mem_of_mem_tail (by simpa using ht))
            | [m], _ => intro t ht; exact hrest t (by simpa using ht)
            | _ :: _ :: _, h4 => simp at h4
          · match ns, h4 with
            | [], _ => simp [dueHead_nil _ _ _ hrest, h3, hs]
            | [m], _ =>
              obtain ⟨k, m⟩ := m
              simp only [List.map_cons, List.map_nil, List.cons_append, List.nil_append, dueHead, due, h3, about_append, about_one, ← hs]
              by_cases hk : k = n <;> simp [hk]
            | _ :: _ :: _, h4 => simp at h4
    | visit n' m i =>
      have hrest : ∀ t ∈ rest, due n before.length t = [] := fun t ht => h.later t (by simpa using ht)
      have hs := h.sent
      simp only [dueHead] at hs
      have hpr : ∀ x, Task.act x ∈ rest → plain x := fun x hx => h.plainStack x (by simp [hx])
      have hd' : n' = n → w.deliver n' = true := by rintro rfl; have := h.deliver; simp only at this; rw [this, hd]
      have hadp : w.adapters = c0.w.adapters := h.adapters
      simp only [step]
      split
      · rename_i hdel
        have hnn : n' ≠ n := fun e => by rw [hd' e] at hdel; simp at hdel
        exact ⟨h.adapters, h.deliver, hpr, h.plainProgram, fun t ht => hrest t (List.mem_of_mem_tail ht),
          by simpa [dueHead_nil _ _ _ hrest, due, hnn] using hs, h.shown⟩
      · split
        · rename_i hnone
          have hdue : due n before.length (.visit n' m i) = [] := by
            simp only [due]; split
            · rename_i hh
              obtain ⟨rfl, hi⟩ := hh
              rw [hadp, hab] at hnone
              simp at hnone; omega
            · rfl
          exact ⟨h.adapters, h.deliver, hpr, h.plainProgram, fun t ht => hrest t (List.mem_of_mem_tail ht),
            by simpa [dueHead_nil _ _ _ hrest, hdue] using hs, h.shown⟩
        · rename_i x hx
          have hstack : ∀ y, Task.act y ∈ (react x (w.told x ++ [(n', m)]) w.shown).map Task.act ++ .visit n' m (i + 1) :: rest → plain y := by
            intro y hy
            simp only [List.mem_append, List.mem_map, Task.act.injEq, exists_eq_right, List.mem_cons, reduceCtorEq, false_or] at hy
            rcases hy with hy | hy
            · exact hp _ _ _ y hy
            · exact hpr y hy
          have hacts : ∀ l : List (Act α), ∀ t ∈ l.map Task.act, due n before.length t = [] := by
            intro l t ht; simp only [List.mem_map] at ht; obtain ⟨y, _, rfl⟩ := ht; rfl
          -- all tasks are due nothing when the loop is past the observer
          have hlater : (n' = n → before.length < i + 1) →
              ∀ t ∈ (react x (w.told x ++ [(n', m)]) w.shown).map Task.act ++ .visit n' m (i + 1) :: rest, due n before.length t = [] := by
            intro hi t ht
            simp only [List.mem_append, List.mem_cons] at ht
            rcases ht with ht | rfl | ht
            · exact hacts _ t ht
            · simp only [due]; rw [if_neg]; rintro ⟨e, hh⟩; have := hi e; omega
            · exact hrest t ht
          by_cases hnn : n' = n
          · subst hnn
            rw [hadp, hab] at hx
            by_cases hi : i < before.length
            · rw [List.getElem?_append_left hi] at hx
              have hxb : x ∈ before := List.mem_of_getElem? hx
              have hxa : a ≠ x := fun e => hnb (e ▸ hxb)
              rw [hq x hxb] at hstack ⊢
              simp only [List.map_nil, List.nil_append]
              refine ⟨h.adapters, h.deliver, fun y hy => hstack y (by simpa using hy), h.plainProgram, by simpa using hrest, ?_, h.shown⟩
              simp only [dueHead, upd_ne _ _ _ _ hxa]
              rw [← hs]
              simp [due]; rw [if_pos (by omega), if_pos (by omega)]
            · have hall := hlater (fun _ => by omega)
              refine ⟨h.adapters, h.deliver, hstack, h.plainProgram, fun t ht => hall t (List.mem_of_mem_tail ht), ?_, h.shown⟩
              simp only [dueHead_nil _ _ _ hall, List.append_nil]
              rw [List.getElem?_append_right (by omega)] at hx
              by_cases hi2 : i = before.length
              · subst hi2
                simp only [Nat.sub_self, List.getElem?_cons_zero, Option.some.injEq] at hx
                subst hx
                rw [← hs]; simp [due, about_append, about_one]
              · have hxa : a ≠ x := by
                  rintro rfl
                  rw [show i - before.length = (i - before.length - 1) + 1 by omega, List.getElem?_cons_succ] at hx
                  exact hna (List.mem_of_getElem? hx)
                rw [upd_ne _ _ _ _ hxa, ← hs]
                simp only [due, true_and]; rw [if_neg (by omega)]; simp
          · have hall := hlater (fun e => absurd e hnn)
            refine ⟨h.adapters, h.deliver, hstack, h.plainProgram, fun t ht => hall t (List.mem_of_mem_tail ht), ?_, h.shown⟩
            simp only [dueHead_nil _ _ _ hall, List.append_nil]
            rw [← hs]
            simp only [due, hnn, false_and, if_false, List.append_nil]
            by_cases hxa : a = x
            · subst hxa; simp [about_append, about_one, hnn]
            · rw [upd_ne _ _ _ _ hxa]

/-- Nothing is due to the observer right after it was told something about the notifier. -/
theorem grown (u : Bool) (react : Reaction α) (c : Conf α) (n a : Nat) (before : List Nat)
    (ha : Attached (c.w.adapters n) a before) (hc : ∀ x, Task.act x ∈ c.stack → plain x)
    (hl : ∀ t ∈ c.stack.tail, due n before.length t = [])
    (h : about n ((step u react c).w.told a) ≠ about n (c.w.told a)) : dueHead n before.length (step u react c).stack = [] := by
  obtain ⟨w, stack, program, sent, panics⟩ := c
  obtain ⟨after, hab, hnb, hna⟩ := ha
  simp only at hab
  cases stack with
  | nil => cases program <;> simp [step] at h
  | cons t rest =>
    cases t with
    | act x =>
      exfalso; apply h
      have hx : (change u w x).1.told = w.told := by cases x <;> simp [change] <;> split <;> rfl
      simp only [step]; split <;> simp [hx]
    | visit n' m i =>
      have hrest : ∀ t ∈ rest, due n before.length t = [] := fun t ht => hl t (by simpa using ht)
      revert h
      simp only [step]
      split
      · simp
      · split
        · simp
        · rename_i x hx
          simp only
          intro h
          have hxa : a = x := Decidable.byContradiction fun e => h (by rw [upd_ne _ _ _ _ e])
          subst hxa
          have hnn : n' = n := Decidable.byContradiction fun e => h (by simp [about_append, about_one, e])
          subst hnn
          rw [hab] at hx
          have hi : ¬ i < before.length := by
            intro hi; rw [List.getElem?_append_left hi] at hx; exact hnb (List.mem_of_getElem? hx)
          apply dueHead_nil
          intro t ht
          simp only [List.mem_append, List.mem_map, List.mem_cons] at ht
          rcases ht with ⟨y, _, rfl⟩ | rfl | ht
          · rfl
          · simp only [due, true_and]; rw [if_neg (by omega)]
          · exact hrest t ht

/-! ### Every notification is delivered once -/

theorem change_observed (u : Bool) (w : World α) (a : Act α) (hp : observed a) :
    (change u w a).1.adapters = w.adapters ∧ (change u w a).1.deliver = w.deliver ∧ (change u w a).1.told = w.told := by
  cases a <;> simp_all [observed, change] <;> split <;> simp

structure Once (c0 c : Conf α) (n k a : Nat) : Prop where
  adapters : c.w.adapters = c0.w.adapters
  deliver : c.w.deliver = c0.w.deliver
  stack : ∀ x, Task.act x ∈ c.stack → observed x
  program : ∀ x ∈ c.program, observed x
  atMost : ∀ m, (about n (c.w.told a)).count m + (c.stack.flatMap (due n k)).count m ≤ (about n c.sent).count m
  once : c.panics = 0 → ∀ m, (about n (c.w.told a)).count m + (c.stack.flatMap (due n k)).count m = (about n c.sent).count m

theorem due_visits (n k : Nat) (ns : List (Nat × Notif α)) :
    (ns.map (fun x => Task.visit x.1 x.2 0)).flatMap (due n k) = about n ns := by
  induction ns with
  | nil => rfl
  | cons x ns ih =>
    simp only [List.map_cons, List.flatMap_cons, ih, due, Nat.zero_le, and_true]
    by_cases h : x.1 = n <;> simp [about, h]

theorem due_acts (n k : Nat) (l : List (Act α)) : (l.map Task.act).flatMap (due n k) = [] := by
  induction l with
  | nil => rfl
  | cons x l ih => simp [ih, due]

theorem once_step (u : Bool) (react : Reaction α) (c0 c : Conf α) (n a : Nat) (before : List Nat)
    (hd : c0.w.deliver n = true) (ha : Attached (c0.w.adapters n) a before)
    (hp : ∀ b l s, ∀ x ∈ react b l s, observed x)
    (h : Once c0 c n before.length a) : Once c0 (step u react c) n before.length a := by
  obtain ⟨w, stack, program, sent, panics⟩ := c
  obtain ⟨after, hab, hnb, hna⟩ := ha
  cases stack with
  | nil =>
    cases program with
    | nil => exact h
    | cons x p =>
      exact ⟨h.adapters, h.deliver, by simpa [step] using h.program x (by simp),
        fun y hy => h.program y (by simp [step] at hy; simp [hy]), by simpa [step, due] using h.atMost,
        by simpa [step, due] using h.once⟩
  | cons t rest =>
    have hm := h.atMost
    have ho := h.once
    cases t with
    | act x =>
      obtain ⟨h1, h2, h3⟩ := change_observed u w x (h.stack x (by simp))
      simp only [step]
      rcases hc : change u w x with ⟨w', ns, panic⟩
      rw [hc] at h1 h2 h3
      simp only at h1 h2 h3 ⊢
      simp only [List.flatMap_cons, due, List.nil_append] at hm ho
      split
      · exact ⟨h1.trans h.adapters, h2.trans h.deliver, by simp, h.program,
          fun m => by have := hm m; simp only [h3, List.flatMap_nil, List.count_nil]; omega, by simp⟩
      · refine ⟨h1.trans h.adapters, h2.trans h.deliver, ?_, h.program, ?_, ?_⟩
        · intro y hy
          simp only [List.mem_append, List.mem_map, reduceCtorEq, and_false, exists_false, false_or] at hy
          exact h.stack y (by simp [hy])
        · intro m; have := hm m
          simp only [h3, List.flatMap_append, due_visits, about_append, List.count_append]; omega
        · intro hz m; have := ho hz m
          simp only [h3, List.flatMap_append, due_visits, about_append, List.count_append]; omega
    | visit n' m i =>
      have hpr : ∀ x, Task.act x ∈ rest → observed x := fun x hx => h.stack x (by simp [hx])
      have hd' : n' = n → w.deliver n' = true := by rintro rfl; have := h.deliver; simp only at this; rw [this, hd]
      have hadp : w.adapters = c0.w.adapters := h.adapters
      simp only [List.flatMap_cons] at hm ho
      simp only [step]
      split
      · rename_i hdel
        have hnn : n' ≠ n := fun e => by rw [hd' e] at hdel; simp at hdel
        simp only [due, hnn, false_and, if_false, List.nil_append] at hm ho
        exact ⟨h.adapters, h.deliver, hpr, h.program, hm, ho⟩
      · split
        · rename_i hnone
          have hdue : due n before.length (.visit n' m i) = [] := by
            simp only [due]; split
            · rename_i hh
              obtain ⟨rfl, hi⟩ := hh
              rw [hadp, hab] at hnone
              simp at hnone; omega
            · rfl
          simp only [hdue, List.nil_append] at hm ho
          exact ⟨h.adapters, h.deliver, hpr, h.program, hm, ho⟩
        · rename_i x hx
          have hstack : ∀ y, Task.act y ∈ (react x (w.told x ++ [(n', m)]) w.shown).map Task.act ++ .visit n' m (i + 1) :: rest → observed y := by
            intro y hy
            simp only [List.mem_append, List.mem_map, Task.act.injEq, exists_eq_right, List.mem_cons, reduceCtorEq, false_or] at hy
            rcases hy with hy | hy
            · exact hp _ _ _ y hy
            · exact hpr y hy
          have key : ∀ q, (about n (upd w.told x (w.told x ++ [(n', m)]) a)).count q + (due n before.length (.visit n' m (i + 1))).count q =
              (about n (w.told a)).count q + (due n before.length (.visit n' m i)).count q := by
            intro q
            by_cases hnn : n' = n
            · subst hnn
              rw [hadp, hab] at hx
              by_cases hi : i = before.length
              · subst hi
                rw [List.getElem?_append_right (Nat.le_refl _)] at hx
                simp only [Nat.sub_self, List.getElem?_cons_zero, Option.some.injEq] at hx
                subst hx
                simp only [due, true_and, Nat.le_refl, if_true, about_append, about_one, upd_same, List.count_append]
                rw [if_neg (by omega)]; simp
              · have hxa : a ≠ x := by
                  rintro rfl
                  by_cases hi2 : i < before.length
                  · rw [List.getElem?_append_left hi2] at hx; exact hnb (List.mem_of_getElem? hx)
                  · rw [List.getElem?_append_right (by omega),
                      show i - before.length = (i - before.length - 1) + 1 by omega, List.getElem?_cons_succ] at hx
                    exact hna (List.mem_of_getElem? hx)
                rw [upd_ne _ _ _ _ hxa]
                have : (i + 1 ≤ before.length) = (i ≤ before.length) := by apply propext; omega
                simp [due, this]
            · by_cases hxa : a = x
              · subst hxa; simp [about_append, about_one, hnn, due]
              · rw [upd_ne _ _ _ _ hxa]; simp [due, hnn]
          refine ⟨h.adapters, h.deliver, hstack, h.program, ?_, ?_⟩
          · intro q; have := hm q; have := key q
            simp only [List.flatMap_append, due_acts, List.nil_append, List.flatMap_cons, List.count_append] at *; omega
          · intro hz q; have := ho hz q; have := key q
            simp only [List.flatMap_append, due_acts, List.nil_append, List.flatMap_cons, List.count_append] at *; omega

/-- The calls that are made are those of the program and of the adapters. -/
theorem stack_acts (u : Bool) (react : Reaction α) (P : Act α → Prop) (c : Conf α) (hp : ∀ b l s, ∀ x ∈ react b l s, P x)
    (h1 : ∀ x, Task.act x ∈ c.stack → P x) (h2 : ∀ x ∈ c.program, P x) (t : Nat) :
    (∀ x, Task.act x ∈ (run u react c t).stack → P x) ∧ ∀ x ∈ (run u react c t).program, P x := by
  induction t with
  | zero => exact ⟨h1, h2⟩
  | succ t ih =>
    obtain ⟨i1, i2⟩ := ih
    simp only [run]
    revert i1 i2
    generalize run u react c t = c
    intro i1 i2
    obtain ⟨w, stack, program, sent, panics⟩ := c
    cases stack with
    | nil =>
      cases program with
      | nil => exact ⟨i1, i2⟩
      | cons y p => exact ⟨by simpa [step] using i2 y (by simp), fun x hx => i2 x (by simp [step] at hx; simp [hx])⟩
    | cons t rest =>
      have hr : ∀ x, Task.act x ∈ rest → P x := fun x hx => i1 x (by simp [hx])
      cases t with
      | act y =>
        simp only [step]; split
        · exact ⟨by simp, i2⟩
        · refine ⟨fun x hx => hr x ?_, i2⟩
          simpa using hx
      | visit n m i =>
        simp only [step]; split
        · exact ⟨hr, i2⟩
        · split
          · exact ⟨hr, i2⟩
          · refine ⟨fun x hx => ?_, i2⟩
            simp only [List.mem_append, List.mem_map, Task.act.injEq, exists_eq_right, List.mem_cons, reduceCtorEq, false_or] at hx
            rcases hx with hx | hx
            · exact hp _ _ _ x hx
            · exact hr x hx

end
end Verif.Reentrant
