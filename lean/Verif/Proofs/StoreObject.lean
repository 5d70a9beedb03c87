import Verif.Spec.StoreObject

/-!
# Proofs about objects with a store
-/

namespace Verif.StoreObject

open Verif.StoreObject.Spec

variable {α : Type}

/-- the object has the values of the record, and only these are cached -/
structure Rel (c : Cls) (o : Obj α) (sp : Spec.Obj α) : Prop where
  cache : o.cache = sp.cache
  store : o.store = sp.store
  stores : ∀ s f, c.many f = false → o.stores s f = (sp.stores s f).map .one
  clean : ∀ s f, c.transient f = true → sp.stores s f = none
  transient : ∀ f, c.many f = false → c.transient f = true → o.props f = (sp.own f).map .one
  own : sp.store = none → ∀ f, c.many f = false → o.props f = (sp.own f).map .one
  cached : ∀ s, sp.store = some s → ∀ f, c.many f = false → c.transient f = false → o.props f = none ∨ (sp.cache = true ∧ o.props f = (sp.stores s f).map .one)

theorem rel_new (c : Cls) (cache : Bool) (stores : Nat → Nat → Option α) (hc : ∀ s f, c.transient f = true → stores s f = none) : Rel c (new cache fun s f => (stores s f).map .one) ⟨cache, none, fun _ => none, stores⟩ :=
  ⟨rfl, rfl, fun _ _ _ => rfl, hc, fun _ _ _ => rfl, fun _ _ _ => rfl, fun _ h => by simp at h⟩

theorem upd_apply {β : Type} (f : Nat → β) (i : Nat) (b : β) (j : Nat) : upd f i b j = if j = i then b else f j := rfl

theorem rel_put (c : Cls) {o : Obj α} {sp : Spec.Obj α} (hr : Rel c o sp) (f : Nat) (v : Option α) : Rel c (set c o f (v.map .one)) (put c sp f v) := by
  obtain ⟨h1, h2, h3, h7, h4, h5, h6⟩ := hr
  unfold set put
  rw [h2]
  cases hs : sp.store with
  | none =>
    simp only
    refine ⟨h1, rfl, h3, h7, ?_, ?_, ?_⟩ <;> simp only [upd_apply] <;> grind
  | some s =>
    simp only
    cases ht : c.transient f with
    | true =>
      simp only [if_true]
      refine ⟨h1, rfl, h3, h7, ?_, ?_, ?_⟩ <;> simp only [upd_apply] <;> grind
    | false =>
      simp only [Bool.false_eq_true, if_false]
      refine ⟨h1, rfl, ?_, ?_, ?_, ?_, ?_⟩ <;> simp only [upd_apply] <;> grind [upd_apply]

theorem unset_eq (c : Cls) (o : Obj α) (f : Nat) (h : o.cache = false → ∀ s, o.store = some s → c.transient f = false → o.props f = none) : unset c o f = set c o f none := by
  unfold unset set
  split
  · rename_i s hs
    split
    · rfl
    · rename_i ht
      cases hc : o.cache with
      | true => rfl
      | false =>
        have := h hc s hs (by simpa using ht)
        simp only [Bool.false_eq_true, if_false]
        congr 1
        funext j
        simp only [upd_apply]
        grind
  · rfl

theorem rel_get (c : Cls) {o : Obj α} {sp : Spec.Obj α} (hr : Rel c o sp) (f : Nat) (hf : c.many f = false) :
    Rel c (get c o f).1 sp ∧ (get c o f).2 = (value c sp f).map .one := by
  have hr' := hr
  obtain ⟨h1, h2, h3, h7, h4, h5, h6⟩ := hr
  unfold get value
  cases hp : o.props f with
  | some v =>
    refine ⟨hr', ?_⟩
    cases hs : sp.store with
    | none => simp only; rw [← h5 hs f hf, hp]
    | some s =>
      simp only
      cases ht : c.transient f with
      | true => simp only [if_true]; rw [← h4 f hf ht, hp]
      | false =>
        simp only [Bool.false_eq_true, if_false]
        have := h6 s hs f hf ht
        rw [hp] at this
        simp only [reduceCtorEq, false_or] at this
        exact this.2
  | none =>
    simp only
    cases ht : c.transient f with
    | true =>
      simp only [if_true]
      refine ⟨hr', ?_⟩
      have : sp.own f = none := by have := h4 f hf ht; rw [hp] at this; simpa using this.symm
      cases hs : sp.store <;> simp [this]
    | false =>
      simp only [Bool.false_eq_true, if_false, hf]
      rw [h2]
      cases hs : sp.store with
      | none =>
        refine ⟨hr', ?_⟩
        have := h5 hs f hf
        rw [hp] at this
        simpa using this
      | some s =>
        simp only [h3 s f hf, and_true]
        cases hc : o.cache with
        | false => simpa [hc] using hr'
        | true =>
          simp only [if_true]
          refine ⟨by rw [← h1, hc], hs.symm, h3, h7, ?_, ?_, ?_⟩ <;> simp only [upd_apply] <;> grind

theorem rel_step (c : Cls) {o : Obj α} {sp : Spec.Obj α} (hr : Rel c o sp) (x : Call α) (hx : single c x) (hh : harmless c sp x) :
    Rel c (step c o x).1 (Spec.step c sp x).1 ∧ (step c o x).2 = (Spec.step c sp x).2 := by
  cases x with
  | get f =>
    obtain ⟨h1, h2⟩ := rel_get c hr f hx
    exact ⟨h1, by simp only [step, Spec.step, h2]⟩
  | set f v => exact ⟨rel_put c hr f v, rfl⟩
  | unset f =>
    refine ⟨?_, rfl⟩
    simp only [step, Spec.step]
    rw [unset_eq c o f]
    · exact rel_put c hr f none
    · intro hc s hs ht
      have := hr.cached s (by rw [← hr.store]; exact hs) f hx ht
      rw [← hr.cache, hc] at this
      simpa using this
  | isSet f =>
    refine ⟨hr, ?_⟩
    obtain ⟨h1, h2, h3, h7, h4, h5, h6⟩ := hr
    simp only [step, Spec.step, isSet, value, h2]
    simp only [single] at hx
    cases hs : sp.store with
    | none => rw [h5 hs f hx]; simp
    | some s =>
      cases ht : c.transient f with
      | true =>
        simp only [h3 s f hx, h7 s f ht, h4 f hx ht, if_true]
        cases sp.own f <;> simp
      | false =>
        simp only [h3 s f hx, Bool.false_eq_true, if_false]
        have := h6 s hs f hx ht
        grind
  | setCache b =>
    refine ⟨?_, rfl⟩
    obtain ⟨h1, h2, h3, h7, h4, h5, h6⟩ := hr
    simp only [step, Spec.step, setCache]
    simp only [harmless] at hh
    by_cases hb : o.cache = b
    · simp only [hb, ne_eq, not_true_eq_false, if_false]
      refine ⟨hb, h2, h3, h7, h4, h5, ?_⟩
      rw [← hb, h1]; exact h6
    · simp only [hb, ne_eq, not_false_eq_true, if_true]
      cases hs : sp.store with
      | none =>
        rw [h2, hs]
        exact ⟨rfl, hs.symm ▸ rfl, h3, h7, h4, fun _ => h5 hs, fun s h => by simp [hs] at h⟩
      | some s =>
        rw [h2, hs]
        have hn : noTransient c sp := by
          rcases hh with hh | hh | hh
          · exact absurd (h1.trans hh.symm) hb
          · simp [hs] at hh
          · exact hh
        refine ⟨rfl, hs.symm ▸ rfl, h3, h7, ?_, ?_, ?_⟩
        · intro f _ ht; simp [hn f ht]
        · intro h; simp [hs] at h
        · intros; left; rfl
  | setEStore t =>
    refine ⟨?_, rfl⟩
    have hr' := hr
    obtain ⟨h1, h2, h3, h7, h4, h5, h6⟩ := hr
    simp only [step, Spec.step, setEStore]
    by_cases he : t = o.store
    · simp only [he, if_true]
      rw [h2]
      have hsame : ({ sp with store := sp.store, own := if sp.store.isNone then value c sp else sp.own } : Spec.Obj α) = sp := by
        cases hs : sp.store with
        | none =>
          have : value c sp = sp.own := by funext f; simp [value, hs]
          simp [this, ← hs]
        | some s => simp only [Option.isNone_some, Bool.false_eq_true, if_false]; rw [← hs]
      rw [hsame]; exact hr'
    · simp only [he, if_false]
      cases t with
      | none =>
        cases hs : sp.store with
        | none => rw [h2, hs] at he; simp at he
        | some old =>
          rw [h2, hs]
          simp only [harmless, hs] at hh
          have hc : o.cache = false := by rw [h1]; simpa using hh
          simp only [hc, Option.isNone_none, if_true, Bool.false_eq_true, if_false]
          refine ⟨by rw [← h1, hc], rfl, h3, h7, ?_, ?_, ?_⟩
          · intro f hf ht
            simp only [ht, value, hs, if_true, Bool.not_true, Bool.false_and, Bool.false_eq_true, if_false]
            exact h4 f hf ht
          · intro _ f hf
            cases ht : c.transient f with
            | true => simp only [ht, value, hs, if_true, Bool.not_true, Bool.false_and, Bool.false_eq_true, if_false]; exact h4 f hf ht
            | false => simp [ht, hf, value, hs, h3 old f hf]
          · intro s h; simp at h
      | some s =>
        simp only [harmless] at hh
        simp only [Option.isNone_some, Bool.false_eq_true, if_false]
        rcases hh with hh | ⟨hc, hn⟩ | ⟨hc, hs, hn⟩
        · rw [h2, hh] at he; simp at he
        · rw [← h1] at hc
          simp only [hc, Bool.false_eq_true, if_false]
          exact ⟨by rw [← h1, hc], rfl, h3, h7, fun f _ ht => by simp [hn f ht], fun h => by simp at h, fun _ _ _ _ _ => .inl rfl⟩
        · rw [← h1] at hc
          simp only [hc, if_true]
          refine ⟨by rw [← h1, hc], rfl, h3, h7, h4, fun h => by simp at h, ?_⟩
          intro s' _ f hf ht
          left
          rw [h5 hs f hf, hn f ht]
          rfl

theorem rel_run (c : Cls) : ∀ (calls : List (Call α)) (o : Obj α) (sp : Spec.Obj α), Rel c o sp → (∀ x ∈ calls, single c x) →
    (∀ (k : Nat) (x : Call α), calls[k]? = some x → harmless c (Spec.run c sp (calls.take k)) x) →
    answers c o calls = Spec.answers c sp calls ∧ Rel c (run c o calls) (Spec.run c sp calls)
  | [], _, _, hr, _, _ => ⟨rfl, hr⟩
  | x :: xs, o, sp, hr, hs, hh => by
    obtain ⟨h1, h2⟩ := rel_step c hr x (hs x (by simp)) (hh 0 x rfl)
    obtain ⟨h3, h4⟩ := rel_run c xs _ _ h1 (fun y hy => hs y (by simp [hy])) (fun k y hy => hh (k + 1) y (by simpa using hy))
    exact ⟨by simp only [answers, Spec.answers, h2, h3], h4⟩

/-- the store has the container with its feature -/
def encoded (p : Opp) (k : Cont) : Nat × Nat :=
  if k.featureID ≤ -1 then (k.container, (-1 - k.featureID).toNat) else (k.container, (p.ofObject k.featureID.toNat).getD 0)

structure CRel (p : Opp) (o : CObj) (sp : Spec.CObj) : Prop where
  store : o.store = sp.store
  cont : o.cont = sp.own
  stores : ∀ s, o.stores s = (sp.stores s).map (encoded p)
  valid : ∀ s k, sp.stores s = some k → proper p k
  own : ∀ k, sp.own = some (some k) → proper p k

theorem inStore_rel (p : Opp) {o : CObj} {sp : Spec.CObj} (hr : CRel p o sp) : ∃ o', inStore p o = some o' ∧ CRel p o' (Spec.save sp) := by
  have hr' := hr
  obtain ⟨h1, h2, h3, h4, h5⟩ := hr
  unfold inStore Spec.save
  rw [h1, h2]
  cases hs : sp.store with
  | none => exact ⟨o, rfl, by simpa using hr'⟩
  | some s =>
    cases hc : sp.own with
    | none => exact ⟨o, rfl, by simpa using hr'⟩
    | some q =>
      cases q with
      | none =>
        refine ⟨_, rfl, ⟨by simp [h1, hs], by simp [h2, hc], ?_, ?_, ?_⟩⟩
        · intro t; simp only [upd_apply]; grind
        · intro t k; simp only [upd_apply]; grind
        · intro k; simp [hc]
      | some k =>
        have hk := h5 k hc
        simp only
        by_cases hf : k.featureID ≤ -1
        · simp only [hf, if_true]
          refine ⟨_, rfl, ⟨by simp [h1, hs], by simp [h2, hc], ?_, ?_, ?_⟩⟩
          · intro t; simp only [upd_apply]; split
            · simp [encoded, hf]
            · exact h3 t
          · intro t k'; simp only [upd_apply]; grind
          · intro k'; simp only [hc]; grind
        · simp only [proper, hf, if_false] at hk
          obtain ⟨j, hj, hj'⟩ := hk
          simp only [hf, if_false, hj]
          refine ⟨_, rfl, ⟨by simp [h1, hs], by simp [h2, hc], ?_, ?_, ?_⟩⟩
          · intro t; simp only [upd_apply]; split
            · simp [encoded, hf, hj]
            · exact h3 t
          · intro t k'; simp only [upd_apply]; grind
          · intro k'; simp only [hc]; grind

theorem fromStore_rel (p : Opp) {o : CObj} {sp : Spec.CObj} (hr : CRel p o sp) : CRel p (fromStore p o) { sp with own := some (Spec.current sp) } := by
  have hr' := hr
  obtain ⟨h1, h2, h3, h4, h5⟩ := hr
  unfold fromStore Spec.current
  rw [h2]
  cases hc : sp.own with
  | some q => simp only; exact ⟨h1, by rw [h2, hc], h3, h4, by rw [← hc]; exact h5⟩
  | none =>
    simp only [h1]
    cases hs : sp.store with
    | none => exact ⟨by simp [h1, hs], rfl, h3, h4, by simp⟩
    | some s =>
      simp only [h3 s]
      cases hk : sp.stores s with
      | none => exact ⟨by simp [h1, hs], rfl, h3, h4, by simp⟩
      | some k =>
        have hp := h4 s k hk
        simp only [Option.map_some]
        by_cases hf : k.featureID ≤ -1
        · simp only [proper, hf, if_true] at hp
          simp only [encoded, hf, if_true, hp]
          refine ⟨by simp [h1, hs], ?_, h3, h4, ?_⟩
          · have : k = ⟨k.container, -1 - ((-1 - k.featureID).toNat : Int)⟩ := by
              have : (-1 - ((-1 - k.featureID).toNat : Int)) = k.featureID := by omega
              rw [this]
            simp only [← this]
          · intro k' hk'; simp only [Option.some.injEq] at hk'; subst hk'; exact h4 s k hk
        · simp only [proper, hf, if_false] at hp
          obtain ⟨j, hj, hj'⟩ := hp
          simp only [encoded, hf, if_false, hj, Option.getD_some, hj']
          refine ⟨by simp [h1, hs], ?_, h3, h4, ?_⟩
          · have : k = ⟨k.container, (k.featureID.toNat : Int)⟩ := by
              have : (k.featureID.toNat : Int) = k.featureID := by omega
              rw [this]
            simp only [← this]
          · intro k' hk'; simp only [Option.some.injEq] at hk'; subst hk'; exact h4 s k hk

theorem cstep_rel (p : Opp) {o : CObj} {sp : Spec.CObj} (hr : CRel p o sp) (x : CCall) (hx : ∀ k, x = .set (some k) → proper p k) (hh : charmless sp x) :
    ∃ o', cstep p o x = some (o', (Spec.cstep sp x).2) ∧ CRel p o' (Spec.cstep sp x).1 := by
  cases x with
  | set k =>
    obtain ⟨o', h1, h2⟩ := inStore_rel p (o := { o with cont := some k }) (sp := { sp with own := some k })
      ⟨hr.store, rfl, hr.stores, hr.valid, fun k' hk' => hx k' (by simp at hk'; rw [hk'])⟩
    exact ⟨o', by simp [cstep, setContainer, h1, Spec.cstep], h2⟩
  | get =>
    have h := fromStore_rel p hr
    exact ⟨fromStore p o, by simp [cstep, container, h.cont, Spec.cstep], h⟩
  | attach s =>
    simp only [cstep, attach, Spec.cstep, hr.store]
    by_cases he : s = sp.store
    · simp only [he, if_true]; exact ⟨o, rfl, hr⟩
    · simp only [he, if_false]
      have hown : (if s.isNone then some (current sp) else sp.own) = sp.own := by
        cases s with
        | some s => rfl
        | none =>
          rcases hh rfl with h | h
          · obtain ⟨k, hk⟩ := Option.isSome_iff_exists.1 h
            simp [current, hk]
          · exact absurd h.symm he
      rw [hown]
      obtain ⟨o', h1, h2⟩ := inStore_rel p (o := { o with store := s }) (sp := { sp with store := s }) ⟨rfl, hr.cont, hr.stores, hr.valid, hr.own⟩
      exact ⟨o', by simp [h1], h2⟩
  | reload => exact ⟨_, rfl, ⟨hr.store, rfl, hr.stores, hr.valid, by simp [Spec.cstep]⟩⟩

theorem crun_rel (p : Opp) : ∀ (calls : List CCall) (o : CObj) (sp : Spec.CObj), CRel p o sp → (∀ x ∈ calls, ∀ k, x = .set (some k) → proper p k) →
    (∀ (i : Nat) (x : CCall), calls[i]? = some x → charmless (Spec.crun sp (calls.take i)) x) → canswers p o calls = some (Spec.canswers sp calls)
  | [], _, _, _, _, _ => rfl
  | x :: xs, o, sp, hr, hx, hh => by
    obtain ⟨o', h1, h2⟩ := cstep_rel p hr x (hx x (by simp)) (hh 0 x rfl)
    have h3 := crun_rel p xs o' _ h2 (fun y hy => hx y (by simp [hy])) (fun i y hy => hh (i + 1) y (by simpa using hy))
    simp only [canswers, h1, Option.bind_some, h3, Spec.canswers, Option.map_some]

/-! ### The cache in the specification -/

/-- not a switch of the cache -/
def noSwitch : Call α → Bool
  | .setCache _ => false
  | _ => true

/-- the same but for the cache -/
def Same (o o' : Spec.Obj α) : Prop := o.store = o'.store ∧ o.own = o'.own ∧ o.stores = o'.stores

theorem same_step (c : Cls) {o o' : Spec.Obj α} (h : Same o o') (x : Call α) : Same (Spec.step c o x).1 (Spec.step c o' x).1 ∧ (Spec.step c o x).2 = (Spec.step c o' x).2 := by
  obtain ⟨h1, h2, h3⟩ := h
  have hv : value c o = value c o' := by funext f; simp only [value, h1, h2, h3]
  have hp : ∀ f v, Same (put c o f v) (put c o' f v) := by
    intro f v
    unfold put Same
    rw [h1, h2, h3]
    cases o'.store with
    | none => exact ⟨rfl, rfl, rfl⟩
    | some s => simp only; split <;> simp
  cases x <;> simp only [Spec.step, hv, h2, and_true]
  all_goals first | exact ⟨h1, h2, h3⟩ | exact hp _ _ | exact ⟨h1, rfl, h3⟩ | (refine ⟨rfl, ?_, h3⟩; rfl) | simp [Same, h3]

theorem answers_switch [DecidableEq α] (c : Cls) : ∀ (calls : List (Call α)) (o o' : Spec.Obj α), Same o o' →
    (Spec.answers c o calls).filter (· ≠ .none) = (Spec.answers c o' (calls.filter noSwitch)).filter (· ≠ .none)
  | [], _, _, _ => rfl
  | x :: xs, o, o', h => by
    cases hx : noSwitch x with
    | true =>
      obtain ⟨h1, h2⟩ := same_step c h x
      simp only [Spec.answers, List.filter_cons, hx, if_true, h2]
      rw [answers_switch c xs _ _ h1]
    | false =>
      have h1 : Same (Spec.step c o x).1 o' ∧ (Spec.step c o x).2 = .none := by
        cases x <;> simp_all [noSwitch, Spec.step, Same]
      simp only [Spec.answers, List.filter_cons, hx, h1.2]
      simp only [ne_eq, not_true_eq_false, decide_false, Bool.false_eq_true, if_false]
      exact answers_switch c xs _ _ h1.1

/-- without transient values all calls but those about the store are harmless -/
theorem noTransient_run (c : Cls) : ∀ (calls : List (Call α)) (o : Spec.Obj α), noTransient c o → o.store.isSome → (∀ x ∈ calls, ∀ (f : Nat) (v : Option α), x = .set f v → c.transient f = false) →
    (∀ x ∈ calls, ∀ t : Option Nat, x ≠ .setEStore t) → noTransient c (Spec.run c o calls) ∧ (Spec.run c o calls).store = o.store
  | [], _, h, _, _, _ => ⟨h, rfl⟩
  | x :: xs, o, h, hs, ht, hst => by
    obtain ⟨s, hs'⟩ := Option.isSome_iff_exists.1 hs
    have h1 : noTransient c (Spec.step c o x).1 ∧ (Spec.step c o x).1.store = o.store := by
      cases x with
      | set f v =>
        have := ht _ (by simp) f v rfl
        simp [Spec.step, put, hs', this]
        exact h
      | unset f =>
        simp only [Spec.step, put, hs']
        split
        · refine ⟨fun g hg => ?_, rfl⟩
          simp only [upd_apply]; split
          · rfl
          · exact h g hg
        · exact ⟨h, rfl⟩
      | setEStore t => exact absurd rfl (hst _ (by simp) t)
      | _ => exact ⟨h, rfl⟩
    obtain ⟨h2, h3⟩ := noTransient_run c xs _ h1.1 (by rw [h1.2]; exact hs) (fun y hy => ht y (by simp [hy])) (fun y hy => hst y (by simp [hy]))
    exact ⟨h2, h3.trans h1.2⟩

end Verif.StoreObject
