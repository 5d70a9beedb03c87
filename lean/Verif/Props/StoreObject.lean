import Verif.Proofs.StoreObject

/-!
# C66: an object with a store is a record, whatever the cache
-/

namespace Verif.StoreObject

open Verif.StoreObject.Spec

variable {α : Type}

/-- **C66** (partial): what a sequence of calls about single values gives is what the record of the values gives: the last value set, whatever is cached and whenever the cache is switched; without a store the
object has the values of the store it had.  The stores have these values.
Missing: switching the cache and giving a store with transient values (`C66_transient_violated`), taking the store away or changing it with a cache (`C66_detach_violated`, `C66_switch_violated`), many-valued
features (`C66_list_violated`, `C66_isSet_violated`; their elements are those of C37). -/
theorem C66_values_partial (c : Cls) (cache : Bool) (stores : Nat → Nat → Option α) (hc : ∀ s f, c.transient f = true → stores s f = none) (calls : List (Call α)) (hs : ∀ x ∈ calls, single c x)
    (hh : ∀ (k : Nat) (x : Call α), calls[k]? = some x → harmless c (Spec.run c ⟨cache, none, fun _ => none, stores⟩ (calls.take k)) x) :
    answers c (new cache fun s f => (stores s f).map .one) calls = Spec.answers c ⟨cache, none, fun _ => none, stores⟩ calls ∧
    ∀ s f, c.many f = false → (run c (new cache fun s f => (stores s f).map .one) calls).stores s f = ((Spec.run c ⟨cache, none, fun _ => none, stores⟩ calls).stores s f).map .one := by
  obtain ⟨h1, h2⟩ := rel_run c calls _ _ (rel_new c cache stores hc) hs hh
  exact ⟨h1, h2.stores⟩

/-- a switch of the cache -/
def isSwitch : Call α → Bool
  | .setCache _ => true
  | _ => false

/-- **C66** (partial): with a store that is not changed and without transient values the cache makes no difference: two objects that are made with or without cache and get the same calls, except for switches of the cache at any places,
give the same. -/
theorem C66_cache_partial [DecidableEq α] (c : Cls) (cache cache' : Bool) (stores : Nat → Nat → Option α) (hc : ∀ s f, c.transient f = true → stores s f = none) (s : Nat) (calls calls' : List (Call α))
    (hs : ∀ x ∈ calls ++ calls', single c x) (ht : ∀ x ∈ calls ++ calls', ∀ (f : Nat) (v : Option α), x = .set f v → c.transient f = false)
    (hst : ∀ x ∈ calls ++ calls', ∀ t : Option Nat, x ≠ .setEStore t) (he : calls.filter (fun x => !isSwitch x) = calls'.filter (fun x => !isSwitch x)) :
    (answers c (new cache fun s f => (stores s f).map .one) (.setEStore (some s) :: calls)).filter (· ≠ .none) =
      (answers c (new cache' fun s f => (stores s f).map .one) (.setEStore (some s) :: calls')).filter (· ≠ .none) := by
  have key : ∀ (b : Bool) (xs : List (Call α)), (∀ x ∈ xs, x ∈ calls ++ calls') →
      (answers c (new b fun s f => (stores s f).map .one) (.setEStore (some s) :: xs)).filter (· ≠ .none) =
      (Spec.answers c ⟨true, some s, fun _ => none, stores⟩ (xs.filter noSwitch)).filter (· ≠ .none) := by
    intro b xs hxs
    obtain ⟨h1, _⟩ := rel_run c (.setEStore (some s) :: xs) _ _ (rel_new c b stores hc) (by
        intro x hx
        rcases List.mem_cons.1 hx with h | h
        · subst h; trivial
        · exact hs x (hxs x h)) (by
        intro k x hx
        cases k with
        | zero =>
          simp only [List.getElem?_cons_zero, Option.some.injEq] at hx
          subst hx
          cases b with
          | false => exact .inr (.inl ⟨rfl, fun _ _ => rfl⟩)
          | true => exact .inr (.inr ⟨rfl, rfl, fun _ _ => rfl⟩)
        | succ k =>
          simp only [List.getElem?_cons_succ] at hx
          have hmem : x ∈ xs := List.mem_of_getElem? hx
          obtain ⟨h2, h3⟩ := noTransient_run c (xs.take k) (Spec.step c ⟨b, none, fun _ => none, stores⟩ (.setEStore (some s))).1 (fun _ _ => rfl) rfl
            (fun y hy => ht y (hxs y (List.mem_of_mem_take hy))) (fun y hy => hst y (hxs y (List.mem_of_mem_take hy)))
          simp only [List.take_succ_cons, Spec.run]
          cases x with
          | setCache b => exact .inr (.inr h2)
          | setEStore t => exact absurd rfl (hst _ (hxs _ hmem) t)
          | _ => trivial)
    rw [h1]
    simp only [Spec.answers]
    rw [List.filter_cons]
    simp only [Spec.step, ne_eq, not_true_eq_false, decide_false, Bool.false_eq_true, if_false]
    exact answers_switch c xs _ _ ⟨rfl, rfl, rfl⟩
  have hsw : (noSwitch : Call α → Bool) = fun x => !isSwitch x := by funext x; cases x <;> rfl
  rw [key cache calls (fun x hx => by simp [hx]), key cache' calls' (fun x hx => by simp [hx]), hsw, he]

/-- **C66** (partial): the container of an object is the one that was set last, else the one in the store: also for another object that is made for the same data, and in a store that is given later.
Missing: taking the store away before the container has been read (`C66_container_violated`). -/
theorem C66_container_partial (p : Opp) (calls : List CCall) (hx : ∀ x ∈ calls, ∀ k, x = .set (some k) → proper p k)
    (hh : ∀ (i : Nat) (x : CCall), calls[i]? = some x → charmless (Spec.crun ⟨none, none, fun _ => none⟩ (calls.take i)) x) :
    canswers p ⟨none, none, fun _ => none⟩ calls = some (Spec.canswers ⟨none, none, fun _ => none⟩ calls) :=
  crun_rel p calls _ _ ⟨rfl, rfl, fun _ => rfl, by simp, by simp⟩ hx hh

/-- feature 0: a value, 1: a transient value, 2: many values -/
def sampleCls : Cls := ⟨fun f => f = 1, fun f => f = 2⟩

/-- nothing in the stores -/
def empty : Nat → Store Nat := fun _ _ => none

/-- values with and without a store and a cache -/
def sampleCalls : List (Call Nat) :=
  [.set 0 (some 3), .get 0, .setEStore (some 1), .get 0, .set 0 (some 5), .set 1 (some 7), .isSet 0, .setEStore none, .get 0, .get 1, .set 1 none, .setEStore (some 2), .setCache true, .set 0 (some 8), .get 0, .unset 0,
    .isSet 0]

example : (∀ x ∈ sampleCalls, single sampleCls x) := by simp [sampleCalls, single, sampleCls]

/-- the hypotheses of `C66_values_partial` -/
example (k : Nat) (x : Call Nat) (hx : ([.set 1 (some 4), .setCache true, .setEStore (some 1), .set 0 (some 3), .get 0, .set 1 none, .setCache false, .setEStore none, .get 0] : List (Call Nat))[k]? = some x) :
    harmless sampleCls (Spec.run sampleCls ⟨false, none, fun _ => none, fun _ _ => none⟩
      (([.set 1 (some 4), .setCache true, .setEStore (some 1), .set 0 (some 3), .get 0, .set 1 none, .setCache false, .setEStore none, .get 0] : List (Call Nat)).take k)) x := by
  match k with
  | 0 | 3 | 4 | 5 | 8 => simp at hx; subst hx; trivial
  | 1 => simp at hx; subst hx; exact .inr (.inl rfl)
  | 2 =>
    simp at hx; subst hx
    refine .inr (.inr ⟨rfl, rfl, fun f hf => ?_⟩)
    simp [sampleCls] at hf
    simp [Spec.run, Spec.step, put, upd, hf]
  | 6 =>
    simp at hx; subst hx
    refine .inr (.inr fun f hf => ?_)
    simp [sampleCls] at hf
    simp [Spec.run, Spec.step, put, upd, sampleCls, hf]
  | 7 => simp at hx; subst hx; exact .inr rfl
  | k + 9 => simp at hx

example : answers sampleCls (new false empty) sampleCalls =
    [.none, .value (some (.one 3)), .none, .value none, .none, .none, .bool true, .none, .value (some (.one 5)), .value (some (.one 7)), .none, .none, .none, .none, .value (some (.one 8)), .none, .bool false] := by
  decide

/-- containments 0 of the container have no opposite, containments 1 have the feature 4 of the object -/
def sampleOpp : Opp := ⟨fun _ i => if i = 1 then some 4 else none, fun i => if i = 4 then some 1 else none⟩

example : proper sampleOpp ⟨9, 4⟩ ∧ proper sampleOpp ⟨9, -1⟩ := ⟨⟨1, rfl, rfl⟩, rfl⟩

example : canswers sampleOpp ⟨none, none, fun _ => none⟩ [.set (some ⟨9, 4⟩), .attach (some 1), .reload, .get, .set (some ⟨8, -1⟩), .reload, .get, .attach (some 2), .reload, .get] =
    some [none, none, none, some ⟨9, 4⟩, none, none, some ⟨8, -1⟩, none, none, some ⟨8, -1⟩] := by decide

/-- a transient value is lost when the cache is switched, and when a store is given -/
theorem C66_transient_violated : answers sampleCls (new false empty) [.setEStore (some 1), .set 1 (some 7), .setCache true, .get 1] = [.none, .none, .none, .value none] ∧
    answers sampleCls (new false empty) [.set 1 (some 7), .setEStore (some 1), .get 1] = [.none, .none, .value none] := by decide

/-- with a cache, a value that has not been read is lost when the store is taken away -/
theorem C66_detach_violated : answers sampleCls (new true fun _ _ => some (.one 5)) [.setEStore (some 1), .setEStore none, .get 0] = [.none, .none, .value none] ∧
    answers sampleCls (new false fun _ _ => some (.one 5)) [.setEStore (some 1), .setEStore none, .get 0] = [.none, .none, .value (some (.one 5))] := by decide

/-- with a cache, the value of the old store is shown after the store has been changed; without, that of the new one; the store does not get the value -/
theorem C66_switch_violated : answers sampleCls (new true fun s _ => some (.one s)) [.setEStore (some 1), .get 0, .setEStore (some 2), .get 0] = [.none, .value (some (.one 1)), .none, .value (some (.one 1))] ∧
    answers sampleCls (new false fun s _ => some (.one s)) [.setEStore (some 1), .get 0, .setEStore (some 2), .get 0] = [.none, .value (some (.one 1)), .none, .value (some (.one 2))] ∧
    (run sampleCls (new true empty) [.set 0 (some 7), .setEStore (some 2)]).stores 2 0 = none := by decide

/-- a value that is set before there is a store is not put in the store, and lost without cache -/
theorem C66_attach_violated : answers sampleCls (new false empty) [.set 0 (some 7), .setEStore (some 1), .get 0] = [.none, .none, .value none] ∧
    answers sampleCls (new true empty) [.set 0 (some 7), .setEStore (some 1), .get 0, .setCache false, .get 0] = [.none, .none, .value (some (.one 7)), .none, .value none] := by decide

/-- after a switch of the cache the list of a feature is another object: two lists with a cache each for the same values -/
theorem C66_list_violated : answers sampleCls (new false empty) [.setEStore (some 1), .get 2, .get 2, .setCache true, .get 2] =
    [.none, .value (some (.list 0)), .value (some (.list 0)), .none, .value (some (.list 1))] := by decide

/-- a list without elements that has been read counts as set -/
theorem C66_isSet_violated : answers sampleCls (new false empty) [.setEStore (some 1), .isSet 2, .get 2, .isSet 2] = [.none, .bool false, .value (some (.list 0)), .bool true] := by decide

/-- a container that has not been read is lost when the store is taken away -/
theorem C66_container_violated : canswers sampleOpp ⟨none, none, fun _ => none⟩ [.attach (some 1), .set (some ⟨9, 4⟩), .reload, .attach none, .get] = some [none, none, none, none, none] ∧
    canswers sampleOpp ⟨none, none, fun _ => none⟩ [.attach (some 1), .set (some ⟨9, 4⟩), .reload, .get, .attach none, .get] = some [none, none, none, some ⟨9, 4⟩, none, some ⟨9, 4⟩] := by decide

end Verif.StoreObject
