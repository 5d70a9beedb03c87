import Verif.Proofs.Callbacks
import Verif.Spec.FMap
set_option linter.unusedSimpArgs false
set_option linter.unusedSectionVars false
namespace Verif.EMap
open Verif.EList Verif.Spec

variable {K V : Type} [DecidableEq K]

/-- Keys of the entries. -/
def keys (heap : Nat → K × V) (l : List Nat) : List K := l.map fun i => (heap i).1

/-- The cached map says the same as the entries. -/
def Agree (heap : Nat → K × V) (l : List Nat) (m : K → Option V) : Prop :=
  ∀ k v, m k = some v ↔ ∃ i ∈ l, heap i = (k, v)

structure Inv (s : St K V) : Prop where
  nodup : (keys s.heap s.ids).Nodup
  below : ∀ i ∈ s.ids, i < s.next
  agree : ∀ m, s.cache = some m → Agree s.heap s.ids m

theorem agree_perm {heap : Nat → K × V} {l l' : List Nat} {m : K → Option V} (hp : l.Perm l')
    (h : Agree heap l m) : Agree heap l' m := by
  intro k v; rw [h k v]; simp only [hp.mem_iff]

theorem agree_add {heap : Nat → K × V} {l : List Nat} {m : K → Option V} {e : Nat}
    (hnd : (keys heap (e :: l)).Nodup) (h : Agree heap l m) :
    Agree heap (e :: l) (mapPut m (heap e).1 (heap e).2) := by
  intro k v
  simp only [keys, List.map_cons, List.nodup_cons, List.mem_map, not_exists, not_and] at hnd
  simp only [mapPut, List.mem_cons, exists_eq_or_imp]
  split
  · rename_i hk; subst hk
    simp only [Option.some.injEq]
    constructor
    · rintro rfl; exact Or.inl rfl
    · rintro (h1 | ⟨i, hi, h1⟩)
      · rw [h1]
      · exact absurd (by rw [h1]) (hnd.1 i hi)
  · rename_i hk
    rw [h k v]
    constructor
    · exact Or.inr
    · rintro (h1 | h1)
      · exact absurd (by rw [h1]) hk
      · exact h1

theorem agree_remove {heap : Nat → K × V} {l : List Nat} {m : K → Option V} {o : Nat}
    (hnd : (keys heap l).Nodup) (ho : o ∈ l) (h : Agree heap l m) :
    Agree heap (l.erase o) (mapDelete m (heap o).1) := by
  have hp : l.Perm (o :: l.erase o) := List.perm_cons_erase ho
  have hnd' : (keys heap (o :: l.erase o)).Nodup := (hp.map _).nodup_iff.1 hnd
  simp only [keys, List.map_cons, List.nodup_cons, List.mem_map, not_exists, not_and] at hnd'
  intro k v
  simp only [mapDelete]
  split
  · rename_i hk; subst hk
    simp only [reduceCtorEq, false_iff, not_exists, not_and]
    intro i hi h1
    exact hnd'.1 i hi (by rw [h1])
  · rename_i hk
    rw [h k v]
    constructor
    · rintro ⟨i, hi, h1⟩
      rcases List.mem_cons.1 (hp.mem_iff.1 hi) with rfl | h2
      · exact absurd (by rw [h1]) hk
      · exact ⟨i, h2, h1⟩
    · rintro ⟨i, hi, h1⟩; exact ⟨i, List.mem_of_mem_erase hi, h1⟩

/-! #### kinds of traces -/

def addKind : CB Nat → Prop
  | .didAdd _ _ | .didChange | .didMove _ _ _ => True
  | _ => False

def removeKind : CB Nat → Prop
  | .didRemove _ _ | .didChange => True
  | _ => False

theorem didAdds_kind (i : Nat) (l : List Nat) : ∀ c ∈ didAdds i l, addKind c := by
  induction l generalizing i with
  | nil => simp [didAdds]
  | cons x xs ih =>
    simp only [didAdds, List.mem_cons, forall_eq_or_imp]
    exact ⟨trivial, ih _⟩

theorem didInserts_kind (i : Nat) (l : List Nat) : ∀ c ∈ didInserts i l, addKind c := by
  induction l generalizing i with
  | nil => simp [didInserts]
  | cons x xs ih =>
    simp only [didInserts, List.mem_cons, forall_eq_or_imp]
    exact ⟨trivial, trivial, ih _⟩

theorem didRemovesDesc_kind (i : Nat) (l : List Nat) : ∀ c ∈ didRemovesDesc i l, removeKind c := by
  induction l generalizing i with
  | nil => simp [didRemovesDesc]
  | cons x xs ih =>
    intro c hc
    simp only [didRemovesDesc, List.mem_append, List.mem_singleton] at hc
    rcases hc with hc | rfl
    · exact ih _ c hc
    · trivial

theorem doRemove_kind (d : List Nat) (i : Int) : ∀ c ∈ (EList.doRemove d i).trace, removeKind c := by
  intro c hc
  simp only [EList.doRemove] at hc
  repeat' split at hc
  all_goals first | (simp at hc; done) | (simp at hc; rcases hc with rfl | rfl <;> trivial)

theorem removeAllLoop_kind (c : List Nat) (n : Nat) (d : List Nat) (m : Bool) :
    ∀ x ∈ (removeAllLoop c n d m).trace, removeKind x := by
  induction n generalizing d m with
  | zero => simp [removeAllLoop]
  | succ n ih =>
    simp only [removeAllLoop]
    have hr : ∀ x ∈ (removeAt d n).trace, removeKind x := by
      simp only [removeAt]
      split
      · simp [noop]
      · exact doRemove_kind d n
    split
    · simp
    · split
      · split
        · exact hr
        · intro x hx
          simp only [List.mem_append] at hx
          rcases hx with hx | hx
          · exact hr x hx
          · exact ih _ _ x hx
      · exact ih _ _

theorem doMove_kind (d sp : List Nat) (o n : Int) : ∀ c ∈ (doMove d sp o n).trace, addKind c := by
  intro c hc
  simp only [doMove] at hc
  repeat' split at hc
  all_goals first | (simp at hc; done) | (simp at hc; rcases hc with rfl | rfl <;> trivial)

theorem removal_kind (cfg : Cfg) (s : List Nat) (op : Op Nat)
    (hop : match op with | .removeAt _ | .remove _ | .removeRange _ _ | .removeAll _ => True | _ => False) :
    ∀ c ∈ (step cfg s op).trace, removeKind c := by
  cases op with
  | removeAt i =>
    simp only [step, removeAt]
    split
    · simp [noop]
    · exact doRemove_kind _ _
  | remove e =>
    simp only [step, remove]
    split
    · simp [noop]
    · simp only [returning_data]; exact doRemove_kind _ _
  | removeRange f t =>
    simp only [step, removeRange]
    split
    · simp [noop]
    · split
      · simp [noop]
      · split
        · simp [noop]
        · intro x hx
          simp only [doRemoveRange] at hx
          split at hx
          · simp only [List.mem_append, List.mem_singleton] at hx
            rcases hx with hx | rfl
            · exact didRemovesDesc_kind _ _ x hx
            · trivial
          · simp at hx
  | removeAll c => exact removeAllLoop_kind _ _ _ _
  | _ => exact absurd hop id

theorem step_kind (cfg : Cfg) (s : List Nat) (op : Op Nat) :
    (∀ c ∈ (step cfg s op).trace, addKind c) ∨ (∀ c ∈ (step cfg s op).trace, removeKind c) ∨
    (∃ i e o j, (step cfg s op).trace = [.didSet i e o, .didChange] ∧ op = .set j e) ∨
    (∃ l, (step cfg s op).trace = [.didClear l] ∧ op = .clear) := by
  cases op with
  | add e =>
    left
    simp only [step, add]
    split
    · simp [noop]
    · simp [EList.doAdd, Res.returning, addKind]
  | addAll c =>
    left
    have : ∀ l : List Nat, ∀ x ∈ didAdds 0 l ++ [CB.didChange], addKind x := by
      intro l x hx
      simp only [List.mem_append, List.mem_singleton] at hx
      rcases hx with hx | rfl
      · exact didAdds_kind _ _ x hx
      · trivial
    simp only [step, addAll]
    split
    · split
      · simp [noop]
      · simp only [returning_data, doAddAll]; exact this _
    · simp only [returning_data, doAddAll]; exact this _
  | insert i e =>
    left
    simp only [step, EList.insert]
    split
    · simp [noop]
    · split
      · simp [noop]
      · simp only [returning_data]
        intro c hc
        simp only [doInsert] at hc
        repeat' split at hc
        all_goals first | (simp at hc; done) | (simp at hc; rcases hc with rfl | rfl <;> trivial)
  | insertAll i c =>
    left
    have : ∀ l : List Nat, ∀ x ∈ (doInsertAll s i l).trace, addKind x := by
      intro l x hx
      simp only [doInsertAll] at hx
      split at hx
      · exact didInserts_kind _ _ x hx
      · simp at hx
    simp only [step, insertAll]
    split
    · simp [noop]
    · split
      · split
        · simp [noop]
        · simp only [returning_data]; exact this _
      · simp only [returning_data]; exact this _
  | move sp o n =>
    left
    simp only [step, move]
    split
    · simp [noop]
    · exact doMove_kind _ _ _ _
  | moveObject sp n e =>
    left
    simp only [step, moveObject]
    split
    · simp [noop]
    · simp only [returning_data]; exact doMove_kind _ _ _ _
  | removeAt i => right; left; exact removal_kind cfg s _ trivial
  | remove e => right; left; exact removal_kind cfg s _ trivial
  | removeRange f t => right; left; exact removal_kind cfg s _ trivial
  | removeAll c => right; left; exact removeAllLoop_kind _ _ _ _
  | set i e =>
    simp only [step, EList.set]
    split
    · left; simp [noop]
    · split
      · left; simp [noop]
      · simp only [doSet]
        repeat' split
        · left; simp
        · left; simp
        · right; right; left; exact ⟨_, _, _, _, rfl, rfl⟩
  | clear => right; right; right; exact ⟨s, rfl, rfl⟩

theorem adds_suffix (cbs : List (CB Nat)) (s t : List Nat) (hk : ∀ c ∈ cbs, addKind c)
    (h : Callbacks.bagAll s cbs = some t) : s <:+ t := by
  induction cbs generalizing s with
  | nil => simp only [Callbacks.bagAll, Option.some.injEq] at h; subst h; exact List.suffix_refl _
  | cons c cs ih =>
    have hk2 := fun c' hc' => hk c' (List.mem_cons_of_mem _ hc')
    have hk1 := hk c List.mem_cons_self
    cases c with
    | didAdd i e =>
      simp only [Callbacks.bagAll, Callbacks.bag] at h
      exact (List.suffix_cons e s).trans (ih _ hk2 h)
    | didMove n x o => simp only [Callbacks.bagAll, Callbacks.bag] at h; exact ih _ hk2 h
    | didChange => simp only [Callbacks.bagAll, Callbacks.bag] at h; exact ih _ hk2 h
    | _ => exact absurd hk1 id

theorem callbacks_none (heap : Nat → K × V) (cbs : List (CB Nat)) : cbs.foldl (callback heap) none = none := by
  induction cbs with
  | nil => rfl
  | cons c cs ih => cases c <;> simpa [callback, doAdd, doRemove] using ih

theorem adds_agree (heap : Nat → K × V) (cbs : List (CB Nat)) (s t : List Nat) (m m' : K → Option V)
    (hk : ∀ c ∈ cbs, addKind c) (h : Callbacks.bagAll s cbs = some t) (hnd : (keys heap t).Nodup)
    (ha : Agree heap s m) (hm : cbs.foldl (callback heap) (some m) = some m') : Agree heap t m' := by
  induction cbs generalizing s m with
  | nil =>
    simp only [Callbacks.bagAll, Option.some.injEq] at h
    simp only [List.foldl_nil, Option.some.injEq] at hm
    subst h; subst hm; exact ha
  | cons c cs ih =>
    have hk2 := fun c' hc' => hk c' (List.mem_cons_of_mem _ hc')
    have hk1 := hk c List.mem_cons_self
    cases c with
    | didAdd i e =>
      simp only [Callbacks.bagAll, Callbacks.bag] at h
      simp only [List.foldl_cons, callback, doAdd, Option.map_some] at hm
      have hs := adds_suffix cs (e :: s) t hk2 h
      have hn' : (keys heap (e :: s)).Nodup := (hs.sublist.map _).nodup hnd
      exact ih _ _ hk2 h (agree_add hn' ha) hm
    | didMove n x o =>
      simp only [Callbacks.bagAll, Callbacks.bag] at h
      simp only [List.foldl_cons, callback] at hm
      exact ih _ _ hk2 h ha hm
    | didChange =>
      simp only [Callbacks.bagAll, Callbacks.bag] at h
      simp only [List.foldl_cons, callback] at hm
      exact ih _ _ hk2 h ha hm
    | _ => exact absurd hk1 id

theorem removes_agree (heap : Nat → K × V) (cbs : List (CB Nat)) (s t : List Nat) (m m' : K → Option V)
    (hk : ∀ c ∈ cbs, removeKind c) (h : Callbacks.bagAll s cbs = some t) (hnd : (keys heap s).Nodup)
    (ha : Agree heap s m) (hm : cbs.foldl (callback heap) (some m) = some m') : Agree heap t m' := by
  induction cbs generalizing s m with
  | nil =>
    simp only [Callbacks.bagAll, Option.some.injEq] at h
    simp only [List.foldl_nil, Option.some.injEq] at hm
    subst h; subst hm; exact ha
  | cons c cs ih =>
    have hk2 := fun c' hc' => hk c' (List.mem_cons_of_mem _ hc')
    have hk1 := hk c List.mem_cons_self
    cases c with
    | didRemove i o =>
      simp only [Callbacks.bagAll, Callbacks.bag] at h
      simp only [List.foldl_cons, callback, doRemove, Option.map_some] at hm
      by_cases ho : o ∈ s
      · rw [if_pos ho] at h
        exact ih _ _ hk2 h ((List.erase_sublist.map _).nodup hnd) (agree_remove hnd ho ha) hm
      · simp [ho] at h
    | didChange =>
      simp only [Callbacks.bagAll, Callbacks.bag] at h
      simp only [List.foldl_cons, callback] at hm
      exact ih _ _ hk2 h hnd ha hm
    | _ => exact absurd hk1 id

theorem foldl_some (heap : Nat → K × V) (cbs : List (CB Nat)) (c : Option (K → Option V)) (m' : K → Option V)
    (h : cbs.foldl (callback heap) c = some m') : ∃ m, c = some m := by
  cases c with
  | none => rw [callbacks_none] at h; simp at h
  | some m => exact ⟨m, rfl⟩

theorem listStep_inv (it : SetIter) (s : St K V) (op : Op Nat) (h : Inv s)
    (hmove : ¬ Seq.movesPastEnd s.ids op)
    (hnd : (keys s.heap (listStep it s op).1.ids).Nodup)
    (hb : ∀ i ∈ (listStep it s op).1.ids, i < s.next) : Inv (listStep it s op).1 := by
  refine ⟨hnd, hb, ?_⟩
  intro m' hm'
  simp only [listStep] at hm' hnd hb ⊢
  obtain ⟨t, ht, hp⟩ := step_bag ⟨true, it⟩ s.ids op hmove
  obtain ⟨m, hm⟩ := foldl_some _ _ _ _ hm'
  have ha := h.agree m hm
  rw [hm] at hm'
  refine agree_perm hp ?_
  have hndt : (keys s.heap t).Nodup := (hp.map _).nodup_iff.2 hnd
  rcases step_kind ⟨true, it⟩ s.ids op with hk | hk | ⟨i, e, o, j, hk, _⟩ | ⟨l, hk, _⟩
  · exact adds_agree _ _ _ _ _ _ hk ht hndt ha hm'
  · exact removes_agree _ _ _ _ _ _ hk ht h.nodup ha hm'
  · rw [hk] at ht hm'
    simp only [Callbacks.bagAll, Callbacks.bag] at ht
    by_cases ho : o ∈ s.ids
    · rw [if_pos ho] at ht
      simp only [Option.some.injEq] at ht
      subst ht
      simp only [List.foldl_cons, List.foldl_nil, callback, doRemove, doAdd, Option.map_some,
        Option.some.injEq] at hm'
      subst hm'
      exact agree_add hndt (agree_remove h.nodup ho ha)
    · simp [ho] at ht
  · rw [hk] at hm'; simp [callback] at hm'

/-! #### lookups -/

theorem getEntry_some {s : St K V} {k : K} {i : Nat} (h : getEntryForKey s k = some i) :
    i ∈ s.ids ∧ (s.heap i).1 = k := by
  constructor
  · exact List.mem_of_find?_eq_some h
  · simpa using List.find?_some h

theorem getEntry_none {s : St K V} {k : K} (h : getEntryForKey s k = none) : ∀ i ∈ s.ids, (s.heap i).1 ≠ k := by
  simpa [getEntryForKey] using h

theorem nodup_unique {heap : Nat → K × V} {l : List Nat} (h : (keys heap l).Nodup) {i j : Nat} (hi : i ∈ l)
    (hj : j ∈ l) (hk : (heap i).1 = (heap j).1) : i = j := by
  induction l with
  | nil => simp at hi
  | cons x xs ih =>
    simp only [keys, List.map_cons, List.nodup_cons, List.mem_map, not_exists, not_and] at h
    rcases List.mem_cons.1 hi with e1 | h1 <;> rcases List.mem_cons.1 hj with e2 | h2
    · rw [e1, e2]
    · subst e1; exact absurd hk.symm (h.1 j h2)
    · subst e2; exact absurd hk (h.1 i h1)
    · exact ih h.2 h1 h2

theorem build_agree (heap : Nat → K × V) (l : List Nat) : ∀ (pre : List Nat) (m : K → Option V),
    (keys heap (pre ++ l)).Nodup → Agree heap pre m → Agree heap (pre ++ l) (build heap l m) := by
  induction l with
  | nil => intro pre m _ ha; simpa [build] using ha
  | cons x xs ih =>
    intro pre m hnd ha
    have e : pre ++ x :: xs = pre ++ [x] ++ xs := by simp
    rw [e] at hnd ⊢
    refine ih (pre ++ [x]) _ hnd ?_
    have hp : (x :: pre).Perm (pre ++ [x]) := (List.perm_append_singleton x pre).symm
    refine agree_perm hp (agree_add ?_ ha)
    have : (keys heap (pre ++ [x])).Nodup := by
      refine List.Sublist.nodup ?_ hnd
      exact (List.sublist_append_left _ _).map _
    exact (hp.map _).nodup_iff.2 this

theorem initDataMap_spec (s : St K V) (h : Inv s) :
    Inv (initDataMap s).1 ∧ Agree s.heap s.ids (initDataMap s).2 ∧ (initDataMap s).1.ids = s.ids ∧
    (initDataMap s).1.heap = s.heap ∧ (initDataMap s).1.next = s.next := by
  simp only [initDataMap]
  split
  · rename_i m hm; exact ⟨h, h.agree m hm, rfl, rfl, rfl⟩
  · have ha : Agree s.heap s.ids (build s.heap s.ids fun _ => none) := by
      have := build_agree s.heap s.ids [] (fun _ => none) (by simpa using h.nodup) (by intro k v; simp)
      simpa using this
    refine ⟨⟨h.nodup, h.below, ?_⟩, ha, rfl, rfl, rfl⟩
    intro m hm
    simp only [Option.some.injEq] at hm
    subst hm; exact ha

variable [Inhabited V]

/-- Calls which keep the invariant: map calls always; list calls and entry changes under conditions. -/
def okCall (it : SetIter) (s : St K V) : MOp K V → Prop
  | .list op => ¬ Seq.movesPastEnd s.ids op ∧ (keys s.heap (listStep it s op).1.ids).Nodup ∧
      ∀ i ∈ (listStep it s op).1.ids, i < s.next
  | .entrySetValue i _ => i ∉ s.ids
  | _ => True

instance (it : SetIter) (s : St K V) (op : MOp K V) : Decidable (okCall it s op) := by
  cases op <;> simp only [okCall] <;> infer_instance

omit [Inhabited V] in
theorem keys_congr {h1 h2 : Nat → K × V} {l : List Nat} (h : ∀ i ∈ l, (h1 i).1 = (h2 i).1) :
    keys h1 l = keys h2 l := by
  simp only [keys]
  exact List.map_congr_left h

omit [Inhabited V] in
theorem inv_heap_fresh (s : St K V) (h : Inv s) (k : K) (v : V) :
    Inv { s with heap := fun j => if j = s.next then (k, v) else s.heap j, next := s.next + 1 } := by
  have hne : ∀ i ∈ s.ids, i ≠ s.next := fun i hi => Nat.ne_of_lt (h.below i hi)
  refine ⟨?_, ?_, ?_⟩
  · have := h.nodup
    rwa [keys_congr (h2 := s.heap)]
    intro i hi; simp [hne i hi]
  · intro i hi; exact Nat.lt_succ_of_lt (h.below i hi)
  · intro m hm k' v'
    rw [h.agree m hm k' v']
    constructor
    · rintro ⟨i, hi, e⟩; exact ⟨i, hi, by simp [hne i hi, e]⟩
    · rintro ⟨i, hi, e⟩; exact ⟨i, hi, by simpa [hne i hi] using e⟩

omit [Inhabited V] in
theorem setValue_fst (heap : Nat → K × V) (i j : Nat) (v : V) : (setValue heap i v j).1 = (heap j).1 := by
  simp only [setValue]; split
  · rename_i h; subst h; rfl
  · rfl

theorem mstep_inv (it : SetIter) (s : St K V) (op : MOp K V) (h : Inv s) (hok : okCall it s op) :
    Inv (mstep it s op).1 := by
  cases op with
  | put k v =>
    simp only [mstep]
    split
    · rename_i i hi
      obtain ⟨him, hik⟩ := getEntry_some hi
      refine ⟨?_, h.below, ?_⟩
      · simp only
        rw [keys_congr (h2 := s.heap) (fun j _ => setValue_fst s.heap i j v)]
        exact h.nodup
      · intro m hm k' v'
        simp only [Option.map_eq_some_iff] at hm
        obtain ⟨m0, hm0, rfl⟩ := hm
        have ha := h.agree m0 hm0
        simp only [mapPut]
        split
        · rename_i hk; subst hk
          simp only [Option.some.injEq]
          constructor
          · rintro rfl; exact ⟨i, him, by simp [setValue, hik]⟩
          · rintro ⟨j, hj, e⟩
            have hj' : (s.heap j).1 = k' := by rw [← setValue_fst s.heap i j v, e]
            have := nodup_unique h.nodup him hj (by rw [hik, hj'])
            subst this
            simpa [setValue, hik] using e
        · rename_i hk
          rw [ha k' v']
          constructor
          · rintro ⟨j, hj, e⟩
            have : j ≠ i := by rintro rfl; rw [e] at hik; exact hk hik
            exact ⟨j, hj, by simp [setValue, this, e]⟩
          · rintro ⟨j, hj, e⟩
            have : j ≠ i := by
              rintro rfl
              rw [← setValue_fst s.heap j j v, e] at hik
              exact hk hik
            exact ⟨j, hj, by simpa [setValue, this] using e⟩
    · rename_i hnone
      have hno := getEntry_none hnone
      have h1 := inv_heap_fresh s h k v
      have hni : s.next ∉ s.ids := fun hc => absurd (h.below _ hc) (Nat.lt_irrefl _)
      have hd : (listStep it (St.mk s.ids (fun j => if j = s.next then (k, v) else s.heap j) (s.next + 1) s.cache)
          (.add s.next)).1.ids = s.ids ++ [s.next] := by
        simp [listStep, step, add, contains_eq, hni, EList.doAdd, Res.returning]
      refine listStep_inv it _ (.add s.next) h1 (by simp [Seq.movesPastEnd]) ?_ ?_
      · rw [hd]
        simp only [keys, List.map_append, List.map_cons, List.map_nil, if_true]
        rw [List.nodup_append]
        refine ⟨?_, by simp, ?_⟩
        · have := h1.nodup; exact this
        · intro a ha b hb
          simp only [List.mem_singleton] at hb
          subst hb
          simp only [List.mem_map] at ha
          obtain ⟨i, hi, rfl⟩ := ha
          rw [if_neg (Nat.ne_of_lt (h.below i hi))]
          exact hno i hi
      · rw [hd]
        intro i hi
        simp only [List.mem_append, List.mem_singleton] at hi
        rcases hi with hi | rfl
        · exact Nat.lt_succ_of_lt (h.below i hi)
        · exact Nat.lt_succ_self _
  | removeKey k =>
    simp only [mstep]
    split
    · rename_i i hi
      obtain ⟨him, hik⟩ := getEntry_some hi
      have hlt := List.idxOf_lt_length_of_mem him
      have hx : s.ids[s.ids.idxOf i]? = some i := by rw [List.getElem?_eq_getElem hlt]; simp
      have hd : (listStep it s (.remove i)).1.ids = s.ids.eraseIdx (s.ids.idxOf i) := by
        simp only [listStep, step, remove, indexOf_eq, him, if_true]
        rw [if_neg (by omega), doRemove_eq s.ids _ i (by omega) (by simpa using hx)]
        simp [Res.returning]
      have hsub : (s.ids.eraseIdx (s.ids.idxOf i)).Sublist s.ids := List.eraseIdx_sublist _ _
      refine listStep_inv it s (.remove i) h (by simp [Seq.movesPastEnd]) ?_ ?_
      · rw [hd]; exact (hsub.map _).nodup h.nodup
      · rw [hd]; intro j hj; exact h.below j (hsub.subset hj)
    · exact h
  | clear =>
    have hd : (listStep it s .clear).1.ids = [] := by simp [listStep, step, clear, EList.doClear]
    refine listStep_inv it s .clear h (by simp [Seq.movesPastEnd]) ?_ ?_
    · rw [hd]; simp [keys]
    · rw [hd]; simp
  | getValue k => exact (initDataMap_spec s h).1
  | containsKey k => exact (initDataMap_spec s h).1
  | toMapAt k => exact (initDataMap_spec s h).1
  | newEntry k v => exact inv_heap_fresh s h k v
  | list op => exact listStep_inv it s op h hok.1 hok.2.1 hok.2.2
  | entrySetValue i v =>
    simp only [okCall] at hok
    have hne : ∀ j ∈ s.ids, j ≠ i := fun j hj e => hok (e ▸ hj)
    refine ⟨?_, h.below, ?_⟩
    · simp only [mstep]
      rw [keys_congr (h2 := s.heap) (fun j _ => setValue_fst s.heap i j v)]
      exact h.nodup
    · intro m hm k' v'
      rw [h.agree m hm k' v']
      constructor
      · rintro ⟨j, hj, e⟩; exact ⟨j, hj, by simp [mstep, setValue, hne j hj, e]⟩
      · rintro ⟨j, hj, e⟩; exact ⟨j, hj, by simpa [mstep, setValue, hne j hj] using e⟩

/-! #### the finite map -/

/-- The entries say exactly what the function `f` says. -/
def Says (s : St K V) (f : K → Option V) : Prop := ∀ k v, f k = some v ↔ (k, v) ∈ entries s

omit [Inhabited V] in
theorem mem_entries (s : St K V) (k : K) (v : V) : (k, v) ∈ entries s ↔ ∃ i ∈ s.ids, s.heap i = (k, v) := by
  simp [entries]

omit [Inhabited V] [DecidableEq K] in
theorem says_eq {f g : K → Option V} (h : ∀ k v, f k = some v ↔ g k = some v) (k : K) : f k = g k :=
  Option.ext (h k)

theorem mstep_says (it : SetIter) (s : St K V) (op : MOp K V) (h : Inv s) (hc : FMap.mapCall op)
    (f : K → Option V) (hf : Says s f) :
    Says (mstep it s op).1 (fun k => FMap.lookup (f k) k [op]) ∧
    (mstep it s op).2 = (match op with
      | .getValue k => .val ((f k).getD default)
      | .removeKey k => .val ((f k).getD default)
      | .containsKey k => .bool (f k).isSome
      | .toMapAt k => .opt (f k)
      | _ => .unit) := by
  have hinit := initDataMap_spec s h
  have hm : ∀ k, (initDataMap s).2 k = f k := by
    intro k
    refine says_eq (fun k v => ?_) k
    rw [hinit.2.1 k v, hf k v, mem_entries]
  cases op with
  | put k v =>
    simp only [mstep, FMap.lookup]
    split
    · rename_i i hi
      obtain ⟨him, hik⟩ := getEntry_some hi
      refine ⟨?_, rfl⟩
      intro k' v'
      simp only [mem_entries]
      by_cases hk : k = k'
      · subst hk
        simp only [if_true, Option.some.injEq]
        constructor
        · rintro rfl; exact ⟨i, him, by simp [setValue, hik]⟩
        · rintro ⟨j, hj, e⟩
          have hj' : (s.heap j).1 = k := by rw [← setValue_fst s.heap i j v, e]
          have := nodup_unique h.nodup him hj (by rw [hik, hj'])
          subst this
          simpa [setValue, hik] using e
      · simp only [hk, if_false]
        rw [hf k' v', mem_entries]
        constructor
        · rintro ⟨j, hj, e⟩
          have : j ≠ i := by rintro rfl; rw [e] at hik; exact hk hik.symm
          exact ⟨j, hj, by simp [setValue, this, e]⟩
        · rintro ⟨j, hj, e⟩
          have : j ≠ i := by
            rintro rfl
            rw [← setValue_fst s.heap j j v, e] at hik
            exact hk hik.symm
          exact ⟨j, hj, by simpa [setValue, this] using e⟩
    · rename_i hnone
      have hno := getEntry_none hnone
      have hni : s.next ∉ s.ids := fun hc => absurd (h.below _ hc) (Nat.lt_irrefl _)
      refine ⟨?_, rfl⟩
      intro k' v'
      simp only [mem_entries, listStep, step, add, contains_eq, hni, EList.doAdd, Res.returning, decide_false,
        Bool.and_false, Bool.false_eq_true, if_false, List.mem_append, List.mem_singleton]
      by_cases hk : k = k'
      · subst hk
        simp only [if_true, Option.some.injEq]
        constructor
        · rintro rfl; exact ⟨s.next, Or.inr rfl, by simp⟩
        · rintro ⟨j, hj | rfl, e⟩
          · rw [if_neg (Nat.ne_of_lt (h.below j hj))] at e
            exact absurd (by rw [e]) (hno j hj)
          · simpa using e
      · simp only [hk, if_false]
        rw [hf k' v', mem_entries]
        constructor
        · rintro ⟨j, hj, e⟩
          exact ⟨j, Or.inl hj, by rw [if_neg (Nat.ne_of_lt (h.below j hj))]; exact e⟩
        · rintro ⟨j, hj | rfl, e⟩
          · rw [if_neg (Nat.ne_of_lt (h.below j hj))] at e; exact ⟨j, hj, e⟩
          · simp only [if_true, Prod.mk.injEq] at e; exact absurd e.1 hk
  | removeKey k =>
    simp only [mstep, FMap.lookup]
    split
    · rename_i i hi
      obtain ⟨him, hik⟩ := getEntry_some hi
      have hlt := List.idxOf_lt_length_of_mem him
      have hx : s.ids[s.ids.idxOf i]? = some i := by rw [List.getElem?_eq_getElem hlt]; simp
      have hd : (listStep it s (.remove i)).1.ids = s.ids.eraseIdx (s.ids.idxOf i) := by
        simp only [listStep, step, remove, indexOf_eq, him, if_true]
        rw [if_neg (by omega), doRemove_eq s.ids _ i (by omega) (by simpa using hx)]
        simp [Res.returning]
      have hh : (listStep it s (.remove i)).1.heap = s.heap := rfl
      have hp : (i :: s.ids.eraseIdx (s.ids.idxOf i)).Perm s.ids := by
        have := cons_eraseIdx_perm s.ids (s.ids.idxOf i) hlt
        simpa using this
      have hnd := (hp.map fun i => (s.heap i).1).nodup_iff.2 h.nodup
      simp only [List.map_cons, List.nodup_cons, List.mem_map, not_exists, not_and] at hnd
      constructor
      · intro k' v'
        simp only [mem_entries, hd, hh]
        by_cases hk : k = k'
        · subst hk
          simp only [if_true, reduceCtorEq, false_iff, not_exists, not_and]
          intro j hj e
          exact hnd.1 j hj (by rw [e, hik])
        · simp only [hk, if_false]
          rw [hf k' v', mem_entries]
          constructor
          · rintro ⟨j, hj, e⟩
            rcases List.mem_cons.1 (hp.mem_iff.2 hj) with rfl | h2
            · rw [e] at hik; exact absurd hik.symm hk
            · exact ⟨j, h2, e⟩
          · rintro ⟨j, hj, e⟩
            exact ⟨j, hp.mem_iff.1 (List.mem_cons_of_mem _ hj), e⟩
      · have : f k = some (s.heap i).2 := (hf k _).2 ((mem_entries s k _).2 ⟨i, him, by rw [← hik]⟩)
        simp [this, hh]
    · rename_i hnone
      have hno := getEntry_none hnone
      have hfk : f k = none := by
        cases hfk : f k with
        | none => rfl
        | some v =>
          obtain ⟨i, hi, e⟩ := (mem_entries s k v).1 ((hf k v).1 hfk)
          exact absurd (by rw [e]) (hno i hi)
      refine ⟨?_, by simp [hfk]⟩
      intro k' v'
      by_cases hk : k = k'
      · subst hk
        simp only [if_true]
        rw [← hfk]; exact hf k v'
      · simp only [hk, if_false]; exact hf k' v'
  | clear =>
    refine ⟨?_, rfl⟩
    intro k v
    simp [mstep, listStep, step, EList.clear, EList.doClear, entries, FMap.lookup]
  | getValue k =>
    refine ⟨?_, by simp [mstep, hm]⟩
    intro k' v'
    simp only [mstep, entries, hinit.2.2.1, hinit.2.2.2.1, FMap.lookup]; exact hf k' v'
  | containsKey k =>
    refine ⟨?_, by simp [mstep, hm]⟩
    intro k' v'
    simp only [mstep, entries, hinit.2.2.1, hinit.2.2.2.1, FMap.lookup]; exact hf k' v'
  | toMapAt k =>
    refine ⟨?_, by simp [mstep, hm]⟩
    intro k' v'
    simp only [mstep, entries, hinit.2.2.1, hinit.2.2.2.1, FMap.lookup]; exact hf k' v'
  | _ => exact absurd hc id

omit [Inhabited V] in
theorem lookup_append (b : Option V) (k : K) (h1 h2 : List (MOp K V)) :
    FMap.lookup b k (h1 ++ h2) = FMap.lookup (FMap.lookup b k h1) k h2 := by
  induction h1 generalizing b with
  | nil => rfl
  | cons op ops ih => cases op <;> simp [FMap.lookup, ih]

theorem mapCall_ok (it : SetIter) (s : St K V) (op : MOp K V) (hc : FMap.mapCall op) : okCall it s op := by
  cases op <;> first | trivial | exact absurd hc id

theorem run_says (it : SetIter) (s : St K V) (hist ops : List (MOp K V)) (h : Inv s)
    (hc : ∀ op ∈ ops, FMap.mapCall op) (hf : Says s (fun k => FMap.lookup none k hist)) :
    Inv (mrun it s ops) ∧ Says (mrun it s ops) (fun k => FMap.lookup none k (hist ++ ops)) ∧
    manswers it s ops = FMap.answers hist ops := by
  induction ops generalizing s hist with
  | nil => simpa [mrun, manswers, FMap.answers] using ⟨h, hf⟩
  | cons op ops ih =>
    have hc1 := hc op List.mem_cons_self
    obtain ⟨h1, h2⟩ := mstep_says it s op h hc1 _ hf
    have h1' : Says (mstep it s op).1 (fun k => FMap.lookup none k (hist ++ [op])) := by
      intro k v
      simp only [lookup_append]
      exact h1 k v
    have h3 := ih (mstep it s op).1 (hist ++ [op]) (mstep_inv it s op h (mapCall_ok it s op hc1))
      (fun o ho => hc o (List.mem_cons_of_mem _ ho)) h1'
    simp only [mrun, manswers, FMap.answers]
    refine ⟨h3.1, ?_, ?_⟩
    · simpa using h3.2.1
    · rw [h3.2.2, h2]
      cases op <;> rfl

end Verif.EMap
