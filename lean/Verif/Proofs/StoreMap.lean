import Verif.Proofs.StoreMapEvents

/-! Proofs for C75: a map with a store makes the steps of a map without. -/

set_option linter.unusedSimpArgs false
set_option linter.unusedSectionVars false
namespace Verif.StoreMap

open Verif.EList (CB Op)
open Verif.EMap (MOp)
open Verif.Spec

variable {K V : Type} [DecidableEq K]

/-- the map without its store -/
def abs (s : St K V) (l : List Nat) : EMap.St K V := ⟨l, s.heap, s.next, s.mapData⟩

structure Inv (s : St K V) (l : List Nat) : Prop where
  list : StoreList.Inv s.list l
  map : EMap.Inv (abs s l)
  free : s.locked = false

theorem hr (cfg : Cfg) : ∀ x, cfg.list.resolve x = x := fun _ => rfl

theorem ids_eq {s : St K V} {l : List Nat} (cfg : Cfg) (h : StoreList.Inv s.list l) : ids cfg s = l := by
  simp only [ids, StoreList.elements_eq (hr cfg) h]

theorem nodup_of_keys {heap : Nat → K × V} {l : List Nat} (h : (EMap.keys heap l).Nodup) : l.Nodup :=
  List.Pairwise.of_map (fun i => (heap i).1) (fun _ _ hne he => hne (by rw [he])) h

/-- `t` is the state `s` without its store -/
structure Sim (s : St K V) (t : EMap.St K V) : Prop where
  abs : abs s t.ids = t
  list : StoreList.Inv s.list t.ids
  free : s.locked = false

theorem rangePanics_none {s : StoreList.St Nat} {l : List Nat} (op : Op Nat)
    (hrange : ∀ f t, op = .removeRange f t → s.data = some l) : rangePanics s op = none := by
  cases op <;> simp only [rangePanics]
  rename_i f t
  rw [hrange f t rfl]

theorem listStep_sim (cfg : Cfg) {s : St K V} {l : List Nat} (h : Inv s l) (op : Op Nat)
    (hstep : EList.step ⟨cfg.unique, cfg.iter⟩ l op = EList.step ⟨true, cfg.iter⟩ l op)
    (hok : StoreList.Spec.ok cfg.unique (decide (cfg.iter = .live)) l (.op op))
    (hrange : ∀ f t, op = .removeRange f t → s.list.data = some l) :
    Sim (listStep cfg s op).1 (EMap.listStep cfg.iter (abs s l) op).1 ∧
    (listStep cfg s op).2 = StoreList.Spec.out (EMap.listStep cfg.iter (abs s l) op).2 := by
  have hnd : l.Nodup := nodup_of_keys h.map.nodup
  have h1 := StoreList.op_refines (hr cfg) h.list op (fun _ => hnd) hok
  have h2 := EList.step_refines ⟨cfg.unique, cfg.iter⟩ l op (fun _ => hnd)
    ⟨hok.1, fun a b => hok.2 a (by simpa using b)⟩
  have h3 := eff_events s.heap h.list (hr cfg) s.mapData op hrange
  simp only [Cfg.list] at h1 h3 h2
  simp only [listStep, rangePanics_none op hrange, EMap.listStep, Cfg.list, h1, ← hstep, abs]
  refine ⟨⟨?_, ?_, h.free⟩, by rw [h2.2]⟩
  · simp only [abs, eff] at h3 ⊢
    rw [h3]
  · simp only [h2.1]
    exact StoreList.inv_upd h.list _

theorem initDataMap_eq (cfg : Cfg) {s : St K V} {l : List Nat} (h : StoreList.Inv s.list l) :
    (initDataMap cfg s).2 = (EMap.initDataMap (abs s l)).2 ∧
    abs (initDataMap cfg s).1 l = (EMap.initDataMap (abs s l)).1 ∧
    (initDataMap cfg s).1.list = s.list ∧ (initDataMap cfg s).1.locked = s.locked ∧
    (EMap.initDataMap (abs s l)).1.ids = l := by
  simp only [initDataMap, EMap.initDataMap, ids_eq cfg h]
  cases hm : s.mapData <;> simp [abs, hm]

variable [Inhabited V]

theorem mapStep_sim (cfg : Cfg) (hp : cfg.provider = true) {s : St K V} {l : List Nat} (h : Inv s l) (op : MOp K V)
    (hl : ∀ o, op = .list o → EList.step ⟨cfg.unique, cfg.iter⟩ l o = EList.step ⟨true, cfg.iter⟩ l o ∧
      StoreList.Spec.ok cfg.unique (decide (cfg.iter = .live)) l (.op o) ∧
      ∀ f t, o = .removeRange f t → s.list.data = some l) :
    Sim (mapStep cfg s op).1 (EMap.mstep cfg.iter (abs s l) op).1 ∧
    (mapStep cfg s op).2 = Spec.out (EMap.mstep cfg.iter (abs s l) op).2 := by
  have hids := ids_eq cfg h.list
  have hini := initDataMap_eq cfg h.list
  have hget : ∀ k, getEntryForKey cfg s k = EMap.getEntryForKey (abs s l) k := by
    intro k; rw [getEntryForKey, EMap.getEntryForKey, hids]; rfl
  have hfree := h.free
  have hq : ∀ op' : MOp K V, (mapStep cfg s op').1 = (initDataMap cfg s).1 →
      (EMap.mstep cfg.iter (abs s l) op').1 = (EMap.initDataMap (abs s l)).1 →
      Sim (mapStep cfg s op').1 (EMap.mstep cfg.iter (abs s l) op').1 := by
    intro op' e1 e2
    rw [e1, e2]
    refine ⟨?_, ?_, ?_⟩
    · rw [hini.2.2.2.2]; exact hini.2.1
    · rw [hini.2.2.1, hini.2.2.2.2]; exact h.list
    · rw [hini.2.2.2.1]; exact hfree
  cases op with
  | put k v =>
    simp only [mapStep, EMap.mstep, hget]
    cases hg : EMap.getEntryForKey (abs s l) k with
    | some i => exact ⟨⟨rfl, h.list, hfree⟩, rfl⟩
    | none =>
      simp only [hp, if_true]
      have hfresh : s.next ∉ l := fun hm => absurd (h.map.below _ hm) (Nat.lt_irrefl _)
      obtain ⟨s', hs'⟩ : ∃ s' : St K V, s' =
          ⟨s.list, fun j => if j = s.next then (k, v) else s.heap j, s.next + 1, s.mapData, s.locked⟩ := ⟨_, rfl⟩
      have hinv : Inv s' l := by
        rw [hs']; exact ⟨h.list, EMap.inv_heap_fresh (abs s l) h.map k v, hfree⟩
      have habs : abs s' l =
          ⟨l, fun j => if j = s.next then (k, v) else s.heap j, s.next + 1, s.mapData⟩ := by rw [hs']; rfl
      rw [← hs']
      have hs := listStep_sim cfg hinv (.add s.next)
        (by simp [EList.step, EList.add, EList.contains_eq, hfresh])
        ⟨by simp [Seq.movesPastEnd], by simp [Seq.bulkHarmless]⟩ (by simp)
      rw [habs] at hs
      refine ⟨hs.1, ?_⟩
      rw [← habs] at hs
      have e : (EMap.listStep cfg.iter (abs s' l) (.add s.next)).2 = .bool true := by
        simp [EMap.listStep, EList.step, EList.add, EList.contains_eq, abs, hfresh, EList.doAdd, EList.Res.returning]
      rw [hs.2, e]
      simp [StoreList.Spec.out, Spec.out]
  | removeKey k =>
    simp only [mapStep, EMap.mstep, hget]
    cases hg : EMap.getEntryForKey (abs s l) k with
    | none => exact ⟨⟨rfl, h.list, hfree⟩, rfl⟩
    | some i =>
      simp only
      have hs := listStep_sim cfg h (.remove i) (by simp [EList.step])
        ⟨by simp [Seq.movesPastEnd], by simp [Seq.bulkHarmless]⟩ (by simp)
      refine ⟨hs.1, ?_⟩
      have hi : i ∈ l := (EMap.getEntry_some hg).1
      have hnd : l.Nodup := nodup_of_keys h.map.nodup
      have e : (EMap.listStep cfg.iter (abs s l) (.remove i)).2 = .bool true := by
        have := (EList.step_refines ⟨true, cfg.iter⟩ l (.remove i) (fun _ => hnd)
          ⟨by simp [Seq.movesPastEnd], by simp [Seq.bulkHarmless]⟩).2
        simp only [EMap.listStep, abs, this, Seq.step, hi, decide_true]
      rw [hs.2, e]
      have e2 : (listStep cfg s (.remove i)).1.heap = (EMap.listStep cfg.iter (abs s l) (.remove i)).1.heap := by
        rw [← hs.1.abs]; rfl
      simp [StoreList.Spec.out, Spec.out, e2]
  | clear =>
    have hs := listStep_sim cfg h .clear (by simp [EList.step])
      ⟨by simp [Seq.movesPastEnd], by simp [Seq.bulkHarmless]⟩ (by simp)
    exact ⟨hs.1, rfl⟩
  | getValue k => exact ⟨hq _ rfl rfl, by simp only [mapStep, EMap.mstep, Spec.out, hini.1]⟩
  | containsKey k => exact ⟨hq _ rfl rfl, by simp only [mapStep, EMap.mstep, Spec.out, hini.1]⟩
  | toMapAt k => exact ⟨hq _ rfl rfl, by simp only [mapStep, EMap.mstep, Spec.out, hini.1]⟩
  | newEntry k v => exact ⟨⟨rfl, h.list, hfree⟩, rfl⟩
  | list op =>
    obtain ⟨a, b, c⟩ := hl op rfl
    have hs := listStep_sim cfg h op a b c
    exact ⟨hs.1, by simp only [mapStep, EMap.mstep, Spec.out, hs.2]⟩
  | entrySetValue i v => exact ⟨⟨rfl, h.list, hfree⟩, rfl⟩

theorem sim_inv {s : St K V} {t : EMap.St K V} (h : Sim s t) (ht : EMap.Inv t) : Inv s t.ids :=
  ⟨h.list, by rw [h.abs]; exact ht, h.free⟩

theorem entries_eq (cfg : Cfg) {s : St K V} {l : List Nat} (h : StoreList.Inv s.list l) :
    entries cfg s = EMap.entries (abs s l) := by
  simp only [entries, EMap.entries, ids_eq cfg h, abs]

variable [DecidableEq V]

theorem setCache_inv {s : St K V} {l : List Nat} (h : Inv s l) (cfg : Cfg) (b : Bool) :
    Inv (step cfg s (.setCache b)).1 l ∧ (step cfg s (.setCache b)).2 = .unit ∧
    (step cfg s (.setCache b)).1.heap = s.heap ∧ (step cfg s (.setCache b)).1.next = s.next := by
  have hs := (StoreList.step_refines (cfg := ⟨false, .live, id⟩) (fun _ => rfl) h.list (.setCache b) (by simp)
    trivial).1
  simp only [StoreList.step, StoreList.Spec.step] at hs
  have e : step cfg s (.setCache b) = ({ s with mapData := none, list := StoreList.setCache s.list b }, .unit) := by
    simp [step, h.free]
  rw [e]
  exact ⟨⟨hs, ⟨h.map.nodup, h.map.below, by simp [abs]⟩, h.free⟩, rfl, rfl, rfl⟩

theorem run_answers (cfg : Cfg) (hp : cfg.provider = true) {s : St K V} {l : List Nat} (h : Inv s l)
    (hist : List (MOp K V)) (hf : EMap.Says (abs s l) (fun k => FMap.lookup none k hist))
    (cs : List (Call K V)) (hc : ∀ c ∈ cs, Spec.plain c) :
    (run cfg s cs).2 = Spec.answers hist cs ∧ ∃ l', Inv (run cfg s cs).1 l' ∧
      EMap.Says (abs (run cfg s cs).1 l') (fun k => FMap.lookup none k (hist ++ Spec.history cs)) := by
  induction cs generalizing s l hist with
  | nil => exact ⟨rfl, l, h, by simpa [run, Spec.history] using hf⟩
  | cons c cs ih =>
    have hc1 := hc c List.mem_cons_self
    have hc2 : ∀ c ∈ cs, Spec.plain c := fun c hm => hc c (List.mem_cons_of_mem _ hm)
    cases c with
    | map op =>
      have hmc : FMap.mapCall op := hc1
      have hsim := mapStep_sim cfg hp h op (by
        intro o ho; subst ho; exact absurd hmc id)
      have hsays := EMap.mstep_says cfg.iter (abs s l) op h.map hmc _ hf
      have hinv := EMap.mstep_inv cfg.iter (abs s l) op h.map (EMap.mapCall_ok cfg.iter (abs s l) op hmc)
      have hstep : step cfg s (.map op) = mapStep cfg s op := by simp [step, h.free]
      have hs1 : EMap.Says (abs (mapStep cfg s op).1 (EMap.mstep cfg.iter (abs s l) op).1.ids)
          (fun k => FMap.lookup none k (hist ++ [op])) := by
        rw [hsim.1.abs]
        intro k v
        simp only [EMap.lookup_append]
        exact hsays.1 k v
      obtain ⟨a, l', b, c⟩ := ih (sim_inv hsim.1 hinv) (hist ++ [op]) hs1 hc2
      simp only [run, hstep, Spec.answers, Spec.history]
      refine ⟨?_, l', b, by simpa using c⟩
      rw [a, hsim.2, hsays.2]
      congr 2
      cases op <;> first | rfl | exact absurd hmc id
    | setCache b =>
      obtain ⟨h1, h2, h3, h4⟩ := setCache_inv h cfg b
      have hs1 : EMap.Says (abs (step cfg s (.setCache b)).1 l) (fun k => FMap.lookup none k hist) := by
        intro k v
        rw [hf k v]
        simp only [EMap.entries, abs, h3]
      obtain ⟨a, l', b, c⟩ := ih h1 hist hs1 hc2
      simp only [run, Spec.answers, Spec.history]
      exact ⟨by rw [a, h2], l', b, c⟩
    | containsValue v => exact absurd hc1 id
    | setStore st => exact absurd hc1 id
    | writeToMap k v => exact absurd hc1 id

theorem run_inv (cfg : Cfg) (hp : cfg.provider = true) (hu : cfg.unique = true) {s : St K V} {l : List Nat}
    (h : Inv s l) (cs : List (Call K V)) (hok : Spec.Always cfg s cs) : ∃ l', Inv (run cfg s cs).1 l' := by
  induction cs generalizing s l with
  | nil => exact ⟨l, h⟩
  | cons c cs ih =>
    obtain ⟨h1, h2⟩ := hok
    suffices hs : ∃ l', Inv (step cfg s c).1 l' by
      obtain ⟨l', hl⟩ := hs
      exact ih hl h2
    have hids := ids_eq cfg h.list
    cases c with
    | map op =>
      have hstep : step cfg s (.map op) = mapStep cfg s op := by simp [step, h.free]
      rw [hstep]
      have hnd : l.Nodup := nodup_of_keys h.map.nodup
      have hsim := mapStep_sim cfg hp h op (by
        intro o ho
        subst ho
        simp only [Spec.ok, hids] at h1
        refine ⟨by rw [hu], by rw [hu]; exact h1.1, ?_⟩
        intro f t ho
        subst ho
        rcases h1.2.2.2 with hc | hc
        · exact h.list.cached hc
        · exact h.list.bare hc)
      refine ⟨_, sim_inv hsim.1 (EMap.mstep_inv cfg.iter (abs s l) op h.map ?_)⟩
      cases op with
      | list o =>
        simp only [Spec.ok, hids] at h1
        have hr2 := EList.step_refines ⟨true, cfg.iter⟩ l o (fun _ => hnd)
          ⟨h1.1.1, fun a b => h1.1.2 a (by simpa using b)⟩
        simp only [EMap.okCall, EMap.listStep, abs, hr2.1, EMap.keys]
        exact ⟨h1.1.1, h1.2.1, h1.2.2.1⟩
      | entrySetValue i v =>
        simp only [Spec.ok, hids] at h1
        exact h1
      | _ => trivial
    | containsValue v => simp only [step, h.free, Bool.false_eq_true, if_false]; exact ⟨l, h⟩
    | setCache b => exact ⟨l, (setCache_inv h cfg b).1⟩
    | setStore st =>
      simp only [step, h.free, Bool.false_eq_true, if_false]
      have hs := (StoreList.step_refines (cfg := ⟨false, .live, id⟩) (fun _ => rfl) h.list (.setStore st) (by simp)
        (by
          cases st with
          | none => trivial
          | some l' => simp only [Spec.ok, hids] at h1; exact h1)).1
      simp only [StoreList.step, StoreList.Spec.step] at hs
      exact ⟨l, hs, h.map, rfl⟩
    | writeToMap k v => exact absurd h1 id

/-! ### The first state -/

theorem init_inv (store : Option (List Nat)) (heap : Nat → K × V) (next : Nat)
    (hk : ((store.getD []).map fun i => (heap i).1).Nodup) (hn : ∀ i ∈ store.getD [], i < next) :
    Inv (init store heap next) (store.getD []) :=
  ⟨StoreList.inv_init store, ⟨hk, hn, by simp [abs, init]⟩, rfl⟩

theorem lookup_puts (heap : Nat → K × V) (l : List Nat) (b : Option V) (k : K)
    (hk : (l.map fun i => (heap i).1).Nodup) :
    FMap.lookup b k (l.map fun i => MOp.put (heap i).1 (heap i).2) =
      match l.find? fun i => (heap i).1 = k with
      | some i => some (heap i).2
      | none => b := by
  induction l generalizing b with
  | nil => rfl
  | cons i is ih =>
    simp only [List.map_cons, List.nodup_cons, List.mem_map, not_exists, not_and] at hk
    simp only [List.map_cons, FMap.lookup, List.find?_cons, ih _ hk.2]
    by_cases hi : (heap i).1 = k
    · have : is.find? (fun j => (heap j).1 = k) = none := by
        simp only [List.find?_eq_none, decide_eq_true_eq]
        intro j hj; rw [← hi]; exact hk.1 j hj
      simp [hi, this]
    · simp [hi]

theorem init_says (store : Option (List Nat)) (heap : Nat → K × V) (next : Nat)
    (hk : ((store.getD []).map fun i => (heap i).1).Nodup) :
    EMap.Says (abs (init store heap next) (store.getD [])) (fun k => FMap.lookup none k (Spec.puts heap store)) := by
  intro k v
  simp only [Spec.puts, lookup_puts heap _ _ _ hk, EMap.mem_entries, abs, init]
  cases hf : (store.getD []).find? fun i => (heap i).1 = k with
  | none =>
    simp only [List.find?_eq_none, decide_eq_true_eq] at hf
    simp only [reduceCtorEq, false_iff, not_exists, not_and]
    intro i hi he
    exact hf i hi (by rw [he])
  | some i =>
    have h1 := List.mem_of_find?_eq_some hf
    have h2 : (heap i).1 = k := by simpa using List.find?_some hf
    simp only [Option.some.injEq]
    constructor
    · rintro rfl; exact ⟨i, h1, by rw [← h2]⟩
    · rintro ⟨j, hj, he⟩
      have : i = j := EMap.nodup_unique (heap := heap) hk h1 hj (by rw [h2, he])
      rw [this, he]

end Verif.StoreMap
