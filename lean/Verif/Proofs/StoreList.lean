import Verif.Spec.StoreList
import Verif.Proofs.EList

/-! Proofs for C37. -/

namespace Verif.StoreList

open Verif.EList (Res Ret SetIter Op)
open Verif.Spec

variable {α : Type}

/-- The list has the elements `l`, in its store, in its cache, or in both. -/
structure Inv (s : St α) (l : List α) : Prop where
  store : s.store = none ∨ s.store = some l
  data : s.data = none ∨ s.data = some l
  bare : s.store = none → s.data = some l
  cached : s.cache = true → s.data = some l
  uncached : s.cache = false → s.store = some l → s.data = none
  size : s.size = l.length

/-- the list with other elements -/
def upd (s : St α) (l : List α) : St α :=
  { s with data := s.data.map fun _ => l, store := s.store.map fun _ => l, size := l.length }

theorem upd_upd (s : St α) (a b : List α) : upd (upd s a) b = upd s b := by
  rcases s with ⟨_ | _, _ | _, c, z⟩ <;> rfl

theorem upd_self {s : St α} {l : List α} (h : Inv s l) : upd s l = s := by
  rcases s with ⟨st, d, c, z⟩
  obtain ⟨h1, h2, h3, h4, h5, h6⟩ := h
  simp only at *
  subst h6
  rcases h1 with rfl | rfl <;> rcases h2 with rfl | rfl <;> rfl

theorem inv_upd {s : St α} {l : List α} (h : Inv s l) (l' : List α) : Inv (upd s l') l' := by
  rcases s with ⟨st, d, c, z⟩
  obtain ⟨h1, h2, h3, h4, h5, h6⟩ := h
  simp only at *
  subst h6
  rcases h1 with rfl | rfl <;> rcases h2 with rfl | rfl <;>
    constructor <;> simp_all [upd]

/-- the three forms of the list -/
theorem inv_cases {s : St α} {l : List α} (h : Inv s l) :
    s = ⟨none, some l, s.cache, l.length⟩ ∨ s = ⟨some l, none, false, l.length⟩ ∨
      s = ⟨some l, some l, s.cache, l.length⟩ := by
  rcases s with ⟨st, d, c, z⟩
  obtain ⟨h1, h2, h3, h4, h5, h6⟩ := h
  simp only at *
  subst h6
  rcases h1 with rfl | rfl <;> rcases h2 with rfl | rfl <;> simp_all

/-! ### Mutators -/

theorem performAdd_eq {s : St α} {l : List α} (h : Inv s l) (e : α) :
    performAdd s e = (upd s (l ++ [e]), some ()) := by
  rcases inv_cases h with hs | hs | hs <;> rw [hs] <;>
    simp [performAdd, onData, EList.doAdd, storeAdd, upd]

theorem insertIdx_eq (l : List α) (i : Nat) (e : α) (h : i ≤ l.length) :
    l.take i ++ e :: l.drop i = l.insertIdx i e := by
  apply List.ext_getElem?
  intro j
  simp only [List.getElem?_append, List.getElem?_insertIdx, List.getElem?_take, List.length_take,
    List.getElem?_cons, List.getElem?_drop]
  grind

theorem performInsert_eq [DecidableEq α] [Inhabited α] {s : St α} {l : List α} (h : Inv s l) (i : Int) (e : α)
    (hi : Seq.validGap l i) :
    performInsert s i e = (upd s (l.insertIdx i.toNat e), some ()) := by
  have hd := EList.doInsert_eq l i e hi
  obtain ⟨h0, h1⟩ := hi
  have hk : i.toNat ≤ l.length := by omega
  have hl : (l.insertIdx i.toNat e).length = l.length + 1 := by
    rw [List.length_insertIdx]; simp [hk]
  rcases inv_cases h with hs | hs | hs <;> rw [hs] <;>
    simp [performInsert, onData, hd, storeAdd, upd, h0, h1, insertIdx_eq _ _ _ hk, hl]

theorem performInsertAll_eq [DecidableEq α] {s : St α} {l : List α} (h : Inv s l) (i : Int) (c : List α)
    (hi : Seq.validGap l i) :
    performInsertAll s i c = (upd s (Seq.insertAllAt l i.toNat c), some ()) := by
  have hd := EList.doInsertAll_eq l i c hi
  obtain ⟨h0, h1⟩ := hi
  have hl : ((Seq.insertAllAt l i.toNat c).length : Int) = l.length + c.length := by
    simp [Seq.insertAllAt]; omega
  have hl2 : storeAddAll l i c = some (Seq.insertAllAt l i.toNat c) := by
    simp [storeAddAll, h0, h1, Seq.insertAllAt]
  rcases inv_cases h with hs | hs | hs <;> rw [hs] <;>
    simp [performInsertAll, onData, hd, upd, hl2, hl]

theorem performClear_eq (s : St α) : performClear s = upd s [] := by
  rfl

theorem performRemove_eq [DecidableEq α] {s : St α} {l : List α} (h : Inv s l) (i : Int) (x : α)
    (h0 : 0 ≤ i) (hx : l[i.toNat]? = some x) :
    performRemove s i = (upd s (l.eraseIdx i.toNat), some x) := by
  have hd := EList.doRemove_eq l i x h0 hx
  have hk : i.toNat < l.length := by
    rcases Nat.lt_or_ge i.toNat l.length with h | h
    · exact h
    · simp [h] at hx
  have hl : ((l.eraseIdx i.toNat).length : Int) = l.length - 1 := by
    rw [List.length_eraseIdx]; simp [hk]; omega
  rcases inv_cases h with hs | hs | hs <;> rw [hs] <;>
    simp [performRemove, hd, upd, storeRemove, h0, hx, hl, Ret.val?]

theorem storeRemoveN_eq (l : List α) (f : Int) (n : Nat) (h0 : 0 ≤ f) (h : f.toNat + n ≤ l.length) :
    storeRemoveN l f n = (l.take f.toNat ++ l.drop (f.toNat + n), some ((l.take (f.toNat + n)).drop f.toNat)) := by
  induction n generalizing l with
  | zero => simp [storeRemoveN]
  | succ n ih =>
    have hk : f.toNat < l.length := by omega
    have hr : storeRemove l f = some (l.eraseIdx f.toNat, l[f.toNat]) := by
      simp [storeRemove, h0, hk]
    have hlen : (l.eraseIdx f.toNat).length = l.length - 1 := by
      rw [List.length_eraseIdx]; simp [hk]
    simp only [storeRemoveN, hr]
    rw [ih _ (by omega)]
    simp only [Prod.mk.injEq, Option.map_some, Option.some.injEq]
    generalize f.toNat = k at *
    clear ih hr h0
    constructor
    · apply List.ext_getElem?
      intro j
      simp only [List.getElem?_append, List.getElem?_drop, List.getElem?_take, List.getElem?_eraseIdx,
        List.length_take]
      grind
    · apply List.ext_getElem?
      intro j
      rcases j with _ | j <;>
        simp only [List.getElem?_cons_zero, List.getElem?_cons_succ, List.getElem?_drop, List.getElem?_take,
          List.getElem?_eraseIdx] <;> grind

theorem performRemoveRange_eq [DecidableEq α] {s : St α} {l : List α} (h : Inv s l) (f t : Int) (h0 : 0 ≤ f)
    (h1 : f ≤ t) (h2 : t ≤ l.length) :
    performRemoveRange s f t = (upd s (l.take f.toNat ++ l.drop t.toNat), some ((l.take t.toNat).drop f.toNat)) := by
  have hd := EList.doRemoveRange_eq l f t h0 h1 h2
  have hst := storeRemoveN_eq l f (t - f).toNat h0 (by omega)
  have e : f.toNat + (t - f).toNat = t.toNat := by omega
  rw [e] at hst
  have hl : ((l.take f.toNat ++ l.drop t.toNat).length : Int) = l.length - ((l.take t.toNat).drop f.toNat).length := by
    simp; omega
  rcases inv_cases h with hs | hs | hs <;> rw [hs] <;>
    simp only [performRemoveRange, hd, upd, hst, hl, Option.map_some, Option.map_none]

theorem performSet_eq [DecidableEq α] {s : St α} {l : List α} (h : Inv s l) (i : Int) (e x : α)
    (h0 : 0 ≤ i) (hx : l[i.toNat]? = some x) :
    performSet s i e = (upd s (l.set i.toNat e), some x) := by
  have hd := EList.doSet_eq l i e x h0 hx
  rcases inv_cases h with hs | hs | hs <;> rw [hs] <;>
    simp [performSet, hd, upd, storeSet, h0, hx, Ret.val?]

theorem performMove_eq [DecidableEq α] {s : St α} {l : List α} (h : Inv s l) (spare : List α) (o n : Int) (x : α)
    (h0 : 0 ≤ o) (hx : l[o.toNat]? = some x) (hn : Seq.validPos l n) :
    performMove s spare o n = (upd s (Seq.moved l o.toNat n.toNat x), some x) := by
  obtain ⟨hd1, hd2⟩ := EList.doMove_eq l spare o n x h0 hx hn
  obtain ⟨hn0, hn1⟩ := hn
  have hk : o.toNat < l.length := by
    rcases Nat.lt_or_ge o.toNat l.length with h | h
    · exact h
    · simp [h] at hx
  have hl0 : (l.eraseIdx o.toNat).length = l.length - 1 := by
    rw [List.length_eraseIdx]; simp [hk]
  have hl : (Seq.moved l o.toNat n.toNat x).length = l.length := by
    rw [Seq.moved, List.length_insertIdx, hl0]
    split <;> omega
  have hst : storeMove l o n = some (Seq.moved l o.toNat n.toNat x, x) := by
    simp only [storeMove, h0, hn0, hn1, and_self, if_true, hx, Option.map_some, Seq.moved]
    rw [insertIdx_eq _ _ _ (by omega)]
  rcases inv_cases h with hs | hs | hs <;> rw [hs] <;>
    simp [performMove, hd1, hd2, upd, hst, hl, Ret.val?]

theorem performMove_out [DecidableEq α] {s : St α} {l : List α} (h : Inv s l) (spare : List α) (o n : Int)
    (ho : 0 ≤ o) (hn : n < 0) : performMove s spare o n = (s, none) := by
  have hd := EList.doMove_out l spare o n ho hn
  have hst : storeMove l o n = none := by
    simp only [storeMove]
    rw [if_neg (by omega)]
  rcases inv_cases h with hs | hs | hs <;> rw [hs] <;>
    simp [performMove, hd, hst, Ret.val?]

/-! ### Queries, without proxies -/

section
variable {cfg : Cfg α} (hr : ∀ x : α, cfg.resolve x = x)
include hr

theorem map_resolve (l : List α) : l.map cfg.resolve = l := by
  have : cfg.resolve = id := funext hr
  simp [this]

theorem doGet_eq {s : St α} {l : List α} (h : Inv s l) (i : Int) (h0 : 0 ≤ i) :
    doGet cfg s i = (s, l[i.toNat]?) := by
  rcases inv_cases h with hs | hs | hs <;> rw [hs]
  · simp only [doGet, storeGet, h0, if_true]
    cases hx : l[i.toNat]? with
    | none => simp
    | some x =>
      have : l.set i.toNat x = l := by
        apply List.ext_getElem?
        intro j
        grind
      simp [hr, this]
  · simp only [doGet, storeGet, h0, if_true]
    cases hx : l[i.toNat]? <;> simp [hr]
  · simp only [doGet, storeGet, h0, if_true]
    cases hx : l[i.toNat]? with
    | none => simp
    | some x =>
      have : l.set i.toNat x = l := by
        apply List.ext_getElem?
        intro j
        grind
      simp [hr, this]

variable [DecidableEq α]

theorem indexOfData_eq (e : α) (i : Nat) (l : List α) :
    indexOfData cfg e i l = (l, EList.indexOfFrom e i l) := by
  induction l generalizing i with
  | nil => rfl
  | cons v vs ih =>
    simp only [indexOfData, EList.indexOfFrom, hr, ih]
    split <;> simp_all

theorem indexOf_eq {s : St α} {l : List α} (h : Inv s l) (e : α) :
    indexOf cfg s e = (s, EList.indexOf l e) := by
  rcases inv_cases h with hs | hs | hs <;> rw [hs] <;>
    simp [indexOf, indexOfData_eq hr, map_resolve hr, EList.indexOf]

theorem contains_eq {s : St α} {l : List α} (h : Inv s l) (e : α) :
    contains cfg s e = (s, decide (e ∈ l)) := by
  have hi := indexOf_eq hr h e
  have hc := EList.contains_eq l e
  simp only [EList.contains] at hc
  rcases inv_cases h with hs | hs | hs
  · rw [contains, hi]
    simp only [hc]
    rw [hs]
  · rw [hs]; simp [contains, map_resolve hr]
  · rw [contains, hi]
    simp only [hc]
    rw [hs]

theorem elements_eq {s : St α} {l : List α} (h : Inv s l) : elements cfg s = (s, l) := by
  rcases inv_cases h with hs | hs | hs <;> rw [hs] <;> simp [elements, map_resolve hr]

theorem prune_eq {s : St α} {l : List α} (h : Inv s l) (i n : Nat) (c : List α) :
    prune cfg s i n c = (s, match cfg.iter with
      | .snapshot => EList.pruneSnapshot l c
      | .live => EList.pruneLive l i n c) := by
  induction c generalizing i n with
  | nil => cases cfg.iter <;> rfl
  | cons v vs ih =>
    simp only [prune, contains_eq hr h, ih]
    cases hc : cfg.iter <;> simp [EList.pruneSnapshot, EList.pruneLive, EList.contains_eq, hc] <;> grind

theorem getNonDuplicates_eq {s : St α} {l : List α} (h : Inv s l) (c : List α) :
    getNonDuplicates cfg s c = (s, EList.getNonDuplicates cfg.iter l c) := by
  simp only [getNonDuplicates, EList.getNonDuplicates, h.size, elements_eq hr h, prune_eq hr h]
  by_cases hc : (EList.hashSetOf [] c).length ≥ l.length
  · rw [if_pos (by omega), if_pos hc]
  · rw [if_neg (by omega), if_neg hc]
    rfl

theorem nonDup {s : St α} {l : List α} (h : Inv s l) (c : List α) (hu : cfg.unique = true)
    (hb : cfg.unique = true → cfg.iter = .live →
      (l.length ≤ (Seq.fresh [] c).length ∨ ((Seq.fresh [] c).filter (· ∈ l)).length ≤ 1)) :
    getNonDuplicates cfg s c = (s, Seq.fresh l c) := by
  rw [getNonDuplicates_eq hr h]
  have := EList.nonDup ⟨cfg.unique, cfg.iter⟩ hu l c hb
  simp only at this
  rw [this]

/-! ### Removal of a collection -/

omit hr in
/-- positions of the elements of `c`, in descending order -/
def pos (c : List α) : Nat → List α → List Nat
  | _, [] => []
  | i, v :: vs => if v ∈ c then pos c (i + 1) vs ++ [i] else pos c (i + 1) vs

theorem removePositions_eq {s : St α} {l : List α} (h : Inv s l) (c : List α) (i n : Nat) (hn : i + n = l.length) :
    removePositions cfg c i n s = (s, some (pos c i (l.drop i))) := by
  induction n generalizing i with
  | zero =>
    rw [List.drop_of_length_le (by omega)]
    rfl
  | succ n ih =>
    have hi : i < l.length := by omega
    rw [List.drop_eq_getElem_cons hi]
    simp only [removePositions, doGet_eq hr h (i : Int) (by omega), Int.toNat_natCast,
      List.getElem?_eq_getElem hi, ih (i + 1) (by omega), pos, Option.map_some]

omit hr in
theorem removeEach_eq (c rest : List α) (s : St α) (pre : List α) (ps : List Nat) (h : Inv s (pre ++ rest)) :
    removeEach s (pos c pre.length rest ++ ps) = removeEach (upd s (pre ++ rest.filter (· ∉ c))) ps := by
  induction rest generalizing s pre ps with
  | nil =>
    simp only [pos, List.nil_append, List.filter_nil]
    rw [upd_self h]
  | cons v vs ih =>
    have h' : Inv s ((pre ++ [v]) ++ vs) := by simpa using h
    simp only [pos]
    by_cases hv : v ∈ c
    · rw [if_pos hv, List.append_assoc]
      have := ih s (pre ++ [v]) ([pre.length] ++ ps) h'
      simp only [List.length_append, List.length_cons, List.length_nil, Nat.zero_add] at this
      rw [this]
      have hrm := performRemove_eq (inv_upd h' (pre ++ [v] ++ vs.filter (· ∉ c))) (pre.length : Int) v (by omega)
        (by simp)
      simp only [List.cons_append, List.nil_append, removeEach]
      rw [hrm]
      simp only [upd_upd, Int.toNat_natCast]
      congr 2
      simp [List.eraseIdx_append_of_length_le, hv]
    · rw [if_neg hv]
      have := ih s (pre ++ [v]) ps h'
      simp only [List.length_append, List.length_cons, List.length_nil, Nat.zero_add] at this
      rw [this]
      simp [hv]

omit hr in
theorem pos_isEmpty (c l : List α) (i : Nat) : (pos c i l).isEmpty = !decide (∃ x ∈ l, x ∈ c) := by
  induction l generalizing i with
  | nil => simp [pos]
  | cons v vs ih =>
    simp only [pos]
    by_cases hv : v ∈ c
    · simp [hv]
    · simp [hv, ih]

/-! ### One call -/

omit hr [DecidableEq α] in
theorem toNat_lt {l : List α} {i : Int} (h : ¬ (i < 0 ∨ i ≥ (l.length : Int))) : i.toNat < l.length := by omega

theorem op_refines [Inhabited α] {s : St α} {l : List α} (h : Inv s l) (o : Op α) (hnd : cfg.unique = true → l.Nodup)
    (hok : Spec.ok cfg.unique (decide (cfg.iter = .live)) l (.op o)) :
    step cfg s (.op o) = (upd s (Seq.step cfg.unique l o).1, Spec.out (Seq.step cfg.unique l o).2) := by
  obtain ⟨hm, hb⟩ := hok
  simp only [decide_eq_true_eq] at hb
  have hsz := h.size
  have hself := upd_self h
  cases o with
  | add e =>
    simp only [step, add, Seq.step, contains_eq hr h]
    cases hu : cfg.unique
    · simp [performAdd_eq h, Spec.out]
    · by_cases he : e ∈ l
      · simp [he, Spec.out, hself]
      · simp [he, performAdd_eq h, Spec.out]
  | addAll c =>
    simp only [step, addAll, Seq.step]
    have hgap : Seq.validGap l (l.length : Int) := ⟨by omega, by omega⟩
    cases hu : cfg.unique
    · simp only [Bool.false_eq_true, if_false, doInsertAll, hsz]
      by_cases hc : c = []
      · simp [hc, hself, Spec.out]
      · simp [hc, performInsertAll_eq h _ _ hgap, Spec.out, Seq.insertAllAt]
    · simp only [if_true, nonDup hr h c hu hb]
      by_cases hc : Seq.fresh l c = []
      · simp [hc, hself, Spec.out]
      · simp [hc, doInsertAll, hsz, performInsertAll_eq h _ _ hgap, Spec.out, Seq.insertAllAt]
  | insert i e =>
    simp only [step, insert, Seq.step, contains_eq hr h, hsz]
    by_cases hg : Seq.validGap l i
    · have hg' := hg
      obtain ⟨g0, g1⟩ := hg'
      rw [if_neg (by omega)]
      simp only [hg, not_true, if_false]
      cases hu : cfg.unique
      · simp [performInsert_eq h i e hg, Spec.out]
      · by_cases he : e ∈ l
        · simp [he, Spec.out, hself]
        · simp [he, performInsert_eq h i e hg, Spec.out]
    · rw [if_pos (by simp only [Seq.validGap] at hg; omega)]
      simp [hg, hself, Spec.out]
  | insertAll i c =>
    simp only [step, insertAll, Seq.step, hsz]
    by_cases hg : Seq.validGap l i
    · have hg' := hg
      obtain ⟨g0, g1⟩ := hg'
      rw [if_neg (by omega)]
      simp only [hg, not_true, if_false]
      cases hu : cfg.unique
      · simp only [Bool.false_eq_true, if_false, doInsertAll]
        by_cases hc : c = []
        · simp [hc, hself, Spec.out, Seq.insertAllAt]
        · simp [hc, performInsertAll_eq h _ _ hg, Spec.out]
      · simp only [if_true, nonDup hr h c hu hb]
        by_cases hc : Seq.fresh l c = []
        · simp [hc, hself, Spec.out, Seq.insertAllAt]
        · simp [hc, doInsertAll, performInsertAll_eq h _ _ hg, Spec.out]
    · rw [if_pos (by simp only [Seq.validGap] at hg; omega)]
      simp [hg, hself, Spec.out]
  | move spare o n =>
    simp only [Seq.movesPastEnd] at hm
    simp only [step, move, Seq.step, hsz]
    by_cases hg : Seq.validPos l o ∧ Seq.validPos l n
    · obtain ⟨⟨g0, g1⟩, g2⟩ := hg
      have hk : o.toNat < l.length := by omega
      have g2' := g2
      obtain ⟨g3, g4⟩ := g2'
      rw [if_neg (by omega)]
      have : Seq.validPos l o := ⟨g0, g1⟩
      simp only [this, g2, and_self, if_true, List.getElem?_eq_getElem hk]
      rw [performMove_eq h spare o n l[o.toNat] g0 (List.getElem?_eq_getElem hk) g2]
      simp [outVal, Spec.out]
    · rw [if_neg hg]
      rw [if_pos (by simp only [Seq.validPos] at hg; omega)]
      simp [hself, Spec.out]
  | moveObject spare n e =>
    simp only [Seq.movesPastEnd] at hm
    simp only [step, moveObject, Seq.step, indexOf_eq hr h, EList.indexOf_eq]
    by_cases he : e ∈ l
    · have hk : l.idxOf e < l.length := List.idxOf_lt_length_iff.2 he
      have hx : l[l.idxOf e]? = some e := by simp [hk]
      simp only [he, if_true]
      rw [if_neg (by omega)]
      by_cases hn : Seq.validPos l n
      · rw [performMove_eq h spare (l.idxOf e : Int) n e (by omega) (by simpa using hx) hn]
        simp [hn, Spec.out]
      · have : n < 0 := by
          simp only [Seq.validPos] at hn
          simp only [he, and_true] at hm
          omega
        rw [performMove_out h spare _ n (by omega) this]
        simp [hn, Spec.out, hself]
    · simp [he, hself, Spec.out]
  | removeAt i =>
    simp only [step, removeAt, Seq.step, hsz]
    by_cases hg : Seq.validPos l i
    · have hg' := hg
      obtain ⟨g0, g1⟩ := hg'
      have hk : i.toNat < l.length := by omega
      rw [if_neg (by omega)]
      simp only [hg, if_true, List.getElem?_eq_getElem hk]
      rw [performRemove_eq h i l[i.toNat] g0 (List.getElem?_eq_getElem hk)]
      simp [outVal, Spec.out]
    · rw [if_pos (by simp only [Seq.validPos] at hg; omega)]
      simp [hg, hself, Spec.out]
  | remove e =>
    simp only [step, remove, Seq.step, indexOf_eq hr h, EList.indexOf_eq]
    by_cases he : e ∈ l
    · have hk : l.idxOf e < l.length := List.idxOf_lt_length_iff.2 he
      have hx : l[l.idxOf e]? = some e := by simp [hk]
      simp only [he, if_true]
      rw [if_neg (by omega), performRemove_eq h (l.idxOf e : Int) e (by omega) (by simpa using hx)]
      simp [Spec.out, List.erase_eq_eraseIdx_of_idxOf]
    · simp [he, List.erase_of_not_mem, hself, Spec.out]
  | removeRange f t =>
    simp only [step, removeRange, Seq.step, hsz]
    by_cases hg : Seq.validPos l f ∧ Seq.validGap l t ∧ f ≤ t
    · have hg' := hg
      obtain ⟨⟨g0, g1⟩, ⟨g2, g3⟩, g4⟩ := hg'
      rw [if_neg (by omega), if_neg (by omega), if_neg (by omega)]
      rw [performRemoveRange_eq h f t g0 g4 g3]
      simp [hg, Spec.out]
    · rw [if_neg hg]
      simp only [Seq.validPos, Seq.validGap] at hg
      have : (f < 0 ∨ f ≥ (l.length : Int)) ∨ (t < 0 ∨ t > (l.length : Int)) ∨ f > t := by omega
      by_cases h1 : f < 0 ∨ f ≥ (l.length : Int)
      · simp [h1, hself, Spec.out]
      · rw [if_neg h1]
        by_cases h2 : t < 0 ∨ t > (l.length : Int)
        · simp [h2, hself, Spec.out]
        · rw [if_neg h2, if_pos (by omega)]
          simp [hself, Spec.out]
  | removeAll c =>
    simp only [step, removeAll, Seq.step, hsz]
    by_cases hc : c = []
    · have : l.filter (fun x => decide (x ∉ ([] : List α))) = l := List.filter_eq_self.2 (by simp)
      subst hc
      rw [this]
      simp [hself, Spec.out]
    · rw [if_neg hc, removePositions_eq hr h c 0 _ (by simp)]
      have hre := removeEach_eq c l s [] [] (by simpa using h)
      simp only [List.length_nil, List.append_nil, List.nil_append] at hre
      simp only [List.drop_zero, hre, removeEach, pos_isEmpty, Spec.out, Bool.not_not]
  | set i e =>
    simp only [step, set, Seq.step, hsz]
    by_cases hg : Seq.validPos l i
    · have hg' := hg
      obtain ⟨g0, g1⟩ := hg'
      have hk : i.toNat < l.length := by omega
      have hset := performSet_eq h i e l[i.toNat] g0 (List.getElem?_eq_getElem hk)
      rw [if_neg (by omega)]
      simp only [hg, not_true, if_false, List.getElem?_eq_getElem hk]
      cases hu : cfg.unique
      · simp [hset, outVal, Spec.out]
      · simp only [if_true, indexOf_eq hr h, EList.indexOf_eq]
        by_cases he : e ∈ l
        · have hki : l.idxOf e < l.length := List.idxOf_lt_length_iff.2 he
          by_cases hi : l[i.toNat] = e
          · have : l.idxOf e = i.toNat := by
              rw [← hi]
              exact (hnd hu).idxOf_getElem _ hk
            simp only [he, if_true]
            rw [if_neg (by omega)]
            simp [hi, hset, outVal, Spec.out]
          · have : ¬ (l.idxOf e : Int) = i := by
              intro hh
              apply hi
              have : l.idxOf e = i.toNat := by omega
              simp only [← this]
              exact List.getElem_idxOf hki
            simp only [he, if_true]
            rw [if_pos ⟨by omega, this⟩]
            simp [hi, hself, Spec.out]
        · simp [he, hset, outVal, Spec.out]
    · rw [if_pos (by simp only [Seq.validPos] at hg; omega)]
      simp [hg, hself, Spec.out]
  | clear => simp [step, Seq.step, Spec.out, performClear_eq]

theorem step_refines [Inhabited α] {s : St α} {l : List α} (h : Inv s l) (c : Call α)
    (hnd : cfg.unique = true → l.Nodup) (hok : Spec.ok cfg.unique (decide (cfg.iter = .live)) l c) :
    Inv (step cfg s c).1 (Spec.step cfg.unique l c).1 ∧ (step cfg s c).2 = (Spec.step cfg.unique l c).2 := by
  have hsz := h.size
  cases c with
  | op o =>
    rw [op_refines hr h o hnd hok]
    exact ⟨inv_upd h _, rfl⟩
  | get i =>
    simp only [step, get, Spec.step, hsz]
    by_cases hi : i < 0 ∨ i ≥ (l.length : Int)
    · rw [if_pos hi]
      refine ⟨h, ?_⟩
      rcases hi with hi | hi
      · rw [if_neg (by omega)]
      · rw [if_pos (by omega), List.getElem?_eq_none (by omega)]
    · rw [if_neg hi, doGet_eq hr h i (by omega)]
      refine ⟨h, ?_⟩
      rw [if_pos (by omega), List.getElem?_eq_getElem (by omega)]
      rfl
  | indexOf e =>
    simp only [step, Spec.step, indexOf_eq hr h, EList.indexOf_eq]
    exact ⟨h, trivial⟩
  | contains e =>
    simp only [step, Spec.step, contains_eq hr h]
    exact ⟨h, trivial⟩
  | size =>
    simp only [step, Spec.step, hsz]
    exact ⟨h, trivial⟩
  | empty =>
    refine ⟨h, ?_⟩
    simp only [step, Spec.step, hsz]
    cases l <;> simp
    omega
  | elements =>
    simp only [step, Spec.step, elements_eq hr h]
    exact ⟨h, trivial⟩
  | setCache b =>
    refine ⟨?_, rfl⟩
    simp only [step, Spec.step]
    rcases s with ⟨st, d, c, z⟩
    obtain ⟨h1, h2, h3, h4, h5, h6⟩ := h
    simp only at *
    subst h6
    simp only [setCache]
    rcases h1 with rfl | rfl <;> rcases h2 with rfl | rfl <;> cases b <;> cases c <;>
      constructor <;> simp_all
  | setStore st =>
    refine ⟨?_, rfl⟩
    have hcached := h.cached
    cases st with
    | none =>
      simp only [step, Spec.step]
      rcases inv_cases h with hs | hs | hs
      · rw [hs]; simp only [setStore]; rw [← hs]; exact h
      · rw [hs]; constructor <;> simp [setStore]
      · rw [hs]; constructor <;> simp [setStore]
    | some l' =>
      simp only [Spec.ok] at hok
      subst hok
      simp only [step, Spec.step]
      rcases inv_cases h with hs | hs | hs <;> rw [hs] <;> simp only [setStore] <;>
        constructor <;> simp <;> grind

theorem run_refines [Inhabited α] {s : St α} {l : List α} (h : Inv s l) (cs : List (Call α))
    (hnd : cfg.unique = true → l.Nodup) (hok : Spec.Always cfg.unique (decide (cfg.iter = .live)) l cs) :
    Inv (run cfg s cs).1 (Spec.run cfg.unique l cs).1 ∧ (run cfg s cs).2 = (Spec.run cfg.unique l cs).2 := by
  induction cs generalizing s l with
  | nil => exact ⟨h, rfl⟩
  | cons c cs ih =>
    obtain ⟨h1, h2⟩ := hok
    obtain ⟨a, b⟩ := step_refines hr h c hnd h1
    have hnd' : cfg.unique = true → (Spec.step cfg.unique l c).1.Nodup := by
      intro hu
      cases c with
      | op o => simpa [Spec.step, hu] using EList.spec_nodup l o (hnd hu)
      | _ => exact hnd hu
    obtain ⟨p, q⟩ := ih a hnd' h2
    simp only [run, Spec.run]
    exact ⟨p, by rw [b, q]⟩

end

theorem inv_init (st : Option (List α)) : Inv (init st) (st.getD []) := by
  cases st <;> constructor <;> simp [init]

/-! ### Switches of the cache -/

section
variable [DecidableEq α]

theorem spec_answers (u : Bool) (l : List α) (cs : List (Call α)) :
    (Spec.run u l (cs.filter (!Spec.isSwitch ·))).1 = (Spec.run u l cs).1 ∧
    (Spec.run u l (cs.filter (!Spec.isSwitch ·))).2 = Spec.answers cs (Spec.run u l cs).2 := by
  induction cs generalizing l with
  | nil => exact ⟨rfl, rfl⟩
  | cons c cs ih =>
    by_cases hc : Spec.isSwitch c = true
    · have hl : (Spec.step u l c).1 = l := by
        cases c <;> simp [Spec.isSwitch] at hc
        rfl
      obtain ⟨a, b⟩ := ih l
      simp only [Spec.answers] at b
      simp [hc, Spec.run, hl, Spec.answers, a, b]
    · obtain ⟨a, b⟩ := ih (Spec.step u l c).1
      simp only [Spec.answers] at b
      simp [hc, Spec.run, Spec.answers, a, b]

theorem always_filter (u live : Bool) (l : List α) (cs : List (Call α)) :
    Spec.Always u live l (cs.filter (!Spec.isSwitch ·)) ↔ Spec.Always u live l cs := by
  induction cs generalizing l with
  | nil => exact Iff.rfl
  | cons c cs ih =>
    by_cases hc : Spec.isSwitch c = true
    · have hl : (Spec.step u l c).1 = l ∧ Spec.ok u live l c := by
        cases c <;> simp [Spec.isSwitch] at hc
        exact ⟨rfl, trivial⟩
      simp [hc, Spec.Always, hl, ih]
    · simp [hc, Spec.Always, ih]

end

end Verif.StoreList
