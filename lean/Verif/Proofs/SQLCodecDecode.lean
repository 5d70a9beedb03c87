import Verif.Proofs.SQLCodecObject

/-! Proofs for C59: the decoder. -/

namespace Verif.SQLCodec

open Spec
open Verif.Convert (Text Time Value formatNat)

variable {F : Type}

/-- the features in `w` are set -/
def upd (w : Nat → Nat → Nat → Option (Val Ref F)) (copies : List (Copy F)) : List (Copy F) :=
  copies.mapIdx fun k x => { x with slot := fun c i => (w k c i).or (x.slot c i) }

@[simp] theorem upd_length (w : Nat → Nat → Nat → Option (Val Ref F)) (copies : List (Copy F)) : (upd w copies).length = copies.length := by
  simp [upd]

theorem upd_get (w : Nat → Nat → Nat → Option (Val Ref F)) (copies : List (Copy F)) (k : Nat) :
    (upd w copies)[k]? = copies[k]?.map fun x => { x with slot := fun c i => (w k c i).or (x.slot c i) } := by
  simp [upd, List.getElem?_mapIdx]

theorem upd_congr {w w' : Nat → Nat → Nat → Option (Val Ref F)} {copies : List (Copy F)}
    (h : ∀ k : Nat, k < copies.length → ∀ c i : Nat, w k c i = w' k c i) : upd w copies = upd w' copies := by
  apply List.ext_getElem?
  intro k
  rw [upd_get, upd_get]
  cases hk : copies[k]? with
  | none => rfl
  | some x =>
    have := lt_of_get hk
    simp only [Option.map_some, Option.some.injEq, Copy.mk.injEq, true_and]
    funext c i
    rw [h k this]

theorem upd_upd (w w' : Nat → Nat → Nat → Option (Val Ref F)) (copies : List (Copy F)) :
    upd w' (upd w copies) = upd (fun k c i => (w' k c i).or (w k c i)) copies := by
  apply List.ext_getElem?
  intro k
  rw [upd_get, upd_get, upd_get]
  cases copies[k]? <;> simp [Option.or_assoc]

theorem upd_none {w : Nat → Nat → Nat → Option (Val Ref F)} {copies : List (Copy F)}
    (h : ∀ k : Nat, k < copies.length → ∀ c i : Nat, w k c i = none) : upd w copies = copies := by
  apply List.ext_getElem?
  intro k
  rw [upd_get]
  cases hk : copies[k]? with
  | none => rfl
  | some x =>
    have := lt_of_get hk
    simp [h k this]

theorem setSlot_upd (copies : List (Copy F)) (k c i : Nat) (v : Val Ref F) :
    setSlot copies k c i v = upd (fun k' c' i' => if k' = k ∧ c' = c ∧ i' = i then some v else none) copies := by
  apply List.ext_getElem?
  intro j
  rw [upd_get, setSlot, List.getElem?_modify]
  by_cases h : k = j
  · subst h
    simp only [if_true, true_and]
    cases copies[k]? with
    | none => rfl
    | some x =>
      simp only [Option.map_some, Option.some.injEq, Copy.mk.injEq, true_and]
      refine congrArg some ?_
      refine congrArg (Copy.mk x.cls x.id) ?_
      funext c' i'
      split <;> simp
  · have h' : ¬ j = k := fun e => h e.symm
    simp [h, h']

/-! ### Lists -/

/-- the value of a list, if it has elements -/
def listVal (l : List (Elem Ref F)) : Option (Val Ref F) := if l = [] then none else some (.list l)

theorem listVal_nil : listVal ([] : List (Elem Ref F)) = none := rfl

/-- the elements of some rows -/
def valsOf (env : Env F) (enums : List (Nat × Text)) (n : Nat) (f : Feature F) (rows : List (Nat × Nat × Cell F)) : List (Elem Ref F) :=
  rows.filterMap fun r => (decodeCell env enums n f (kindOf f) r.2.2).join

/-- the list can be added to an empty list -/
def Addable [DecidableEq F] (f : Feature F) (l : List (Elem Ref F)) : Prop := addAll (f.isReference || f.unique) [] l = l

theorem decodeFeatureList_spec [DecidableEq F] (f : Feature F) (c i : Nat) (copies : List (Copy F)) (id : Nat) (values : List (Elem Ref F))
    (h1 : 1 ≤ id ∧ id ≤ copies.length) (h2 : ∀ x : Copy F, copies[id - 1]? = some x → x.slot c i = none) (h3 : Addable f values) :
    decodeFeatureList f c i copies id values =
      some (upd (fun k' c' i' => if k' = id - 1 ∧ c' = c ∧ i' = i then listVal values else none) copies) := by
  unfold decodeFeatureList listVal
  by_cases hv : values = []
  · simp only [hv, if_true]
    rw [upd_none]
    intros
    simp
  · simp only [hv, if_false]
    have : id - 1 < copies.length := by omega
    have hget : get copies id = some copies[id - 1] := by
      simp [get, show id ≠ 0 by omega, this]
    have hs := h2 copies[id - 1] (by simp [this])
    simp only [hget, Option.bind_some, hs]
    rw [setSlot_upd, h3]

theorem decodeRows_spec [DecidableEq F] (env : Env F) (enums : List (Nat × Text)) (f : Feature F) (c i : Nat)
    (rows : List (Nat × Nat × Cell F)) (id : Nat) (values : List (Elem Ref F)) (copies : List (Copy F))
    (hkeys : ∀ r ∈ rows, r.1 ≤ copies.length ∧ id ≤ r.1) (hid : 1 ≤ id ∧ id ≤ copies.length)
    (hsort : rows.Pairwise fun a b => a.1 ≤ b.1)
    (hdec : ∀ r ∈ rows, ∃ e : Elem Ref F, decodeCell env enums copies.length f (kindOf f) r.2.2 = some (some e))
    (hslot : ∀ (k : Nat) (x : Copy F), id - 1 ≤ k → copies[k]? = some x → x.slot c i = none)
    (hadd : ∀ k : Nat, Addable f ((if k + 1 = id then values else []) ++ valsOf env enums copies.length f (rows.filter fun r => r.1 = k + 1))) :
    decodeRows env enums f c i rows (some id) values copies =
      some (upd (fun k c' i' => if c' = c ∧ i' = i then
        listVal ((if k + 1 = id then values else []) ++ valsOf env enums copies.length f (rows.filter fun r => r.1 = k + 1)) else none) copies) := by
  induction rows generalizing id values copies with
  | nil =>
    simp only [decodeRows]
    rw [decodeFeatureList_spec f c i copies id values hid (fun x hx => hslot _ x (Nat.le_refl _) hx)]
    · refine congrArg some (upd_congr ?_)
      intro k _ c' i'
      have : k = id - 1 ↔ k + 1 = id := by omega
      simp only [List.filter_nil, valsOf, List.filterMap_nil, List.append_nil, this]
      by_cases h1 : k + 1 = id <;> by_cases h2 : c' = c ∧ i' = i <;> simp [h1, h2, listVal_nil]
    · have := hadd (id - 1)
      rw [show id - 1 + 1 = id by omega] at this
      simpa [valsOf] using this
  | cons r rs ih =>
    obtain ⟨e, he⟩ := hdec r (by simp)
    obtain ⟨hs1, hs2⟩ := List.pairwise_cons.1 hsort
    simp only [decodeRows, he, Option.bind_some, Option.toList_some]
    have hvals : ∀ k : Nat, valsOf env enums copies.length f ((r :: rs).filter fun r => r.1 = k + 1) =
        (if k + 1 = r.1 then [e] else []) ++ valsOf env enums copies.length f (rs.filter fun r => r.1 = k + 1) := by
      intro k
      by_cases hk : r.1 = k + 1
      · simp [List.filter_cons, hk, valsOf, he]
      · have hk' : ¬ k + 1 = r.1 := fun e => hk e.symm
        simp [List.filter_cons, hk, hk', valsOf]
    by_cases hne : id = r.1
    · subst hne
      simp only [ne_eq, not_true_eq_false, if_false]
      have heq : ∀ k : Nat, (if k + 1 = r.1 then values ++ [e] else []) ++ valsOf env enums copies.length f (rs.filter fun r => r.1 = k + 1) =
          (if k + 1 = r.1 then values else []) ++ valsOf env enums copies.length f ((r :: rs).filter fun r => r.1 = k + 1) := by
        intro k
        rw [hvals]
        split <;> simp
      rw [ih r.1 (values ++ [e]) copies (fun x hx => ⟨(hkeys x (by simp [hx])).1, hs1 x hx⟩) hid hs2 (fun x hx => hdec x (by simp [hx])) hslot]
      · simp only [heq]
      · intro k
        rw [heq]
        exact hadd k
    · simp only [ne_eq, hne, not_false_eq_true, if_true]
      have hlt : id < r.1 := by
        have := (hkeys r (by simp)).2
        omega
      have hnone : ∀ k : Nat, k + 1 = id → valsOf env enums copies.length f ((r :: rs).filter fun r => r.1 = k + 1) = [] := by
        intro k hk
        have : ((r :: rs).filter fun r => r.1 = k + 1) = [] := by
          rw [List.filter_eq_nil_iff]
          intro x hx
          simp only [decide_eq_true_eq]
          rcases List.mem_cons.1 hx with e1 | hx'
          · subst e1; omega
          · have := hs1 x hx'
            omega
        rw [this]
        rfl
      rw [decodeFeatureList_spec f c i copies id values hid (fun x hx => hslot _ x (Nat.le_refl _) hx) (by
        have := hadd (id - 1)
        rw [hnone (id - 1) (by omega), show id - 1 + 1 = id by omega] at this
        simpa using this)]
      simp only [Option.bind_some]
      have hr := (hkeys r (by simp)).1
      rw [ih r.1 [e] _ (fun x hx => ⟨by simpa using (hkeys x (by simp [hx])).1, hs1 x hx⟩) (by simp; omega) hs2
        (fun x hx => by simpa using hdec x (by simp [hx]))]
      · rw [upd_upd]
        refine congrArg some (upd_congr ?_)
        intro k _ c' i'
        by_cases hci : c' = c ∧ i' = i
        · simp only [hci, and_self, if_true, and_true, upd_length]
          by_cases hk : k + 1 = id
          · have h1 : k = id - 1 := by omega
            have h2 : ¬ k + 1 = r.1 := by omega
            have h3 := hnone k hk
            have h4 := hvals k
            rw [h3, if_neg h2, List.nil_append] at h4
            rw [if_pos h1, if_pos hk, if_neg h2, h3, ← h4]
            simp [listVal_nil]
          · have h1 : ¬ k = id - 1 := by omega
            rw [if_neg h1, if_neg hk, hvals]
            simp
        · simp [hci]
      · intro k x hk hx
        rw [upd_get] at hx
        simp only [Option.map_eq_some_iff] at hx
        obtain ⟨y, hy, rfl⟩ := hx
        have h1 : ¬ k = id - 1 := by omega
        simp only [h1, false_and, if_false, Option.none_or]
        exact hslot k y (by omega) hy
      · intro k
        simp only [upd_length]
        by_cases hk : k + 1 = id
        · have h2 : ¬ k + 1 = r.1 := by omega
          have h3 := hnone k hk
          have h4 := hvals k
          rw [h3, if_neg h2, List.nil_append] at h4
          rw [if_neg h2, ← h4]
          rfl
        · have := hadd k
          rw [if_neg hk, hvals] at this
          simpa using this

instance : IsTrans (Nat × Nat × Cell F) before where
  trans a b c := by
    simp only [before]
    omega

instance : Std.Total (before (F := F)) where
  total a b := by
    simp only [before]
    omega

theorem sorted_group (rows : List (Nat × Nat × Cell F)) (id : Nat)
    (h : ((rows.filter fun r => r.1 = id).map (·.2.1)).Pairwise (· ≤ ·)) :
    (rows.insertionSort before).filter (fun r => r.1 = id) = rows.filter fun r => r.1 = id := by
  have hp : (rows.filter fun r => r.1 = id).Pairwise before := by
    rw [List.pairwise_map] at h
    refine List.Pairwise.imp_of_mem ?_ h
    intro a b ha hb hab
    have ha' := (List.mem_filter.1 ha).2
    have hb' := (List.mem_filter.1 hb).2
    simp only [decide_eq_true_eq] at ha' hb'
    simp only [before]
    right
    exact ⟨by omega, hab⟩
  have hsub := List.sublist_insertionSort (r := before) hp List.filter_sublist
  have hsub' := hsub.filter fun r => decide (r.1 = id)
  rw [List.filter_filter] at hsub'
  simp only [Bool.and_self] at hsub'
  symm
  refine hsub'.eq_of_length ?_
  exact ((List.perm_insertionSort before rows).filter _).length_eq.symm

/-- the rows of a list are read -/
theorem decodeTable_spec [DecidableEq F] (env : Env F) (enums : List (Nat × Text)) (db : DB F) (f : Feature F) (c i : Nat)
    (copies : List (Copy F)) (htab : lower (listTable env c f) ∈ db.tables)
    (hkeys : ∀ r ∈ db.lists (listTable env c f), 1 ≤ r.1 ∧ r.1 ≤ copies.length)
    (hdec : ∀ r ∈ db.lists (listTable env c f), ∃ e : Elem Ref F, decodeCell env enums copies.length f (kindOf f) r.2.2 = some (some e))
    (hidx : ∀ id : Nat, (((db.lists (listTable env c f)).filter fun r => r.1 = id).map (·.2.1)).Pairwise (· ≤ ·))
    (hslot : ∀ (k : Nat) (x : Copy F), copies[k]? = some x → x.slot c i = none)
    (hadd : ∀ k : Nat, Addable f (valsOf env enums copies.length f ((db.lists (listTable env c f)).filter fun r => r.1 = k + 1))) :
    decodeTable env enums db f c i copies =
      some (upd (fun k c' i' => if c' = c ∧ i' = i then
        listVal (valsOf env enums copies.length f ((db.lists (listTable env c f)).filter fun r => r.1 = k + 1)) else none) copies) := by
  unfold decodeTable
  rw [if_neg (by simpa using htab)]
  have hgroup : ∀ id : Nat, ((db.lists (listTable env c f)).insertionSort before).filter (fun r => r.1 = id) =
      (db.lists (listTable env c f)).filter fun r => r.1 = id := fun id => sorted_group _ id (hidx id)
  have hmem : ∀ r ∈ (db.lists (listTable env c f)).insertionSort before, r ∈ db.lists (listTable env c f) :=
    fun r hr => (List.perm_insertionSort before _).mem_iff.1 hr
  have hsorted : ((db.lists (listTable env c f)).insertionSort before).Pairwise fun a b => a.1 ≤ b.1 := by
    refine (List.pairwise_insertionSort before _).imp ?_
    intro a b h
    simp only [before] at h
    omega
  simp only [← hgroup] at hadd ⊢
  generalize (db.lists (listTable env c f)).insertionSort before = rows at *
  cases rows with
  | nil =>
    simp only [decodeRows]
    rw [upd_none]
    intros
    simp [valsOf, listVal_nil]
  | cons r rs =>
    obtain ⟨e, he⟩ := hdec r (hmem r (by simp))
    obtain ⟨hs1, hs2⟩ := List.pairwise_cons.1 hsorted
    have hr := hkeys r (hmem r (by simp))
    have hvals : ∀ k : Nat, valsOf env enums copies.length f ((r :: rs).filter fun r => r.1 = k + 1) =
        (if k + 1 = r.1 then [e] else []) ++ valsOf env enums copies.length f (rs.filter fun r => r.1 = k + 1) := by
      intro k
      by_cases hk : r.1 = k + 1
      · simp [List.filter_cons, hk, valsOf, he]
      · have hk' : ¬ k + 1 = r.1 := fun e => hk e.symm
        simp [List.filter_cons, hk, hk', valsOf]
    simp only [decodeRows, he, Option.bind_some, Option.toList_some, List.nil_append]
    rw [decodeRows_spec env enums f c i rs r.1 [e] copies (fun x hx => ⟨(hkeys x (hmem x (by simp [hx]))).2, hs1 x hx⟩) hr hs2
      (fun x hx => hdec x (hmem x (by simp [hx]))) (fun k x _ hx => hslot k x hx)]
    · simp only [hvals]
    · intro k
      rw [← hvals]
      exact hadd k

/-- the value of a feature with a table -/
def tableVal (env : Env F) (enums : List (Nat × Text)) (n : Nat) (db : DB F) (c k j : Nat) : Option (Val Ref F) :=
  match (env.features c)[j]? with
  | none => none
  | some f =>
    if (kindOf f).isTable = true then
      listVal (valsOf env enums n f ((db.lists (listTable env c f)).filter fun r => r.1 = k + 1))
    else none

theorem decodeTables_spec [DecidableEq F] (env : Env F) (enums : List (Nat × Text)) (db : DB F) (c : Nat) (fs : List (Feature F)) (i : Nat)
    (hfs : ∀ j : Nat, fs[j]? = (env.features c)[i + j]?) (copies : List (Copy F))
    (htab : ∀ f ∈ env.features c, (kindOf f).isTable = true → lower (listTable env c f) ∈ db.tables)
    (hkeys : ∀ f ∈ env.features c, (kindOf f).isTable = true → ∀ r ∈ db.lists (listTable env c f), 1 ≤ r.1 ∧ r.1 ≤ copies.length)
    (hdec : ∀ f ∈ env.features c, (kindOf f).isTable = true →
      ∀ r ∈ db.lists (listTable env c f), ∃ e : Elem Ref F, decodeCell env enums copies.length f (kindOf f) r.2.2 = some (some e))
    (hidx : ∀ f ∈ env.features c, (kindOf f).isTable = true →
      ∀ id : Nat, (((db.lists (listTable env c f)).filter fun r => r.1 = id).map (·.2.1)).Pairwise (· ≤ ·))
    (hslot : ∀ (k : Nat) (x : Copy F), copies[k]? = some x → ∀ j : Nat, i ≤ j → x.slot c j = none)
    (hadd : ∀ f ∈ env.features c, (kindOf f).isTable = true →
      ∀ k : Nat, Addable f (valsOf env enums copies.length f ((db.lists (listTable env c f)).filter fun r => r.1 = k + 1))) :
    decodeTables env enums db c i fs copies =
      some (upd (fun k c' j => if c' = c ∧ i ≤ j then tableVal env enums copies.length db c k j else none) copies) := by
  induction fs generalizing i copies with
  | nil =>
    simp only [decodeTables]
    rw [upd_none]
    intro k _ c' j
    split
    · rename_i h
      have := hfs (j - i)
      rw [show i + (j - i) = j by omega] at this
      simp [tableVal, ← this]
    · rfl
  | cons f fs ih =>
    have hf : (env.features c)[i]? = some f := by have := hfs 0; simpa using this.symm
    have hfs' : ∀ j : Nat, fs[j]? = (env.features c)[i + 1 + j]? := by
      intro j
      have := hfs (j + 1)
      rw [show i + 1 + j = i + (j + 1) by omega, ← this]
      simp
    have hm := List.mem_of_getElem? hf
    by_cases ht : (kindOf f).isTable = true
    · simp only [decodeTables, ht, if_true]
      rw [decodeTable_spec env enums db f c i copies (htab f hm ht) (hkeys f hm ht) (hdec f hm ht) (hidx f hm ht)
        (fun k x hx => hslot k x hx i (Nat.le_refl _)) (hadd f hm ht)]
      simp only [Option.bind_some]
      rw [ih (i + 1) hfs' _ (by simpa using hkeys) (by simpa using hdec) ?_ (by simpa using hadd)]
      · rw [upd_upd]
        refine congrArg some (upd_congr ?_)
        intro k _ c' j
        simp only [upd_length]
        by_cases hc : c' = c
        · by_cases hj : j = i
          · subst hj
            have : ¬ j + 1 ≤ j := by omega
            simp [hc, this, tableVal, hf, ht]
          · by_cases hj' : i + 1 ≤ j
            · have : i ≤ j := by omega
              simp [hc, hj, hj', this]
            · have : ¬ i ≤ j := by omega
              simp [hc, hj, hj', this]
        · simp [hc]
      · intro k x hx j hj
        rw [upd_get] at hx
        simp only [Option.map_eq_some_iff] at hx
        obtain ⟨y, hy, rfl⟩ := hx
        have : ¬ j = i := by omega
        simp only [this, and_false, if_false, Option.none_or]
        exact hslot k y hy j (by omega)
    · simp only [decodeTables, ht, Bool.false_eq_true, if_false]
      rw [ih (i + 1) hfs' copies hkeys hdec (fun k x hx j hj => hslot k x hx j (by omega)) hadd]
      refine congrArg some (upd_congr ?_)
      intro k _ c' j
      by_cases hc : c' = c
      · by_cases hj : j = i
        · subst hj
          have : ¬ j + 1 ≤ j := by omega
          simp [hc, this, tableVal, hf, ht]
        · by_cases hj' : i + 1 ≤ j
          · have : i ≤ j := by omega
            simp [hc, hj', this]
          · have : ¬ i ≤ j := by omega
            simp [hc, hj', this]
      · simp [hc]

/-! ### Columns -/

/-- the value of a cell is read -/
def Reads (env : Env F) (enums : List (Nat × Text)) (n : Nat) (w : Nat → Option (Val Ref F)) (p : Nat × Feature F) (cell : Cell F) : Prop :=
  ∃ r : Option (Elem Ref F), decodeCell env enums n p.2 (kindOf p.2) cell = some r ∧ w p.1 = r.map fun e => .one (some e)

theorem forall₂_imp_mem {α β : Type} {R S : α → β → Prop} {a : List α} {b : List β} (h : List.Forall₂ R a b)
    (hi : ∀ x ∈ a, ∀ y, R x y → S x y) : List.Forall₂ S a b := by
  induction h with
  | nil => exact .nil
  | cons h1 _ ih => exact .cons (hi _ (by simp) _ h1) (ih fun x hx => hi x (by simp [hx]))

theorem decodeColumns_cons (env : Env F) (enums : List (Nat × Text)) (n c k i : Nat) (f : Feature F) (fs : List (Nat × Feature F))
    (cells : List (Cell F)) (copies : List (Copy F)) :
    decodeColumns env enums n c k ((i, f) :: fs) cells copies =
      (decodeCell env enums n f (kindOf f) (cells.head?.getD .null)).bind fun r => decodeColumns env enums n c k fs cells.tail
        (upd (fun k' c' j => if k' = k ∧ c' = c then (if j = i then r.map fun e => .one (some e) else none) else none) copies) := by
  simp only [decodeColumns]
  congr 1
  funext r
  congr 1
  cases r with
  | none => rw [upd_none]; intros; simp
  | some e =>
    simp only [setSlot_upd, Option.map_some]
    refine upd_congr ?_
    intro k' _ c' j
    by_cases h1 : k' = k ∧ c' = c <;> by_cases h2 : j = i <;> simp [h1, h2, ← and_assoc]

theorem decodeColumns_spec (env : Env F) (enums : List (Nat × Text)) (n c k : Nat) (fs : List (Nat × Feature F)) (cells : List (Cell F))
    (copies : List (Copy F)) (hnd : (fs.map (·.1)).Nodup)
    (h : List.Forall₂ (fun (p : Nat × Feature F) (cell : Cell F) =>
      ∃ r : Option (Elem Ref F), decodeCell env enums n p.2 (kindOf p.2) cell = some r) fs cells) :
    ∃ w : Nat → Option (Val Ref F), decodeColumns env enums n c k fs cells copies =
        some (upd (fun k' c' j => if k' = k ∧ c' = c then w j else none) copies) ∧
      List.Forall₂ (Reads env enums n w) fs cells ∧ ∀ j : Nat, j ∉ fs.map (·.1) → w j = none := by
  induction h generalizing copies with
  | nil =>
    refine ⟨fun _ => none, ?_, .nil, fun _ _ => rfl⟩
    simp only [decodeColumns]
    rw [upd_none]
    intros
    simp
  | @cons p cell fs cells h1 h2 ih =>
    obtain ⟨i, f⟩ := p
    obtain ⟨r, hr⟩ := h1
    simp only [List.map_cons, List.nodup_cons] at hnd
    rw [decodeColumns_cons]
    simp only [List.head?_cons, Option.getD_some, hr, Option.bind_some, List.tail_cons]
    obtain ⟨w, w1, w2, w3⟩ := ih (upd (fun k' c' j => if k' = k ∧ c' = c then (if j = i then r.map fun e => .one (some e) else none) else none)
      copies) hnd.2
    have hwi : w i = none := w3 i hnd.1
    refine ⟨fun j => if j = i then r.map fun e => .one (some e) else w j, ?_, .cons ⟨r, hr, by simp⟩ ?_, ?_⟩
    · rw [w1, upd_upd]
      refine congrArg some (upd_congr ?_)
      intro k' _ c' j
      by_cases h1 : k' = k ∧ c' = c
      · by_cases h2 : j = i
        · subst h2; simp [h1, hwi]
        · simp [h1, h2]
      · simp [h1]
    · refine forall₂_imp_mem w2 ?_
      rintro ⟨j, f'⟩ hx y ⟨r', r1, r2⟩
      refine ⟨r', r1, ?_⟩
      have : j ≠ i := by
        rintro rfl
        exact hnd.1 (List.mem_map.2 ⟨_, hx, rfl⟩)
      simp only [this, if_false]
      exact r2
    · intro j hj
      simp only [List.map_cons, List.mem_cons, not_or] at hj
      simp only [hj.1, if_false]
      exact w3 j hj.2

theorem decodeClassRows_spec (env : Env F) (enums : List (Nat × Text)) (c : Nat) (fs : List (Nat × Feature F)) (hfs : (fs.map (·.1)).Nodup)
    (rows : List (Nat × List (Cell F))) (copies : List (Copy F)) (hnd : (rows.map (·.1)).Nodup)
    (hkeys : ∀ r ∈ rows, 1 ≤ r.1 ∧ r.1 ≤ copies.length)
    (h : ∀ r ∈ rows, List.Forall₂ (fun (p : Nat × Feature F) (cell : Cell F) =>
      ∃ v : Option (Elem Ref F), decodeCell env enums copies.length p.2 (kindOf p.2) cell = some v) fs r.2) :
    ∃ w : Nat → Nat → Option (Val Ref F), decodeClassRows env enums c fs rows copies =
        some (upd (fun k c' j => if c' = c then w k j else none) copies) ∧
      (∀ r ∈ rows, List.Forall₂ (Reads env enums copies.length (w (r.1 - 1))) fs r.2) ∧
      (∀ k j : Nat, j ∉ fs.map (·.1) → w k j = none) ∧ ∀ k j : Nat, (∀ r ∈ rows, r.1 ≠ k + 1) → w k j = none := by
  induction rows generalizing copies with
  | nil =>
    refine ⟨fun _ _ => none, ?_, by simp, fun _ _ _ => rfl, fun _ _ _ => rfl⟩
    simp only [decodeClassRows]
    rw [upd_none]
    intros
    simp
  | cons r rs ih =>
    simp only [List.map_cons, List.nodup_cons] at hnd
    have hr := hkeys r (by simp)
    have hlt : r.1 - 1 < copies.length := by omega
    have hget : get copies r.1 = some copies[r.1 - 1] := by simp [get, show r.1 ≠ 0 by omega, hlt]
    obtain ⟨w1, a1, a2, a3⟩ := decodeColumns_spec env enums copies.length c (r.1 - 1) fs r.2 copies hfs (h r (by simp))
    obtain ⟨w2, b1, b2, b3, b4⟩ := ih (upd (fun k' c' j => if k' = r.1 - 1 ∧ c' = c then w1 j else none) copies) hnd.2
      (fun x hx => by simpa using hkeys x (by simp [hx])) (fun x hx => by simpa using h x (by simp [hx]))
    simp only [upd_length] at b2
    have hnone : ∀ j : Nat, w2 (r.1 - 1) j = none := by
      intro j
      refine b4 _ j ?_
      intro x hx e
      exact hnd.1 (List.mem_map.2 ⟨x, hx, by omega⟩)
    have hother : ∀ x ∈ rs, x.1 - 1 ≠ r.1 - 1 := by
      intro x hx e
      have := hkeys x (by simp [hx])
      exact hnd.1 (List.mem_map.2 ⟨x, hx, by omega⟩)
    refine ⟨fun k j => if k = r.1 - 1 then w1 j else w2 k j, ?_, ?_, ?_, ?_⟩
    · simp only [decodeClassRows, hget, Option.bind_some, a1, b1, upd_upd]
      refine congrArg some (upd_congr ?_)
      intro k _ c' j
      by_cases h1 : k = r.1 - 1
      · subst h1
        by_cases h2 : c' = c <;> simp [h2, hnone]
      · by_cases h2 : c' = c <;> simp [h1, h2]
    · intro x hx
      rcases List.mem_cons.1 hx with e | hx'
      · subst e
        simp only [if_true]
        exact a2
      · simp only [hother x hx', if_false]
        exact b2 x hx'
    · intro k j hj
      simp only
      split
      · exact a3 j hj
      · exact b3 k j hj
    · intro k j hk
      have h1 : ¬ k = r.1 - 1 := by
        have := hk r (by simp)
        omega
      simp only [h1, if_false]
      exact b4 k j fun x hx => hk x (by simp [hx])

theorem columnFeatures_mem (fs : List (Feature F)) (i : Nat) (p : Nat × Feature F) :
    p ∈ columnFeatures i fs ↔ ∃ j : Nat, p.1 = i + j ∧ fs[j]? = some p.2 ∧ (kindOf p.2).isColumn = true := by
  induction fs generalizing i with
  | nil => simp [columnFeatures]
  | cons f fs ih =>
    have hrec : (∃ j : Nat, p.1 = i + j ∧ (f :: fs)[j]? = some p.2 ∧ (kindOf p.2).isColumn = true) ↔
        (p.1 = i ∧ f = p.2 ∧ (kindOf p.2).isColumn = true) ∨
          ∃ j : Nat, p.1 = i + 1 + j ∧ fs[j]? = some p.2 ∧ (kindOf p.2).isColumn = true := by
      constructor
      · rintro ⟨j, h1, h2, h3⟩
        cases j with
        | zero => exact Or.inl ⟨by omega, by simpa using h2, h3⟩
        | succ j => exact Or.inr ⟨j, by omega, by simpa using h2, h3⟩
      · rintro (⟨h1, h2, h3⟩ | ⟨j, h1, h2, h3⟩)
        · exact ⟨0, by omega, by simpa using h2, h3⟩
        · exact ⟨j + 1, by omega, by simpa using h2, h3⟩
    rw [hrec]
    simp only [columnFeatures]
    split
    · rename_i h
      rw [List.mem_cons, ih]
      refine or_congr ?_ Iff.rfl
      constructor
      · rintro rfl; exact ⟨rfl, rfl, h⟩
      · rintro ⟨h1, h2, -⟩
        obtain ⟨a, b⟩ := p
        simp only at h1 h2
        rw [h1, h2]
    · rename_i h
      rw [ih]
      constructor
      · exact Or.inr
      · rintro (⟨h1, h2, h3⟩ | h1)
        · rw [← h2] at h3
          exact absurd h3 h
        · exact h1

theorem columnFeatures_nodup (fs : List (Feature F)) (i : Nat) : ((columnFeatures i fs).map (·.1)).Nodup := by
  induction fs generalizing i with
  | nil => simp [columnFeatures]
  | cons f fs ih =>
    simp only [columnFeatures]
    split
    · simp only [List.map_cons, List.nodup_cons]
      refine ⟨?_, ih _⟩
      intro hm
      obtain ⟨p, hp, e⟩ := List.mem_map.1 hm
      obtain ⟨j, h1, -⟩ := (columnFeatures_mem _ _ _).1 hp
      omega
    · exact ih _

end Verif.SQLCodec
