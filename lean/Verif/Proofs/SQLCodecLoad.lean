import Verif.Proofs.SQLCodecDecode

/-! Proofs for C59: loading what was saved. -/

namespace Verif.SQLCodec

open Spec
open Verif.Convert (Text Time Value formatNat)

variable {F : Type} {env : Env F} {g : Graph F} {opt : Opt} {objects classes : List Nat}

/-! ### Lists without duplicates -/

theorem isDuplicate_false [DecidableEq F] {l : List (Elem Ref F)} {e : Elem Ref F} (h : e ∉ l) : isDuplicate l e = false := by
  unfold isDuplicate
  split <;> simp [h]

theorem addAll_spec [DecidableEq F] (u : Bool) (acc l : List (Elem Ref F)) (h1 : ∀ e ∈ l, isDuplicate acc e = false)
    (h2 : l.Pairwise fun a b => a = b → ∃ (t : Text) (c : Nat), b = .ref (.proxy t c)) : addAll u acc l = acc ++ l := by
  induction l generalizing acc with
  | nil => simp [addAll]
  | cons x l ih =>
    obtain ⟨p1, p2⟩ := List.pairwise_cons.1 h2
    have hx := h1 x (by simp)
    have := ih (acc ++ [x]) (by
      intro e he
      have h3 := h1 e (by simp [he])
      rcases e with v | (i | ⟨t, c⟩)
      · simp only [isDuplicate, List.mem_append, List.mem_singleton, decide_eq_false_iff_not, not_or] at h3 ⊢
        refine ⟨h3, ?_⟩
        intro e
        obtain ⟨_, _, h4⟩ := p1 _ he e.symm
        cases h4
      · simp only [isDuplicate, List.mem_append, List.mem_singleton, decide_eq_false_iff_not, not_or] at h3 ⊢
        refine ⟨h3, ?_⟩
        intro e
        obtain ⟨_, _, h4⟩ := p1 _ he e.symm
        cases h4
      · rfl) p2
    simp only [addAll, List.foldl_cons, hx, Bool.and_false, Bool.false_eq_true, if_false] at this ⊢
    rw [this]
    simp

theorem addAll_false [DecidableEq F] (acc l : List (Elem Ref F)) : addAll false acc l = acc ++ l := by
  induction l generalizing acc with
  | nil => simp [addAll]
  | cons x l ih =>
    have := ih (acc ++ [x])
    simp only [addAll, List.foldl_cons, Bool.false_and, Bool.false_eq_true, if_false] at this ⊢
    rw [this]
    simp

theorem forall₂_right {α β : Type} {R : α → β → Prop} {a : List α} {b : List β} (h : List.Forall₂ R a b) :
    ∀ y ∈ b, ∃ x ∈ a, R x y := by
  induction h with
  | nil => simp
  | cons h1 _ ih =>
    intro y hy
    rcases List.mem_cons.1 hy with rfl | hy
    · exact ⟨_, by simp, h1⟩
    · obtain ⟨x, hx, hr⟩ := ih y hy
      exact ⟨x, by simp [hx], hr⟩

theorem forall₂_left {α β : Type} {R : α → β → Prop} {a : List α} {b : List β} (h : List.Forall₂ R a b) :
    ∀ x ∈ a, ∃ y ∈ b, R x y := by
  induction h with
  | nil => simp
  | cons h1 _ ih =>
    intro y hy
    rcases List.mem_cons.1 hy with rfl | hy
    · exact ⟨_, by simp, h1⟩
    · obtain ⟨x, hx, hr⟩ := ih y hy
      exact ⟨x, by simp [hx], hr⟩

theorem forall₂_and {α β : Type} {R S : α → β → Prop} {a : List α} {b : List β} (h : List.Forall₂ R a b) (k : List.Forall₂ S a b) :
    List.Forall₂ (fun x y => R x y ∧ S x y) a b := by
  induction h with
  | nil => exact .nil
  | cons h1 _ ih =>
    cases k with
    | cons k1 k2 => exact .cons ⟨h1, k1⟩ (ih k2)

theorem same_distinct {objs : List Nat} {k : Nat} {f : Feature F} {l : List (Elem Nat F)} {l' : List (Elem Ref F)}
    (h : List.Forall₂ (SameElem g objs k f) l l') (hn : l.Nodup) :
    l'.Pairwise fun a b => a = b → ∃ (t : Text) (c : Nat), b = .ref (.proxy t c) := by
  induction h with
  | nil => exact .nil
  | @cons x y l l' h1 h2 ih =>
    obtain ⟨n1, n2⟩ := List.nodup_cons.1 hn
    refine List.pairwise_cons.2 ⟨?_, ih n2⟩
    intro b hb e
    subst e
    obtain ⟨z, hz, hr⟩ := forall₂_right h2 y hb
    have hne : x ≠ z := by rintro rfl; exact n1 hz
    rcases y with v | (i | ⟨t, c⟩)
    · exfalso
      cases x <;> cases z <;> simp only [SameElem] at h1 hr
      exact hne (by rw [h1, hr])
    · exfalso
      cases x <;> cases z <;> simp only [SameElem] at h1 hr
      rw [h1] at hr
      exact hne (by simpa using hr)
    · exact ⟨t, c, rfl⟩

/-! ### The rows of a class -/

/-- everything that was saved is complete -/
structure Saved (env : Env F) (g : Graph F) (opt : Opt) (objects classes : List Nat) (st : St F) : Prop where
  inv : Inv env objects classes st
  all : ∀ (k o : Nat), st.objs[k]? = some o → Complete env g opt classes st k o

theorem get_of_key {st : St F} {id : Nat} (h : 1 ≤ id ∧ id ≤ st.objs.length) : ∃ o : Nat, st.objs[id - 1]? = some o := by
  have : id - 1 < st.objs.length := by omega
  exact ⟨st.objs[id - 1], by simp [this]⟩

theorem items_cases {st : St F} (h : Saved env g opt objects classes st) {c i : Nat} (hc : c ∈ st.created) {f : Feature F}
    (hf : (env.features c)[i]? = some f) (ht : (kindOf f).isTable = true) (id : Nat) :
    itemsOf st (listTable env c f) id = [] ∨ ∃ k o : Nat, id = k + 1 ∧ st.objs[k]? = some o ∧ c ∈ g.cls o :: env.supers (g.cls o) ∧
      ListOK env g st.objs st.enums k o c i f (itemsOf st (listTable env c f) id) := by
  by_cases he : itemsOf st (listTable env c f) id = []
  · exact Or.inl he
  · right
    obtain ⟨r, hr⟩ := List.exists_mem_of_ne_nil _ he
    have hr' := List.mem_filter.1 hr
    have hid : r.1 = id := by simpa using hr'.2
    have hb := h.inv.lists _ r hr'.1
    rw [hid] at hb
    obtain ⟨o, ho⟩ := get_of_key hb
    have e : id = id - 1 + 1 := by omega
    by_cases hm : c ∈ g.cls o :: env.supers (g.cls o)
    · refine ⟨id - 1, o, e, ho, hm, ?_⟩
      have := ((h.all _ _ ho).done c hm).items i f hf ht
      rw [← e] at this
      exact this
    · have := ((h.all _ _ ho).nothing c (h.inv.created c hc) hm).items i f hf ht
      rw [← e] at this
      exact absurd this he

theorem rows_cases {st : St F} (h : Saved env g opt objects classes st) {c : Nat} (hc : c ∈ st.created) (id : Nat) :
    rowsOf st (classTable env c) id = [] ∨ ∃ (k o : Nat) (cells : List (Cell F)), id = k + 1 ∧ st.objs[k]? = some o ∧
      c ∈ g.cls o :: env.supers (g.cls o) ∧ rowsOf st (classTable env c) id = [(k + 1, cells)] ∧
      List.Forall₂ (ColOK env g st.objs st.enums k o c) (columnFeatures 0 (env.features c)) cells := by
  by_cases he : rowsOf st (classTable env c) id = []
  · exact Or.inl he
  · right
    obtain ⟨r, hr⟩ := List.exists_mem_of_ne_nil _ he
    have hr' := List.mem_filter.1 hr
    have hid : r.1 = id := by simpa using hr'.2
    have hb := h.inv.rows _ r hr'.1
    rw [hid] at hb
    obtain ⟨o, ho⟩ := get_of_key hb
    have e : id = id - 1 + 1 := by omega
    by_cases hm : c ∈ g.cls o :: env.supers (g.cls o)
    · obtain ⟨cells, h1, h2⟩ := ((h.all _ _ ho).done c hm).row
      rw [← e] at h1
      exact ⟨id - 1, o, cells, e, ho, hm, by rw [h1, ← e], h2⟩
    · have := ((h.all _ _ ho).nothing c (h.inv.created c hc) hm).row
      rw [← e] at this
      exact absurd this he

theorem vals_spec {objs : List Nat} {enums : List (Nat × Text)} {k : Nat} {f : Feature F} {l : List (Elem Nat F)}
    {rows : List (Nat × Nat × Cell F)}
    (h : List.Forall₂ (fun (e : Elem Nat F) (r : Nat × Nat × Cell F) => CellOK env g objs enums k f e r.2.2) l rows) :
    List.Forall₂ (SameElem g objs k f) l (valsOf env enums objs.length f rows) := by
  induction h with
  | nil => exact .nil
  | @cons x y l l' h1 _ ih =>
    obtain ⟨e', d1, d2⟩ := h1
    have : valsOf env enums objs.length f (y :: l') = e' :: valsOf env enums objs.length f l' := by
      simp only [valsOf, List.filterMap_cons, d1, Option.join_some]
    rw [this]
    exact .cons d2 ih

theorem range_sorted (a n : Nat) : (List.range' a n).Pairwise (· ≤ ·) :=
  (List.pairwise_lt_range' (s := a) (n := n)).imp Nat.le_of_lt

theorem keys_nodup {β : Type} (rows : List (Nat × β)) (h : ∀ id : Nat, (rows.filter fun r => r.1 = id).length ≤ 1) :
    (rows.map (·.1)).Nodup := by
  induction rows with
  | nil => simp
  | cons r rs ih =>
    simp only [List.map_cons, List.nodup_cons]
    refine ⟨?_, ih fun id => ?_⟩
    · intro hm
      obtain ⟨x, hx, e⟩ := List.mem_map.1 hm
      have := h r.1
      simp only [List.filter_cons, decide_true, if_true, List.length_cons] at this
      have : 0 < (rs.filter fun r' => r'.1 = r.1).length := List.length_pos_of_mem (List.mem_filter.2 ⟨hx, by simpa using e⟩)
      omega
    · have := h id
      simp only [List.filter_cons] at this
      split at this
      · simp only [List.length_cons] at this; omega
      · exact this

/-- what is read of an object and a class -/
structure ReadOK (env : Env F) (g : Graph F) (objs : List Nat) (k o c : Nat) (w : Nat → Option (Val Ref F)) : Prop where
  kept : c ∈ g.cls o :: env.supers (g.cls o) → ∀ (i : Nat) (f : Feature F), (env.features c)[i]? = some f → isSaved f →
    SameVal g objs k f (g.val o c i) ((w i).getD (defaultVal f))
  dropped : ∀ (i : Nat) (f : Feature F), (env.features c)[i]? = some f → ¬ isSaved f → w i = none
  nothing : ∀ i : Nat, c ∉ g.cls o :: env.supers (g.cls o) ∨ (env.features c)[i]? = none → w i = none

theorem class_read [DecidableEq F] (hv : Valid env g opt objects classes) {st : St F} (h : Saved env g opt objects classes st)
    (contents : List Nat) {c : Nat} (hc : c ∈ st.created) (copies : List (Copy F)) (hlen : copies.length = st.objs.length)
    (hslot : ∀ (k : Nat) (x : Copy F), copies[k]? = some x → ∀ j : Nat, x.slot c j = none) :
    ∃ w : Nat → Nat → Option (Val Ref F), decodeClassFeatures env st.enums { st.db with contents := contents } c copies =
        some (upd (fun k c' j => if c' = c then w k j else none) copies) ∧
      ∀ k o : Nat, st.objs[k]? = some o → ReadOK env g st.objs k o c (w k) := by
  have htables : ∀ t ∈ tableNames env c, t ∈ st.db.tables := fun t ht => (h.inv.tables t).2 (Or.inr ⟨c, hc, ht⟩)
  have hT := decodeTables_spec env st.enums { st.db with contents := contents } c (env.features c) 0 (fun j => by simp) copies
    (fun f hf ht => htables _ (mem_tableNames.2 (Or.inr ⟨f, hf, ht, rfl⟩)))
    (fun f hf ht r hr => by rw [hlen]; exact h.inv.lists _ r hr)
    (by
      intro f hf ht r hr
      obtain ⟨i, hi⟩ := List.getElem?_of_mem hf
      have hmem : r ∈ itemsOf st (listTable env c f) r.1 := List.mem_filter.2 ⟨hr, by simp⟩
      rcases items_cases h hc hi ht r.1 with he | ⟨k, o, -, -, -, l, -, -, -, hl⟩
      · rw [he] at hmem
        simp at hmem
      · obtain ⟨e, -, e', d1, -⟩ := forall₂_right hl r hmem
        rw [hlen]
        exact ⟨e', d1⟩)
    (by
      intro f hf ht id
      obtain ⟨i, hi⟩ := List.getElem?_of_mem hf
      have hdef : ((st.db.lists (listTable env c f)).filter fun r => r.1 = id) = itemsOf st (listTable env c f) id := rfl
      simp only [hdef]
      rcases items_cases h hc hi ht id with he | ⟨k, o, -, -, -, l, -, hidx, -, -⟩
      · rw [he]; simp
      · rw [hidx]
        exact range_sorted _ _)
    (fun k x hx j _ => hslot k x hx j)
    (by
      intro f hf ht k
      obtain ⟨i, hi⟩ := List.getElem?_of_mem hf
      have hdef : ((st.db.lists (listTable env c f)).filter fun r => r.1 = k + 1) = itemsOf st (listTable env c f) (k + 1) := rfl
      simp only [hdef, hlen]
      rcases items_cases h hc hi ht (k + 1) with he | ⟨k', o, hk', ho, hm, l, hval, -, -, hl⟩
      · rw [he]; rfl
      · have hsame := vals_spec hl
        obtain ⟨hs, hmany⟩ := (isTable_iff f).1 ht
        have hfit := hv.slots o (h.inv.sub o (List.mem_of_getElem? ho)) c hm i f hi hs
        unfold Addable
        cases hu : (f.isReference || f.unique) with
        | false => rw [addAll_false, List.nil_append]
        | true =>
          have hn : l.Nodup := by
            unfold SlotFits at hfit
            split at hfit
            · rw [hval] at hfit
              exact hfit.1.2.1 (by simpa using hu)
            · have := hfit.1
              rw [hval] at this
              simp only [defaultVal, hmany, if_true, Val.list.injEq] at this
              subst this
              exact List.nodup_nil
          rw [addAll_spec _ _ _ (fun e _ => isDuplicate_false (by simp)) (same_distinct hsame hn), List.nil_append])
  simp only [Nat.zero_le, and_true] at hT
  rw [hlen] at hT
  -- the values of the lists
  have hlist : ∀ (k o i : Nat) (f : Feature F), st.objs[k]? = some o → c ∈ g.cls o :: env.supers (g.cls o) → (env.features c)[i]? = some f →
      (kindOf f).isTable = true → SameVal g st.objs k f (g.val o c i)
        ((tableVal env st.enums st.objs.length { st.db with contents := contents } c k i).getD (defaultVal f)) := by
    intro k o i f ho hm hf ht
    obtain ⟨l, hval, -, -, hl⟩ := ((h.all k o ho).done c hm).items i f hf ht
    have hsame := vals_spec hl
    have hmany := ((isTable_iff f).1 ht).2
    have hdef : ((st.db.lists (listTable env c f)).filter fun r => r.1 = k + 1) = itemsOf st (listTable env c f) (k + 1) := rfl
    simp only [tableVal, hf, ht, if_true, hdef, hval, listVal]
    split
    · rename_i he
      rw [he] at hsame
      simpa [defaultVal, hmany, SameVal] using hsame
    · simpa [SameVal] using hsame
  have hnolist : ∀ (k o i : Nat), st.objs[k]? = some o → c ∉ g.cls o :: env.supers (g.cls o) →
      tableVal env st.enums st.objs.length { st.db with contents := contents } c k i = none := by
    intro k o i ho hm
    simp only [tableVal]
    split
    · rfl
    · rename_i f hf
      split
      · rename_i ht
        have hdef : ((st.db.lists (listTable env c f)).filter fun r => r.1 = k + 1) = itemsOf st (listTable env c f) (k + 1) := rfl
        simp only [hdef, ((h.all k o ho).nothing c (h.inv.created c hc) hm).items i f hf ht]
        rfl
      · rfl
  have hnotable : ∀ (k i : Nat) (f : Feature F), (env.features c)[i]? = some f → (kindOf f).isTable = false →
      tableVal env st.enums st.objs.length { st.db with contents := contents } c k i = none := by
    intro k i f hf ht
    simp [tableVal, hf, ht]
  have hnofeature : ∀ (k i : Nat), (env.features c)[i]? = none →
      tableVal env st.enums st.objs.length { st.db with contents := contents } c k i = none := by
    intro k i hf
    simp [tableVal, hf]
  have hpos : ∀ (i : Nat) (f : Feature F), (env.features c)[i]? = some f → (i ∈ (columnFeatures 0 (env.features c)).map (·.1) ↔
      (kindOf f).isColumn = true) := by
    intro i f hf
    simp only [List.mem_map]
    constructor
    · rintro ⟨p, hp, rfl⟩
      obtain ⟨j, h1, h2, h3⟩ := (columnFeatures_mem _ _ _).1 hp
      rw [Nat.zero_add] at h1
      rw [h1, h2] at hf
      cases hf
      exact h3
    · intro hcol
      exact ⟨(i, f), (columnFeatures_mem _ _ _).2 ⟨i, by simp, hf, hcol⟩, rfl⟩
  have hpos' : ∀ i : Nat, (env.features c)[i]? = none → i ∉ (columnFeatures 0 (env.features c)).map (·.1) := by
    intro i hf hm
    obtain ⟨p, hp, rfl⟩ := List.mem_map.1 hm
    obtain ⟨j, h1, h2, h3⟩ := (columnFeatures_mem _ _ _).1 hp
    rw [Nat.zero_add] at h1
    rw [h1, h2] at hf
    cases hf
  -- the values of the columns
  obtain ⟨w, w1, w2, w3, w4⟩ : ∃ w : Nat → Nat → Option (Val Ref F),
      (decodeClassFeatures env st.enums { st.db with contents := contents } c copies =
        some (upd (fun k c' j => if c' = c then w k j else none)
          (upd (fun k c' j => if c' = c then tableVal env st.enums st.objs.length { st.db with contents := contents } c k j else none) copies))) ∧
      (∀ k o : Nat, st.objs[k]? = some o → c ∈ g.cls o :: env.supers (g.cls o) → ∀ (i : Nat) (f : Feature F), (env.features c)[i]? = some f →
        (kindOf f).isColumn = true → SameVal g st.objs k f (g.val o c i) ((w k i).getD (defaultVal f))) ∧
      (∀ k j : Nat, j ∉ (columnFeatures 0 (env.features c)).map (·.1) → w k j = none) ∧
      (∀ k o : Nat, st.objs[k]? = some o → c ∉ g.cls o :: env.supers (g.cls o) → ∀ j : Nat, w k j = none) := by
    simp only [decodeClassFeatures, hT, Option.bind_some]
    by_cases he : columnFeatures 0 (env.features c) = []
    · refine ⟨fun _ _ => none, ?_, ?_, fun _ _ _ => rfl, fun _ _ _ _ _ => rfl⟩
      · rw [if_pos he, upd_none (w := fun k c' j => if c' = c then none else none)]
        intros
        simp
      · intro k o _ _ i f hf hcol
        have := (hpos i f hf).2 hcol
        simp [he] at this
    · have htab : classTable env c ∈ st.db.tables := htables _ (mem_tableNames.2 (Or.inl rfl))
      obtain ⟨w, a1, a2, a3, a4⟩ := decodeClassRows_spec env st.enums c (columnFeatures 0 (env.features c)) (columnFeatures_nodup _ _)
        (st.db.rows (classTable env c))
        (upd (fun k c' j => if c' = c then tableVal env st.enums st.objs.length { st.db with contents := contents } c k j else none) copies)
        (by
          refine keys_nodup _ fun id => ?_
          have hdef : ((st.db.rows (classTable env c)).filter fun r => r.1 = id) = rowsOf st (classTable env c) id := rfl
          rw [hdef]
          rcases rows_cases h hc id with hr | ⟨k, o, cells, -, -, -, hr, -⟩ <;> rw [hr] <;> simp)
        (fun r hr => by rw [upd_length, hlen]; exact h.inv.rows _ r hr)
        (by
          intro r hr
          have hmem : r ∈ rowsOf st (classTable env c) r.1 := List.mem_filter.2 ⟨hr, by simp⟩
          rcases rows_cases h hc r.1 with he | ⟨k, o, cells, -, -, -, hr, hcol⟩
          · rw [he] at hmem
            simp at hmem
          · rw [hr] at hmem
            simp only [List.mem_singleton] at hmem
            rw [hmem, upd_length, hlen]
            exact hcol.imp fun _ _ ⟨r, h1, _⟩ => ⟨r, h1⟩)
      simp only [upd_length, hlen] at a2
      refine ⟨w, ?_, ?_, a3, ?_⟩
      · rw [if_neg he, if_neg (by simpa using htab)]
        exact a1
      · intro k o ho hm i f hf hcol
        obtain ⟨cells, r1, r2⟩ := ((h.all k o ho).done c hm).row
        have hin : (k + 1, cells) ∈ st.db.rows (classTable env c) := by
          have : (k + 1, cells) ∈ rowsOf st (classTable env c) (k + 1) := by rw [r1]; simp
          exact (List.mem_filter.1 this).1
        have hreads := a2 _ hin
        simp only [Nat.add_sub_cancel] at hreads
        obtain ⟨cell, -, ⟨v, v1, v2⟩, v', v3, v4⟩ := forall₂_left (forall₂_and hreads r2) (i, f)
          ((columnFeatures_mem _ _ _).2 ⟨i, by simp, hf, hcol⟩)
        simp only at v1 v2 v3 v4
        rw [v1] at v3
        cases v3
        rw [v2]
        exact v4
      · intro k o ho hm j
        refine a4 k j ?_
        intro r hr e
        have hmem : r ∈ rowsOf st (classTable env c) (k + 1) := List.mem_filter.2 ⟨hr, by simp [e]⟩
        rw [((h.all k o ho).nothing c (h.inv.created c hc) hm).row] at hmem
        simp at hmem
  refine ⟨fun k j => (w k j).or (tableVal env st.enums st.objs.length { st.db with contents := contents } c k j), ?_, ?_⟩
  · rw [w1, upd_upd]
    refine congrArg some (upd_congr ?_)
    intro k _ c' j
    by_cases hcc : c' = c <;> simp [hcc]
  · intro k o ho
    refine ⟨?_, ?_, ?_⟩
    · intro hm i f hf hs
      cases hcol : (kindOf f).isColumn with
      | true =>
        have hnt : (kindOf f).isTable = false := by
          cases hk : kindOf f <;> simp [hk, Kind.isColumn, Kind.isTable] at hcol ⊢
        simp only [hnotable k i f hf hnt, Option.or_none]
        exact w2 k o ho hm i f hf hcol
      | false =>
        have ht : (kindOf f).isTable = true := by
          rw [isTable_iff]
          refine ⟨hs, ?_⟩
          cases hmany : f.many with
          | true => rfl
          | false =>
            have := (isColumn_iff f).2 ⟨hs, hmany⟩
            rw [hcol] at this
            cases this
        have hno : w k i = none := w3 k i (by rw [hpos i f hf, hcol]; simp)
        simp only [hno, Option.none_or]
        exact hlist k o i f ho hm hf ht
    · intro i f hf hs
      have h1 : (kindOf f).isColumn = false := by
        cases hcol : (kindOf f).isColumn with
        | false => rfl
        | true => exact absurd ((isColumn_iff f).1 hcol).1 hs
      have h2 : (kindOf f).isTable = false := by
        cases hcol : (kindOf f).isTable with
        | false => rfl
        | true => exact absurd ((isTable_iff f).1 hcol).1 hs
      simp only [w3 k i (by rw [hpos i f hf, h1]; simp), hnotable k i f hf h2, Option.none_or]
    · rintro i (hm | hf)
      · simp only [w4 k o ho hm i, hnolist k o i ho hm, Option.none_or]
      · simp only [w3 k i (hpos' i hf), hnofeature k i hf, Option.none_or]

theorem all_read [DecidableEq F] (hv : Valid env g opt objects classes) {st : St F} (h : Saved env g opt objects classes st)
    (contents : List Nat) (cs : List Nat) (hnd : cs.Nodup) (hcs : ∀ c ∈ cs, c ∈ st.created) (copies : List (Copy F))
    (hlen : copies.length = st.objs.length)
    (hslot : ∀ (k : Nat) (x : Copy F), copies[k]? = some x → ∀ c ∈ cs, ∀ j : Nat, x.slot c j = none) :
    ∃ w : Nat → Nat → Nat → Option (Val Ref F), decodeAll env st.enums { st.db with contents := contents } cs copies = some (upd w copies) ∧
      (∀ k o : Nat, st.objs[k]? = some o → ∀ c ∈ cs, ReadOK env g st.objs k o c (w k c)) ∧ ∀ k c j : Nat, c ∉ cs → w k c j = none := by
  induction cs generalizing copies with
  | nil =>
    refine ⟨fun _ _ _ => none, ?_, by simp, fun _ _ _ _ => rfl⟩
    simp only [decodeAll]
    rw [upd_none]
    intros
    rfl
  | cons c cs ih =>
    obtain ⟨n1, n2⟩ := List.nodup_cons.1 hnd
    obtain ⟨w1, a1, a2⟩ := class_read hv h contents (hcs c (by simp)) copies hlen (fun k x hx => hslot k x hx c (by simp))
    obtain ⟨w2, b1, b2, b3⟩ := ih n2 (fun d hd => hcs d (by simp [hd])) (upd (fun k c' j => if c' = c then w1 k j else none) copies)
      (by simpa using hlen) (by
        intro k x hx d hd j
        rw [upd_get] at hx
        simp only [Option.map_eq_some_iff] at hx
        obtain ⟨y, hy, rfl⟩ := hx
        have : d ≠ c := by rintro rfl; exact n1 hd
        simp only [this, if_false, Option.none_or]
        exact hslot k y hy d (by simp [hd]) j)
    refine ⟨fun k c' j => if c' = c then w1 k j else w2 k c' j, ?_, ?_, ?_⟩
    · simp only [decodeAll, a1, Option.bind_some, b1, upd_upd]
      refine congrArg some (upd_congr ?_)
      intro k _ c' j
      by_cases hcc : c' = c
      · subst hcc
        simp [b3 k c' j n1]
      · simp [hcc]
    · intro k o ho d hd
      by_cases hdc : d = c
      · subst hdc
        simp only [if_true]
        exact a2 k o ho
      · simp only [hdc, if_false]
        exact b2 k o ho d (by simpa [hdc] using hd)
    · intro k d j hd
      simp only [List.mem_cons, not_or] at hd
      simp only [hd.1, if_false]
      exact b3 k d j hd.2

theorem foldl_dedup (l acc : List Nat) : (∀ c : Nat, c ∈ l.foldl (fun l c => if c ∈ l then l else l ++ [c]) acc ↔ c ∈ acc ∨ c ∈ l) ∧
    (acc.Nodup → (l.foldl (fun l c => if c ∈ l then l else l ++ [c]) acc).Nodup) := by
  induction l generalizing acc with
  | nil => simp
  | cons x l ih =>
    simp only [List.foldl_cons]
    split
    · rename_i h
      refine ⟨fun c => ?_, (ih acc).2⟩
      rw [(ih acc).1 c, List.mem_cons]
      constructor
      · rintro (h1 | h1)
        · exact Or.inl h1
        · exact Or.inr (Or.inr h1)
      · rintro (h1 | h1 | h1)
        · exact Or.inl h1
        · subst h1; exact Or.inl h
        · exact Or.inr h1
    · rename_i h
      refine ⟨fun c => ?_, fun hn => (ih _).2 ?_⟩
      · rw [(ih _).1 c]
        simp only [List.mem_append, List.mem_cons, List.not_mem_nil, or_false, or_assoc]
      · rw [List.nodup_append]
        refine ⟨hn, by simp, ?_⟩
        intro a ha b hb
        simp only [List.mem_singleton] at hb
        subst hb
        rintro rfl
        exact h ha

theorem withSupers_mem (cs : List Nat) (c : Nat) : c ∈ withSupers env cs ↔ ∃ d ∈ cs, c ∈ d :: env.supers d := by
  unfold withSupers
  rw [(foldl_dedup _ []).1 c]
  simp [List.mem_flatMap]

theorem withSupers_nodup (cs : List Nat) : (withSupers env cs).Nodup := (foldl_dedup _ []).2 List.nodup_nil

/-! ### Packages, classes, objects -/

theorem mapM_forall₂ {α β : Type} (f : β → Option α) {a : List α} {b : List β} (h : List.Forall₂ (fun x y => f y = some x) a b) :
    b.mapM f = some a := by
  induction h with
  | nil => rfl
  | cons h1 _ ih => simp [h1, ih]

theorem packages_read {st : St F} (h : Inv env objects classes st) (contents : List Nat) :
    decodePackages env { st.db with contents := contents } = some st.pkgs := by
  unfold decodePackages
  refine mapM_forall₂ _ ?_
  simp only [h.pkgs]
  have := h.pkgReg
  generalize st.pkgs = l at this
  induction l with
  | nil => exact .nil
  | cons p l ih => exact .cons (this p (by simp)) (ih fun q hq => this q (by simp [hq]))

theorem enums_read {st : St F} (h : Inv env objects classes st) (contents : List Nat) :
    decodeEnums env st.pkgs { st.db with contents := contents } = some st.enums := by
  unfold decodeEnums
  refine mapM_forall₂ _ (forall₂_imp_mem h.enumRows ?_)
  rintro x hx y ⟨h1, h2⟩
  obtain ⟨f1, f2⟩ := h.enumFound x hx
  simp [h1, h2, f1, f2]

theorem classes_read {st : St F} (h : Inv env objects classes st) (contents : List Nat) :
    decodeClasses env st.pkgs { st.db with contents := contents } = some st.classes := by
  unfold decodeClasses
  refine mapM_forall₂ _ (forall₂_imp_mem h.clsRows ?_)
  rintro x hx y ⟨h1, h2⟩
  simp [h1, h2, h.clsFound x hx]

/-- the ID of an object -/
def idOf (g : Graph F) (opt : Opt) (k o : Nat) : Option Nat :=
  match opt.ids with
  | .no => none
  | .column => g.id o
  | .key => some (k + 1)

theorem objects_read (db : DB F) (cs : List Nat) (objs : List Nat) (rows : List Row) (k : Nat) (hl : objs.length = rows.length)
    (h : ∀ (j o : Nat) (row : Row), objs[j]? = some o → rows[j]? = some row →
      get cs row.cls = some (g.cls o) ∧ decodeID env db row (k + 1 + j) = some (idOf g opt (k + j) o)) :
    ∃ copies : List (Copy F), decodeObjects env db cs (k + 1) rows = some copies ∧ copies.length = objs.length ∧
      ∀ (j : Nat) (o : Nat), objs[j]? = some o → copies[j]? = some { cls := g.cls o, id := idOf g opt (k + j) o } := by
  induction rows generalizing objs k with
  | nil =>
    have : objs = [] := List.length_eq_zero_iff.1 (by simpa using hl)
    subst this
    exact ⟨[], rfl, rfl, by simp⟩
  | cons row rows ih =>
    cases objs with
    | nil => simp at hl
    | cons o objs =>
      obtain ⟨h1, h2⟩ := h 0 o row rfl rfl
      obtain ⟨copies, c1, c2, c3⟩ := ih objs (k + 1) (by simpa using hl) (by
        intro j o' row' ho hr
        have := h (j + 1) o' row' (by simpa using ho) (by simpa using hr)
        rw [show k + 1 + 1 + j = k + 1 + (j + 1) by omega, show k + 1 + j = k + (j + 1) by omega]
        exact this)
      refine ⟨{ cls := g.cls o, id := idOf g opt k o } :: copies, ?_, by simp [c2], ?_⟩
      · simp only [decodeObjects, h1, Option.bind_some, show decodeID env db row (k + 1) = some (idOf g opt k o) from h2, c1, Option.map_some]
      · intro j o' ho
        cases j with
        | zero =>
          simp only [List.getElem?_cons_zero, Option.some.injEq] at ho ⊢
          subst ho
          rfl
        | succ j =>
          simp only [List.getElem?_cons_succ] at ho ⊢
          rw [c3 j o' ho, show k + 1 + j = k + (j + 1) by omega]

theorem empty_inv (opt : Opt) : Inv env objects classes { db := ({ hasIDs := opt.ids, hasContainers := opt.containers } : DB F) } where
  once := by simp
  sub := by simp
  size := rfl
  pkgs := rfl
  pkgReg := by simp
  clsRows := .nil
  clsFound := by simp
  clsCreated := by simp
  enumRows := .nil
  enumFound := by simp
  tables := by simp
  created := by simp
  rows := by simp
  lists := by simp

/-- what is read from what was saved -/
theorem saved_read [DecidableEq F] (hv : Valid env g opt objects classes) {st : St F} (h : Saved env g opt objects classes st)
    (hids : st.db.hasIDs = opt.ids ∧ st.db.hasContainers = opt.containers) (contents : List Nat)
    (hcont : ∀ id ∈ contents, 1 ≤ id ∧ id ≤ st.objs.length) (order : List Nat → List Nat) (ho : ∀ l : List Nat, (order l).Perm l) :
    ∃ copies : List (Copy F), decodeResource env order { st.db with contents := contents } = some (copies, contents.map (· - 1)) ∧
      copies.length = st.objs.length ∧
      ∀ (k o : Nat) (x : Copy F), st.objs[k]? = some o → copies[k]? = some x → FullCopy env g opt st.objs k o x := by
  obtain ⟨copies, c1, c2, c3⟩ := objects_read (env := env) (g := g) (opt := opt) { st.db with contents := contents } st.classes st.objs
    st.db.objects 0 h.inv.size.symm (by
      intro j o row ho hr
      obtain ⟨cls, cont, r1, r2⟩ := (h.all j o ho).row
      rw [hr] at r1
      cases r1
      refine ⟨r2, ?_⟩
      simp only [decodeID, hids.1, hids.2, idOf, objectRow]
      cases hi : opt.ids with
      | no => rfl
      | key => simp only; rw [show 0 + 1 + j = 0 + j + 1 by omega]
      | column =>
        obtain ⟨i1, i2⟩ := hv.ids hi
        obtain ⟨n, n1, n2⟩ := i2 o (h.inv.sub o (List.mem_of_getElem? ho))
        simp [i1, n1, n2])
  have hmem : ∀ c : Nat, c ∈ order (withSupers env st.classes) ↔ ∃ d ∈ st.classes, c ∈ d :: env.supers d := by
    intro c
    rw [(ho _).mem_iff, withSupers_mem]
  obtain ⟨w, w1, w2, w3⟩ := all_read hv h contents (order (withSupers env st.classes)) ((ho _).nodup_iff.2 (withSupers_nodup _)) (by
    intro c hc
    obtain ⟨d, hd, hcd⟩ := (hmem c).1 hc
    exact h.inv.clsCreated d hd c hcd) copies c2 (by
      intro k x hx c _ j
      obtain ⟨o, ho⟩ : ∃ o : Nat, st.objs[k]? = some o := ⟨st.objs[k]'(by rw [← c2]; exact lt_of_get hx), by simp [← c2, lt_of_get hx]⟩
      rw [c3 k o ho] at hx
      cases hx
      rfl)
  refine ⟨upd w copies, ?_, by simpa using c2, ?_⟩
  · simp only [decodeResource, packages_read h.inv, enums_read h.inv, classes_read h.inv, Option.bind_some]
    rw [show (1 : Nat) = 0 + 1 from rfl, c1]
    simp only [Option.bind_some, w1, upd_length, c2]
    have : contents.mapM (fun id => if 1 ≤ id ∧ id ≤ st.objs.length then some (id - 1) else none) = some (contents.map (· - 1)) := by
      refine mapM_forall₂ _ ?_
      generalize contents = l at hcont
      induction l with
      | nil => exact .nil
      | cons a l ih =>
        refine .cons ?_ (ih fun x hx => hcont x (by simp [hx]))
        simp [hcont a (by simp)]
    rw [show (fun id => if 0 + 1 ≤ id ∧ id ≤ st.objs.length then some (id - 1) else none) =
      fun id => if 1 ≤ id ∧ id ≤ st.objs.length then some (id - 1) else none from rfl, this]
    rfl
  · intro k o x hk hx
    rw [upd_get, c3 k o hk] at hx
    simp only [Option.map_some, Option.some.injEq, Option.or_none] at hx
    subst hx
    have hcls : g.cls o ∈ st.classes := by
      obtain ⟨cls, -, -, r2⟩ := (h.all k o hk).row
      unfold get at r2
      split at r2
      · simp at r2
      · exact List.mem_of_getElem? r2
    have hin : ∀ c ∈ g.cls o :: env.supers (g.cls o), c ∈ order (withSupers env st.classes) := fun c hc => (hmem c).2 ⟨_, hcls, hc⟩
    refine ⟨rfl, hv.proxy o (h.inv.sub o (List.mem_of_getElem? hk)), ?_, ?_, ?_, ?_⟩
    · simp only [idOf, Nat.zero_add]
      cases opt.ids <;> rfl
    · intro c hc i f hf hs
      exact (w2 k o hk c (hin c hc)).kept hc i f hf hs
    · intro c hc i f hf hs
      exact (w2 k o hk c (hin c hc)).dropped i f hf hs
    · intro c i hor
      by_cases hc : c ∈ order (withSupers env st.classes)
      · exact (w2 k o hk c hc).nothing i hor
      · exact w3 k c i hc

end Verif.SQLCodec
