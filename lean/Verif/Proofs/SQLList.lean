import Verif.Spec.SQLList

/-!
# The table refines sequences
-/

namespace Verif.SQLList

variable {V : Type}

/-! ## Order -/

theorem insertRow_perm (r : Row V) (l : List (Row V)) : (insertRow r l).Perm (r :: l) := by
  induction l with
  | nil => exact .refl _
  | cons x xs ih =>
    simp only [insertRow]
    split
    · exact .refl _
    · exact (ih.cons x).trans (.swap _ _ _)

theorem orderBy_perm (l : List (Row V)) : (orderBy l).Perm l := by
  induction l with
  | nil => exact .refl _
  | cons x xs ih => exact (insertRow_perm x _).trans (ih.cons x)

theorem insertRow_sorted (r : Row V) (l : List (Row V)) (h : l.Pairwise (·.idx ≤ ·.idx)) :
    (insertRow r l).Pairwise (·.idx ≤ ·.idx) := by
  induction l with
  | nil => simp [insertRow]
  | cons x xs ih =>
    rw [List.pairwise_cons] at h
    simp only [insertRow]
    split
    · rename_i hle
      rw [List.pairwise_cons]
      refine ⟨fun y hy => ?_, List.pairwise_cons.2 h⟩
      rcases List.mem_cons.1 hy with rfl | hy
      · exact hle
      · exact Rat.le_trans hle (h.1 y hy)
    · rename_i hle
      rw [List.pairwise_cons]
      refine ⟨fun y hy => ?_, ih h.2⟩
      rcases List.mem_cons.1 ((insertRow_perm r xs).mem_iff.1 hy) with rfl | hy
      · exact (Rat.le_total).resolve_left hle
      · exact h.1 y hy

theorem orderBy_sorted (l : List (Row V)) : (orderBy l).Pairwise (·.idx ≤ ·.idx) := by
  induction l with
  | nil => exact .nil
  | cons x xs ih => exact insertRow_sorted x _ ih

theorem pairwise_or {α : Type} {R : α → α → Prop} {l : List α} (h : l.Pairwise R) {a b : α} (ha : a ∈ l) (hb : b ∈ l)
    (e : a ≠ b) : R a b ∨ R b a := by
  induction l with
  | nil => cases ha
  | cons x xs ih =>
    rw [List.pairwise_cons] at h
    rcases List.mem_cons.1 ha with rfl | ha
    · rcases List.mem_cons.1 hb with rfl | hb
      · exact absurd rfl e
      · exact .inl (h.1 b hb)
    · rcases List.mem_cons.1 hb with e' | hb
      · rw [e']; exact .inr (h.1 a ha)
      · exact ih h.2 ha hb

/-- the only strictly sorted arrangement of the rows of an object is the one selected -/
theorem select_unique {rows L : List (Row V)} {o : Nat} (hp : L.Perm (rows.filter (·.obj = o)))
    (hs : L.Pairwise (·.idx < ·.idx)) : select rows o = L := by
  refine List.Perm.eq_of_pairwise (le := fun a b => a.idx ≤ b.idx) ?_ (orderBy_sorted _)
    (hs.imp Rat.le_of_lt) ((orderBy_perm _).trans hp.symm)
  intro a b ha hb hab hba
  have ha' : a ∈ L := hp.mem_iff.2 ((orderBy_perm _).mem_iff.1 ha)
  by_cases e : a = b
  · exact e
  · exfalso
    rcases pairwise_or hs ha' hb e with h | h
    · exact absurd hba (Rat.not_le.2 h)
    · exact absurd hab (Rat.not_le.2 h)

/-! ## Good tables -/

/-- row IDs are unique, the rows of each object have different numbers, all positive -/
structure Good (rows : List (Row V)) : Prop where
  ids : (rows.map (·.rowid)).Nodup
  sorted : ∀ o, (select rows o).Pairwise (·.idx < ·.idx)
  pos : ∀ r ∈ rows, 0 < r.idx

theorem mem_select {rows : List (Row V)} {o : Nat} {r : Row V} : r ∈ select rows o ↔ r ∈ rows ∧ r.obj = o := by
  rw [select, (orderBy_perm _).mem_iff, List.mem_filter]; simp

theorem select_perm (rows : List (Row V)) (o : Nat) : (select rows o).Perm (rows.filter (·.obj = o)) := orderBy_perm _

theorem fresh_gt {rows : List (Row V)} {r : Row V} (h : r ∈ rows) : r.rowid < fresh rows := by
  unfold fresh
  induction rows with
  | nil => cases h
  | cons x xs ih =>
    simp only [List.foldr_cons]
    rcases List.mem_cons.1 h with rfl | h
    · omega
    · have := ih h; omega

/-- New numbers `ks` fit between the rows at index `i`. -/
def Fits (S : List (Row V)) (i : Nat) (ks : List Rat) : Prop :=
  ((S.take i).map (·.idx) ++ ks ++ (S.drop i).map (·.idx)).Pairwise (· < ·) ∧ ∀ k ∈ ks, 0 < k

theorem pairwise_idx {L : List (Row V)} : L.Pairwise (·.idx < ·.idx) ↔ (L.map (·.idx)).Pairwise (· < ·) := by
  rw [List.pairwise_map]

/-! ### Insertion -/

/-- the numbers given to the values of a bulk insertion -/
def keys (fl : Rat → Rat) (idx inc : Rat) : Nat → List Rat
  | 0 => []
  | n + 1 => idx :: keys fl (fl (idx + inc)) inc n

theorem insertAll_eq (fl : Rat → Rat) (o : Nat) (inc : Rat) (vs : List V) : ∀ (rows : List (Row V)) (idx : Rat),
    ∃ news : List (Row V), insertAll fl rows o idx inc vs = rows ++ news ∧ news.map (·.value) = vs ∧
      news.map (·.idx) = keys fl idx inc vs.length ∧ (∀ r ∈ news, r.obj = o) ∧
      ((rows.map (·.rowid)).Nodup → ((rows ++ news).map (·.rowid)).Nodup) := by
  induction vs with
  | nil => intro rows idx; exact ⟨[], by simp [insertAll], rfl, rfl, by simp, by simp⟩
  | cons v vs ih =>
    intro rows idx
    obtain ⟨news, h1, h2, h3, h4, h5⟩ := ih (insert rows o idx v) (fl (idx + inc))
    refine ⟨⟨fresh rows, o, idx, v⟩ :: news, ?_, by simp [h2], by simp [h3, keys], ?_, ?_⟩
    · rw [insertAll, h1, insert, List.append_assoc]; rfl
    · intro r hr
      rcases List.mem_cons.1 hr with rfl | hr
      · rfl
      · exact h4 r hr
    · intro hn
      have : (List.map (·.rowid) (insert rows o idx v)).Nodup := by
        rw [insert, List.map_append, List.nodup_append]
        refine ⟨hn, by simp, ?_⟩
        intro a ha b hb
        simp only [List.map_cons, List.map_nil, List.mem_singleton] at hb
        obtain ⟨r, hr, rfl⟩ := List.mem_map.1 ha
        have := fresh_gt hr
        omega
      have := h5 this
      rw [insert, List.append_assoc] at this
      exact this

/-- insertion of rows whose numbers fit -/
theorem good_append {rows news : List (Row V)} {o i : Nat} (hg : Good rows) (hobj : ∀ r ∈ news, r.obj = o)
    (hid : ((rows ++ news).map (·.rowid)).Nodup) (hf : Fits (select rows o) i (news.map (·.idx))) :
    Good (rows ++ news) ∧ select (rows ++ news) o = (select rows o).take i ++ news ++ (select rows o).drop i ∧
      ∀ o', o' ≠ o → select (rows ++ news) o' = select rows o' := by
  have h1 : select (rows ++ news) o = (select rows o).take i ++ news ++ (select rows o).drop i := by
    apply select_unique
    · rw [List.filter_append]
      have : news.filter (·.obj = o) = news := List.filter_eq_self.2 (by simpa using hobj)
      rw [this]
      have hp := select_perm rows o
      refine List.Perm.trans ?_ (List.Perm.append_right news hp)
      conv => rhs; rw [← List.take_append_drop i (select rows o)]
      rw [List.append_assoc, List.append_assoc]
      exact List.Perm.append_left _ List.perm_append_comm
    · rw [pairwise_idx]
      simpa using hf.1
  have h2 : ∀ o', o' ≠ o → select (rows ++ news) o' = select rows o' := by
    intro o' ho
    unfold select
    rw [List.filter_append]
    have : news.filter (·.obj = o') = [] := by
      rw [List.filter_eq_nil_iff]
      intro r hr
      simp only [decide_eq_true_eq, hobj r hr]
      exact fun e => ho e.symm
    rw [this, List.append_nil]
  refine ⟨⟨hid, ?_, ?_⟩, h1, h2⟩
  · intro o'
    by_cases e : o' = o
    · subst e; rw [h1, pairwise_idx]; simpa using hf.1
    · rw [h2 o' e]; exact hg.sorted o'
  · intro r hr
    rcases List.mem_append.1 hr with hr | hr
    · exact hg.pos r hr
    · exact hf.2 _ (List.mem_map_of_mem hr)

/-! ### Rows by their ID -/

theorem nodup_select {rows : List (Row V)} (hg : Good rows) (o : Nat) : ((select rows o).map (·.rowid)).Nodup := by
  refine ((select_perm rows o).map _).nodup_iff.2 ?_
  exact hg.ids.sublist (List.Sublist.map _ List.filter_sublist)

theorem map_update {S : List (Row V)} (hn : (S.map (·.rowid)).Nodup) {i : Nat} {r : Row V} (h : S[i]? = some r) (f : Row V → Row V) :
    update S r.rowid f = S.set i (f r) := by
  unfold update
  apply List.ext_getElem?
  intro j
  rw [List.getElem?_map, List.getElem?_set]
  by_cases e : i = j
  · subst e
    have : i < S.length := by grind
    rw [h]; simp [this]
  · rw [if_neg e]
    cases hj : S[j]? with
    | none => rfl
    | some x =>
      simp only [Option.map_some]
      have : x.rowid ≠ r.rowid := by
        intro hx
        apply e
        have hi' : (S.map (·.rowid))[i]? = some r.rowid := by simp [h]
        have hj' : (S.map (·.rowid))[j]? = some r.rowid := by simp [hj, hx]
        exact (List.getElem?_inj (by grind) hn).1 (hi'.trans hj'.symm)
      rw [if_neg this]

theorem filter_erase {S : List (Row V)} (hn : (S.map (·.rowid)).Nodup) {i : Nat} {r : Row V} (h : S[i]? = some r) :
    S.filter (fun x => x.rowid ≠ r.rowid) = S.eraseIdx i := by
  induction S generalizing i with
  | nil => cases h
  | cons x xs ih =>
    rw [List.map_cons, List.nodup_cons] at hn
    cases i with
    | zero =>
      simp only [List.getElem?_cons_zero, Option.some.injEq] at h
      subst h
      rw [List.filter_cons_of_neg (by simp), List.eraseIdx_cons_zero]
      rw [List.filter_eq_self]
      intro y hy
      simp only [ne_eq, decide_eq_true_eq]
      intro e
      exact hn.1 (e ▸ List.mem_map_of_mem hy)
    | succ i =>
      simp only [List.getElem?_cons_succ] at h
      have hr : r ∈ xs := List.mem_of_getElem? h
      have : x.rowid ≠ r.rowid := fun e => hn.1 (e ▸ List.mem_map_of_mem hr)
      rw [List.filter_cons_of_pos (by simpa using this), List.eraseIdx_cons_succ, ih hn.2 h]

/-- a row of another object has another ID -/
theorem other_id {rows : List (Row V)} (hg : Good rows) {r x : Row V} (hr : r ∈ rows) (hx : x ∈ rows) (h : x.obj ≠ r.obj) :
    x.rowid ≠ r.rowid := by
  intro e
  rcases pairwise_or (List.pairwise_map.1 hg.ids) hr hx (fun e' => h (by rw [e'])) with h' | h'
  · exact h' e.symm
  · exact h' e

/-! ### Removal -/

theorem good_remove {rows : List (Row V)} {o i : Nat} {r : Row V} (hg : Good rows) (h : (select rows o)[i]? = some r) :
    Good (rows.filter (fun x => x.rowid ≠ r.rowid)) ∧
    select (rows.filter (fun x => x.rowid ≠ r.rowid)) o = (select rows o).eraseIdx i ∧
    ∀ o', o' ≠ o → select (rows.filter (fun x => x.rowid ≠ r.rowid)) o' = select rows o' := by
  have hr := mem_select.1 (List.mem_of_getElem? h)
  have h1 : select (rows.filter (fun x => x.rowid ≠ r.rowid)) o = (select rows o).eraseIdx i := by
    apply select_unique
    · rw [← filter_erase (nodup_select hg o) h]
      refine List.Perm.trans ((select_perm rows o).filter _) ?_
      rw [List.filter_filter, List.filter_filter]
      have : (fun a : Row V => decide (a.rowid ≠ r.rowid) && decide (a.obj = o)) = (fun a => decide (a.obj = o) && decide (a.rowid ≠ r.rowid)) := by
        funext a; exact Bool.and_comm _ _
      rw [this]
    · exact (hg.sorted o).sublist (List.eraseIdx_sublist ..)
  have h2 : ∀ o', o' ≠ o → select (rows.filter (fun x => x.rowid ≠ r.rowid)) o' = select rows o' := by
    intro o' ho
    unfold select
    rw [List.filter_filter]
    congr 1
    apply List.filter_congr
    intro x hx
    by_cases e : x.obj = o'
    · have := other_id hg hr.1 hx (by rw [e, hr.2]; exact ho)
      simp [e, this]
    · simp [e]
  refine ⟨⟨?_, ?_, ?_⟩, h1, h2⟩
  · exact hg.ids.sublist (List.Sublist.map _ List.filter_sublist)
  · intro o'
    by_cases e : o' = o
    · subst e; rw [h1]; exact (hg.sorted o').sublist (List.eraseIdx_sublist ..)
    · rw [h2 o' e]; exact hg.sorted o'
  · intro x hx
    exact hg.pos x (List.mem_filter.1 hx).1

/-! ### Update -/

theorem filter_update {rows : List (Row V)} {o : Nat} {id : Nat} {f : Row V → Row V} (hf : ∀ r, (f r).obj = r.obj) :
    (update rows id f).filter (·.obj = o) = update (rows.filter (·.obj = o)) id f := by
  unfold update
  rw [List.filter_map]
  congr 1
  apply List.filter_congr
  intro x _
  simp only [Function.comp_apply]
  split <;> simp [hf]

theorem update_perm {L L' : List (Row V)} (id : Nat) (f : Row V → Row V) (h : L.Perm L') : (update L id f).Perm (update L' id f) := h.map _

theorem good_update {rows : List (Row V)} {o i : Nat} {r : Row V} (hg : Good rows) (h : (select rows o)[i]? = some r)
    {f : Row V → Row V} (hobj : ∀ r, (f r).obj = r.obj) (hid : ∀ r, (f r).rowid = r.rowid) (hpos : 0 < (f r).idx) {L : List (Row V)}
    (hL : L.Perm ((select rows o).set i (f r))) (hs : L.Pairwise (·.idx < ·.idx)) :
    Good (update rows r.rowid f) ∧ select (update rows r.rowid f) o = L ∧
    ∀ o', o' ≠ o → select (update rows r.rowid f) o' = select rows o' := by
  have hr := mem_select.1 (List.mem_of_getElem? h)
  have h1 : select (update rows r.rowid f) o = L := by
    apply select_unique _ hs
    rw [filter_update hobj]
    refine hL.trans ?_
    rw [← map_update (nodup_select hg o) h]
    exact update_perm _ _ (select_perm rows o)
  have h2 : ∀ o', o' ≠ o → select (update rows r.rowid f) o' = select rows o' := by
    intro o' ho
    unfold select
    rw [filter_update hobj]
    congr 1
    unfold update
    conv => rhs; rw [← List.map_id (rows.filter (·.obj = o'))]
    apply List.map_congr_left
    intro x hx
    rw [List.mem_filter] at hx
    have e : x.obj = o' := by simpa using hx.2
    rw [if_neg (other_id hg hr.1 hx.1 (by rw [e, hr.2]; exact ho))]
    rfl
  refine ⟨⟨?_, ?_, ?_⟩, h1, h2⟩
  · have : (update rows r.rowid f).map (·.rowid) = rows.map (·.rowid) := by
      unfold update
      rw [List.map_map]
      apply List.map_congr_left
      intro x _
      simp only [Function.comp_apply]
      split <;> simp [hid]
    rw [this]; exact hg.ids
  · intro o'
    by_cases e : o' = o
    · subst e; rw [h1]; exact hs
    · rw [h2 o' e]; exact hg.sorted o'
  · intro x hx
    unfold update at hx
    obtain ⟨y, hy, rfl⟩ := List.mem_map.1 hx
    split
    · rename_i e
      have : y = r := by
        by_cases e' : y = r
        · exact e'
        · rcases pairwise_or (List.pairwise_map.1 hg.ids) hy hr.1 e' with h' | h'
          · exact absurd e h'
          · exact absurd e.symm h'
      rw [this]; exact hpos
    · exact hg.pos y hy

/-! ### Clear -/

theorem good_clear {rows : List (Row V)} (o : Nat) (hg : Good rows) :
    Good (rows.filter (fun x => x.obj ≠ o)) ∧ select (rows.filter (fun x => x.obj ≠ o)) o = [] ∧
    ∀ o', o' ≠ o → select (rows.filter (fun x => x.obj ≠ o)) o' = select rows o' := by
  have h1 : select (rows.filter (fun x => x.obj ≠ o)) o = [] := by
    apply select_unique
    · rw [List.filter_filter]
      have : rows.filter (fun a => decide (a.obj = o) && decide (a.obj ≠ o)) = [] := by
        rw [List.filter_eq_nil_iff]; intro x _; simp
      rw [this]
    · exact .nil
  have h2 : ∀ o', o' ≠ o → select (rows.filter (fun x => x.obj ≠ o)) o' = select rows o' := by
    intro o' ho
    unfold select
    rw [List.filter_filter]
    congr 1
    apply List.filter_congr
    intro x _
    by_cases e : x.obj = o'
    · simp [e, ho]
    · simp [e]
  refine ⟨⟨hg.ids.sublist (List.Sublist.map _ List.filter_sublist), ?_, fun x hx => hg.pos x (List.mem_filter.1 hx).1⟩, h1, h2⟩
  intro o'
  by_cases e : o' = o
  · subst e; rw [h1]; exact .nil
  · rw [h2 o' e]; exact hg.sorted o'

/-! ### Searching -/

theorem count_lt {S : List (Row V)} (hs : S.Pairwise (·.idx < ·.idx)) {j : Nat} {r : Row V} (h : S[j]? = some r) :
    (S.filter (·.idx < r.idx)).length = j := by
  induction S generalizing j with
  | nil => cases h
  | cons x xs ih =>
    rw [List.pairwise_cons] at hs
    cases j with
    | zero =>
      simp only [List.getElem?_cons_zero, Option.some.injEq] at h
      subst h
      rw [List.length_eq_zero_iff, List.filter_eq_nil_iff]
      intro y hy
      simp only [decide_eq_true_eq]
      rcases List.mem_cons.1 hy with rfl | hy
      · exact Rat.lt_irrefl
      · exact fun h => absurd h (Rat.not_lt.2 (Rat.le_of_lt (hs.1 y hy)))
    | succ j =>
      simp only [List.getElem?_cons_succ] at h
      rw [List.filter_cons_of_pos (by simpa using hs.1 r (List.mem_of_getElem? h)), List.length_cons, ih hs.2 h]

theorem toListIndex_some {rows : List (Row V)} (hg : Good rows) {o j : Nat} {r : Row V} (h : (select rows o)[j]? = some r) :
    toListIndex rows o (some r) = j := by
  unfold toListIndex
  have hp := hg.pos r (mem_select.1 (List.mem_of_getElem? h)).1
  have hne : ¬ r.idx = -1 := by
    intro e
    rw [e] at hp
    exact absurd hp (by decide)
  simp only [if_neg hne]
  rw [((select_perm rows o).filter _).length_eq.symm, count_lt (hg.sorted o) h]

variable [DecidableEq V]

theorem firstIdx_spec (v : V) (S : List (Row V)) :
    (firstIdx v (S.map (·.value)) = -1 ∧ S.find? (·.value = v) = none) ∨
    ∃ (j : Nat) (r : Row V), firstIdx v (S.map (·.value)) = j ∧ S.find? (·.value = v) = some r ∧ S[j]? = some r := by
  induction S with
  | nil => exact .inl ⟨rfl, rfl⟩
  | cons x xs ih =>
    simp only [List.map_cons, firstIdx]
    by_cases e : x.value = v
    · rw [if_pos e]
      exact .inr ⟨0, x, rfl, by simp [e], rfl⟩
    · rw [if_neg e, List.find?_cons_of_neg (by simpa using e)]
      rcases ih with ⟨h1, h2⟩ | ⟨j, r, h1, h2, h3⟩
      · exact .inl ⟨by simp [h1], h2⟩
      · exact .inr ⟨j + 1, r, by rw [h1, if_pos (by omega)]; omega, h2, by simpa using h3⟩

theorem lastIdx_spec (v : V) (S : List (Row V)) :
    (lastIdx v (S.map (·.value)) = -1 ∧ S.reverse.find? (·.value = v) = none) ∨
    ∃ (j : Nat) (r : Row V), lastIdx v (S.map (·.value)) = j ∧ S.reverse.find? (·.value = v) = some r ∧ S[j]? = some r := by
  induction S with
  | nil => exact .inl ⟨rfl, rfl⟩
  | cons x xs ih =>
    simp only [List.map_cons, lastIdx, List.reverse_cons, List.find?_append]
    rcases ih with ⟨h1, h2⟩ | ⟨j, r, h1, h2, h3⟩
    · rw [h1, h2]
      by_cases e : x.value = v
      · exact .inr ⟨0, x, by simp [e], by simp [e], rfl⟩
      · exact .inl ⟨by simp [e], by simp [e]⟩
    · rw [h1, h2]
      exact .inr ⟨j + 1, r, by rw [if_pos (by omega)]; omega, rfl, by simpa using h3⟩

theorem map_eraseIdx {α β : Type} (f : α → β) (l : List α) (i : Nat) : (l.eraseIdx i).map f = (l.map f).eraseIdx i := by
  apply List.ext_getElem?
  intro j
  simp only [List.getElem?_map, List.getElem?_eraseIdx]
  split <;> rfl

/-! ## One operation -/

/-- The numbers computed for inserted and moved rows fit. -/
def Room (fl : Rat → Rat) (rows : List (Row V)) : Op V → Prop
  | .add o i _ => ∃ k inc, getInsertIdx fl rows o i 1 = some (k, inc) ∧ Fits (select rows o) i [k]
  | .addAll o i vs => ∃ k inc, getInsertIdx fl rows o i vs.length = some (k, inc) ∧
      Fits (select rows o) i (keys fl k inc vs.length)
  | .move o s t => ∃ k inc, getInsertIdx fl rows o (if t > s then t + 1 else t) 1 = some (k, inc) ∧
      Fits ((select rows o).eraseIdx s) t [k]
  | _ => True

theorem contents_put {rows rows' : List (Row V)} {o : Nat} {l : List V} (h1 : (select rows' o).map (·.value) = l)
    (h2 : ∀ o', o' ≠ o → select rows' o' = select rows o') : contents rows' = put (contents rows) o l := by
  funext o'
  by_cases e : o' = o
  · subst e; simp [contents, put, h1]
  · simp [contents, put, e, h2 o' e]

theorem length_contents (rows : List (Row V)) (o : Nat) : (contents rows o).length = (select rows o).length := by
  simp [contents]

theorem step_spec (fl : Rat → Rat) {rows : List (Row V)} (hg : Good rows) (op : Op V) (hv : Valid (contents rows) op)
    (hr : Room fl rows op) :
    Good (step fl rows op).1 ∧ contents (step fl rows op).1 = (specStep (contents rows) op).1 ∧
      (step fl rows op).2 = (specStep (contents rows) op).2 := by
  cases op with
  | add o i v =>
    obtain ⟨k, inc, h1, h2⟩ := hr
    simp only [step, h1, specStep]
    obtain ⟨news, e1, e2, e3, e4, e5⟩ := insertAll_eq fl o inc [v] rows k
    have e0 : insert rows o k v = rows ++ news := e1
    rw [e0]
    obtain ⟨g1, g2, g3⟩ := good_append hg e4 (e5 hg.ids) (i := i) (by rw [e3]; exact h2)
    refine ⟨g1, contents_put ?_ g3, by trivial⟩
    rw [g2]; simp [contents, e2]
  | addAll o i vs =>
    obtain ⟨k, inc, h1, h2⟩ := hr
    simp only [step, h1, specStep]
    obtain ⟨news, e1, e2, e3, e4, e5⟩ := insertAll_eq fl o inc vs rows k
    rw [e1]
    obtain ⟨g1, g2, g3⟩ := good_append hg e4 (e5 hg.ids) (i := i) (by rw [e3]; exact h2)
    refine ⟨g1, contents_put ?_ g3, by trivial⟩
    rw [g2]; simp [contents, e2]
  | remove o i =>
    simp only [Valid, length_contents] at hv
    have h : (select rows o)[i]? = some (select rows o)[i] := List.getElem?_eq_getElem hv
    simp only [step, rowAt, h, specStep]
    obtain ⟨g1, g2, g3⟩ := good_remove hg h
    refine ⟨g1, contents_put ?_ g3, ?_⟩
    · rw [g2, map_eraseIdx]; rfl
    · simp [contents, h]
  | move o s t =>
    simp only [Valid, length_contents] at hv
    obtain ⟨k, inc, h1, h2⟩ := hr
    have h : (select rows o)[s]? = some (select rows o)[s] := List.getElem?_eq_getElem hv.1
    simp only [step, h1, rowAt, h, specStep]
    have hperm : (((select rows o).eraseIdx s).take t ++ [{ (select rows o)[s] with idx := k }] ++ ((select rows o).eraseIdx s).drop t).Perm
        ((select rows o).set s { (select rows o)[s] with idx := k }) := by
      have e1 : (((select rows o).eraseIdx s).take t ++ [{ (select rows o)[s] with idx := k }] ++ ((select rows o).eraseIdx s).drop t).Perm
          ({ (select rows o)[s] with idx := k } :: (select rows o).eraseIdx s) := by
        conv => rhs; rw [← List.take_append_drop t ((select rows o).eraseIdx s)]
        rw [List.append_assoc]
        exact List.perm_middle
      refine e1.trans ?_
      rw [List.eraseIdx_eq_take_drop_succ, List.set_eq_take_append_cons_drop, if_pos hv.1]
      exact List.perm_middle.symm
    obtain ⟨g1, g2, g3⟩ := good_update hg h (f := fun x => { x with idx := k }) (fun _ => rfl) (fun _ => rfl)
      (h2.2 k (by simp)) hperm (by rw [pairwise_idx]; simpa using h2.1)
    refine ⟨g1, contents_put ?_ g3, ?_⟩
    · rw [g2]; simp [contents, map_eraseIdx, h]
    · simp [contents, h]
  | set o i v =>
    simp only [Valid, length_contents] at hv
    have h : (select rows o)[i]? = some (select rows o)[i] := List.getElem?_eq_getElem hv
    simp only [step, rowAt, h, specStep]
    have hs : ((select rows o).set i { (select rows o)[i] with value := v }).Pairwise (·.idx < ·.idx) := by
      have : ((select rows o).set i { (select rows o)[i] with value := v }).map (·.idx) = (select rows o).map (·.idx) := by
        rw [List.map_set]
        apply List.ext_getElem?
        intro j
        grind
      rw [pairwise_idx, this, ← pairwise_idx]
      exact hg.sorted o
    obtain ⟨g1, g2, g3⟩ := good_update hg h (f := fun x => { x with value := v }) (fun _ => rfl) (fun _ => rfl)
      (hg.pos (select rows o)[i] (mem_select.1 (List.mem_of_getElem? h)).1) (List.Perm.refl _) hs
    refine ⟨g1, contents_put ?_ g3, ?_⟩
    · rw [g2]; simp [contents, List.map_set]
    · simp [contents, h]
  | clear o =>
    simp only [step, specStep]
    obtain ⟨g1, g2, g3⟩ := good_clear o hg
    exact ⟨g1, contents_put (by rw [g2]; rfl) g3, by trivial⟩
  | get o i => exact ⟨hg, rfl, by simp [step, specStep, rowAt, contents]⟩
  | size o => exact ⟨hg, rfl, by simp [step, specStep, contents, (select_perm rows o).length_eq]⟩
  | isEmpty o =>
    refine ⟨hg, rfl, ?_⟩
    simp only [step, specStep, contents]
    have := (select_perm rows o).length_eq
    congr 1
    rw [Bool.eq_iff_iff]
    simp only [List.isEmpty_iff, ← List.length_eq_zero_iff, List.length_map]
    omega
  | contains o v =>
    refine ⟨hg, rfl, ?_⟩
    simp only [step, specStep, contents]
    congr 1
    rw [Bool.eq_iff_iff]
    simp only [List.any_eq_true, decide_eq_true_eq, List.mem_map]
    constructor
    · rintro ⟨x, hx, rfl⟩; exact ⟨x, (select_perm rows o).mem_iff.2 hx, rfl⟩
    · rintro ⟨x, hx, rfl⟩; exact ⟨x, (select_perm rows o).mem_iff.1 hx, rfl⟩
  | indexOf o v =>
    refine ⟨hg, rfl, ?_⟩
    simp only [step, specStep, contents]
    rcases firstIdx_spec v (select rows o) with ⟨h1, h2⟩ | ⟨j, r, h1, h2, h3⟩
    · rw [h1, h2]; rfl
    · rw [h1, h2, toListIndex_some hg h3]
  | lastIndexOf o v =>
    refine ⟨hg, rfl, ?_⟩
    simp only [step, specStep, contents]
    rcases lastIdx_spec v (select rows o) with ⟨h1, h2⟩ | ⟨j, r, h1, h2, h3⟩
    · rw [h1, h2]; rfl
    · rw [h1, h2, toListIndex_some hg h3]
  | toArray o => exact ⟨hg, rfl, rfl⟩

/-! ## Exact numbers -/

theorem keys_succ (k : Rat) (n : Nat) : ∀ x ∈ keys id k 1 n, k ≤ x := by
  induction n generalizing k with
  | zero => simp [keys]
  | succ n ih =>
    intro x hx
    simp only [keys, List.mem_cons] at hx
    rcases hx with rfl | hx
    · exact Rat.le_refl
    · have := ih _ x hx
      simp only [id] at this
      grind

theorem keys_sorted (k : Rat) (n : Nat) : (keys id k 1 n).Pairwise (· < ·) := by
  induction n generalizing k with
  | zero => exact .nil
  | succ n ih =>
    simp only [keys, List.pairwise_cons]
    refine ⟨fun x hx => ?_, ih _⟩
    have := keys_succ _ _ x hx
    simp only [id] at this
    grind

/-- one number between its neighbours -/
theorem fits_one {S : List (Row V)} (hs : S.Pairwise (·.idx < ·.idx)) {i : Nat} {k : Rat} (hk : 0 < k)
    (h1 : ∀ r, 0 < i → S[i - 1]? = some r → r.idx < k) (h2 : ∀ r, S[i]? = some r → k < r.idx) (hi : i ≤ S.length) : Fits S i [k] := by
  refine ⟨?_, by simpa using hk⟩
  rw [pairwise_idx] at hs
  have e : S.map (·.idx) = (S.take i).map (·.idx) ++ (S.drop i).map (·.idx) := by
    rw [← List.map_append, List.take_append_drop]
  rw [e, List.pairwise_append] at hs
  obtain ⟨a, b, c⟩ := hs
  have hbefore : ∀ x ∈ (S.take i).map (·.idx), x < k := by
    intro x hx
    obtain ⟨r, hr, rfl⟩ := List.mem_map.1 hx
    obtain ⟨j, hj⟩ := List.mem_iff_getElem?.1 hr
    have hji : j < i := by grind
    have hlast : ((S.take i).map (·.idx))[i - 1]? = some (S[i-1]'(by omega)).idx := by
      rw [List.getElem?_map, List.getElem?_take_of_lt (by omega), List.getElem?_eq_getElem (by omega)]; rfl
    have := h1 (S[i-1]'(by omega)) (by omega) (List.getElem?_eq_getElem _)
    by_cases e' : j = i - 1
    · subst e'
      have : S[i - 1]? = some r := by rw [List.getElem?_take_of_lt (by omega)] at hj; exact hj
      exact h1 r (by omega) this
    · have hjj : ((S.take i).map (·.idx))[j]? = some r.idx := by rw [List.getElem?_map, hj]; rfl
      have hp := List.pairwise_iff_getElem.1 a j (i - 1) (by grind) (by grind) (by omega)
      grind
  have hafter : ∀ x ∈ (S.drop i).map (·.idx), k < x := by
    intro x hx
    obtain ⟨r, hr, rfl⟩ := List.mem_map.1 hx
    obtain ⟨j, hj⟩ := List.mem_iff_getElem?.1 hr
    rw [List.getElem?_drop] at hj
    cases j with
    | zero => exact h2 r hj
    | succ j =>
      have hlt : i < S.length := by grind
      have h0 := h2 S[i] (List.getElem?_eq_getElem hlt)
      have hp := List.pairwise_iff_getElem.1 b 0 (j + 1) (by grind) (by grind) (by omega)
      grind
  rw [List.pairwise_append, List.pairwise_append]
  refine ⟨⟨a, by simp, fun x hx y hy => ?_⟩, b, fun x hx y hy => ?_⟩
  · simp only [List.mem_singleton] at hy; subst hy; exact hbefore x hx
  · rcases List.mem_append.1 hx with hx | hx
    · exact c x hx y hy
    · simp only [List.mem_singleton] at hx; subst hx; exact hafter y hy

/-- the number computed for an insertion, when one value is inserted or the insertion is at the end -/
theorem insertIdx_exact {rows : List (Row V)} (hg : Good rows) {o i nb : Nat} (hi : i ≤ (select rows o).length)
    (hnb : nb = 1 ∨ i = (select rows o).length) :
    ∃ k inc, getInsertIdx id rows o i nb = some (k, inc) ∧ 0 < k ∧
      (∀ r, 0 < i → (select rows o)[i - 1]? = some r → r.idx < k) ∧
      (∀ r, (select rows o)[i]? = some r → k < r.idx) ∧ (i = (select rows o).length → inc = 1) := by
  have hs := hg.sorted o
  have hpos : ∀ r ∈ select rows o, 0 < r.idx := fun r hr => hg.pos r (mem_select.1 hr).1
  unfold getInsertIdx
  generalize select rows o = S at *
  by_cases h0 : i = 0
  · subst h0
    rw [if_pos rfl]
    cases S with
    | nil => exact ⟨1, 1, rfl, by decide, by simp, by simp, fun _ => rfl⟩
    | cons r S =>
      have hnb1 : nb = 1 := hnb.resolve_right (by simp)
      subst hnb1
      have := hpos r (by simp)
      refine ⟨_, _, rfl, ?_, by simp, ?_, by simp⟩
      · simp only [id]; grind
      · intro r' hr'
        simp only [List.getElem?_cons_zero, Option.some.injEq] at hr'
        subst hr'
        simp only [id]; grind
  · rw [if_neg h0]
    obtain ⟨j, rfl⟩ : ∃ j, i = j + 1 := ⟨i - 1, by omega⟩
    simp only [Nat.add_sub_cancel]
    have hj : j < S.length := by omega
    have hd : S.drop j = S[j] :: S.drop (j + 1) := List.drop_eq_getElem_cons hj
    have hpj := hpos S[j] (List.getElem_mem hj)
    by_cases hl : j + 1 = S.length
    · have : S.drop (j + 1) = [] := List.drop_eq_nil_of_le (by omega)
      rw [hd, this]
      refine ⟨_, _, rfl, ?_, ?_, ?_, fun _ => rfl⟩
      · simp only [id]; grind
      · intro r _ hr
        have : r = S[j] := by grind
        subst this; simp only [id]; grind
      · intro r hr; grind
    · have hj1 : j + 1 < S.length := by omega
      have hd' : S.drop (j + 1) = S[j + 1] :: S.drop (j + 2) := List.drop_eq_getElem_cons hj1
      have hnb1 : nb = 1 := hnb.resolve_right hl
      subst hnb1
      rw [hd, hd']
      have hlt : S[j].idx < S[j + 1].idx := List.pairwise_iff_getElem.1 hs j (j + 1) hj hj1 (by omega)
      refine ⟨_, _, rfl, ?_, ?_, ?_, fun h => absurd h hl⟩
      · simp only [id]; grind
      · intro r _ hr
        have : r = S[j] := by grind
        subst this; simp only [id]; grind
      · intro r hr
        have : r = S[j + 1] := by grind
        subst this; simp only [id]; grind

theorem insertIdx_some {rows : List (Row V)} (fl : Rat → Rat) {o i : Nat} (nb : Nat) (hi : i ≤ (select rows o).length) :
    ∃ k inc, getInsertIdx fl rows o i nb = some (k, inc) := by
  unfold getInsertIdx
  generalize select rows o = S at *
  by_cases h0 : i = 0
  · rw [if_pos h0]
    cases S with
    | nil => exact ⟨_, _, rfl⟩
    | cons r S => exact ⟨_, _, rfl⟩
  · rw [if_neg h0]
    have hd : S.drop (i - 1) = S[i - 1]'(by omega) :: S.drop (i - 1 + 1) := List.drop_eq_getElem_cons (by omega)
    rw [hd]
    cases S.drop (i - 1 + 1) with
    | nil => exact ⟨_, _, rfl⟩
    | cons r S => exact ⟨_, _, rfl⟩

theorem room_exact {rows : List (Row V)} (hg : Good rows) (op : Op V) (hv : Valid (contents rows) op)
    (hb : SmallBulk (contents rows) op) : Room id rows op := by
  cases op with
  | add o i v =>
    simp only [Valid, length_contents] at hv
    obtain ⟨k, inc, h1, h2, h3, h4, -⟩ := insertIdx_exact hg hv (.inl rfl)
    exact ⟨k, inc, h1, fits_one (hg.sorted o) h2 h3 h4 hv⟩
  | addAll o i vs =>
    simp only [Valid, length_contents] at hv
    simp only [SmallBulk, length_contents] at hb
    by_cases h0 : vs.length = 0
    · obtain ⟨k, inc, h1⟩ := insertIdx_some id vs.length hv
      refine ⟨k, inc, h1, ?_, ?_⟩
      · rw [h0]
        simp only [keys, List.append_nil]
        rw [← List.map_append, List.take_append_drop, ← pairwise_idx]
        exact hg.sorted o
      · rw [h0]; simp [keys]
    · by_cases h1' : i = (select rows o).length
      · obtain ⟨k, inc, h1, h2, h3, h4, h5⟩ := insertIdx_exact (nb := vs.length) hg hv (.inr h1')
        have := h5 h1'
        subst this
        refine ⟨k, 1, h1, ?_, ?_⟩
        · have hf := fits_one (hg.sorted o) h2 h3 h4 hv
          have hd : (select rows o).drop i = [] := List.drop_eq_nil_of_le (by omega)
          simp only [Fits, hd, List.map_nil, List.append_nil] at hf ⊢
          rw [List.pairwise_append] at hf ⊢
          refine ⟨hf.1.1, keys_sorted k _, ?_⟩
          intro a ha b hb
          have h6 := hf.1.2.2 a ha k (by simp)
          have h7 := keys_succ k _ b hb
          grind
        · intro x hx
          have := keys_succ k _ x hx
          grind
      · have hl : vs.length = 1 := by
          rcases hb with hb | hb
          · omega
          · exact absurd hb h1'
        obtain ⟨k, inc, h1, h2, h3, h4, -⟩ := insertIdx_exact (nb := vs.length) hg hv (.inl hl)
        refine ⟨k, inc, h1, ?_⟩
        rw [hl]
        exact fits_one (hg.sorted o) h2 h3 h4 hv
  | move o s t =>
    simp only [Valid, length_contents] at hv
    have hs := hg.sorted o
    by_cases hts : t > s
    · obtain ⟨k, inc, h1, h2, h3, h4, -⟩ := insertIdx_exact (o := o) (nb := 1) (i := t + 1) hg (by omega) (.inl rfl)
      refine ⟨k, inc, by rw [if_pos hts]; exact h1, fits_one (hs.sublist (List.eraseIdx_sublist ..)) h2 ?_ ?_ ?_⟩
      · intro r _ hr
        rw [List.getElem?_eraseIdx, if_neg (by omega), show t - 1 + 1 = t by omega] at hr
        exact h3 r (by omega) hr
      · intro r hr
        rw [List.getElem?_eraseIdx, if_neg (by omega)] at hr
        exact h4 r hr
      · rw [List.length_eraseIdx_of_lt hv.1]; omega
    · obtain ⟨k, inc, h1, h2, h3, h4, -⟩ := insertIdx_exact (o := o) (nb := 1) (i := t) hg (by omega) (.inl rfl)
      refine ⟨k, inc, by rw [if_neg hts]; exact h1, fits_one (hs.sublist (List.eraseIdx_sublist ..)) h2 ?_ ?_ ?_⟩
      · intro r _ hr
        rw [List.getElem?_eraseIdx, if_pos (by omega)] at hr
        exact h3 r (by omega) hr
      · intro r hr
        rw [List.getElem?_eraseIdx] at hr
        split at hr
        · exact h4 r hr
        · have e : t = s := by omega
          subst e
          have h5 := h4 (select rows o)[t] (List.getElem?_eq_getElem hv.1)
          have hlt : t + 1 < (select rows o).length := by grind
          have := List.pairwise_iff_getElem.1 hs t (t + 1) hv.1 hlt (by omega)
          grind
      · rw [List.length_eraseIdx_of_lt hv.1]; omega
  | _ => trivial

end Verif.SQLList
