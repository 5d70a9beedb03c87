import Verif.Spec.ResourceSet
import Verif.Proofs.EList

/-!
# Resource sets: membership
-/

namespace Verif.ResourceSet

open Verif.ResourceSet.Spec

variable {U N : Type}

/-- In the middle of a call on the list of `s`: `rem` have been removed, `add` have been added, their resource sets are still the old ones. -/
structure Mid (w : World U) (s : Nat) (rem add : List Nat) : Prop where
  nodup : ∀ t, (w.lists t).Nodup
  other : ∀ t, t ≠ s → ∀ r, r ∈ w.lists t ↔ w.owner r = some t
  this : ∀ r, r ∈ w.lists s ↔ (w.owner r = some s ∧ r ∉ rem) ∨ r ∈ add
  fresh : ∀ r ∈ add, w.owner r ≠ some s
  gone : ∀ r ∈ rem, w.owner r = some s

theorem Mid.member {w : World U} {s : Nat} (h : Mid w s [] []) : Member w := by
  intro t
  refine ⟨h.nodup t, fun r => ?_⟩
  by_cases ht : t = s
  · subst ht; simpa using h.this r
  · exact h.other t ht r

theorem remove_step {w : World U} {s r : Nat} {rem add : List Nat} (h : Mid w s (r :: rem) add) (hr : r ∉ rem) :
    Mid (basicSetResourceSet w r none) s rem add ∧ (basicSetResourceSet w r none).lists = w.lists := by
  have ho := h.gone r (by simp)
  have hl : (basicSetResourceSet w r none).lists = w.lists := by
    funext t
    simp only [basicSetResourceSet, ho, setList]
    split
    · rename_i e; subst e
      apply List.erase_of_not_mem
      intro hm
      have := (h.this r).1 hm
      have hf := h.fresh r
      simp_all
    · rfl
  have hw : ∀ x, (basicSetResourceSet w r none).owner x = if x = r then none else w.owner x := by intro x; simp [basicSetResourceSet, ho, setList]
  refine ⟨⟨?_, ?_, ?_, ?_, ?_⟩, hl⟩
  · rw [hl]; exact h.nodup
  · intro t ht x
    rw [hl, hw, h.other t ht x]
    split
    · rename_i e; subst e; simp [ho]; exact fun e => ht e.symm
    · rfl
  · intro x
    rw [hl, hw, h.this x]
    have hf := h.fresh r
    by_cases e : x = r
    · subst e; simp_all
    · simp [e]
  · intro x hx
    rw [hw]
    have := h.fresh x hx
    split <;> simp_all
  · intro x hx
    rw [hw]
    have := h.gone x (by simp [hx])
    split
    · rename_i e; subst e; exact absurd hx hr
    · exact this

theorem add_step {w : World U} {s r : Nat} {add : List Nat} (h : Mid w s [] (r :: add)) (hr : r ∉ add) :
    Mid (basicSetResourceSet w r (some s)) s [] add ∧
      ∀ t, (basicSetResourceSet w r (some s)).lists t = if t = s then w.lists s else (w.lists t).erase r := by
  have hf := h.fresh r (by simp)
  have hl : ∀ t, (basicSetResourceSet w r (some s)).lists t = if t = s then w.lists s else (w.lists t).erase r := by
    intro t
    simp only [basicSetResourceSet]
    cases ho : w.owner r with
    | none =>
      simp only
      split
      · rename_i e; rw [e]
      · rename_i e
        rw [List.erase_of_not_mem]
        rw [h.other t e]; simp [ho]
    | some t' =>
      simp only [setList]
      by_cases e : t = t'
      · subst e
        rw [if_pos rfl, if_neg]
        intro e; subst e; exact hf ho
      · rw [if_neg e]
        split
        · rename_i e; rw [e]
        · rename_i e'
          rw [List.erase_of_not_mem]
          rw [h.other t e', ho]
          simpa using fun a => e a.symm
  have hw : ∀ x, (basicSetResourceSet w r (some s)).owner x = if x = r then some s else w.owner x := by
    intro x
    simp only [basicSetResourceSet]
    cases ho : w.owner r <;> simp [setList]
  refine ⟨⟨?_, ?_, ?_, ?_, by simp⟩, hl⟩
  · intro t
    rw [hl]
    split
    · exact h.nodup s
    · exact (h.nodup t).erase r
  · intro t ht x
    rw [hl, hw, if_neg ht, (h.nodup t).mem_erase_iff, h.other t ht x]
    split
    · rename_i e; subst e; simp; exact fun e => ht e.symm
    · rename_i e; simp [e]
  · intro x
    rw [hl, hw, if_pos rfl, h.this x]
    by_cases e : x = r
    · subst e; simp
    · simp [e]
  · intro x hx
    rw [hw]
    split
    · rename_i e; subst e; exact absurd hx hr
    · exact h.fresh x (by simp [hx])

theorem removes {s : Nat} {add : List Nat} : ∀ (rem : List Nat) (w : World U), rem.Nodup → Mid w s rem add →
    Mid (inverseRemoves w rem) s [] add ∧ (inverseRemoves w rem).lists = w.lists
  | [], w, _, h => ⟨h, rfl⟩
  | r :: rem, w, hn, h => by
    obtain ⟨h1, e1⟩ := remove_step h (List.nodup_cons.1 hn).1
    obtain ⟨h2, e2⟩ := removes rem _ (List.nodup_cons.1 hn).2 h1
    exact ⟨h2, e2.trans e1⟩

theorem adds {s : Nat} : ∀ (add : List Nat) (w : World U), add.Nodup → Mid w s [] add →
    Mid (inverseAdds s w add) s [] [] ∧ ∀ t, (inverseAdds s w add).lists t = if t = s then w.lists s else (w.lists t).filter (· ∉ add)
  | [], w, _, h => ⟨h, by intro t; simp only [inverseAdds, List.foldl_nil, List.not_mem_nil, not_false_eq_true, decide_true]; split <;> simp_all [List.filter_eq_self.2]⟩
  | r :: add, w, hn, h => by
    obtain ⟨h1, e1⟩ := add_step h (List.nodup_cons.1 hn).1
    obtain ⟨h2, e2⟩ := adds add _ (List.nodup_cons.1 hn).2 h1
    refine ⟨h2, fun t => (e2 t).trans ?_⟩
    rw [e1, e1]
    split
    · simp
    · rw [(h.nodup t).erase_eq_filter, List.filter_filter]
      congr 1
      funext x
      by_cases hx : x = r <;> simp [hx]

/-- what the inverses leave alone -/
theorem set_frame (w : World U) (r : Nat) (x : Option Nat) : (basicSetResourceSet w r x).uri = w.uri ∧ (basicSetResourceSet w r x).loaded = w.loaded ∧
    (basicSetResourceSet w r x).used = w.used ∧ (basicSetResourceSet w r x).maps = w.maps ∧ (basicSetResourceSet w r x).reads = w.reads := by
  simp only [basicSetResourceSet]
  cases w.owner r <;> simp [setList]

theorem adds_frame (s : Nat) : ∀ (add : List Nat) (w : World U), (inverseAdds s w add).uri = w.uri ∧ (inverseAdds s w add).loaded = w.loaded ∧
    (inverseAdds s w add).used = w.used ∧ (inverseAdds s w add).maps = w.maps ∧ (inverseAdds s w add).reads = w.reads
  | [], w => ⟨rfl, rfl, rfl, rfl, rfl⟩
  | r :: add, w => by
    obtain ⟨a, b, c, d, e⟩ := adds_frame s add (basicSetResourceSet w r (some s))
    obtain ⟨a', b', c', d', e'⟩ := set_frame w r (some s)
    exact ⟨a.trans a', b.trans b', c.trans c', d.trans d', e.trans e'⟩

theorem removes_frame : ∀ (rem : List Nat) (w : World U), (inverseRemoves w rem).uri = w.uri ∧ (inverseRemoves w rem).loaded = w.loaded ∧
    (inverseRemoves w rem).used = w.used ∧ (inverseRemoves w rem).maps = w.maps ∧ (inverseRemoves w rem).reads = w.reads
  | [], w => ⟨rfl, rfl, rfl, rfl, rfl⟩
  | r :: rem, w => by
    obtain ⟨a, b, c, d, e⟩ := removes_frame rem (basicSetResourceSet w r none)
    obtain ⟨a', b', c', d', e'⟩ := set_frame w r none
    exact ⟨a.trans a', b.trans b', c.trans c', d.trans d', e.trans e'⟩

/-- A list changes from `data` to `l` by removing `rem` and adding `add`. -/
structure Change (data l rem add : List Nat) : Prop where
  nodup : l.Nodup
  mem : ∀ r, r ∈ l ↔ (r ∈ data ∧ r ∉ rem) ∨ r ∈ add
  fresh : ∀ r ∈ add, r ∉ data
  gone : ∀ r ∈ rem, r ∈ data
  adds : add.Nodup
  rems : rem.Nodup

/-- a list changes with its inverses -/
theorem change {w : World U} {s : Nat} {l rem add : List Nat} (h : Member w) (hc : Change (w.lists s) l rem add) :
    Member (inverseAdds s (inverseRemoves (setList w s l) rem) add) ∧
    ∀ t, (inverseAdds s (inverseRemoves (setList w s l) rem) add).lists t = if t = s then l else (w.lists t).filter (· ∉ l) := by
  have hmid : Mid (setList w s l) s rem add := by
    refine ⟨?_, ?_, ?_, ?_, ?_⟩
    · intro t; simp only [setList]; split
      · exact hc.nodup
      · exact (h t).1
    · intro t ht r; simp only [setList, if_neg ht]; exact (h t).2 r
    · intro r; simp only [setList, if_true]; rw [hc.mem, (h s).2]
    · intro r hr; have := hc.fresh r hr; rw [(h s).2] at this; exact this
    · intro r hr; exact ((h s).2 r).1 (hc.gone r hr)
  obtain ⟨h1, e1⟩ := removes rem _ hc.rems hmid
  obtain ⟨h2, e2⟩ := adds add _ hc.adds h1
  refine ⟨h2.member, fun t => ?_⟩
  rw [e2, e1]
  by_cases ht : t = s
  · simp [ht, setList]
  · simp only [ht, if_false, setList]
    apply List.filter_congr
    intro r hr
    have : r ∈ l ↔ r ∈ add := by
      rw [hc.mem]
      have hns : r ∉ w.lists s := by
        rw [(h s).2]
        rw [(h t).2] at hr
        rw [hr]; simpa using ht
      simp [hns]
    simp [this]

theorem change_refl {data : List Nat} (h : data.Nodup) : Change data data [] [] := ⟨h, by simp, by simp, by simp, .nil, .nil⟩

theorem Change.perm {data l l' rem add : List Nat} (h : Change data l rem add) (hp : l'.Perm l) : Change data l' rem add :=
  ⟨hp.nodup_iff.2 h.nodup, fun r => hp.mem_iff.trans (h.mem r), h.fresh, h.gone, h.adds, h.rems⟩

theorem change_add {data add : List Nat} (hd : data.Nodup) (ha : add.Nodup) (hf : ∀ r ∈ add, r ∉ data) : Change data (data ++ add) [] add :=
  ⟨List.nodup_append.2 ⟨hd, ha, by intro a h b hb e; subst e; exact hf a hb h⟩, by simp, hf, by simp, ha, .nil⟩

theorem change_remove {data l rem : List Nat} (hd : data.Nodup) (hp : data.Perm (l ++ rem)) : Change data l rem [] := by
  have hn := List.nodup_append.1 (hp.nodup_iff.1 hd)
  refine ⟨hn.1, ?_, by simp, ?_, .nil, hn.2.1⟩
  · intro r
    rw [hp.mem_iff]
    have := hn.2.2 r
    simp only [List.mem_append, List.not_mem_nil, or_false]
    grind
  · intro r hr; rw [hp.mem_iff]; simp [hr]

theorem getElem?_split {data : List Nat} {i e : Nat} (h : data[i]? = some e) : data = data.take i ++ e :: data.drop (i + 1) ∧ i < data.length := by
  obtain ⟨hi, he⟩ := List.getElem?_eq_some_iff.1 h
  refine ⟨?_, hi⟩
  rw [← he, List.getElem_cons_drop, List.take_append_drop]

theorem perm_eraseIdx' {data : List Nat} {i e : Nat} (h : data[i]? = some e) : data.Perm (data.eraseIdx i ++ [e]) := by
  obtain ⟨h1, _⟩ := getElem?_split h
  rw [List.eraseIdx_eq_take_drop_succ]
  conv => lhs; rw [h1]
  exact (List.perm_middle).trans (List.perm_append_singleton _ _).symm

theorem self (w : World U) (s : Nat) : setList w s (w.lists s) = w := by
  have : (fun t => if t = s then w.lists s else w.lists t) = w.lists := by funext t; split <;> simp_all
  simp only [setList, this]

/-- a call of the list: its plan -/
theorem listOp_eq {w w' : World U} {s : Nat} {op : LOp} (hd : (w.lists s).Nodup) (h : listOp w s op = some w') :
    ∃ rem add, Change (w.lists s) (after (w.lists s) op) rem add ∧ (∀ r ∈ add, r ∈ op.given) ∧
      (w' = inverseAdds s (inverseRemoves (setList w s (after (w.lists s) op)) rem) add) := by
  cases op with
  | add e =>
    simp only [listOp, Option.some.injEq] at h
    by_cases he : e ∈ w.lists s
    · rw [if_pos he] at h
      refine ⟨[], [], ?_, by simp, ?_⟩
      · simp only [after, if_pos he]; exact change_refl hd
      · simp only [after, if_pos he, self]; exact h.symm
    · rw [if_neg he] at h
      refine ⟨[], [e], ?_, by simp [LOp.given], ?_⟩
      · simp only [after, if_neg he]
        exact change_add hd (by simp) (by simpa using he)
      · simp only [after, if_neg he]; exact h.symm
  | addAll c =>
    simp only [listOp, Option.some.injEq, EList.getNonDuplicates_snapshot] at h
    refine ⟨[], Verif.Spec.Seq.fresh (w.lists s) c, change_add hd (EList.nodup_fresh _ _) ?_, ?_, h.symm⟩
    · intro r hr; exact ((EList.mem_fresh _ _ _).1 hr).2
    · intro r hr; exact ((EList.mem_fresh _ _ _).1 hr).1
  | insert i e =>
    simp only [listOp] at h
    split at h
    · exact absurd h (by simp)
    · rename_i hi
      simp only [Option.some.injEq] at h
      by_cases he : e ∈ w.lists s
      · rw [if_pos he] at h
        refine ⟨[], [], ?_, by simp, ?_⟩
        · simp only [after, if_pos he]; exact change_refl hd
        · simp only [after, if_pos he, self]; exact h.symm
      · rw [if_neg he] at h
        have e1 : (w.lists s).take i ++ [e] ++ (w.lists s).drop i = (w.lists s).insertIdx i e := by
          apply List.ext_getElem?
          intro k
          simp only [List.getElem?_insertIdx, List.getElem?_append, List.length_append, List.length_take, List.length_cons, List.length_nil, List.getElem?_take,
            List.getElem?_drop]
          grind
        refine ⟨[], [e], ?_, by simp [LOp.given], ?_⟩
        · simp only [after, if_neg he]
          refine (change_add hd (by simp) (by simpa using he)).perm ((List.perm_insertIdx e _ (by omega)).trans (List.perm_append_singleton _ _).symm)
        · simp only [after, if_neg he, ← e1]; exact h.symm
  | insertAll i c =>
    simp only [listOp, EList.getNonDuplicates_snapshot] at h
    split at h
    · exact absurd h (by simp)
    · rename_i hi
      simp only [Option.some.injEq] at h
      refine ⟨[], Verif.Spec.Seq.fresh (w.lists s) c, (change_add hd (EList.nodup_fresh _ _) ?_).perm ?_, ?_, h.symm⟩
      · intro r hr; exact ((EList.mem_fresh _ _ _).1 hr).2
      · simp only [after]
        conv => rhs; rw [← List.take_append_drop i (w.lists s)]
        simp only [List.append_assoc]
        exact List.Perm.append_left _ (List.perm_append_comm.trans (by rw [List.take_append_drop]))
      · intro r hr; exact ((EList.mem_fresh _ _ _).1 hr).1
  | set i e =>
    simp only [listOp] at h
    cases hi : (w.lists s)[i]? with
    | none => simp [hi] at h
    | some old =>
      simp only [hi] at h
      obtain ⟨h1, h2⟩ := getElem?_split hi
      split at h
      · exact absurd h (by simp)
      rename_i hne
      have hpos : (w.lists s)[i] = old := by rw [List.getElem?_eq_getElem h2] at hi; exact Option.some.inj hi
      split at h
      · rename_i e1
        have : (w.lists s).set i e = w.lists s := by rw [e1, ← hpos, List.set_getElem_self]
        refine ⟨[], [], ?_, by simp, ?_⟩
        · simp only [after, this]; exact change_refl hd
        · simp only [after, this, self]; exact (Option.some.inj h).symm
      · rename_i e1
        have hnot : e ∉ w.lists s := by
          intro hm
          have hi' : (w.lists s).idxOf e = i := by simpa [hm] using hne
          have := List.getElem_idxOf (List.idxOf_lt_length_iff.2 hm)
          simp only [hi', hpos] at this
          exact e1 this.symm
        refine ⟨[old], [e], ⟨?_, ?_, by simpa using hnot, ?_, by simp, by simp⟩, by simp [LOp.given], (Option.some.inj h).symm⟩
        · simp only [after, List.set_eq_take_append_cons_drop, h2, if_true]
          generalize (w.lists s).take i = A at *
          generalize (w.lists s).drop (i + 1) = B at *
          rw [h1] at hd hnot
          simp [List.nodup_append] at hd hnot ⊢
          grind
        · intro r
          simp only [after, List.set_eq_take_append_cons_drop, h2, if_true]
          generalize (w.lists s).take i = A at *
          generalize (w.lists s).drop (i + 1) = B at *
          rw [h1] at hd ⊢
          simp [List.nodup_append] at hd ⊢
          grind
        · simp; rw [h1]; simp
  | removeAt i =>
    simp only [listOp] at h
    cases hi : (w.lists s)[i]? with
    | none => simp [hi] at h
    | some old =>
      simp only [hi] at h
      exact ⟨[old], [], change_remove hd (perm_eraseIdx' hi), by simp, (Option.some.inj h).symm⟩
  | remove e =>
    simp only [listOp, Option.some.injEq] at h
    have e1 : (w.lists s).erase e = (w.lists s).filter (· ≠ e) := by
      rw [hd.erase_eq_filter]; congr 1; funext x; by_cases hx : x = e <;> simp [hx]
    by_cases he : e ∈ w.lists s
    · rw [if_pos he] at h
      refine ⟨[e], [], ?_, by simp, ?_⟩
      · simp only [after, ← e1]
        exact change_remove hd ((List.perm_cons_erase he).trans (List.perm_append_singleton _ _).symm)
      · simp only [after, ← e1]; exact h.symm
    · rw [if_neg he] at h
      refine ⟨[], [], ?_, by simp, ?_⟩
      · simp only [after, ← e1, List.erase_of_not_mem he]; exact change_refl hd
      · simp only [after, ← e1, List.erase_of_not_mem he, self]; exact h.symm
  | removeRange i j =>
    simp only [listOp] at h
    split at h
    · exact absurd h (by simp)
    rename_i hij
    refine ⟨_, [], change_remove hd ?_, by simp, (Option.some.inj h).symm⟩
    simp only [after]
    have e1 : w.lists s = (w.lists s).take i ++ (((w.lists s).take j).drop i ++ (w.lists s).drop j) := by
      have : (w.lists s).take i = ((w.lists s).take j).take i := by rw [List.take_take]; congr 1; omega
      rw [this, ← List.append_assoc, List.take_append_drop, List.take_append_drop]
    conv => lhs; rw [e1]
    rw [List.append_assoc]
    exact List.Perm.append_left _ List.perm_append_comm
  | removeAll c =>
    simp only [listOp, Option.some.injEq] at h
    refine ⟨_, [], change_remove hd ?_, by simp, h.symm⟩
    simp only [after]
    have := (List.filter_append_perm (fun x => decide (x ∉ c)) (w.lists s)).symm
    simpa using this
  | clear =>
    simp only [listOp, Option.some.injEq] at h
    exact ⟨_, [], change_remove hd (by simp [after]), by simp, h.symm⟩
  | move i j =>
    simp only [listOp] at h
    cases hi : (w.lists s)[i]? with
    | none => simp [hi] at h
    | some e =>
      simp only [hi] at h
      split at h
      · rename_i hj
        refine ⟨[], [], (change_refl hd).perm ?_, by simp, ?_⟩
        · simp only [after, hi]
          have hl := (getElem?_split hi).2
          refine (List.perm_insertIdx e _ (by rw [List.length_eraseIdx_of_lt hl]; omega)).trans ?_
          exact ((perm_eraseIdx' hi).trans (List.perm_append_singleton _ _)).symm
        · simp only [after, hi]; exact (Option.some.inj h).symm
      · exact absurd h (by simp)

theorem listOp_member {w w' : World U} {s : Nat} {op : LOp} (hw : Member w) (h : listOp w s op = some w') :
    Member w' ∧ w'.lists s = after (w.lists s) op ∧ ∀ t, t ≠ s → w'.lists t = (w.lists t).filter (· ∉ w'.lists s) := by
  obtain ⟨rem, add, hc, _, e⟩ := listOp_eq (hw s).1 h
  obtain ⟨h1, h2⟩ := change hw hc
  rw [← e] at h1 h2
  have h3 : w'.lists s = after (w.lists s) op := by rw [h2, if_pos rfl]
  exact ⟨h1, h3, fun t ht => by rw [h2, if_neg ht, h3]⟩

theorem listOp_frame {w w' : World U} {s : Nat} {op : LOp} (hw : Member w) (h : listOp w s op = some w') :
    w'.uri = w.uri ∧ w'.loaded = w.loaded ∧ w'.used = w.used ∧ w'.maps = w.maps ∧ w'.reads = w.reads := by
  obtain ⟨rem, add, hc, _, e⟩ := listOp_eq (hw s).1 h
  obtain ⟨a, b, c, d, f⟩ := adds_frame s add (inverseRemoves (setList w s (after (w.lists s) op)) rem)
  obtain ⟨a', b', c', d', f'⟩ := removes_frame rem (setList w s (after (w.lists s) op))
  subst e
  exact ⟨a.trans a', b.trans b', c.trans c', d.trans d', f.trans f'⟩

theorem listOp_given {w w' : World U} {s : Nat} {op : LOp} (hw : Member w) (h : listOp w s op = some w') :
    ∀ r ∈ w'.lists s, r ∈ w.lists s ∨ r ∈ op.given := by
  obtain ⟨rem, add, hc, hg, e⟩ := listOp_eq (hw s).1 h
  intro r hr
  rw [(listOp_member hw h).2.1, hc.mem] at hr
  rcases hr with hr | hr
  · exact .inl hr.1
  · exact .inr (hg r hr)

end Verif.ResourceSet
