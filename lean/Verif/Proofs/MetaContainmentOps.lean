import Verif.Proofs.MetaContainmentStep

/-! Every call has the specified effect and keeps both ends in step. -/

namespace Verif.MetaContainment

variable {w v w' : World} {c p : Nat} {s : Slot}

/-- The call does what it should and leaves both ends in step. -/
def Good (w : World) (op : Op) : Prop :=
  (step w op = none ∧ effect w.held op = none) ∨
  ∃ w', step w op = some w' ∧ Inv w' ∧ w'.kind = w.kind ∧ effect w.held op = some w'.held

theorem good_same {op : Op} (hI : Inv w) (h1 : step w op = some w) (h2 : effect w.held op = some w.held) :
    Good w op := .inr ⟨w, h1, hI, rfl, h2⟩

theorem setContainer_at (w : World) (c p f) : (setContainer w c p f).container c = p := by simp [setContainer]
theorem setContainer_cfid (w : World) (c p f) : (setContainer w c p f).cfid c = f := by simp [setContainer]
theorem setContainer_other (w : World) {c o : Nat} (p f) (h : o ≠ c) :
    (setContainer w c p f).container o = w.container o ∧ (setContainer w c p f).cfid o = w.cfid o := by
  simp [setContainer, h]

/-- An element comes to a place nothing leaves. -/
theorem inv_enter (hI : Inv w) (ho : owns (w.kind p) s = true) (ht : takes s (w.kind c) = true)
    (hn : c ∉ w.held p s) (hd : ∀ q, c ∉ w.held q .details) {l : List Nat} (hl : l.Nodup)
    (hml : ∀ o, o ∈ l ↔ o = c ∨ o ∈ w.held p s) (h1 : single s = true → l.length ≤ 1) :
    Inv (eInverseAdd (assign w p s l) c p (endID s)) ∧
    (eInverseAdd (assign w p s l) c p (endID s)).kind = w.kind ∧
    (eInverseAdd (assign w p s l) c p (endID s)).held = put (without w.held c) p s l := by
  rw [child_add _ (by exact ht)]
  obtain ⟨e1, e2, e3, e4⟩ := enter (v := assign w p s l) hI rfl rfl rfl (assign_held w p s l) hn hd
  refine ⟨?_, e1, e4⟩
  refine inv_moved (gone := fun _ => False) hI ho ht hn (by exact e1) (by exact e4) hl (by simpa using hml) h1
    (setContainer_at ..) (setContainer_cfid ..) (by simp) ?_
  intro o hoc _
  rw [(setContainer_other _ _ _ hoc).1, (setContainer_other _ _ _ hoc).2, e2, e3]
  exact ⟨rfl, rfl⟩

theorem no_details {h : Lists} (hd : ∀ q, c ∈ h q .details → q = p ∧ s = .details) (hn : c ∉ h p s) (q : Nat) :
    c ∉ h q .details := by
  intro hm
  obtain ⟨rfl, rfl⟩ := hd q hm
  exact hn hm

theorem good_insert (hI : Inv w) (i : Nat) (ht : Typed w.kind (.insert p s i c))
    (hd : KeepsDetails w.held (.insert p s i c)) : Good w (.insert p s i c) := by
  obtain ⟨ho, h1, hk⟩ := ht
  unfold Good
  simp only [step, insert, effect]
  by_cases hi : (w.held p s).length < i
  · simp [hi]
  by_cases hm : c ∈ w.held p s
  · right; exact ⟨w, by simp [hi, hm], hI, rfl, by simp [hi, hm]⟩
  right
  simp only [hi, hm, if_false]
  have hp : ((w.held p s).insertIdx i c).Perm (c :: w.held p s) := List.perm_insertIdx _ _ (by omega)
  have := inv_enter (l := (w.held p s).insertIdx i c) hI ho hk hm (no_details hd hm)
    (hp.nodup_iff.2 (List.nodup_cons.2 ⟨hm, hI.nodup p s⟩)) (fun o => by rw [hp.mem_iff]; simp)
    (fun h => by rw [h1] at h; simp at h)
  exact ⟨_, rfl, this.1, this.2.1, by rw [this.2.2]⟩

theorem good_add (hI : Inv w) (ht : Typed w.kind (.add p s c)) (hd : KeepsDetails w.held (.add p s c)) :
    Good w (.add p s c) := by
  obtain ⟨ho, h1, hk⟩ := ht
  unfold Good
  simp only [step, add, effect]
  right
  by_cases hm : c ∈ w.held p s
  · exact ⟨w, by simp [hm], hI, rfl, by simp [hm]⟩
  simp only [hm, if_false]
  have hp : (w.held p s ++ [c]).Perm (c :: w.held p s) := List.perm_append_singleton ..
  have := inv_enter (l := w.held p s ++ [c]) hI ho hk hm (no_details hd hm)
    (hp.nodup_iff.2 (List.nodup_cons.2 ⟨hm, hI.nodup p s⟩)) (fun o => by rw [hp.mem_iff]; simp)
    (fun h => by rw [h1] at h; simp at h)
  exact ⟨_, rfl, this.1, this.2.1, by rw [this.2.2]⟩

theorem good_setAt (hI : Inv w) (i : Nat) (ht : Typed w.kind (.setAt p s i c))
    (hd : KeepsDetails w.held (.setAt p s i c)) : Good w (.setAt p s i c) := by
  obtain ⟨ho, h1, hk⟩ := ht
  unfold Good
  simp only [step, setAt, effect]
  by_cases hi : (w.held p s).length ≤ i
  · left; simp [hi, List.getElem?_eq_none hi]
  have hi' : i < (w.held p s).length := by omega
  simp only [List.getElem?_eq_getElem hi', hi, if_false]
  by_cases hm : c ∈ w.held p s
  · by_cases hx : (w.held p s).idxOf c = i
    · have hx' : (w.held p s)[i] = c := by subst hx; exact List.getElem_idxOf hi'
      right; exact ⟨w, by simp [hx, hx'], hI, rfl, by simp [hx']⟩
    · have hx' : (w.held p s)[i] ≠ c := by
        intro e
        apply hx
        have := (hI.nodup p s).idxOf_getElem i hi'
        rw [e] at this; exact this
      left; simp [hm, hx, hx']
  have hne : (w.held p s)[i] ≠ c := fun e => hm (e ▸ List.getElem_mem hi')
  right
  simp only [hm, false_and, if_false, Ne.symm hne, Option.some.injEq, hne]
  have hold : (w.held p s)[i] ∈ w.held p s := List.getElem_mem hi'
  generalize hg : (w.held p s)[i] = old at *
  rw [child_remove _ (by exact hI.tk p s old hold), child_add _ (by exact hk)]
  have := enter (c := c) (p := p) (s := s) (l := (w.held p s).set i c)
    (v := setContainer (assign w p s ((w.held p s).set i c)) old none (endID s)) hI rfl
    (setContainer_other _ _ _ (Ne.symm hne)).1 (setContainer_other _ _ _ (Ne.symm hne)).2 rfl hm (no_details hd hm)
  obtain ⟨e1, e2, e3, e4⟩ := this
  refine ⟨_, rfl, ?_, e1, by rw [setContainer_held, e4]⟩
  refine inv_moved (gone := fun o => o = old) hI ho hk hm (by exact e1) (by exact e4) ?_ ?_
    (fun h => by rw [h1] at h; simp at h) (setContainer_at ..) (setContainer_cfid ..) ?_ ?_
  · unfold List.Nodup
    rw [List.pairwise_iff_getElem]
    intro a b ha hb hab
    have hnot : ∀ (k : Nat) (hk : k < (w.held p s).length), (w.held p s)[k] ≠ c :=
      fun k hk e => hm (e ▸ List.getElem_mem hk)
    simp only [List.length_set] at ha hb
    have := List.pairwise_iff_getElem.1 (hI.nodup p s) a b ha hb hab
    rw [List.getElem_set, List.getElem_set]
    have h2 := hnot a ha
    have h3 := hnot b hb
    grind
  · intro o
    constructor
    · intro h
      obtain ⟨k, hk', hk2⟩ := List.mem_iff_getElem.1 h
      rw [List.getElem_set] at hk2
      split at hk2
      · exact .inl hk2.symm
      · rename_i hik
        right
        simp only [List.length_set] at hk'
        refine ⟨hk2 ▸ List.getElem_mem hk', ?_⟩
        intro e
        have h2 := (hI.nodup p s).idxOf_getElem k hk'
        have h3 := (hI.nodup p s).idxOf_getElem i hi'
        rw [hk2, e] at h2
        rw [hg] at h3
        exact hik (h3.symm.trans h2)
    · rintro (rfl | ⟨h, hno⟩)
      · exact List.mem_iff_getElem.2 ⟨i, by simpa using hi', by simp⟩
      · obtain ⟨k, hk', hk2⟩ := List.mem_iff_getElem.1 h
        refine List.mem_iff_getElem.2 ⟨k, by simpa using hk', ?_⟩
        rw [List.getElem_set_ne]
        · exact hk2
        · intro e; subst e; exact hno (hk2 ▸ hg)
  · intro o hoc hoo
    have hoo : o = old := hoo
    subst hoo
    refine ⟨hold, ?_⟩
    rw [(setContainer_other _ _ _ hoc).1, e2, setContainer_at]
  · intro o hoc hoo
    rw [(setContainer_other _ _ _ hoc).1, (setContainer_other _ _ _ hoc).2, e2, e3]
    exact setContainer_other _ _ _ hoo

/-- One element leaves a list. -/
theorem inv_remove (hI : Inv w) (hm : c ∈ w.held p s) {l : List Nat} (hl : l = (w.held p s).erase c) :
    Inv (eInverseRemove (assign w p s l) c p (endID s)) ∧
    (eInverseRemove (assign w p s l) c p (endID s)).kind = w.kind ∧
    (eInverseRemove (assign w p s l) c p (endID s)).held = put w.held p s l := by
  rw [child_remove _ (by exact hI.tk p s c hm)]
  refine ⟨?_, rfl, rfl⟩
  refine inv_left (p := p) (s := s) (l := l) (gone := fun o => o = c) hI rfl rfl (hl ▸ (hI.nodup p s).erase c) ?_ ?_ ?_ ?_
  · intro o
    rw [hl, (hI.nodup p s).mem_erase_iff]
    exact And.comm
  · intro h
    rw [hl]
    exact Nat.le_trans List.length_erase_le (hI.one p s h)
  · rintro o rfl
    exact ⟨hm, setContainer_at ..⟩
  · intro o ho
    exact setContainer_other _ _ _ ho

theorem eraseIdx_idxOf' (l : List Nat) (c : Nat) : l.eraseIdx (l.idxOf c) = l.erase c := by
  rw [List.erase_eq_eraseIdx_of_idxOf rfl]

theorem erase_getElem_nodup {l : List Nat} (h : l.Nodup) {i : Nat} (hi : i < l.length) :
    l.eraseIdx i = l.erase l[i] := by
  rw [List.erase_eq_eraseIdx_of_idxOf (h.idxOf_getElem i hi)]

theorem good_removeAt (hI : Inv w) (i : Nat) : Good w (.removeAt p s i) := by
  unfold Good
  simp only [step, removeAt, effect]
  by_cases hi : (w.held p s).length ≤ i
  · left; simp [hi, List.getElem?_eq_none hi]
  have hi' : i < (w.held p s).length := by omega
  simp only [List.getElem?_eq_getElem hi', hi, if_false]
  right
  have := inv_remove hI (List.getElem_mem hi') (erase_getElem_nodup (hI.nodup p s) hi')
  exact ⟨_, rfl, this.1, this.2.1, by rw [this.2.2]⟩

theorem good_remove (hI : Inv w) (c : Nat) : Good w (.remove p s c) := by
  unfold Good
  simp only [step, remove, effect]
  right
  by_cases hm : c ∈ w.held p s
  · simp only [hm, if_true]
    have := inv_remove hI hm (eraseIdx_idxOf' _ _)
    exact ⟨_, rfl, this.1, this.2.1, by rw [this.2.2, eraseIdx_idxOf']⟩
  · exact ⟨w, by simp [hm], hI, rfl, by rw [List.erase_of_not_mem hm, put_self]⟩

/-- The loop of `Clear`. -/
theorem clear_loop (l : List Nat) (v : World) (ht : ∀ o ∈ l, takes s (v.kind o) = true) :
    (l.foldl (fun v o => eInverseRemove v o p (endID s)) v).kind = v.kind ∧
    (l.foldl (fun v o => eInverseRemove v o p (endID s)) v).held = v.held ∧
    (∀ o, o ∈ l → (l.foldl (fun v o => eInverseRemove v o p (endID s)) v).container o = none) ∧
    (∀ o, o ∉ l → (l.foldl (fun v o => eInverseRemove v o p (endID s)) v).container o = v.container o ∧
      (l.foldl (fun v o => eInverseRemove v o p (endID s)) v).cfid o = v.cfid o) := by
  induction l generalizing v with
  | nil => simp
  | cons a l ih =>
    simp only [List.foldl_cons]
    rw [child_remove _ (ht a (by simp))]
    obtain ⟨e1, e2, e3, e4⟩ := ih (setContainer v a none (endID s)) (fun o ho => ht o (by simp [ho]))
    refine ⟨e1, e2, ?_, ?_⟩
    · intro o ho
      by_cases hol : o ∈ l
      · exact e3 o hol
      · have : o = a := by simpa [hol] using ho
        subst this
        rw [(e4 o hol).1, setContainer_at]
    · intro o ho
      simp only [List.mem_cons, not_or] at ho
      rw [(e4 o ho.2).1, (e4 o ho.2).2]
      exact setContainer_other _ _ _ ho.1

theorem good_clear (hI : Inv w) : Good w (.clear p s) := by
  unfold Good
  simp only [step, clear, effect]
  right
  obtain ⟨e1, e2, e3, e4⟩ := clear_loop (p := p) (s := s) (w.held p s) (assign w p s []) (fun o ho => hI.tk p s o ho)
  refine ⟨_, rfl, ?_, e1, by rw [e2]; rfl⟩
  refine inv_left (p := p) (s := s) (l := []) (gone := fun o => o ∈ w.held p s) hI e1 (by rw [e2]; rfl) (by simp)
    (by simp) (by simp) (fun o ho => ⟨ho, e3 o ho⟩) (fun o ho => e4 o ho)

theorem not_details (hI : Inv w) (ht : takes s (w.kind c) = true) (hs : single s = true ∨ s = .eAnnotations) (q : Nat) :
    c ∉ w.held q .details := by
  intro hm
  have hd := hI.tk q .details c hm
  simp only [takes, decide_eq_true_eq] at hd
  rw [hd] at ht
  rcases hs with hs | hs
  · cases s <;> simp [single] at hs <;> simp [takes] at ht
  · subst hs; simp [takes] at ht

theorem single_none {l : List Nat} (h : l.length ≤ 1) : l = l.head?.toList := by
  match l, h with
  | [], _ => rfl
  | [x], _ => rfl

theorem good_setRef (hI : Inv w) (x : Option Nat) (ht : Typed w.kind (.setRef p s x)) : Good w (.setRef p s x) := by
  obtain ⟨ho, h1, hk⟩ := ht
  have hone := hI.one p s h1
  have hl := single_none hone
  unfold Good
  simp only [step, setRef]
  right
  by_cases hx : (w.held p s).head? = x
  · refine ⟨w, by simp [hx], hI, rfl, ?_⟩
    cases x with
    | none => rw [hx] at hl; simp only [effect]; rw [← put_self (p := p) (s := s) w.held, hl, put_put]; rfl
    | some c =>
      rw [hx] at hl
      simp only [effect]
      congr 1
      funext q t
      simp only [put, without]
      split
      · rename_i e; rw [e.1, e.2, hl]; rfl
      · rename_i e
        apply List.erase_of_not_mem
        intro hm
        exact e (held_unique hI (by rw [hl]; simp) hm)
  simp only [hx, if_false]
  cases x with
  | none =>
    cases hold : (w.held p s).head? with
    | none => rw [hold] at hx; exact absurd rfl hx
    | some old =>
      have hmo : old ∈ w.held p s := by rw [hl, hold]; simp
      simp only [Option.toList]
      rw [child_remove _ (hI.tk p s old hmo)]
      refine ⟨_, rfl, ?_, rfl, rfl⟩
      refine inv_left (p := p) (s := s) (l := []) (gone := fun o => o = old) hI rfl rfl (by simp) ?_ (by simp) ?_ ?_
      · intro o; rw [hl, hold]; simp
      · rintro o rfl; exact ⟨hmo, setContainer_at w o none (endID s)⟩
      · intro o hno; exact setContainer_other w none (endID s) hno
  | some c =>
    have hkc := hk c rfl
    have hn : c ∉ w.held p s := by
      intro hm; apply hx; rw [single_eq hone hm]; rfl
    have hd := not_details hI hkc (.inl h1)
    cases hold : (w.held p s).head? with
    | none =>
      have hnil : w.held p s = [] := by rw [hl, hold]; rfl
      simp only [Option.toList]
      rw [child_add _ hkc]
      obtain ⟨e1, e2, e3, e4⟩ := enter (v := w) (l := w.held p s) hI rfl rfl rfl (put_self _).symm hn hd
      have hh : (assign (setContainer (removeFromContainer w c) c (some p) (endID s)) p s [c]).held =
          put (without w.held c) p s [c] := by
        rw [assign_held, setContainer_held, e4, put_put]
      refine ⟨_, rfl, ?_, e1, by rw [hh]; rfl⟩
      refine inv_moved (gone := fun _ => False) hI ho hkc hn (by exact e1) hh (by simp) ?_ (by simp)
        (setContainer_at _ c (some p) (endID s)) (setContainer_cfid _ c (some p) (endID s)) (by simp) ?_
      · intro o; rw [hnil]; simp
      · intro o hoc _
        simp only [assign_container, assign_cfid]
        rw [(setContainer_other _ (some p) (endID s) hoc).1, (setContainer_other _ (some p) (endID s) hoc).2, e2, e3]
        exact ⟨rfl, rfl⟩
    | some old =>
      have hmo : old ∈ w.held p s := by rw [hl, hold]; simp
      have hne : c ≠ old := by rintro rfl; exact hn hmo
      simp only [Option.toList]
      rw [child_remove _ (hI.tk p s old hmo), child_add _ (by exact hkc)]
      obtain ⟨e1, e2, e3, e4⟩ := enter (v := setContainer w old none (endID s)) (l := w.held p s) hI rfl
        (setContainer_other _ _ _ hne).1 (setContainer_other _ _ _ hne).2
        (by rw [setContainer_held, put_self]) hn hd
      have hh : (assign (setContainer (removeFromContainer (setContainer w old none (endID s)) c) c (some p)
          (endID s)) p s [c]).held = put (without w.held c) p s [c] := by
        rw [assign_held, setContainer_held, e4, put_put]
      refine ⟨_, rfl, ?_, e1, by rw [hh]; rfl⟩
      refine inv_moved (gone := fun o => o = old) hI ho hkc hn (by exact e1) hh (by simp) ?_ (by simp)
        (setContainer_at _ c (some p) (endID s)) (setContainer_cfid _ c (some p) (endID s)) ?_ ?_
      · intro o; rw [hl, hold]; simp
      · intro o hoc hoo
        have hoo : o = old := hoo
        subst hoo
        refine ⟨hmo, ?_⟩
        simp only [assign_container]
        rw [(setContainer_other _ (some p) (endID s) hoc).1, e2, setContainer_at]
      · intro o hoc hoo
        simp only [assign_container, assign_cfid]
        rw [(setContainer_other _ (some p) (endID s) hoc).1, (setContainer_other _ (some p) (endID s) hoc).2, e2, e3]
        exact setContainer_other w none (endID s) hoo

end Verif.MetaContainment
