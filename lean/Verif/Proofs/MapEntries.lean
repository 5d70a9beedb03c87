import Verif.Spec.MapEntries

namespace Verif.MapEntries
open Spec (State.at)

/-! ## The specification -/

def KeysNodup (t : Spec.State) : Prop := (t.boxes.map (·.1)).Nodup

theorem keys_fill {t : Spec.State} (h : KeysNodup t) (p : Place) (l : List Nat) : KeysNodup (t.fill p l) := by
  unfold KeysNodup Spec.State.fill
  simp only [List.map_cons, List.nodup_cons, List.mem_map, List.mem_filter, decide_eq_true_eq, not_exists, not_and]
  refine ⟨fun b hb => hb.2, ?_⟩
  exact h.sublist ((List.filter_sublist).map _)

theorem keys_leave {t : Spec.State} (h : KeysNodup t) (e : Nat) : KeysNodup (t.leave e) := by
  unfold KeysNodup Spec.State.leave
  unfold KeysNodup at h; simpa [Function.comp_def] using h

theorem at_fill (t : Spec.State) (p q : Place) (l : List Nat) : (t.fill p l).at q = if q = p then l else t.at q := by
  unfold Spec.State.at Spec.State.fill
  by_cases h : q = p
  · subst h; simp
  · have h' : ¬ p = q := fun e => h e.symm
    simp only [List.find?_cons, h', decide_false, h, if_false]
    rw [List.find?_filter]
    congr 2
    funext b
    by_cases hb : b.1 = q
    · simp [hb, h]
    · simp [hb]

theorem at_leave (t : Spec.State) (e : Nat) (q : Place) : (t.leave e).at q = (t.at q).filter (· ≠ e) := by
  unfold Spec.State.at Spec.State.leave
  simp only [List.find?_map]
  have : ((fun b : Place × List Nat => decide (b.1 = q)) ∘ fun b : Place × List Nat => (b.1, b.2.filter (· ≠ e))) = fun b => decide (b.1 = q) := by
    funext b; rfl
  rw [this]
  cases t.boxes.find? (fun b => decide (b.1 = q)) <;> simp

theorem at_enter (t : Spec.State) (p : Place) (e : Nat) (l : List Nat) (q : Place) :
    (t.enter p e l).at q = if q = p then l else (t.at q).filter (· ≠ e) := by
  unfold Spec.State.enter; rw [at_fill, at_leave]

theorem find_of_mem {l : List (Place × List Nat)} (h : (l.map (·.1)).Nodup) {b : Place × List Nat} (hb : b ∈ l) :
    l.find? (fun c => decide (c.1 = b.1)) = some b := by
  induction l with
  | nil => simp at hb
  | cons c l ih =>
    simp only [List.map_cons, List.nodup_cons, List.mem_map, not_exists, not_and] at h
    rw [List.find?_cons]
    rcases List.mem_cons.1 hb with rfl | hb'
    · simp
    · have : ¬ c.1 = b.1 := fun e => h.1 b hb' e.symm
      simp [this, ih h.2 hb']

theorem at_of_mem {t : Spec.State} (h : KeysNodup t) {b : Place × List Nat} (hb : b ∈ t.boxes) : t.at b.1 = b.2 := by
  unfold Spec.State.at; rw [find_of_mem h hb]

theorem mem_of_at {t : Spec.State} {p : Place} {e : Nat} (h : e ∈ t.at p) : ∃ b ∈ t.boxes, e ∈ b.2 := by
  unfold Spec.State.at at h
  split at h
  · next b hb => exact ⟨b, List.mem_of_find?_eq_some hb, h⟩
  · simp at h

/-! ## The relation -/

/-- the lists and the containers agree -/
structure Agree (L : Place → List Nat) (C : Nat → Option Place) : Prop where
  nodup : ∀ p, (L p).Nodup
  mem : ∀ e p, e ∈ L p ↔ C e = some p

structure Rel (s : State) (t : Spec.State) : Prop where
  keys : KeysNodup t
  lists : ∀ p, t.at p = s.lists p
  agree : Agree s.lists fun e => (s.entries e).container
  len : t.pairs.length = s.next
  pairs : ∀ e, e < s.next → t.pairs[e]? = some ((s.entries e).key, (s.entries e).value)
  fresh : ∀ e, s.next ≤ e → s.entries e = ⟨0, 0, none⟩

theorem Rel.keyOf {s : State} {t : Spec.State} (h : Rel s t) (e : Nat) : t.keyOf e = (s.entries e).key := by
  unfold Spec.State.keyOf
  by_cases he : e < s.next
  · rw [h.pairs e he]; rfl
  · rw [h.fresh e (by omega), List.getElem?_eq_none (by rw [h.len]; omega)]; rfl

theorem Rel.valueOf {s : State} {t : Spec.State} (h : Rel s t) (e : Nat) : t.valueOf e = (s.entries e).value := by
  unfold Spec.State.valueOf
  by_cases he : e < s.next
  · rw [h.pairs e he]; rfl
  · rw [h.fresh e (by omega), List.getElem?_eq_none (by rw [h.len]; omega)]; rfl

theorem Rel.where {s : State} {t : Spec.State} (h : Rel s t) (e : Nat) : t.where? e = (s.entries e).container := by
  unfold Spec.State.where?
  cases hf : t.boxes.find? (fun b => decide (e ∈ b.2)) with
  | some b =>
    have hm : e ∈ b.2 := by simpa using List.find?_some hf
    rw [← at_of_mem h.keys (List.mem_of_find?_eq_some hf), h.lists] at hm
    exact ((h.agree.mem e b.1).1 hm).symm
  | none =>
    cases hc : (s.entries e).container with
    | none => rfl
    | some p =>
      have hm := (h.agree.mem e p).2 hc
      rw [← h.lists] at hm
      obtain ⟨b, hb, heb⟩ := mem_of_at hm
      have := List.find?_eq_none.1 hf b hb
      simp [heb] at this

theorem Rel.lt {s : State} {t : Spec.State} (h : Rel s t) {e : Nat} {p : Place} (he : e ∈ s.lists p) : e < s.next := by
  apply Decidable.byContradiction; intro hn
  have := (h.agree.mem e p).1 he
  rw [h.fresh e (by omega)] at this
  simp at this

theorem Rel.find {s : State} {t : Spec.State} (h : Rel s t) (o k : Nat) : t.find o k = entryForKey s o k := by
  unfold Spec.State.find entryForKey
  rw [h.lists]; congr 1; funext e; rw [h.keyOf]

theorem rel_init : Rel init Spec.init where
  keys := by simp [KeysNodup, Spec.init]
  lists := fun p => by simp [Spec.State.at, Spec.init, init]
  agree := ⟨fun p => by simp [init], fun e p => by simp [init]⟩
  len := rfl
  pairs := fun e he => by simp [init] at he
  fresh := fun e _ => rfl

/-- an entry comes into a place: the model -/
theorem enter_facts {s : State} (ha : Agree s.lists fun e => (s.entries e).container) {p : Place} {e : Nat} {l : List Nat} (hp : e ∉ s.lists p)
    (hm : ∀ o, (s.entries e).container ≠ some ⟨o, true⟩) :
    (∀ q, (inverseAdd (s.setList p l) e p).lists q = if q = p then l else (s.lists q).filter (· ≠ e)) ∧
    (∀ x, (inverseAdd (s.setList p l) e p).entries x = if x = e then { s.entries x with container := some p } else s.entries x) ∧
    (inverseAdd (s.setList p l) e p).next = s.next := by
  have hfil : ∀ q, (s.entries e).container ≠ some q → (s.lists q).filter (· ≠ e) = s.lists q := by
    intro q hq
    rw [List.filter_eq_self]
    intro x hx
    simp only [decide_eq_true_eq]
    rintro rfl
    exact hq ((ha.mem _ _).1 hx)
  have hent : ((s.setList p l).entries e).container = (s.entries e).container := rfl
  unfold inverseAdd
  rw [hent]
  cases hc : (s.entries e).container with
  | none =>
    refine ⟨fun q => ?_, fun x => rfl, rfl⟩
    simp only [State.setContainer, State.setList]
    rw [hfil q (by rw [hc]; simp)]
  | some q0 =>
    obtain ⟨o, b⟩ := q0
    cases b with
    | true => exact absurd hc (hm o)
    | false =>
      have hne : (⟨o, false⟩ : Place) ≠ p := by rintro rfl; exact hp ((ha.mem _ _).2 hc)
      refine ⟨fun q => ?_, fun x => ?_, ?_⟩
      · simp only [inverseRemoveOwner, State.setContainer, State.setList, Bool.false_eq_true, if_false, hne]
        by_cases hq : q = p
        · subst hq; simp [Ne.symm hne]
        · simp only [hq, if_false]
          by_cases hq0 : q = ⟨o, false⟩
          · subst hq0
            simp only [if_true]
            rw [(ha.nodup _).erase_eq_filter]
            apply List.filter_congr; intro x _; by_cases hxe : x = e <;> simp [hxe]
          · simp only [hq0, if_false]
            rw [hfil q (by rw [hc]; simpa using fun h => hq0 h.symm)]
      · simp [inverseRemoveOwner, State.setContainer, State.setList]
      · simp [inverseRemoveOwner, State.setContainer, State.setList]

/-- an entry comes into a place: the relation; `D` are the entries that are put out of it -/
theorem rel_enter {s s' : State} {t : Spec.State} (h : Rel s t) {p : Place} {e : Nat} {l : List Nat} (D : Nat → Prop) [DecidablePred D]
    (hlists : ∀ q, s'.lists q = if q = p then l else (s.lists q).filter (· ≠ e))
    (hent : ∀ x, s'.entries x = if x = e then { s.entries x with container := some p } else if D x then { s.entries x with container := none } else s.entries x)
    (hnext : s'.next = s.next) (he : e < s.next) (hl : l.Nodup) (hD : ∀ x, D x → x ∈ s.lists p)
    (hmem : ∀ x, x ∈ l ↔ x = e ∨ (x ∈ s.lists p ∧ ¬ D x)) : Rel s' (t.enter p e l) where
  keys := keys_fill (keys_leave h.keys e) p l
  lists := fun q => by rw [at_enter, hlists, h.lists]
  agree := by
    refine ⟨fun q => ?_, fun x q => ?_⟩
    · rw [hlists]; split
      · exact hl
      · exact (h.agree.nodup q).filter _
    · rw [hlists]; simp only [hent]
      have hx := h.agree.mem x q
      have hxp := h.agree.mem x p
      have hm := hmem x
      have hd := hD x
      by_cases hq : q = p
      · subst hq
        by_cases hxe : x = e
        · subst hxe; simp [hm.2 (Or.inl rfl)]
        · by_cases hdx : D x
          · simp [hm, hxe, hdx]
          · simp [hm, hxe, hdx]; exact hx
      · by_cases hxe : x = e
        · subst hxe; simp [hq, Ne.symm hq]
        · by_cases hdx : D x
          · have := hxp.1 (hd hdx)
            simp only [hq, if_false, hxe, hdx, if_true, List.mem_filter, hx, this]
            simp [Ne.symm hq]
          · simp [hq, hxe, hdx, hx]
  len := by rw [hnext]; exact h.len
  pairs := fun x hx => by
    rw [hnext] at hx
    have := h.pairs x hx
    rw [hent]
    show t.pairs[x]? = _
    rw [this]; split
    · rfl
    · split <;> rfl
  fresh := fun x hx => by
    rw [hnext] at hx
    have h1 : x ≠ e := by omega
    have h2 : ¬ D x := fun hd => by have := h.lt (hD x hd); omega
    rw [hent]; simp [h1, h2]; exact h.fresh x hx

/-- an entry goes out of its place -/
theorem rel_leave {s : State} {t : Spec.State} (h : Rel s t) {p : Place} {e : Nat} {l : List Nat} (he : e ∈ s.lists p) (hl : l = (s.lists p).filter (· ≠ e)) :
    Rel (inverseRemove (s.setList p l) e) (t.leave e) where
  keys := keys_leave h.keys e
  lists := fun q => by
    rw [at_leave, h.lists]
    simp only [inverseRemove, State.setContainer, State.setList]
    split
    · next hq => subst hq; exact hl.symm
    · next hq =>
      rw [List.filter_eq_self]
      intro x hx
      simp only [decide_eq_true_eq]
      rintro rfl
      have := ((h.agree.mem _ _).1 hx).symm.trans ((h.agree.mem _ _).1 he)
      exact hq (by simpa using this)
  agree := by
    refine ⟨fun q => ?_, fun x q => ?_⟩
    · simp only [inverseRemove, State.setContainer, State.setList]
      split
      · rw [hl]; exact (h.agree.nodup p).filter _
      · exact h.agree.nodup q
    · simp only [inverseRemove, State.setContainer, State.setList]
      have hx := h.agree.mem x q
      have hep := (h.agree.mem e p).1 he
      by_cases hxe : x = e
      · subst hxe
        simp only [if_true]
        split
        · simp [hl]
        · next hq => rw [hx, hep]; simp [Ne.symm hq]
      · simp only [hxe, if_false]
        split
        · next hq => subst hq; rw [hl]; simp [hxe]; exact hx
        · exact hx
  len := h.len
  pairs := fun x hx => by
    have := h.pairs x hx
    simp only [inverseRemove, State.setContainer, State.setList, Spec.State.leave]
    rw [this]; split <;> rfl
  fresh := fun x hx => by
    have h1 : x ≠ e := by have := h.lt he; simp only [inverseRemove, State.setContainer, State.setList] at hx; omega
    simp only [inverseRemove, State.setContainer, State.setList, h1, if_false]
    exact h.fresh x hx

theorem foldl_inverseRemove (l : List Nat) (s : State) :
    (l.foldl inverseRemove s).lists = s.lists ∧ (l.foldl inverseRemove s).next = s.next ∧
    ∀ x, (l.foldl inverseRemove s).entries x = if x ∈ l then { s.entries x with container := none } else s.entries x := by
  induction l generalizing s with
  | nil => simp
  | cons a l ih =>
    obtain ⟨h1, h2, h3⟩ := ih (inverseRemove s a)
    refine ⟨h1, h2, fun x => ?_⟩
    rw [List.foldl_cons, h3]
    simp only [inverseRemove, State.setContainer, List.mem_cons]
    by_cases hx : x = a <;> by_cases hl : x ∈ l <;> simp [hx, hl]
    
theorem rel_clear {s : State} {t : Spec.State} (h : Rel s t) (p : Place) : Rel ((s.lists p).foldl inverseRemove (s.setList p [])) (t.fill p []) := by
  obtain ⟨h1, h2, h3⟩ := foldl_inverseRemove (s.lists p) (s.setList p [])
  refine ⟨keys_fill h.keys p [], fun q => ?_, ⟨fun q => ?_, fun x q => ?_⟩, ?_, fun x hx => ?_, fun x hx => ?_⟩
  · rw [at_fill, h1, h.lists]; rfl
  · rw [h1]; simp only [State.setList]; split
    · exact List.nodup_nil
    · exact h.agree.nodup q
  · rw [h1, h3]; simp only [State.setList]
    have hq := h.agree.mem x q
    have hp := h.agree.mem x p
    by_cases e : q = p
    · subst e; simp only [if_true]; split
      · simp
      · next hx => simp only [List.not_mem_nil, false_iff]; rw [← hq]; exact hx
    · simp only [e, if_false]; split
      · next hx => rw [hq, hp.1 hx]; simp [Ne.symm e]
      · exact hq
  · rw [h2]; exact h.len
  · rw [h2] at hx; rw [h3]; have := h.pairs x hx
    simp only [State.setList, Spec.State.fill]; rw [this]; split <;> rfl
  · rw [h2] at hx; rw [h3]
    have : x ∉ s.lists p := fun hm => by have := h.lt hm; simp only [State.setList] at hx; omega
    simp only [this, if_false]; exact h.fresh x hx

theorem rel_newEntry {s : State} {t : Spec.State} (h : Rel s t) (k x : Nat) : Rel (newEntry s k x) { t with pairs := t.pairs ++ [(k, x)] } where
  keys := h.keys
  lists := h.lists
  agree := by
    refine ⟨h.agree.nodup, fun e p => ?_⟩
    simp only [newEntry]
    have := h.agree.mem e p
    split
    · next he => subst he; rw [this, h.fresh _ (Nat.le_refl _)]
    · exact this
  len := by simp [newEntry, h.len]
  pairs := fun e he => by
    simp only [newEntry] at he ⊢
    by_cases h1 : e = s.next
    · subst h1; rw [← h.len]; simp
    · simp only [h1, if_false]
      rw [List.getElem?_append_left (by rw [h.len]; omega)]
      exact h.pairs e (by omega)
  fresh := fun e he => by
    simp only [newEntry] at he ⊢
    rw [if_neg (by omega)]; exact h.fresh e (by omega)

theorem rel_value {s : State} {t : Spec.State} (h : Rel s t) {e k : Nat} (x : Nat) (he : e < s.next) (hk : (s.entries e).key = k) :
    Rel { s with entries := fun i => if i = e then { s.entries i with value := x } else s.entries i } { t with pairs := t.pairs.set e (k, x) } where
  keys := h.keys
  lists := h.lists
  agree := by
    refine ⟨h.agree.nodup, fun y p => ?_⟩
    have := h.agree.mem y p
    simp only at this ⊢
    split
    · exact this
    · exact this
  len := by simp [h.len]
  pairs := fun y hy => by
    simp only at hy ⊢
    have := h.pairs y hy
    by_cases hye : y = e
    · subst hye; simp [h.len, hy, hk]
    · simp only [hye, if_false]; rw [List.getElem?_set_ne (Ne.symm hye)]; exact this
  fresh := fun y hy => by
    simp only at hy ⊢
    rw [if_neg (by omega)]; exact h.fresh y hy

theorem erase_eq {s : State} {t : Spec.State} (h : Rel s t) (p : Place) (e : Nat) : (s.lists p).erase e = (s.lists p).filter (· ≠ e) := by
  rw [(h.agree.nodup p).erase_eq_filter]
  apply List.filter_congr; intro x _; by_cases hxe : x = e <;> simp [hxe]

theorem eraseIdx_eq {l : List Nat} (h : l.Nodup) {i e : Nat} (hi : l[i]? = some e) : l.eraseIdx i = l.filter (· ≠ e) := by
  induction l generalizing i with
  | nil => simp at hi
  | cons a l ih =>
    rw [List.nodup_cons] at h
    cases i with
    | zero =>
      simp only [List.getElem?_cons_zero, Option.some.injEq] at hi
      subst hi
      simp only [List.eraseIdx_cons_zero, ne_eq, not_true_eq_false, decide_false, Bool.false_eq_true, not_false_eq_true, List.filter_cons_of_neg]
      rw [eq_comm, List.filter_eq_self]
      intro x hx; simp only [decide_eq_true_eq]; rintro rfl; exact h.1 hx
    | succ i =>
      simp only [List.getElem?_cons_succ] at hi
      have hne : a ≠ e := by rintro rfl; exact h.1 (List.mem_of_getElem? hi)
      simp [hne, ih h.2 hi]

theorem insertIdx_eq (l : List Nat) (i e : Nat) (h : i ≤ l.length) : l.insertIdx i e = l.take i ++ e :: l.drop i := by
  induction l generalizing i with
  | nil => simp at h; subst h; simp
  | cons a l ih =>
    cases i with
    | zero => simp
    | succ i => simp at h; simp [ih i h]

theorem set_eq (l : List Nat) (i e : Nat) (h : i < l.length) : l.set i e = l.take i ++ e :: l.drop (i + 1) := by
  rw [List.set_eq_take_append_cons_drop, if_pos h]

theorem idxOf_of {l : List Nat} (h : l.Nodup) {i e : Nat} (hi : l[i]? = some e) : l.idxOf e = i := by
  induction l generalizing i with
  | nil => simp at hi
  | cons a l ih =>
    rw [List.nodup_cons] at h
    cases i with
    | zero => simp only [List.getElem?_cons_zero, Option.some.injEq] at hi; subst hi; simp
    | succ i =>
      simp only [List.getElem?_cons_succ] at hi
      have hne : a ≠ e := by rintro rfl; exact h.1 (List.mem_of_getElem? hi)
      have := ih h.2 hi; grind [List.idxOf_cons]

theorem rel_step {s : State} {t : Spec.State} (h : Rel s t) (op : Op) (ha : t.Allowed op) :
    Rel (step s op).1 (t.step op).1 ∧ (step s op).2 = (t.step op).2 := by
  have hadd : ∀ {s : State} {t : Spec.State}, Rel s t → ∀ (p : Place) (e : Nat), e < s.next → e ∉ s.lists p → (∀ o, (s.entries e).container ≠ some ⟨o, true⟩) →
      Rel (inverseAdd (s.setList p (s.lists p ++ [e])) e p) (t.enter p e (t.at p ++ [e])) := by
    intro s t h p e he hp hm
    obtain ⟨h1, h2, h3⟩ := enter_facts h.agree (l := s.lists p ++ [e]) hp hm
    rw [h.lists]
    refine rel_enter h (fun _ => False) h1 (fun x => by rw [h2]; simp) h3 he ?_ (fun x hx => hx.elim) (fun x => by simp [or_comm])
    rw [List.nodup_append]
    refine ⟨h.agree.nodup p, by simp, fun a ha b hb => ?_⟩
    simp at hb; subst hb; rintro rfl; exact hp ha
  have hrem : ∀ (p : Place) (e : Nat), e ∈ s.lists p → Rel (inverseRemove (s.setList p ((s.lists p).erase e)) e) (t.leave e) := by
    intro p e he
    exact rel_leave h he (erase_eq h p e)
  cases op with
  | newEntry k x => exact ⟨rel_newEntry h k x, by simp [step, Spec.State.step, h.len]⟩
  | put o k x =>
    simp only [step, Spec.State.step, h.find]
    cases hf : entryForKey s o k with
    | some e =>
      refine ⟨rel_value h x (h.lt (List.mem_of_find?_eq_some hf)) ?_, rfl⟩
      simpa using List.find?_some hf
    | none =>
      refine ⟨?_, rfl⟩
      have hn := rel_newEntry h k x
      have hnm : ∀ q, s.next ∉ s.lists q := fun q hq => by have := h.lt hq; omega
      have hc : ((newEntry s k x).entries s.next).container = none := by simp [newEntry]
      have := hadd hn ⟨o, true⟩ s.next (by simp [newEntry]) (hnm _) (by simp [hc])
      have hnl : s.next ∉ (newEntry s k x).lists ⟨o, true⟩ := hnm _
      simp only [add, hnl, if_false]
      refine ⟨keys_fill hn.keys _ _, fun q => ?_, this.agree, this.len, this.pairs, this.fresh⟩
      rw [← this.lists, at_fill, at_enter, h.len]
      split
      · rfl
      · rw [hn.lists, eq_comm, List.filter_eq_self]
        intro y hy; simp only [decide_eq_true_eq]; rintro rfl; exact hnm _ hy
  | removeKey o k =>
    simp only [step, Spec.State.step, h.find]
    cases hf : entryForKey s o k with
    | some e =>
      have he := List.mem_of_find?_eq_some hf
      simp only [remove, he, if_true, h.valueOf, and_true]
      exact hrem _ _ he
    | none => exact ⟨h, rfl⟩
  | add p e =>
    simp only [step, Spec.State.step, h.len, add]
    by_cases he : e < s.next
    · by_cases hm : e ∈ s.lists p
      · simp [he, Nat.not_le.2 he, h.lists, hm, h]
      · rw [h.lists]; simp only [he, if_true, ge_iff_le, Nat.not_le.2 he, if_false, hm, and_true]
        rw [← h.lists]
        refine hadd h p e he hm ?_ |> fun r => by rw [h.lists]; rw [h.lists] at r; exact r
        rcases ha with ha | ha
        · rw [h.lists] at ha; exact absurd ha hm
        · intro o; rw [← h.where]; exact ha o
    · simp [he, Nat.le_of_not_lt he, h]
  | insert p i e =>
    simp only [step, Spec.State.step, h.len, h.lists]
    by_cases he : e < s.next
    · by_cases hi : i < 0 ∨ i > (s.lists p).length
      · rw [if_pos he, if_pos hi, if_pos (Or.inr hi)]; exact ⟨h, rfl⟩
      · rw [if_pos he, if_neg hi, if_neg (c := e ≥ s.next ∨ _) (by rintro (h | h); exact absurd he (by omega); exact hi h)]
        by_cases hm : e ∈ s.lists p
        · rw [if_pos hm, if_pos hm]; exact ⟨h, rfl⟩
        · rw [if_neg hm, if_neg hm, insertIdx_eq _ _ _ (by omega)]
          refine ⟨?_, rfl⟩
          have hc : ∀ o, (s.entries e).container ≠ some ⟨o, true⟩ := by
            rcases ha with ha | ha
            · rw [h.lists] at ha; exact absurd ha hm
            · intro o; rw [← h.where]; exact ha o
          obtain ⟨h1, h2, h3⟩ := enter_facts h.agree (l := (s.lists p).take i.toNat ++ e :: (s.lists p).drop i.toNat) hm hc
          have hmem : ∀ x, x ∈ (s.lists p).take i.toNat ++ e :: (s.lists p).drop i.toNat ↔ x = e ∨ x ∈ s.lists p := by
            intro x
            have : x ∈ s.lists p ↔ x ∈ (s.lists p).take i.toNat ∨ x ∈ (s.lists p).drop i.toNat := by
              rw [← List.mem_append, List.take_append_drop]
            rw [this]; simp only [List.mem_append, List.mem_cons]; grind
          refine rel_enter h (fun _ => False) h1 (fun x => by rw [h2]; simp) h3 he ?_ (fun x hx => hx.elim) (fun x => by rw [hmem]; simp)
          have hnd := h.agree.nodup p
          have hper : ((s.lists p).take i.toNat ++ e :: (s.lists p).drop i.toNat).Perm (e :: s.lists p) := by
            have := List.perm_middle (a := e) (l₁ := (s.lists p).take i.toNat) (l₂ := (s.lists p).drop i.toNat)
            rwa [List.take_append_drop] at this
          rw [hper.nodup_iff, List.nodup_cons]; exact ⟨hm, hnd⟩
    · rw [if_neg he, if_pos (by omega)]; exact ⟨h, rfl⟩
  | set p i e =>
    simp only [step, Spec.State.step, h.len, h.lists]
    by_cases he : e < s.next
    · by_cases hi : i < 0
      · rw [if_pos he, if_pos (Or.inl hi), if_pos (Or.inr hi)]; exact ⟨h, rfl⟩
      · rw [if_pos he, if_neg (c := _ ∨ i < 0) (by omega)]
        cases hg : (s.lists p)[i.toNat]? with
        | none =>
          have := List.getElem?_eq_none_iff.1 hg
          rw [if_pos (by omega)]; exact ⟨h, rfl⟩
        | some old =>
          have hlt : i.toNat < (s.lists p).length := (List.getElem?_eq_some_iff.1 hg).1
          have hnd := h.agree.nodup p
          rw [if_neg (by omega)]
          by_cases ho : old = e
          · subst ho
            rw [if_neg (by rw [idxOf_of hnd hg]; simp)]; simp [h]
          · by_cases hm : e ∈ s.lists p
            · have : (s.lists p).idxOf e ≠ i.toNat := by
                intro hix
                have h1 := List.getElem_idxOf (List.idxOf_lt_length_iff.2 hm)
                have h2 := (List.getElem?_eq_some_iff.1 hg).2
                simp only [hix] at h1
                exact ho (h2.symm.trans h1)
              rw [if_pos ⟨hm, this⟩]; simp [ho, hm, h]
            · rw [if_neg (fun hc => hm hc.1)]
              simp only [ho, if_false, hm, and_true]
              rw [set_eq _ _ _ hlt]
              have hc : ∀ o, (s.entries e).container ≠ some ⟨o, true⟩ := by
                rcases ha with ha | ha
                · rw [h.lists] at ha; exact absurd ha hm
                · intro o; rw [← h.where]; exact ha o
              generalize hl : (s.lists p).take i.toNat ++ e :: (s.lists p).drop (i.toNat + 1) = l
              obtain ⟨h1, h2, h3⟩ := enter_facts h.agree (l := l) hm hc
              have hcomm : inverseAdd (inverseRemove (s.setList p l) old) e p = inverseRemove (inverseAdd (s.setList p l) e p) old := by
                have hce : ((inverseRemove (s.setList p l) old).entries e).container = ((s.setList p l).entries e).container := by
                  simp [inverseRemove, State.setContainer, State.setList, Ne.symm ho]
                unfold inverseAdd
                rw [hce]
                have hfin : ∀ (u : State), (inverseRemove u old).setContainer e (some p) = inverseRemove (u.setContainer e (some p)) old := by
                  intro u
                  simp only [inverseRemove, State.setContainer]
                  congr 1
                  funext x
                  by_cases hxe : x = e <;> by_cases hxo : x = old <;> simp_all
                cases ((s.setList p l).entries e).container with
                | none => exact hfin _
                | some q =>
                  simp only
                  rw [← hfin]
                  congr 1
                  unfold inverseRemoveOwner
                  split <;> rfl
              rw [hcomm]
              have hdec : s.lists p = (s.lists p).take i.toNat ++ old :: (s.lists p).drop (i.toNat + 1) := by
                have h2 := (List.getElem?_eq_some_iff.1 hg).2
                rw [← h2, List.getElem_cons_drop, List.take_append_drop]
              have hno : ∀ x, x ∈ (s.lists p).take i.toNat ∨ x ∈ (s.lists p).drop (i.toNat + 1) → x ≠ old := by
                rw [hdec, List.nodup_append] at hnd
                simp only [List.nodup_cons] at hnd
                rintro x (hx | hx)
                · exact hnd.2.2 x hx old (by simp)
                · rintro rfl; exact hnd.2.1.1 hx
              have hmemp : ∀ x, x ∈ s.lists p ↔ x = old ∨ x ∈ (s.lists p).take i.toNat ∨ x ∈ (s.lists p).drop (i.toNat + 1) := by
                intro x
                constructor
                · intro hx; rw [hdec] at hx; simp only [List.mem_append, List.mem_cons] at hx; grind
                · intro hx; rw [hdec]; simp only [List.mem_append, List.mem_cons]; grind
              refine rel_enter h (fun x => x = old) (s' := inverseRemove (inverseAdd (s.setList p l) e p) old) (fun q => h1 q) (fun x => ?_) h3 he ?_ (fun x hx => ?_) (fun x => ?_)
              · simp only [inverseRemove, State.setContainer, h2]
                by_cases hxe : x = e
                · subst hxe; simp [Ne.symm ho]
                · by_cases hxo : x = old <;> simp [hxe, hxo, ho]
              · rw [← hl]
                have hnd' : ((s.lists p).take i.toNat ++ old :: (s.lists p).drop (i.toNat + 1)).Nodup := by rw [← hdec]; exact hnd
                rw [List.perm_middle.nodup_iff, List.nodup_cons] at hnd' ⊢
                refine ⟨fun hx => hm ?_, hnd'.2⟩
                rw [hmemp]; right; simpa using hx
              · subst hx; exact List.mem_of_getElem? hg
              · rw [← hl, hmemp]
                have := hno x
                simp only [List.mem_append, List.mem_cons]; grind
    · rw [if_neg he, if_pos (by omega)]; exact ⟨h, rfl⟩
  | remove p e =>
    simp only [step, Spec.State.step, remove, h.lists]
    by_cases he : e ∈ s.lists p
    · simp only [he, if_true, and_true]; exact hrem p e he
    · simp [he, h]
  | removeAt p i =>
    simp only [step, Spec.State.step, h.lists]
    by_cases hi : i < 0
    · simp [hi, h]
    · cases hg : (s.lists p)[i.toNat]? with
      | none =>
        have := List.getElem?_eq_none_iff.1 hg
        rw [if_pos (by omega), if_neg hi]; exact ⟨h, rfl⟩
      | some e =>
        have hlt : i.toNat < (s.lists p).length := (List.getElem?_eq_some_iff.1 hg).1
        rw [if_neg (by omega), if_neg hi]
        exact ⟨rel_leave h (List.mem_of_getElem? hg) (eraseIdx_eq (h.agree.nodup p) hg), rfl⟩
  | clear p => exact ⟨rel_clear h p, rfl⟩
  | contents p => simp [step, Spec.State.step, h.lists, h]
  | container e => simp [step, Spec.State.step, h.where, h]
  | entry e => simp [step, Spec.State.step, h.keyOf, h.valueOf, h]

theorem rel_run {s : State} {t : Spec.State} (h : Rel s t) (ops : List Op) (ha : t.AllAllowed ops) :
    Rel (run s ops) (t.run ops).1 ∧ answers s ops = (t.run ops).2 := by
  induction ops generalizing s t with
  | nil => exact ⟨h, rfl⟩
  | cons op ops ih =>
    obtain ⟨h1, h2⟩ := rel_step h op ha.1
    obtain ⟨h3, h4⟩ := ih h1 ha.2
    exact ⟨h3, by simp [answers, Spec.State.run, h2, h4]⟩

/-! ## Entries that are in two places -/

theorem run_append (s : State) (a b : List Op) : run s (a ++ b) = run (run s a) b := by simp [run]

/-- a map keeps its entries when one of them comes into another place -/
theorem inverseAdd_map (s : State) (e : Nat) (p : Place) (o : Nat) : (inverseAdd s e p).lists ⟨o, true⟩ = s.lists ⟨o, true⟩ := by
  unfold inverseAdd
  cases (s.entries e).container with
  | none => rfl
  | some q =>
    obtain ⟨q, b⟩ := q
    cases b <;> simp [inverseRemoveOwner, State.setContainer, State.setList]

theorem inverseAdd_container (s : State) (e : Nat) (p : Place) : ((inverseAdd s e p).entries e).container = some p := by
  unfold inverseAdd
  simp [State.setContainer]

/-- what an `Add` with the answer true does -/
theorem add_true {s : State} {p : Place} {e : Nat} (h : (step s (.add p e)).2 = .bool true) :
    e ∉ s.lists p ∧ (step s (.add p e)).1 = inverseAdd (s.setList p (s.lists p ++ [e])) e p := by
  simp only [step] at h ⊢
  split at h
  · next he =>
    simp only [he, if_true]
    unfold add at h ⊢
    split at h
    · simp at h
    · next hn => exact ⟨hn, by rw [if_neg hn]⟩
  · simp at h

/-- the place has the entry after it, unless it is the list where the entry says it was -/
theorem mem_add {s : State} {p : Place} {e : Nat} (hp : e ∉ s.lists p) : e ∈ (inverseAdd (s.setList p (s.lists p ++ [e])) e p).lists p ∨ (s.entries e).container = some p := by
  unfold inverseAdd
  have : ((s.setList p (s.lists p ++ [e])).entries e).container = (s.entries e).container := rfl
  rw [this]
  cases (s.entries e).container with
  | none => left; simp [State.setContainer, State.setList]
  | some q =>
    by_cases hq : q = p
    · right; rw [hq]
    · left
      simp only [inverseRemoveOwner, State.setContainer]
      split
      · simp [State.setList]
      · simp [State.setList, Ne.symm hq]

/-- an entry is in the place it says it is in -/
def InPlace (s : State) : Prop := ∀ e p, (s.entries e).container = some p → e ∈ s.lists p

theorem inPlace_inverseRemove {s s' : State} (h : InPlace s) {e : Nat} {p : Place} {l : List Nat} (hl : ∀ x, x ∈ s.lists p → x ≠ e → x ∈ l) (hs : s' = s.setList p l) :
    InPlace (inverseRemove s' e) := by
  subst hs
  intro x q hx
  simp only [inverseRemove, State.setContainer, State.setList] at hx ⊢
  split at hx
  · simp at hx
  · next hxe =>
    have := h x q hx
    split
    · next hq => subst hq; exact hl x this hxe
    · exact this

theorem inPlace_inverseAdd {s : State} {e : Nat} {p : Place} (h : ∀ x q, x ≠ e → (s.entries x).container = some q → x ∈ s.lists q) (he : e ∈ s.lists p)
    (hp : (s.entries e).container ≠ some p) : InPlace (inverseAdd s e p) := by
  unfold inverseAdd
  intro x q hx
  cases hc : (s.entries e).container with
  | none =>
    rw [hc] at hx
    simp only [State.setContainer] at hx ⊢
    split at hx
    · next hxe => simp at hx; subst hxe; subst hx; exact he
    · next hxe => exact h x q hxe hx
  | some r =>
    rw [hc] at hx
    have hrp : r ≠ p := by rintro rfl; exact hp hc
    have hl : ∀ y w, (y ≠ e ∨ w ≠ r) → y ∈ s.lists w → y ∈ (inverseRemoveOwner s r e).lists w := by
      intro y w hy hm
      unfold inverseRemoveOwner
      split
      · exact hm
      · simp only [State.setList]
        split
        · next hw => subst hw; exact (List.mem_erase_of_ne (hy.resolve_right (by simp))).2 hm
        · exact hm
    have hen : (inverseRemoveOwner s r e).entries = s.entries := by unfold inverseRemoveOwner; split <;> rfl
    simp only [State.setContainer, hen] at hx ⊢
    split at hx
    · next hxe => simp at hx; subst hxe; subst hx; exact hl x p (Or.inr hrp.symm) he
    · next hxe => exact hl x q (Or.inl hxe) (h x q hxe hx)

theorem inPlace_add {s : State} (h : InPlace s) (p : Place) (e : Nat) : InPlace (add s p e).1 := by
  unfold add
  split
  · exact h
  · next hp =>
    refine inPlace_inverseAdd (fun x q hx hc => ?_) (by simp [State.setList]) (fun hc => hp (h e p hc))
    have := h x q hc
    simp only [State.setList]; split
    · next hq => subst hq; simp [this]
    · exact this

theorem inPlace_remove {s : State} (h : InPlace s) (p : Place) (e : Nat) : InPlace (remove s p e).1 := by
  unfold remove
  split
  · exact inPlace_inverseRemove h (fun x hx hxe => (List.mem_erase_of_ne hxe).2 hx) rfl
  · exact h

theorem inPlace_new {s : State} (h : InPlace s) (k x : Nat) : InPlace (newEntry s k x) := by
  intro e p he
  simp only [newEntry] at he ⊢
  split at he
  · simp at he
  · exact h e p he

theorem inPlace_step {s : State} (h : InPlace s) (op : Op) : InPlace (step s op).1 := by
  cases op with
  | newEntry k x => exact inPlace_new h k x
  | put o k x =>
    simp only [step]
    split
    · intro e p he
      simp only at he ⊢
      split at he <;> exact h e p he
    · exact inPlace_add (inPlace_new h k x) _ _
  | removeKey o k =>
    simp only [step]
    split
    · exact inPlace_remove h _ _
    · exact h
  | add p e => simp only [step]; split; exact inPlace_add h p e; exact h
  | insert p i e =>
    simp only [step]
    split
    · split
      · exact h
      · next hi =>
        split
        · exact h
        · next hp =>
          have hm : ∀ x, x ∈ (s.lists p).insertIdx i.toNat e ↔ x = e ∨ x ∈ s.lists p := fun x => by
            rw [List.mem_insertIdx (by omega)]
          refine inPlace_inverseAdd (fun x q hx hc => ?_) (by simp [State.setList, hm]) (fun hc => hp (h e p hc))
          have := h x q hc
          simp only [State.setList]; split
          · next hq => subst hq; exact (hm x).2 (Or.inr this)
          · exact this
    · exact h
  | set p i e =>
    simp only [step]
    split
    · split
      · exact h
      · split
        · exact h
        · next hn =>
          split
          · exact h
          · next old hg =>
            split
            · exact h
            · next ho =>
              have hlt : i.toNat < (s.lists p).length := (List.getElem?_eq_some_iff.1 hg).1
              have hp : e ∉ s.lists p := by
                intro hm
                apply hn
                refine ⟨hm, fun hix => ho ?_⟩
                have h1 := List.getElem_idxOf (List.idxOf_lt_length_iff.2 hm)
                have h2 := (List.getElem?_eq_some_iff.1 hg).2
                simp only [hix] at h1
                exact h2.symm.trans h1
              have hkeep : ∀ x, x ∈ s.lists p → x ≠ old → x ∈ (s.lists p).set i.toNat e := by
                intro x hx hxo
                obtain ⟨j, hj⟩ := List.mem_iff_getElem?.1 hx
                apply List.mem_iff_getElem?.2
                refine ⟨j, ?_⟩
                rw [List.getElem?_set_ne, hj]
                rintro rfl
                rw [hg] at hj; exact hxo (by simpa using hj.symm)
              have hr := inPlace_inverseRemove (e := old) (l := (s.lists p).set i.toNat e) h hkeep rfl
              refine inPlace_inverseAdd (fun x q _ hc => hr x q hc) ?_ (fun hc => hp ?_)
              · simp only [inverseRemove, State.setContainer, State.setList, if_true]
                exact List.mem_set hlt e
              · apply h
                simpa [inverseRemove, State.setContainer, State.setList, Ne.symm ho] using hc
    · exact h
  | remove p e => exact inPlace_remove h p e
  | removeAt p i =>
    simp only [step]
    split
    · exact h
    · split
      · exact h
      · next e hg =>
        refine inPlace_inverseRemove h (fun x hx hxe => ?_) rfl
        obtain ⟨j, hj⟩ := List.mem_iff_getElem?.1 hx
        rw [List.mem_eraseIdx_iff_getElem?]
        refine ⟨j, ?_, hj⟩
        rintro rfl
        rw [hg] at hj; exact hxe (by simpa using hj.symm)
  | clear p =>
    simp only [step]
    obtain ⟨h1, h2, h3⟩ := foldl_inverseRemove (s.lists p) (s.setList p [])
    intro x q hx
    rw [h3] at hx
    rw [h1]
    split at hx
    · simp at hx
    · next hn =>
      have := h x q hx
      simp only [State.setList]; split
      · next hq => subst hq; exact absurd this hn
      · exact this
  | contents p => exact h
  | container e => exact h
  | entry e => exact h

theorem inPlace_run (ops : List Op) : InPlace (run init ops) := by
  have : ∀ s, InPlace s → InPlace (run s ops) := by
    induction ops with
    | nil => exact fun s h => h
    | cons op ops ih => exact fun s h => ih _ (inPlace_step h op)
  exact this init (fun e p h => by simp [init] at h)

end Verif.MapEntries
