import Verif.Proofs.MetaContainment

/-! The calls keep both ends in step. -/

namespace Verif.MetaContainment

variable {w v w' : World} {c p : Nat} {s : Slot}

theorem held_unique (hI : Inv w) {q t} (h1 : c ∈ w.held p s) (h2 : c ∈ w.held q t) : q = p ∧ t = s := by
  have a := (hI.mem p s c).1 h1
  have b := (hI.mem q t c).1 h2
  have hq : q = p := by have := a.2.1; rw [b.2.1] at this; simpa using this
  subst hq
  exact ⟨rfl, endID_inj b.1 a.1 (by rw [← a.2.2, b.2.2])⟩

theorem single_eq {l : List Nat} (h : l.length ≤ 1) (hc : c ∈ l) : l = [c] := by
  match l, h, hc with
  | [x], _, hc => simp at hc; rw [hc]

theorem put_put (h : Lists) (l m : List Nat) : put (put h p s l) p s m = put h p s m := by
  funext q t; simp only [put]; split <;> rfl

theorem put_self (h : Lists) : put h p s (h p s) = h := by
  funext q t; simp only [put]; split
  · rename_i e; rw [e.1, e.2]
  · rfl

/-- Leaving the former place while the list of the new one is already written. -/
theorem enter (hI : Inv w) (hk : v.kind = w.kind) (hc : v.container c = w.container c) (hf : v.cfid c = w.cfid c)
    {l : List Nat} (hh : v.held = put w.held p s l) (hn : c ∉ w.held p s) (hd : ∀ q, c ∉ w.held q .details) :
    (removeFromContainer v c).kind = w.kind ∧ (removeFromContainer v c).container = v.container ∧
    (removeFromContainer v c).cfid = v.cfid ∧ (removeFromContainer v c).held = put (without w.held c) p s l := by
  cases hcw : w.container c with
  | none =>
    rw [leave_none v (by rw [hc, hcw])]
    refine ⟨hk, rfl, rfl, ?_⟩
    rw [hh]
    funext q t
    simp only [put, without]
    split
    · rfl
    · rw [List.erase_of_not_mem]
      intro hm
      have := ((hI.mem q t c).1 hm).2.1
      rw [hcw] at this; simp at this
  | some q =>
    obtain ⟨t, ho, hft⟩ := hI.slot q c hcw
    have hm : c ∈ w.held q t := (hI.mem q t c).2 ⟨ho, hcw, hft⟩
    have hne : ¬ (q = p ∧ t = s) := by
      intro e; rw [e.1, e.2] at hm; exact hn hm
    have hvq : v.held q t = w.held q t := by rw [hh]; exact put_other _ _ hne
    have htd : t ≠ .details := by intro e; subst e; exact hd q hm
    rw [leave_some (s := t) v (by rw [hc, hcw]) (by rw [hf, hft]) (by rw [hk]; exact ho)
      (by rw [hk]; exact hI.tk q t c hm) htd
      (fun h1 => by rw [hvq]; exact single_eq (hI.one q t h1) hm)]
    refine ⟨hk, rfl, rfl, ?_⟩
    rw [assign_held, hh]
    funext q' t'
    simp only [put, without]
    by_cases e : q' = q ∧ t' = t
    · simp only [e, and_self, if_true, hne, if_false]
    · simp only [e, if_false]
      split
      · rfl
      · rw [List.erase_of_not_mem]
        intro hm'
        exact e (held_unique hI hm hm')

/-- Both ends agree after an element has come to a place and some others have left it. -/
theorem inv_moved (hI : Inv w) (ho : owns (w.kind p) s = true) (ht : takes s (w.kind c) = true)
    (hn : c ∉ w.held p s) {l : List Nat} {gone : Nat → Prop}
    (hk : w'.kind = w.kind) (hh : w'.held = put (without w.held c) p s l) (hl : l.Nodup)
    (hml : ∀ o, o ∈ l ↔ o = c ∨ (o ∈ w.held p s ∧ ¬ gone o)) (h1 : single s = true → l.length ≤ 1)
    (hcc : w'.container c = some p) (hcf : w'.cfid c = endID s)
    (hgo : ∀ o, o ≠ c → gone o → o ∈ w.held p s ∧ w'.container o = none)
    (hno : ∀ o, o ≠ c → ¬ gone o → w'.container o = w.container o ∧ w'.cfid o = w.cfid o) : Inv w' := by
  constructor
  · intro q t o
    rw [hk, hh]
    by_cases e : q = p ∧ t = s
    · obtain ⟨rfl, rfl⟩ := e
      rw [put_same, hml]
      by_cases ec : o = c
      · subst ec; simp [ho, hcc, hcf]
      · by_cases eg : gone o
        · simp [ec, eg, (hgo o ec eg).2]
        · simp [ec, eg, hI.mem, (hno o ec eg).1, (hno o ec eg).2]
    · rw [put_other _ _ e]
      simp only [without]
      by_cases ec : o = c
      · subst ec
        simp only [(hI.nodup q t).mem_erase_iff, ne_eq, not_true_eq_false, false_and, false_iff]
        rintro ⟨hq, h2, h3⟩
        rw [hcc] at h2; simp at h2; subst h2
        rw [hcf] at h3
        exact e ⟨rfl, endID_inj hq ho h3.symm⟩
      · rw [(hI.nodup q t).mem_erase_iff]
        by_cases eg : gone o
        · have := hgo o ec eg
          simp only [ne_eq, ec, not_false_eq_true, true_and, this.2, reduceCtorEq, false_and, and_false, iff_false]
          intro hm
          exact e (held_unique hI this.1 hm)
        · simp [ec, hI.mem, (hno o ec eg).1, (hno o ec eg).2]
  · intro q t
    rw [hh]
    by_cases e : q = p ∧ t = s
    · obtain ⟨rfl, rfl⟩ := e; rw [put_same]; exact hl
    · rw [put_other _ _ e]; exact (hI.nodup q t).erase c
  · intro q t h
    rw [hh]
    by_cases e : q = p ∧ t = s
    · obtain ⟨rfl, rfl⟩ := e; rw [put_same]; exact h1 h
    · rw [put_other _ _ e]
      exact Nat.le_trans (List.length_erase_le) (hI.one q t h)
  · intro q t o
    rw [hh, hk]
    by_cases e : q = p ∧ t = s
    · obtain ⟨rfl, rfl⟩ := e; rw [put_same, hml]
      rintro (rfl | h)
      · exact ht
      · exact hI.tk _ _ _ h.1
    · rw [put_other _ _ e]
      intro hm
      exact hI.tk q t o (List.mem_of_mem_erase hm)
  · intro q o h
    rw [hk]
    by_cases ec : o = c
    · subst ec
      rw [hcc] at h; simp at h; subst h
      exact ⟨s, ho, hcf⟩
    · by_cases eg : gone o
      · rw [(hgo o ec eg).2] at h; simp at h
      · rw [(hno o ec eg).1] at h
        rw [(hno o ec eg).2]
        exact hI.slot q o h

/-- Both ends agree after some elements have left a place. -/
theorem inv_left (hI : Inv w) {l : List Nat} {gone : Nat → Prop}
    (hk : w'.kind = w.kind) (hh : w'.held = put w.held p s l) (hl : l.Nodup)
    (hml : ∀ o, o ∈ l ↔ (o ∈ w.held p s ∧ ¬ gone o)) (h1 : single s = true → l.length ≤ 1)
    (hgo : ∀ o, gone o → o ∈ w.held p s ∧ w'.container o = none)
    (hno : ∀ o, ¬ gone o → w'.container o = w.container o ∧ w'.cfid o = w.cfid o) : Inv w' := by
  constructor
  · intro q t o
    rw [hk, hh]
    by_cases e : q = p ∧ t = s
    · obtain ⟨rfl, rfl⟩ := e
      rw [put_same, hml]
      by_cases eg : gone o
      · simp [eg, (hgo o eg).2]
      · simp [eg, hI.mem, (hno o eg).1, (hno o eg).2]
    · rw [put_other _ _ e]
      by_cases eg : gone o
      · have := hgo o eg
        simp only [this.2, reduceCtorEq, false_and, and_false, iff_false]
        intro hm
        exact e (held_unique hI this.1 hm)
      · simp [hI.mem, (hno o eg).1, (hno o eg).2]
  · intro q t
    rw [hh]
    by_cases e : q = p ∧ t = s
    · obtain ⟨rfl, rfl⟩ := e; rw [put_same]; exact hl
    · rw [put_other _ _ e]; exact hI.nodup q t
  · intro q t h
    rw [hh]
    by_cases e : q = p ∧ t = s
    · obtain ⟨rfl, rfl⟩ := e; rw [put_same]; exact h1 h
    · rw [put_other _ _ e]; exact hI.one q t h
  · intro q t o
    rw [hh, hk]
    by_cases e : q = p ∧ t = s
    · obtain ⟨rfl, rfl⟩ := e; rw [put_same, hml]
      exact fun h => hI.tk _ _ _ h.1
    · rw [put_other _ _ e]; exact hI.tk q t o
  · intro q o h
    rw [hk]
    by_cases eg : gone o
    · rw [(hgo o eg).2] at h; simp at h
    · rw [(hno o eg).1] at h
      rw [(hno o eg).2]
      exact hI.slot q o h

end Verif.MetaContainment
