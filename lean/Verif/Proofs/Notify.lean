import Verif.Spec.Notify
import Verif.Proofs.EList
set_option linter.unusedSimpArgs false
set_option linter.unusedSectionVars false
namespace Verif.Notify
open Verif.EList Verif.Spec

variable {α : Type} [DecidableEq α]

theorem applyAll_append (s : List α) (a b : List (Notif α)) :
    Replay.applyAll s (a ++ b) = (Replay.applyAll s a).bind (fun s' => Replay.applyAll s' b) := by
  induction a generalizing s with
  | nil => rfl
  | cons n ns ih =>
    simp only [List.cons_append, Replay.applyAll]
    cases Replay.apply s n <;> simp [ih]

theorem applyAll_single (s : List α) (n : Notif α) : Replay.applyAll s [n] = Replay.apply s n := by
  simp only [Replay.applyAll]; cases Replay.apply s n <;> rfl

theorem range_removeAt (l pre post : List α) :
    Replay.removeAt (rangePositions (pre.length : Int) l) l (pre ++ l ++ post) = some (pre ++ post) := by
  induction l generalizing pre with
  | nil => simp [rangePositions, Replay.removeAt]
  | cons x xs ih =>
    have h := ih (pre ++ [x])
    simp only [List.length_append, List.length_cons, List.length_nil] at h
    have e : ((pre.length : Int) + 1) = ((pre.length + (0 + 1) : Nat) : Int) := by omega
    have e2 : pre ++ [x] ++ xs ++ post = pre ++ x :: xs ++ post := by simp
    have hlt : ∀ (i : Int) (ys : List α), ∀ q ∈ rangePositions i ys, i ≤ q := by
      intro i ys
      induction ys generalizing i with
      | nil => simp [rangePositions]
      | cons y ys ih2 =>
        intro q hq
        simp only [rangePositions, List.mem_cons] at hq
        rcases hq with h | h
        · omega
        · have := ih2 (i+1) q h; omega
    simp only [rangePositions, Replay.removeAt, e]
    rw [← e2, h]
    simp only
    rw [if_pos]
    · congr 1
      rw [List.eraseIdx_append_of_lt_length (by simp)]
      simp [List.eraseIdx_append_of_length_le]
    · refine ⟨by omega, by simp, fun q hq => ?_⟩
      have := hlt _ _ q hq
      omega

theorem matching_removeAt (c l pre : List α) :
    Replay.removeAt ((matching c pre.length l).map (fun q => (q.1 : Int))) ((matching c pre.length l).map (·.2))
      (pre ++ l) = some (pre ++ l.filter (· ∉ c)) := by
  induction l generalizing pre with
  | nil => simp [matching, Replay.removeAt]
  | cons x xs ih =>
    have h := ih (pre ++ [x])
    simp only [List.length_append, List.length_cons, List.length_nil, Nat.zero_add] at h
    have e2 : pre ++ [x] ++ xs = pre ++ x :: xs := by simp
    rw [e2] at h
    have hlt : ∀ (i : Nat) (ys : List α), ∀ q ∈ matching c i ys, i ≤ q.1 := by
      intro i ys
      induction ys generalizing i with
      | nil => simp [matching]
      | cons y ys ih2 =>
        intro q hq
        simp only [matching] at hq
        split at hq
        · rcases List.mem_cons.1 hq with h | h
          · rw [h]; exact Nat.le_refl _
          · have := ih2 (i+1) q h; omega
        · have := ih2 (i+1) q hq; omega
    simp only [matching]
    by_cases hc : x ∈ c
    · simp only [hc, if_true, List.map_cons, Replay.removeAt, h]
      rw [if_pos]
      · congr 1
        rw [List.filter_cons_of_neg (by simp [hc])]
        simp [List.eraseIdx_append_of_lt_length, List.eraseIdx_append_of_length_le]
      · refine ⟨by omega, by simp, fun q hq => ?_⟩
        obtain ⟨q', hq', rfl⟩ := List.mem_map.1 hq
        have := hlt _ _ q' hq'
        omega
    · simp only [hc, if_false, h]
      rw [List.filter_cons_of_pos (by simp [hc])]
      simp

theorem removeDesc_matching (c l pre : List α) :
    (removeDesc (pre ++ l) ((matching c pre.length l).map (·.1))).data = pre ++ l.filter (· ∉ c) ∧
    (removeDesc (pre ++ l) ((matching c pre.length l).map (·.1))).ret ≠ .panic := by
  induction l generalizing pre with
  | nil => simp [matching, removeDesc]
  | cons x xs ih =>
    have h := ih (pre ++ [x])
    simp only [List.length_append, List.length_cons, List.length_nil, Nat.zero_add] at h
    have e2 : pre ++ [x] ++ xs = pre ++ x :: xs := by simp
    rw [e2] at h
    obtain ⟨h1, h2⟩ := h
    simp only [matching]
    by_cases hc : x ∈ c
    · simp only [hc, if_true, List.map_cons, removeDesc]
      rw [h1, doRemove_eq _ _ x (by omega) (by simp)]
      rw [List.filter_cons_of_neg (by simp [hc])]
      simp [List.eraseIdx_append_of_lt_length, List.eraseIdx_append_of_length_le]
    · simp only [hc, if_false]
      rw [List.filter_cons_of_pos (by simp [hc])]
      refine ⟨?_, h2⟩
      rw [h1]; simp

variable [Inhabited α]

/-- The calls which panic after having modified the list (see C03). -/
def pastEnd (s : List α) : NOp α → Prop
  | .op o => Seq.movesPastEnd s o
  | _ => False

theorem insertAll_replay (c : NCfg) (hr : c.required = true) (data l : List α) (i : Int)
    (hi : Seq.validGap data i) (x : Ret α) :
    Replay.applyAll data (returning (nDoInsertAll c data i l) x).2 =
      some (returning (nDoInsertAll c data i l) x).1.data := by
  have hi' := hi
  obtain ⟨a, b⟩ := hi'
  simp only [nDoInsertAll]
  split
  · rfl
  · simp only [doInsertAll_eq data i l hi, Res.andEmit, returning, Res.returning, emit, hr, if_true]
    split
    · rw [applyAll_single]
      simp only [Replay.apply]
      rw [if_pos ⟨a, b⟩]
      congr 1
      apply List.ext_getElem?
      intro j
      simp only [Seq.insertAllAt, List.getElem?_insertIdx, List.getElem?_append, List.getElem?_take,
        List.getElem?_drop, List.length_append, List.length_take, List.length_drop, List.length_cons,
        List.length_nil]
      grind
    · rw [applyAll_single]
      simp only [Replay.apply]
      rw [if_pos ⟨a, b⟩]

theorem doMove_ok_or (data spare : List α) (o n : Int) (ho : 0 ≤ o ∧ o < data.length)
    (hn : n < data.length) :
    (∃ x, data[o.toNat]? = some x ∧ 0 ≤ n ∧ (doMove data spare o n).ret = .val x ∧
      (doMove data spare o n).data = Seq.moved data o.toNat n.toNat x) ∨
    ((doMove data spare o n).ret = .panic ∧ (doMove data spare o n).data = data) := by
  by_cases h : 0 ≤ n
  · left
    have hx : data[o.toNat]? = some (data[o.toNat]'(by omega)) := List.getElem?_eq_getElem _
    have := doMove_eq data spare o n _ ho.1 hx ⟨h, hn⟩
    exact ⟨_, hx, h, this.2, this.1⟩
  · right
    rw [doMove_out _ _ _ _ ho.1 (by omega)]
    exact ⟨rfl, rfl⟩

theorem nDoMove_replay (c : NCfg) (hr : c.required = true) (data spare : List α) (o n : Int)
    (ho : 0 ≤ o ∧ o < data.length) (hn : n < data.length) :
    Replay.applyAll data (nDoMove c data spare o n).2 = some (nDoMove c data spare o n).1.data := by
  rcases doMove_ok_or data spare o n ho hn with ⟨x, hx, h0, h1, h2⟩ | ⟨h1, h2⟩
  · simp only [nDoMove, Res.andEmit, h1, emit, hr, if_true]
    rw [applyAll_single]
    simp only [Replay.apply]
    rw [if_pos ⟨ho.1, hx, h0, hn⟩, h2]
  · simp only [nDoMove, Res.andEmit, h1, h2]; rfl

theorem nDoRemove_replay (c : NCfg) (hr : c.required = true) (data : List α) (i : Int) (x : α)
    (h0 : 0 ≤ i) (hx : data[i.toNat]? = some x) :
    Replay.applyAll data (nDoRemove c data i).2 = some (nDoRemove c data i).1.data := by
  simp only [nDoRemove, doRemove_eq data i x h0 hx, Res.andEmit, emit, hr, if_true]
  rw [applyAll_single]
  simp only [Replay.apply]
  rw [if_pos ⟨h0, hx⟩]

theorem returning_replay (p : Res α × List (Notif α)) (x : Ret α) :
    (returning p x).1.data = p.1.data ∧ (returning p x).2 = p.2 := by
  simp only [returning, Res.returning]
  split <;> simp

theorem nstep_replay (c : NCfg) (hr : c.required = true) (data : List α) (op : NOp α)
    (hok : ¬ pastEnd data op) :
    Replay.applyAll data (nstep c data op).2 = some (nstep c data op).1.data := by
  cases op with
  | op o =>
    cases o with
    | add e =>
      simp only [nstep]
      split
      · rfl
      · simp only [nDoAdd, doAdd, Res.andEmit, returning, Res.returning, emit, hr, if_true]
        rw [applyAll_single]
        simp [Replay.apply]
    | addAll l =>
      simp only [nstep]
      split
      · split
        · rfl
        · exact insertAll_replay c hr data _ _ ⟨by omega, by omega⟩ _
      · exact insertAll_replay c hr data _ _ ⟨by omega, by omega⟩ _
    | insert i e =>
      simp only [nstep]
      split
      · rfl
      · rename_i hi
        split
        · rfl
        · simp only [nDoInsert, doInsert_eq data i e ⟨by omega, by omega⟩, Res.andEmit, returning,
            Res.returning, emit, hr, if_true]
          rw [applyAll_single]
          simp only [Replay.apply]
          rw [if_pos (by omega)]
    | insertAll i l =>
      simp only [nstep]
      split
      · rfl
      · rename_i hi
        split
        · split
          · rfl
          · exact insertAll_replay c hr data _ _ ⟨by omega, by omega⟩ _
        · exact insertAll_replay c hr data _ _ ⟨by omega, by omega⟩ _
    | move spare o n =>
      simp only [pastEnd, Seq.movesPastEnd] at hok
      simp only [nstep]
      split
      · rfl
      · exact nDoMove_replay c hr data spare o n ⟨by omega, by omega⟩ (by omega)
    | moveObject spare n e =>
      simp only [pastEnd, Seq.movesPastEnd] at hok
      simp only [nstep, indexOf_eq]
      by_cases he : e ∈ data
      · have hi : data.idxOf e < data.length := List.idxOf_lt_length_of_mem he
        simp only [he, if_true]
        rw [if_neg (by omega)]
        have hlt : n < data.length := by
          rcases Int.lt_or_le n data.length with h | h
          · exact h
          · exact absurd ⟨h, he⟩ hok
        obtain ⟨e1, e2⟩ := returning_replay (nDoMove c data spare (data.idxOf e) n) .unit
        rw [e1, e2]
        exact nDoMove_replay c hr data spare _ n ⟨by omega, by omega⟩ hlt
      · simp only [he, if_false, if_true]; rfl
    | removeAt i =>
      simp only [nstep]
      split
      · rfl
      · have hlt : i.toNat < data.length := by omega
        exact nDoRemove_replay c hr data i _ (by omega) (List.getElem?_eq_getElem hlt)
    | remove e =>
      simp only [nstep, indexOf_eq]
      by_cases he : e ∈ data
      · have hi : data.idxOf e < data.length := List.idxOf_lt_length_of_mem he
        simp only [he, if_true]
        rw [if_neg (by omega)]
        obtain ⟨e1, e2⟩ := returning_replay (nDoRemove c data (data.idxOf e)) (.bool true)
        rw [e1, e2]
        exact nDoRemove_replay c hr data _ _ (by omega) (List.getElem?_eq_getElem (by simpa using hi))
      · simp only [he, if_false, if_true]; rfl
    | removeRange f t =>
      simp only [nstep]
      split
      · rfl
      · split
        · rfl
        · split
          · rfl
          · rename_i h1 h2 h3
            have hft : f.toNat ≤ t.toNat := by omega
            have htl : t.toNat ≤ data.length := by omega
            simp only [nDoRemoveRange, doRemoveRange_eq data f t (by omega) (by omega) (by omega), Res.andEmit]
            have key := range_removeAt ((data.take t.toNat).drop f.toNat) (data.take f.toNat) (data.drop t.toNat)
            have hfl : ((data.take f.toNat).length : Int) = f := by simp; omega
            have hs : data.take f.toNat ++ (data.take t.toNat).drop f.toNat ++ data.drop t.toNat = data := by
              have : data.take f.toNat = (data.take t.toNat).take f.toNat := by
                rw [List.take_take, Nat.min_eq_left hft]
              rw [this, List.take_append_drop, List.take_append_drop]
            rw [hfl, hs] at key
            split
            · rename_i he
              rw [he] at key
              simpa [rangePositions, Replay.removeAt, Replay.applyAll] using key
            · rename_i x he
              rw [he] at key
              simp only [rangePositions, Replay.removeAt] at key
              simp only [emit, hr, if_true]
              rw [applyAll_single]
              simp only [Replay.apply]
              split at key
              · rename_i hc
                rw [if_pos ⟨hc.1, hc.2.1⟩]; exact key
              · simp at key
            · simp only [emit, hr, if_true]
              rw [applyAll_single]
              exact key
    | removeAll l =>
      have h1 := matching_removeAt l data []
      have h2 := removeDesc_matching l data []
      simp only [List.nil_append, List.length_nil] at h1 h2
      simp only [nstep, nRemoveAll]
      generalize hm : matching l 0 data = m at *
      split
      · rename_i hp; exact absurd hp h2.2
      · simp only [h2.1]
        rcases m with _ | ⟨⟨p, x⟩, m'⟩
        · simpa [Replay.removeAt, Replay.applyAll] using h1
        · rcases m' with _ | ⟨q, m''⟩
          · simp only [emit, hr, if_true]
            rw [applyAll_single]
            simp only [List.map_cons, List.map_nil, Replay.removeAt] at h1
            simp only [Replay.apply]
            split at h1
            · rename_i hc
              rw [if_pos ⟨hc.1, hc.2.1⟩]; exact h1
            · simp at h1
          · simp only [emit, hr, if_true]
            rw [applyAll_single]
            exact h1
    | set i e =>
      simp only [nstep]
      split
      · rfl
      · rename_i hi
        split
        · rfl
        · have hlt : i.toNat < data.length := by omega
          have hx : data[i.toNat]? = some (data[i.toNat]'hlt) := List.getElem?_eq_getElem hlt
          simp only [nDoSet, doSet_eq data i e _ (by omega) hx, Res.andEmit]
          split
          · simp only [emit, hr, if_true]
            rw [applyAll_single]
            simp only [Replay.apply]
            rw [if_pos ⟨by omega, hx⟩]
          · rename_i heq
            have : e = data[i.toNat] := by simpa using heq
            rw [this]
            simp [Replay.applyAll]
    | clear =>
      simp only [nstep, nDoClear, doClear]
      split <;> simp only [emit, hr, if_true] <;> rw [applyAll_single] <;> simp [Replay.apply]
  | addWN e =>
    simp only [nstep, doAdd, Res.andEmit, emit, hr, if_true]
    rw [applyAll_single]
    simp [Replay.apply]
  | removeWN e =>
    simp only [nstep, indexOf_eq]
    by_cases he : e ∈ data
    · have hi : data.idxOf e < data.length := List.idxOf_lt_length_of_mem he
      simp only [he, if_true]
      rw [if_neg (by omega)]
      exact nDoRemove_replay c hr data _ _ (by omega) (List.getElem?_eq_getElem (by simpa using hi))
    · simp only [he, if_false, if_true]; rfl
  | setWN i e =>
    simp only [nstep]
    by_cases hi : 0 ≤ i ∧ i < data.length
    · have hlt : i.toNat < data.length := by omega
      have hx : data[i.toNat]? = some (data[i.toNat]'hlt) := List.getElem?_eq_getElem hlt
      simp only [doSet_eq data i e _ (by omega) hx, Res.andEmit, emit, hr, if_true]
      rw [applyAll_single]
      simp only [Replay.apply]
      rw [if_pos ⟨by omega, hx⟩]
    · have : doSet data i e = ⟨data, .panic, []⟩ := by
        simp only [doSet, goIndex]
        split
        · rfl
        · rename_i old h
          simp only [goAssign]
          rw [if_neg hi]
      simp only [this, Res.andEmit]; rfl

end Verif.Notify

namespace Verif.Notify
open Verif.EList Verif.Spec
variable {α : Type} [DecidableEq α]

/-! #### merging removals -/

theorem removeAt_asc (ps : List Int) (xs : List α) (s t : List α) (h : Replay.removeAt ps xs s = some t)
    (p B : Int) (hp : ∀ r ∈ ps, p < r) (hB : ∀ r ∈ ps, r < B) (hne : ps ≠ []) : p + ps.length < B := by
  induction ps generalizing xs t p with
  | nil => exact absurd rfl hne
  | cons q qs ih =>
    cases xs with
    | nil => simp [Replay.removeAt] at h
    | cons x xs =>
      simp only [Replay.removeAt] at h
      split at h
      · simp at h
      · rename_i t' ht'
        split at h
        · rename_i hc
          have hpq := hp q (by simp)
          have hqB := hB q (by simp)
          by_cases hqs : qs = []
          · subst hqs; simp; omega
          · have := ih xs t' ht' q hc.2.2 (fun r hr => hB r (by simp [hr])) hqs
            simp; omega
        · simp at h

theorem eraseIdx_comm_aux (l : List α) (p q : Nat) (h : p ≤ q) :
    (l.eraseIdx (q + 1)).eraseIdx p = (l.eraseIdx p).eraseIdx q := by
  apply List.ext_getElem?
  intro j
  simp only [List.getElem?_eraseIdx]
  grind

theorem removeAt_snoc (ps : List Int) (xs : List α) (s t : List α) (q : Int) (x : α)
    (h : Replay.removeAt ps xs s = some t) (hq : 0 ≤ q) (hx : t[q.toNat]? = some x)
    (hlt : ∀ p ∈ ps, p < q + ps.length) :
    Replay.removeAt (ps ++ [q + ps.length]) (xs ++ [x]) s = some (t.eraseIdx q.toNat) := by
  induction ps generalizing xs t q with
  | nil =>
    cases xs with
    | nil =>
      simp only [Replay.removeAt, Option.some.injEq] at h
      subst h
      simp [Replay.removeAt, hx, hq]
    | cons => simp [Replay.removeAt] at h
  | cons p ps ih =>
    cases xs with
    | nil => simp [Replay.removeAt] at h
    | cons y ys =>
      simp only [Replay.removeAt] at h
      split at h
      · simp at h
      · rename_i t' ht'
        split at h
        · rename_i hc
          simp only [Option.some.injEq] at h
          subst h
          have hpq : p ≤ q := by
            by_cases hps : ps = []
            · have := hlt p (by simp); subst hps; simp at this; omega
            · have := removeAt_asc ps ys s t' ht' p (q + (p :: ps).length) hc.2.2
                (fun r hr => hlt r (by simp [hr])) hps
              simp at this; omega
          have hq1 : (q + 1).toNat = q.toNat + 1 := by omega
          have hx' : t'[(q + 1).toNat]? = some x := by
            rw [List.getElem?_eraseIdx, if_neg (by omega)] at hx
            rw [hq1]; exact hx
          have e : q + 1 + (ps.length : Int) = q + ((p :: ps).length : Int) := by simp; omega
          have := ih ys t' (q + 1) ht' (by omega) hx' (by
            intro r hr; rw [e]; exact hlt r (by simp [hr]))
          rw [e] at this
          simp only [List.cons_append, Replay.removeAt, this]
          rw [if_pos]
          · congr 1
            rw [hq1]
            exact eraseIdx_comm_aux t' _ _ (by omega)
          · refine ⟨hc.1, hc.2.1, ?_⟩
            intro r hr
            rcases List.mem_append.1 hr with h | h
            · exact hc.2.2 r h
            · rw [List.mem_singleton.1 h]; simp; omega
        · simp at h

theorem shiftLoop_all (ps : List Int) (xs s t : List α) (h : Replay.removeAt ps xs s = some t)
    (i : Nat) (q : Int) (hlt : ∀ p ∈ ps, p < q + ps.length) :
    shiftLoop ps i q = (i + ps.length, q + ps.length) := by
  induction ps generalizing xs t i q with
  | nil => simp [shiftLoop]
  | cons p ps ih =>
    cases xs with
    | nil => simp [Replay.removeAt] at h
    | cons y ys =>
      simp only [Replay.removeAt] at h
      split at h
      · simp at h
      · rename_i t' ht'
        split at h
        · rename_i hc
          have hpq : p ≤ q := by
            by_cases hps : ps = []
            · have := hlt p (by simp); subst hps; simp at this; omega
            · have := removeAt_asc ps ys s t' ht' p (q + (p :: ps).length) hc.2.2
                (fun r hr => hlt r (by simp [hr])) hps
              simp at this; omega
          simp only [shiftLoop, hpq, if_true]
          rw [ih ys t' ht' (i + 1) (q + 1) (by
            intro r hr
            have := hlt r (by simp [hr])
            simp at this; omega)]
          simp; omega
        · simp at h

theorem removeAt_length (ps : List Int) (xs s t : List α) (h : Replay.removeAt ps xs s = some t) :
    xs.length = ps.length := by
  induction ps generalizing xs t with
  | nil => cases xs <;> simp_all [Replay.removeAt]
  | cons p ps ih =>
    cases xs with
    | nil => simp [Replay.removeAt] at h
    | cons y ys =>
      simp only [Replay.removeAt] at h
      split at h
      · simp at h
      · rename_i t' ht'; simp [ih ys t' ht']

/-! #### chains -/

omit [DecidableEq α] in
theorem mergeInto_true (chain c : List (Notif α)) (o : Notif α) (h : mergeInto chain o = some (c, true)) :
    ∃ a n b n', chain = a ++ n :: b ∧ c = a ++ n' :: b ∧ merge n o = some (some n') ∧
      ∀ m ∈ a, merge m o = none := by
  induction chain generalizing c with
  | nil => simp [mergeInto] at h
  | cons n ns ih =>
    simp only [mergeInto] at h
    split at h
    · rename_i n' hm
      simp only [Option.some.injEq, Prod.mk.injEq, and_true] at h
      exact ⟨[], n, ns, n', rfl, h.symm, hm, by simp⟩
    · simp at h
    · rename_i hm
      split at h
      · rename_i ns' b hb
        simp only [Option.some.injEq, Prod.mk.injEq] at h
        obtain ⟨h1, h2⟩ := h
        subst h2
        obtain ⟨a, m, b', m', e1, e2, e3, e4⟩ := ih ns' hb
        refine ⟨n :: a, m, b', m', by simp [e1], by rw [← h1, e2]; rfl, e3, ?_⟩
        intro k hk
        rcases List.mem_cons.1 hk with h | h
        · rw [h]; exact hm
        · exact e4 k h
      · simp at h

omit [DecidableEq α] in
theorem mergeInto_false (chain c : List (Notif α)) (o : Notif α) (h : mergeInto chain o = some (c, false)) :
    c = chain ∧ ∀ m ∈ chain, merge m o = none := by
  induction chain generalizing c with
  | nil => simp [mergeInto] at h; simp [h]
  | cons n ns ih =>
    simp only [mergeInto] at h
    split at h
    · simp at h
    · simp at h
    · rename_i hm
      split at h
      · rename_i ns' b hb
        simp only [Option.some.injEq, Prod.mk.injEq] at h
        obtain ⟨h1, h2⟩ := h
        subst h2
        obtain ⟨e1, e2⟩ := ih ns' hb
        refine ⟨by rw [← h1, e1], ?_⟩
        intro k hk
        rcases List.mem_cons.1 hk with h | h
        · rw [h]; exact hm
        · exact e2 k h
      · simp at h

end Verif.Notify
