import Verif.Spec.ResolveList
import Verif.Proofs.EList

/-!
# Lists that resolve their proxies
-/

namespace Verif.ResolveList

open Verif.ResolveList.Spec
open Verif.EList (Op Ret)
open Verif.Spec (Seq.fresh)

variable {α : Type} [DecidableEq α] [Inhabited α] {res : α → α}

/-- the notifications tell what has happened: `data` has become `data'` by resolving -/
def Resolves (res : α → α) (data data' : List α) (evs : List (Ev α)) : Prop :=
  replay data evs = some data' ∧ data'.map res = data.map res ∧ data'.length = data.length ∧ (∀ ev ∈ evs, ev.new = res ev.old ∧ ev.new ≠ ev.old)

omit [Inhabited α] in
theorem replay_append {evs : List (Ev α)} : ∀ {a b : List α} {evs' : List (Ev α)}, replay a evs = some b → replay a (evs ++ evs') = replay b evs' := by
  induction evs with
  | nil => intro a b evs' h; simp [replay] at h; subst h; rfl
  | cons ev evs ih =>
    intro a b evs' h
    simp only [replay] at h
    simp only [List.cons_append, replay]
    split at h
    · rename_i e; rw [if_pos e]; exact ih h
    · simp at h

omit [Inhabited α] in
theorem replay_notified (pre vs : List α) (v : α) : replay (pre ++ v :: vs) (notified res pre.length v) = some (pre ++ res v :: vs) := by
  simp only [notified]
  split
  · simp [replay]
  · rename_i h; simp at h; simp [replay, h]

omit [Inhabited α] in
theorem notified_ok {i : Nat} {v : α} : ∀ ev ∈ notified res i v, ev.new = res ev.old ∧ ev.new ≠ ev.old := by
  intro ev h
  simp only [notified] at h
  split at h
  · simp at h; subst h; exact ⟨rfl, by assumption⟩
  · simp at h

omit [Inhabited α] in
theorem look_replay (e : α) : ∀ (vs pre : List α), replay (pre ++ vs) (look res e pre.length vs).2.2 = some (pre ++ (look res e pre.length vs).1)
  | [], pre => by simp [look, replay]
  | v :: vs, pre => by
    simp only [look]
    split
    · simp [replay]
    split
    · exact replay_notified pre vs v
    · rw [replay_append (replay_notified pre vs v)]
      have := look_replay e vs (pre ++ [res v])
      simpa using this

omit [Inhabited α] in
theorem look_events (e : α) : ∀ (vs : List α) (i : Nat), ∀ ev ∈ (look res e i vs).2.2, ev.new = res ev.old ∧ ev.new ≠ ev.old
  | [], i => by simp [look]
  | v :: vs, i => by
    simp only [look]
    split
    · simp
    split
    · exact notified_ok
    · intro ev h
      rcases List.mem_append.1 h with h | h
      · exact notified_ok ev h
      · exact look_events e vs (i + 1) ev h

omit [Inhabited α] in
theorem look_view (hres : ∀ v, res (res v) = res v) (e : α) : ∀ (vs : List α) (i : Nat), (look res e i vs).1.map res = vs.map res
  | [], i => by simp [look]
  | v :: vs, i => by
    simp only [look]
    split
    · rfl
    split
    · simp [hres]
    · simp [hres, look_view hres e vs (i + 1)]

omit [Inhabited α] in
theorem look_length (e : α) (vs : List α) (i : Nat) : (look res e i vs).1.length = vs.length := by
  induction vs generalizing i with
  | nil => simp [look]
  | cons v vs ih => simp only [look]; split <;> (try split) <;> simp [ih]

omit [Inhabited α] in
theorem look_index {e : α} (he : res e = e) : ∀ (vs : List α) (i : Nat),
    (look res e i vs).2.1 = if e ∈ vs.map res then ((i + (vs.map res).idxOf e : Nat) : Int) else -1
  | [], i => by simp [look]
  | v :: vs, i => by
    simp only [look]
    by_cases h1 : v = e
    · subst h1; simp [he, List.idxOf_cons]
    · rw [if_neg h1]
      by_cases h2 : res v = e
      · simp [h2, List.idxOf_cons]
      · rw [if_neg h2]
        simp only [look_index he vs (i + 1)]
        have h3 : ¬ e = res v := fun h => h2 h.symm
        have h4 : (res v == e) = false := by simpa using h2
        simp only [List.map_cons, List.mem_cons, h3, false_or, List.idxOf_cons, h4, cond_false]
        split
        · omega
        · rfl

omit [Inhabited α] in
theorem look_resolves (hres : ∀ v, res (res v) = res v) (e : α) (data : List α) : Resolves res data (look res e 0 data).1 (look res e 0 data).2.2 :=
  ⟨by simpa using look_replay e data [], look_view hres e data 0, look_length e data 0, look_events e data 0⟩

omit [Inhabited α] in
theorem Resolves.refl (data : List α) : Resolves res data data [] := ⟨rfl, rfl, rfl, by simp⟩

omit [Inhabited α] in
theorem Resolves.trans {a b c : List α} {e1 e2 : List (Ev α)} (h1 : Resolves res a b e1) (h2 : Resolves res b c e2) : Resolves res a c (e1 ++ e2) :=
  ⟨by rw [replay_append h1.1]; exact h2.1, h2.2.1.trans h1.2.1, h2.2.2.1.trans h1.2.2.1, by
    intro ev h
    rcases List.mem_append.1 h with h | h
    · exact h1.2.2.2 ev h
    · exact h2.2.2.2 ev h⟩

omit [Inhabited α] in
theorem iterated_replay : ∀ (vs pre : List α), replay (pre ++ vs) (iterated res pre.length vs) = some (pre ++ vs.map res)
  | [], pre => by simp [iterated, replay]
  | v :: vs, pre => by
    simp only [iterated]
    rw [replay_append (replay_notified pre vs v)]
    have := iterated_replay vs (pre ++ [res v])
    simpa using this

omit [Inhabited α] in
theorem iterated_events : ∀ (vs : List α) (i : Nat), ∀ ev ∈ iterated res i vs, ev.new = res ev.old ∧ ev.new ≠ ev.old
  | [], i => by simp [iterated]
  | v :: vs, i => by
    intro ev h
    rcases List.mem_append.1 h with h | h
    · exact notified_ok ev h
    · exact iterated_events vs (i + 1) ev h

omit [Inhabited α] in
theorem iterated_resolves (hres : ∀ v, res (res v) = res v) (data : List α) : Resolves res data (data.map res) (iterated res 0 data) :=
  ⟨by simpa using iterated_replay data [], by simp [hres], by simp, iterated_events data 0⟩

omit [Inhabited α] in
theorem notifieds_replay : ∀ (vs pre : List α), replay (pre ++ vs) (notifieds res pre.length vs) = some (pre ++ vs.map res)
  | [], pre => by simp [notifieds, replay]
  | v :: vs, pre => by
    simp only [notifieds]
    have := notifieds_replay vs (pre ++ [v])
    simp only [List.length_append, List.length_cons, List.length_nil, List.append_assoc, List.cons_append, List.nil_append] at this
    rw [replay_append this]
    exact replay_notified pre (vs.map res) v

omit [Inhabited α] in
theorem notifieds_events : ∀ (vs : List α) (i : Nat), ∀ ev ∈ notifieds res i vs, ev.new = res ev.old ∧ ev.new ≠ ev.old
  | [], i => by simp [notifieds]
  | v :: vs, i => by
    intro ev h
    rcases List.mem_append.1 h with h | h
    · exact notifieds_events vs (i + 1) ev h
    · exact notified_ok ev h

omit [Inhabited α] in
theorem toArray_resolves (hres : ∀ v, res (res v) = res v) (data : List α) : Resolves res data (toArray res data).1 (toArray res data).2 :=
  ⟨by simpa [toArray] using notifieds_replay data [], by simp [toArray, hres], by simp [toArray], notifieds_events data 0⟩

omit [Inhabited α] in
theorem prune_spec (hres : ∀ v, res (res v) = res v) : ∀ (h : List α) (data : List α), Resolves res data (prune res data h).1 (prune res data h).2.2 ∧
    ((∀ v ∈ h, res v = v) → (prune res data h).2.1 = h.filter (· ∉ data.map res))
  | [], data => ⟨.refl data, by simp [prune]⟩
  | v :: vs, data => by
    have h1 := look_resolves hres v data
    obtain ⟨h2, h3⟩ := prune_spec hres vs (look res v 0 data).1
    refine ⟨h1.trans h2, ?_⟩
    intro hp
    simp only [prune]
    rw [h3 (fun x hx => hp x (by simp [hx])), look_index (hp v (by simp)), h1.2.1]
    by_cases hm : v ∈ data.map res
    · have : ((0 + (data.map res).idxOf v : Nat) : Int) ≠ -1 := by omega
      simp only [hm, if_true, this, if_false, List.filter_cons, not_true_eq_false, decide_false, Bool.false_eq_true]
    · simp only [hm, if_false, if_true, List.filter_cons, not_false_eq_true, decide_true]

omit [Inhabited α] in
theorem nonDuplicates_spec (hres : ∀ v, res (res v) = res v) (data c : List α) :
    Resolves res data (nonDuplicates res data c).1 (nonDuplicates res data c).2.2 ∧
    ((∀ v ∈ c, res v = v) → (nonDuplicates res data c).2.1 = Seq.fresh (data.map res) c) := by
  have h0 : EList.hashSetOf [] c = Seq.fresh [] c := by simp [EList.hashSetOf_eq]
  have hf := EList.fresh_filter [] (data.map res) c
  simp only [List.nil_append] at hf
  simp only [nonDuplicates, h0]
  split
  · refine ⟨iterated_resolves hres data, fun _ => ?_⟩
    simp only
    rw [EList.removeEach_eq _ _ (EList.nodup_fresh _ _), hf]
  · obtain ⟨h1, h2⟩ := prune_spec hres (Seq.fresh [] c) data
    refine ⟨h1, fun hp => ?_⟩
    rw [h2, hf]
    intro v hv
    exact hp v ((EList.mem_fresh _ _ _).1 hv).1

omit [Inhabited α] in
theorem compared_spec {c : List α} (hp : ∀ a ∈ c, res a = a) (hres : ∀ v, res (res v) = res v) : ∀ v, ((compared res c v).1 = v ∨ (compared res c v).1 = res v) ∧
    (compared res c v).2 = decide (res v ∈ c) := by
  induction c with
  | nil => intro v; simp [compared]
  | cons a as ih =>
    intro v
    have ha := hp a (by simp)
    simp only [compared]
    split
    · rename_i e; subst e; simp [ha]
    split
    · rename_i e; simp [e]
    · rename_i h1 h2
      obtain ⟨h3, h4⟩ := ih (fun x hx => hp x (by simp [hx])) (res v)
      rw [hres] at h3 h4
      refine ⟨.inr (h3.elim id id), ?_⟩
      rw [h4]; simp [h2]

omit [Inhabited α] in
theorem removeAll_spec {c : List α} (hp : ∀ a ∈ c, res a = a) (hres : ∀ v, res (res v) = res v) : ∀ (vs : List α) (i : Nat),
    (removeAll res c i vs).1.map res = (vs.map res).filter (· ∉ c) ∧ (removeAll res c i vs).2.1 = decide (∃ x ∈ vs.map res, x ∈ c)
  | [], i => by simp [removeAll]
  | v :: vs, i => by
    obtain ⟨h1, h2⟩ := compared_spec hp hres v
    obtain ⟨h3, h4⟩ := removeAll_spec hp hres vs (i + 1)
    simp only [removeAll, h2, h4]
    by_cases hm : res v ∈ c
    · constructor
      · simp only [hm, decide_true, if_true, List.map_cons, List.filter_cons, not_true_eq_false, decide_false, Bool.false_eq_true, if_false]; exact h3
      · simp [hm]
    · constructor
      · have : res (compared res c v).1 = res v := by rcases h1 with h1 | h1 <;> rw [h1]; exact hres v
        simp [hm, List.filter_cons, h3, this]
      · simp [hm]

omit [Inhabited α] in
theorem map_insertIdx' (i : Nat) (d : List α) (e : α) : (d.insertIdx i e).map res = (d.map res).insertIdx i (res e) := by
  apply List.ext_getElem?
  intro k
  simp only [List.getElem?_map, List.getElem?_insertIdx, List.length_map]
  grind

omit [Inhabited α] in
theorem map_eraseIdx' (i : Nat) (d : List α) : (d.eraseIdx i).map res = (d.map res).eraseIdx i := by
  apply List.ext_getElem?
  intro k
  simp only [List.getElem?_map, List.getElem?_eraseIdx]
  split <;> rfl

omit [Inhabited α] in
theorem map_moved (o n : Nat) (d : List α) (x : α) : (Verif.Spec.Seq.moved d o n x).map res = Verif.Spec.Seq.moved (d.map res) o n (res x) := by
  simp only [Verif.Spec.Seq.moved, map_insertIdx', map_eraseIdx']

omit [Inhabited α] in
theorem map_plain {c : List α} (h : ∀ v ∈ c, res v = v) : c.map res = c := by
  induction c with
  | nil => rfl
  | cons a as ih => simp [h a (by simp), ih fun v hv => h v (by simp [hv])]

omit [Inhabited α] in
theorem erase_idxOf {e : α} : ∀ {s : List α}, e ∈ s → s.eraseIdx (s.idxOf e) = s.erase e
  | v :: vs, h => by
    by_cases hv : v = e
    · subst hv; simp [List.idxOf_cons]
    · have h1 : (v == e) = false := by simpa using hv
      have h2 : e ∈ vs := (List.mem_cons.1 h).resolve_left fun x => hv x.symm
      simp [List.idxOf_cons, h1, List.erase_cons, erase_idxOf h2]

/-- an insertion of new elements -/
theorem insertAll_view {data : List α} {i : Int} {x : List α × List α × List (Ev α)} {c : List α} (hv : x.1.map res = data.map res)
    (hc : x.2.1 = Seq.fresh (data.map res) c) (hp : ∀ e ∈ c, res e = e) (hi : 0 ≤ i ∧ i ≤ data.length) :
    (if x.2.1 = [] then (⟨x.1, .bool false, x.2.2⟩ : Out α) else plain ((EList.doInsertAll x.1 i x.2.1).returning (.bool true)) x.2.2).data.map res =
      Verif.Spec.Seq.insertAllAt (data.map res) i.toNat (Seq.fresh (data.map res) c) ∧
    (if x.2.1 = [] then (⟨x.1, .bool false, x.2.2⟩ : Out α) else plain ((EList.doInsertAll x.1 i x.2.1).returning (.bool true)) x.2.2).ret =
      .bool (Seq.fresh (data.map res) c ≠ []) := by
  have hl : x.1.length = data.length := by simpa using congrArg List.length hv
  have hpl : (Seq.fresh (data.map res) c).map res = Seq.fresh (data.map res) c := map_plain fun v h => hp v ((EList.mem_fresh _ _ _).1 h).1
  rw [hc]
  split
  · rename_i e
    rw [e]
    simp [Verif.Spec.Seq.insertAllAt, hv]
  · rename_i e
    rw [EList.doInsertAll_eq _ _ _ ⟨hi.1, by rw [hl]; exact hi.2⟩]
    simp only [plain, EList.Res.returning]
    refine ⟨?_, by simp [e]⟩
    simp only [Verif.Spec.Seq.insertAllAt, List.map_append, hpl, List.map_take, List.map_drop, hv]

/-- a list that shows `s` -/
theorem step_view (hres : ∀ v, res (res v) = res v) (data : List α) (o : Op α) (hp : ∀ e ∈ given (.op o), res e = e) (hn : (data.map res).Nodup)
    (hm : ¬ Verif.Spec.Seq.movesPastEnd (data.map res) o) :
    (step res data o).data.map res = (Verif.Spec.Seq.step true (data.map res) o).1 ∧
    (takesOut (.op o) = false → (step res data o).ret = (Verif.Spec.Seq.step true (data.map res) o).2) := by
  have hlen : (data.map res).length = data.length := by simp
  cases o with
  | add e =>
    have he := hp e (by simp [given])
    have hv := look_view hres e data 0
    have hi := look_index he data 0
    simp only [step, Verif.Spec.Seq.step, true_and, hi]
    by_cases h : e ∈ data.map res
    · rw [if_pos h]
      rw [if_pos (by omega), if_pos h]
      exact ⟨hv, fun _ => rfl⟩
    · simp only [h, if_false]
      simp [plain, EList.doAdd, EList.Res.returning, hv, he]
  | addAll c =>
    obtain ⟨h1, h2⟩ := nonDuplicates_spec hres data c
    have := insertAll_view (i := ((nonDuplicates res data c).1.length : Int)) h1.2.1 (h2 hp) hp ⟨by omega, by have := h1.2.2.1; omega⟩
    simp only [step, Verif.Spec.Seq.step, if_true]
    refine ⟨this.1.trans ?_, fun _ => this.2⟩
    rw [h1.2.2.1, ← hlen]
    simp [Verif.Spec.Seq.insertAllAt, -List.length_map]
  | insert i e =>
    have he := hp e (by simp [given])
    have hv := look_view hres e data 0
    have hi := look_index he data 0
    simp only [step, Verif.Spec.Seq.step, Verif.Spec.Seq.validGap, hlen, true_and, hi]
    by_cases hr : 0 ≤ i ∧ i ≤ data.length
    · have hr' : ¬ (i < 0 ∨ i > data.length) := by omega
      simp only [hr, hr', not_true_eq_false, if_false, and_self]
      by_cases h : e ∈ data.map res
      · have hk : ((0 + (data.map res).idxOf e : Nat) : Int) ≠ -1 := by omega
        simp only [h, if_true, hk, ne_eq, not_false_eq_true]
        exact ⟨hv, fun _ => trivial⟩
      · simp only [h, if_false, ne_eq, not_true_eq_false]
        rw [EList.doInsert_eq _ _ _ ⟨by omega, by rw [look_length]; omega⟩]
        simp only [plain, EList.Res.returning, map_insertIdx', hv, he]
        exact ⟨trivial, fun _ => trivial⟩
    · have hr' : i < 0 ∨ i > data.length := by omega
      simp only [hr, hr', not_false_eq_true, if_true]
      exact ⟨trivial, fun _ => trivial⟩
  | insertAll i c =>
    obtain ⟨h1, h2⟩ := nonDuplicates_spec hres data c
    simp only [step, Verif.Spec.Seq.step, Verif.Spec.Seq.validGap, hlen, if_true]
    by_cases hr : 0 ≤ i ∧ i ≤ data.length
    · have hr' : ¬ (i < 0 ∨ i > data.length) := by omega
      have := insertAll_view (i := i) h1.2.1 (h2 hp) hp hr
      simp only [hr, hr', not_true_eq_false, if_false, and_self]
      exact ⟨this.1, fun _ => this.2⟩
    · have hr' : i < 0 ∨ i > data.length := by omega
      simp only [hr, hr', not_false_eq_true, if_true]
      exact ⟨trivial, fun _ => trivial⟩
  | move spare o n =>
    refine ⟨?_, by simp [takesOut]⟩
    simp only [Verif.Spec.Seq.movesPastEnd, hlen] at hm
    simp only [step, plain, EList.move, Verif.Spec.Seq.step, Verif.Spec.Seq.validPos, hlen]
    by_cases hr : o < 0 ∨ o ≥ data.length ∨ n < 0 ∨ n > data.length
    · rw [if_pos hr, if_neg (by omega)]; rfl
    · rw [if_neg hr, if_pos (by omega)]
      have ho : o.toNat < data.length := by omega
      have hx := List.getElem?_eq_getElem ho
      have := EList.doMove_eq data spare o n _ (by omega) hx ⟨by omega, by omega⟩
      rw [this.1, map_moved]
      simp [hx]
  | moveObject spare n e =>
    have he := hp e (by simp [given])
    have hv := look_view hres e data 0
    have hi := look_index he data 0
    simp only [Verif.Spec.Seq.movesPastEnd, hlen] at hm
    simp only [step, Verif.Spec.Seq.step, Verif.Spec.Seq.validPos, hlen, hi]
    by_cases h : e ∈ data.map res
    · simp only [h, if_true, true_and]
      rw [if_neg (by omega)]
      have hk : (data.map res).idxOf e < data.length := by rw [← hlen]; exact List.idxOf_lt_length_iff.2 h
      have hk' : (data.map res).idxOf e < (look res e 0 data).1.length := by rw [look_length]; exact hk
      have hx := List.getElem?_eq_getElem hk'
      have hres' : res ((look res e 0 data).1[(data.map res).idxOf e]) = e := by
        have h1 : ((look res e 0 data).1.map res)[(data.map res).idxOf e]? = some (res ((look res e 0 data).1[(data.map res).idxOf e])) := by
          rw [List.getElem?_map, hx]; rfl
        rw [hv, List.getElem?_eq_getElem (by rw [hlen]; exact hk), List.getElem_idxOf] at h1
        exact (Option.some.inj h1).symm
      by_cases hn : 0 ≤ n ∧ n < data.length
      · rw [if_pos hn]
        have := EList.doMove_eq (look res e 0 data).1 spare ((0 + (data.map res).idxOf e : Nat) : Int) n _ (by omega) (by rw [Int.toNat_natCast, Nat.zero_add]; exact hx)
          ⟨hn.1, by rw [look_length]; exact hn.2⟩
        simp only [EList.Res.returning, this.2, plain]
        rw [this.1, map_moved, hv, hres']
        simp
      · rw [if_neg hn]
        have hn' : n < 0 := by
          by_cases h' : n < 0
          · exact h'
          · exact absurd ⟨by omega, h⟩ hm
        rw [EList.doMove_out _ _ _ _ (by omega) hn']
        simp [plain, EList.Res.returning, hv]
    · simp only [h, if_false, false_and, if_true]
      exact ⟨hv, fun _ => trivial⟩
  | removeAt i =>
    refine ⟨?_, by simp [takesOut]⟩
    simp only [step, plain, EList.removeAt, Verif.Spec.Seq.step, Verif.Spec.Seq.validPos, hlen]
    by_cases hr : i < 0 ∨ i ≥ data.length
    · rw [if_pos hr, if_neg (by omega)]; rfl
    · rw [if_neg hr, if_pos (by omega)]
      have hx := List.getElem?_eq_getElem (show i.toNat < data.length by omega)
      rw [EList.doRemove_eq _ _ _ (by omega) hx]
      simp [hx, map_eraseIdx']
  | remove e =>
    have he := hp e (by simp [given])
    have hv := look_view hres e data 0
    have hi := look_index he data 0
    simp only [step, Verif.Spec.Seq.step, hi]
    by_cases h : e ∈ data.map res
    · simp only [h, if_true]
      rw [if_neg (by omega)]
      have hk : (data.map res).idxOf e < data.length := by rw [← hlen]; exact List.idxOf_lt_length_iff.2 h
      have hx := List.getElem?_eq_getElem (show (data.map res).idxOf e < (look res e 0 data).1.length by rw [look_length]; exact hk)
      rw [EList.doRemove_eq _ _ _ (by omega) (by rw [Int.toNat_natCast, Nat.zero_add]; exact hx)]
      simp only [EList.Res.returning, plain]
      refine ⟨?_, fun _ => by simp⟩
      rw [map_eraseIdx', hv, Int.toNat_natCast, Nat.zero_add, erase_idxOf h]
    · simp only [h, if_false, if_true]
      exact ⟨by rw [hv, List.erase_of_not_mem h], fun _ => by simp⟩
  | removeRange f t =>
    simp only [step, plain, EList.removeRange, Verif.Spec.Seq.step, Verif.Spec.Seq.validPos, Verif.Spec.Seq.validGap, hlen]
    by_cases hr : 0 ≤ f ∧ f < data.length ∧ 0 ≤ t ∧ t ≤ data.length ∧ f ≤ t
    · have e1 : ¬ (f < 0 ∨ f ≥ data.length) := by omega
      have e2 : ¬ (t < 0 ∨ t > data.length) := by omega
      have e3 : ¬ (f > t) := by omega
      have e4 : (0 ≤ f ∧ f < data.length) ∧ (0 ≤ t ∧ t ≤ data.length) ∧ f ≤ t := by omega
      simp only [e1, e2, e3, e4, if_false, if_true, and_self]
      rw [EList.doRemoveRange_eq _ _ _ (by omega) (by omega) (by omega)]
      simp [List.map_take, List.map_drop]
    · rw [if_neg (show ¬ ((0 ≤ f ∧ f < data.length) ∧ (0 ≤ t ∧ t ≤ data.length) ∧ f ≤ t) by omega)]
      split
      · exact ⟨rfl, fun _ => rfl⟩
      split
      · exact ⟨rfl, fun _ => rfl⟩
      split
      · exact ⟨rfl, fun _ => rfl⟩
      · exact absurd hr (by omega)
  | removeAll c =>
    obtain ⟨h1, h2⟩ := removeAll_spec (c := c) hp hres data 0
    simp only [step, Verif.Spec.Seq.step]
    exact ⟨h1, fun _ => by rw [h2]⟩
  | set i e =>
    have he := hp e (by simp [given])
    have hv := look_view hres e data 0
    have hi := look_index he data 0
    refine ⟨?_, by simp [takesOut]⟩
    simp only [step, Verif.Spec.Seq.step, Verif.Spec.Seq.validPos, hlen, true_and, hi]
    by_cases hr : 0 ≤ i ∧ i < data.length
    · have hr' : ¬ (i < 0 ∨ i ≥ data.length) := by omega
      simp only [hr, hr', not_true_eq_false, if_false, and_self]
      have hk : i.toNat < data.length := by omega
      have hx := List.getElem?_eq_getElem (show i.toNat < (data.map res).length by omega)
      have hd := EList.doSet_eq (look res e 0 data).1 i e _ (by omega) (List.getElem?_eq_getElem (show i.toNat < (look res e 0 data).1.length by rw [look_length]; exact hk))
      by_cases h : e ∈ data.map res
      · have hj := List.idxOf_lt_length_of_mem h
        by_cases hi' : (data.map res).idxOf e = i.toNat
        · have : (data.map res)[i.toNat]? = some e := by rw [← hi', List.getElem?_eq_getElem hj, List.getElem_idxOf]
          simp only [h, if_true, this, ne_eq, not_true_eq_false, and_false, if_false]
          rw [if_neg (by omega), hd]
          simp only [plain, List.map_set, hv, he]
        · have : (data.map res)[i.toNat]? ≠ some e := by
            intro hc
            rw [hx] at hc
            have h1 := Option.some.inj hc
            have h2 : (data.map res)[(data.map res).idxOf e] = (data.map res)[i.toNat] := by rw [h1, List.getElem_idxOf]
            exact hi' ((List.getElem_inj hn).1 h2)
          simp only [h, if_true, this, ne_eq, not_false_eq_true, and_self]
          rw [if_pos (by omega)]
          exact hv
      · simp only [h, if_false, false_and]
        rw [if_neg (by omega), hx, hd]
        simp only [plain, List.map_set, hv, he]
    · have hr' : i < 0 ∨ i ≥ data.length := by omega
      simp only [hr, hr', not_false_eq_true, if_true]
  | clear => simp [step, plain, EList.clear, EList.doClear, Verif.Spec.Seq.step]

omit [Inhabited α] in
theorem get_spec (hres : ∀ v, res (res v) = res v) (data : List α) (i : Int) : Resolves res data (get res data i).data (get res data i).events ∧
    (get res data i).ret = at? (data.map res) i := by
  simp only [get, at?]
  by_cases hr : 0 ≤ i ∧ i < data.length
  · have hr' : ¬ (i < 0 ∨ i ≥ data.length) := by omega
    have hk : i.toNat < data.length := by omega
    have hx := List.getElem?_eq_getElem hk
    simp only [hr', if_false, hr.1, if_true, hx, List.getElem?_map, Option.map_some, and_true]
    have e : data = data.take i.toNat ++ data[i.toNat] :: data.drop (i.toNat + 1) := by simp
    have e' : data.set i.toNat (res data[i.toNat]) = data.take i.toNat ++ res data[i.toNat] :: data.drop (i.toNat + 1) := by
      rw [List.set_eq_take_append_cons_drop, if_pos hk]
    refine ⟨?_, ?_, by simp, notified_ok⟩
    · have hl : (data.take i.toNat).length = i.toNat := by simp; omega
      have := replay_notified (res := res) (data.take i.toNat) (data.drop (i.toNat + 1)) data[i.toNat]
      rw [hl, ← e, ← e'] at this
      exact this
    · rw [e', List.map_append, List.map_cons, hres, ← List.map_cons, ← List.map_append, ← e]
  · have hr' : i < 0 ∨ i ≥ data.length := by omega
    simp only [hr', if_true]
    refine ⟨.refl data, ?_⟩
    split
    · rw [List.getElem?_eq_none (by simp; omega)]
    · rfl

/-- a call on the list shows as a call on the sequence -/
theorem call_view (hres : ∀ v, res (res v) = res v) (data : List α) (c : Call α) (hp : ∀ e ∈ given c, res e = e) (hn : (data.map res).Nodup)
    (hm : ¬ movesPastEnd (data.map res) c) :
    (call res data c).1.map res = (Spec.step (data.map res) c).1 ∧ (takesOut c = false → (call res data c).2.1 = (Spec.step (data.map res) c).2) := by
  cases c with
  | op o =>
    obtain ⟨h1, h2⟩ := step_view hres data o hp hn hm
    exact ⟨h1, fun ht => by simp only [call, Spec.step, h2 ht]⟩
  | get i =>
    obtain ⟨h1, h2⟩ := get_spec hres data i
    exact ⟨h1.2.1, fun _ => by simp only [call, Spec.step, h2]⟩
  | indexOf e =>
    refine ⟨look_view hres e data 0, fun _ => ?_⟩
    simp only [call, Spec.step, look_index (hp e (by simp [given])), Nat.zero_add]
  | contains e =>
    refine ⟨look_view hres e data 0, fun _ => ?_⟩
    simp only [call, Spec.step, look_index (hp e (by simp [given])), Nat.zero_add]
    split
    · rename_i h; simp [h]
    · rename_i h; simp [h]
  | toArray => exact ⟨(toArray_resolves hres data).2.1, fun _ => by simp [call, Spec.step, toArray]⟩

omit [Inhabited α] in
/-- the sequence stays without repetitions -/
theorem nodup_step {s : List α} (c : Call α) (h : s.Nodup) : (Spec.step s c).1.Nodup := by
  cases c with
  | op o => exact EList.spec_nodup s o h
  | _ => exact h

omit [Inhabited α] in
theorem look_again (hres : ∀ v, res (res v) = res v) (e : α) : ∀ (vs : List α) (i : Nat), (look res e i (look res e i vs).1).2.2 = []
  | [], i => by simp [look]
  | v :: vs, i => by
    by_cases h1 : v = e
    · simp [look, h1]
    · by_cases h2 : res v = e
      · simp [look, h1, h2]
      · simp [look, h1, h2, hres, notified, look_again hres e vs (i + 1)]

omit [Inhabited α] in
theorem notifieds_again (hres : ∀ v, res (res v) = res v) : ∀ (vs : List α) (i : Nat), notifieds res i (vs.map res) = []
  | [], i => rfl
  | v :: vs, i => by simp [notifieds, notifieds_again hres vs (i + 1), notified, hres]

theorem read_resolves (hres : ∀ v, res (res v) = res v) (data : List α) (c : Call α) (hr : reads c = true) :
    Resolves res data (call res data c).1 (call res data c).2.2 ∧ (call res (call res data c).1 c).2.2 = [] := by
  cases c with
  | op o => simp [reads] at hr
  | get i =>
    refine ⟨(get_spec hres data i).1, ?_⟩
    simp only [call, get]
    by_cases hr : i < 0 ∨ i ≥ data.length
    · simp [hr]
    · have hx := List.getElem?_eq_getElem (show i.toNat < data.length by omega)
      simp only [hr, if_false, hx, List.length_set, List.getElem?_set]
      simp [notified, hres, show i.toNat < data.length by omega]
  | indexOf e => exact ⟨look_resolves hres e data, look_again hres e data 0⟩
  | contains e => exact ⟨look_resolves hres e data, look_again hres e data 0⟩
  | toArray => exact ⟨toArray_resolves hres data, notifieds_again hres data 0⟩

end Verif.ResolveList
