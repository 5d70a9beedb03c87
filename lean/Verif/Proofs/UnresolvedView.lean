import Verif.Spec.UnresolvedView
import Verif.Proofs.ResolveList
import Verif.Proofs.EList

/-!
# Proofs about the view without resolving
-/

namespace Verif.UnresolvedView

open Verif.EList (Op Ret)
open Verif.ResolveList (Ev Out Call Answer plain)
open Verif.Spec

variable {α : Type} [DecidableEq α] [Inhabited α]

omit [Inhabited α] in
theorem removeAll_eq (c : List α) : ∀ d, removeAll c d = (d.filter (· ∉ c), decide (∃ x ∈ d, x ∈ c))
  | [] => by simp [removeAll]
  | v :: vs => by
    rw [removeAll, removeAll_eq c vs]
    by_cases h : v ∈ c
    · have : c.any (fun a => decide (v = a)) = true := by simpa using h
      rw [if_pos this]
      simp [h]
    · have : ¬c.any (fun a => decide (v = a)) = true := by simpa using h
      rw [if_neg this]
      simp [h]

theorem step_events (data : List α) (o : Op α) : (step data o).events = [] := by
  cases o <;> simp only [step, plain] <;> (repeat' split) <;> rfl

theorem call_events (data : List α) (c : Call α) : (call data c).2.2 = [] := by
  cases c <;> simp only [call]
  exact step_events data _

theorem step_seq (data : List α) (o : Op α) (hn : data.Nodup) (hm : ¬Seq.movesPastEnd data o) :
    (step data o).data = (Seq.step true data o).1 ∧ (step data o).ret = (Seq.step true data o).2 := by
  have href := EList.step_refines (⟨true, .snapshot⟩ : EList.Cfg) data o (fun _ => hn) ⟨hm, fun _ h => by cases h⟩
  have hl : ∀ (c : List α), c = [] ↔ c.length = 0 := fun c => by cases c <;> simp
  cases o with
  | removeAll c => simp [step, removeAll_eq, Seq.step]
  | add e =>
    rw [← href.1, ← href.2]
    by_cases h : EList.contains data e = true <;> simp [step, EList.step, EList.add, h, EList.noop, plain]
  | insert i e =>
    rw [← href.1, ← href.2]
    by_cases h0 : i < 0 ∨ i > data.length
    · simp [step, EList.step, EList.insert, h0, EList.noop]
    · by_cases h : EList.contains data e = true <;> simp [step, EList.step, EList.insert, h0, h, EList.noop, plain]
  | insertAll i c =>
    rw [← href.1, ← href.2]
    by_cases h0 : i < 0 ∨ i > data.length
    · simp [step, EList.step, EList.insertAll, h0, EList.noop]
    · by_cases h : EList.getNonDuplicates .snapshot data c = []
      · simp [step, EList.step, EList.insertAll, h0, h, EList.noop, nonDuplicates]
      · simp [step, EList.step, EList.insertAll, h0, h, nonDuplicates, plain]
  | addAll c =>
    by_cases h : EList.getNonDuplicates .snapshot data c = []
    · rw [← href.1, ← href.2]
      simp [step, EList.step, EList.addAll, h, EList.noop, nonDuplicates]
    · have hs : (EList.doInsertAll data data.length (EList.getNonDuplicates .snapshot data c)).data = data ++ EList.getNonDuplicates .snapshot data c ∧
          (EList.doInsertAll data data.length (EList.getNonDuplicates .snapshot data c)).ret = .bool true := by
        rw [EList.doInsertAll_eq data data.length _ ⟨by omega, by omega⟩]
        have : (EList.getNonDuplicates .snapshot data c).length ≠ 0 := fun e => h ((hl _).mpr e)
        simp [Seq.insertAllAt, this]
      rw [EList.getNonDuplicates_snapshot] at h hs
      simp [step, Seq.step, nonDuplicates, EList.getNonDuplicates_snapshot, h, plain, EList.Res.returning, hs]
  | move spare o n => exact href
  | moveObject spare n e => exact href
  | removeAt i => exact href
  | remove e => exact href
  | removeRange f t => exact href
  | set i e => exact href
  | clear => exact href

omit [Inhabited α] in
theorem fresh_sub (s c : List α) : ∀ x ∈ Seq.fresh s c, x ∈ c := fun x hx => ((EList.mem_fresh s c x).mp hx).1

omit [Inhabited α] in
theorem mem_insertIdx' {s : List α} {i : Nat} {e x : α} (h : x ∈ s.insertIdx i e) : x ∈ s ∨ x = e := by
  rcases Nat.lt_or_ge s.length i with hi | hi
  · rw [List.insertIdx_of_length_lt hi] at h; exact .inl h
  · rw [List.mem_insertIdx hi] at h
    exact h.symm

omit [Inhabited α] in
theorem seq_sub (s : List α) (o : Op α) : ∀ x ∈ (Seq.step true s o).1, x ∈ s ∨ x ∈ Spec.adds (.op o) := by
  intro x hx
  cases o <;> simp only [Seq.step, Spec.adds, Seq.insertAllAt, Seq.moved] at hx ⊢
  case add e => split at hx <;> simp_all
  case addAll c =>
    simp only [if_true, List.mem_append] at hx
    exact hx.imp id (fresh_sub s c x)
  case insert i e =>
    split at hx
    · exact .inl hx
    · split at hx
      · exact .inl hx
      · rcases mem_insertIdx' hx with h | h
        · exact .inl h
        · exact .inr (by simp [h])
  case insertAll i c =>
    split at hx
    · exact .inl hx
    · simp only [if_true, List.mem_append] at hx
      rcases hx with (h | h) | h
      · exact .inl (List.mem_of_mem_take h)
      · exact .inr (fresh_sub s c x h)
      · exact .inl (List.mem_of_mem_drop h)
  case move sp a b =>
    split at hx
    · split at hx
      · rename_i y hy
        rcases mem_insertIdx' hx with h | h
        · exact .inl (List.mem_of_mem_eraseIdx h)
        · exact .inl (h ▸ List.mem_of_getElem? hy)
      · exact .inl hx
    · exact .inl hx
  case moveObject sp n e =>
    split at hx
    · rename_i he
      rcases mem_insertIdx' hx with h | h
      · exact .inl (List.mem_of_mem_eraseIdx h)
      · exact .inl (h ▸ he.1)
    · exact .inl hx
  case removeAt i =>
    split at hx
    · split at hx
      · exact .inl (List.mem_of_mem_eraseIdx hx)
      · exact .inl hx
    · exact .inl hx
  case remove e => exact .inl (List.mem_of_mem_erase hx)
  case removeRange f t =>
    split at hx
    · simp only [List.mem_append] at hx
      rcases hx with h | h
      · exact .inl (List.mem_of_mem_take h)
      · exact .inl (List.mem_of_mem_drop h)
    · exact .inl hx
  case removeAll c => exact .inl (List.mem_filter.mp hx).1
  case set i e =>
    split at hx
    · exact .inl hx
    · split at hx
      · exact .inl hx
      · split at hx
        · rcases List.mem_or_eq_of_mem_set hx with h | h
          · exact .inl h
          · exact .inr (by simp [h])
        · exact .inl hx
  case clear => simp at hx

omit [DecidableEq α] [Inhabited α] in
theorem inj_of_nodup_map {res : α → α} {d : List α} (h : (d.map res).Nodup) : ∀ a ∈ d, ∀ b ∈ d, res a = res b → a = b := by
  induction d with
  | nil => simp
  | cons v vs ih =>
    simp only [List.map_cons, List.nodup_cons, List.mem_map, not_exists, not_and] at h
    intro a ha b hb he
    simp only [List.mem_cons] at ha hb
    rcases ha with rfl | ha <;> rcases hb with rfl | hb
    · rfl
    · exact absurd he.symm (h.1 b hb)
    · exact absurd he (h.1 a ha)
    · exact ih h.2 a ha b hb he

omit [DecidableEq α] [Inhabited α] in
theorem nodup_of_map {res : α → α} {d : List α} (h : (d.map res).Nodup) : d.Nodup := by
  induction d with
  | nil => simp
  | cons v vs ih =>
    simp only [List.map_cons, List.nodup_cons, List.mem_map, not_exists, not_and] at h
    exact List.nodup_cons.mpr ⟨fun hm => h.1 v hm rfl, ih h.2⟩

omit [DecidableEq α] [Inhabited α] in
theorem nodup_map_of {res : α → α} : ∀ {d : List α}, d.Nodup → (∀ a ∈ d, ∀ b ∈ d, res a = res b → a = b) → (d.map res).Nodup
  | [], _, _ => by simp
  | v :: vs, hn, hi => by
    rw [List.nodup_cons] at hn
    rw [List.map_cons, List.nodup_cons]
    refine ⟨fun hm => ?_, nodup_map_of hn.2 (fun a ha b hb => hi a (by simp [ha]) b (by simp [hb]))⟩
    obtain ⟨w, hw, he⟩ := List.mem_map.mp hm
    exact hn.1 (hi w (by simp [hw]) v (by simp) he ▸ hw)

theorem call_nodup {res : α → α} (data : List α) (c : Call α) (hn : (data.map res).Nodup) (ha : Spec.Apart res data c)
    (hm : ¬ResolveList.Spec.movesPastEnd data c) : ((call data c).1.map res).Nodup := by
  cases c with
  | op o =>
    have hd := nodup_of_map hn
    simp only [call]
    rw [(step_seq data o hd hm).1]
    refine nodup_map_of (EList.spec_nodup data o hd) ?_
    have hi := inj_of_nodup_map hn
    intro a h1 b h2 he
    rcases seq_sub data o a h1 with h1 | h1 <;> rcases seq_sub data o b h2 with h2 | h2
    · exact hi a h1 b h2 he
    · rcases ha.1 b h2 with h3 | h3
      · exact hi a h1 b h3 he
      · exact absurd (he ▸ List.mem_map_of_mem h1) h3
    · rcases ha.1 a h1 with h3 | h3
      · exact hi a h3 b h2 he
      · exact absurd (he ▸ List.mem_map_of_mem h2) h3
    · exact ha.2 a h1 b h2 he
  | _ => exact hn

theorem reads_seq (data : List α) (c : Call α) (hr : ResolveList.Spec.reads c = true) :
    ((call data c).1, (call data c).2.1) = ResolveList.Spec.step data c := by
  cases c with
  | op o => cases hr
  | get i =>
    simp only [call, ResolveList.Spec.step, EList.get, ResolveList.Spec.at?, EList.goIndex]
    by_cases h : 0 ≤ i
    · by_cases h2 : i < data.length
      · rw [if_neg (by omega), if_pos h, if_pos h]
        cases data[i.toNat]? <;> rfl
      · rw [if_pos (by omega), if_pos h]
        rw [List.getElem?_eq_none (by omega)]
    · rw [if_pos (by omega), if_neg h]
  | indexOf e => simp only [call, ResolveList.Spec.step, EList.indexOf_eq]
  | contains e => simp [call, ResolveList.Spec.step, EList.contains_eq]
  | toArray => rfl

theorem call_seq (data : List α) (c : Call α) (hn : data.Nodup) (hm : ¬ResolveList.Spec.movesPastEnd data c) :
    ((call data c).1, (call data c).2.1) = ResolveList.Spec.step data c := by
  cases c with
  | op o =>
    obtain ⟨h1, h2⟩ := step_seq data o hn hm
    simp [call, ResolveList.Spec.step, h1, h2]
  | _ => exact reads_seq data _ rfl

end Verif.UnresolvedView
