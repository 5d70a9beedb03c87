import Verif.Spec.MetaBuild

/-!
# Proofs about building metamodels
-/

namespace Verif.MetaBuild

variable {conv : String → String → Option Nat}

theorem modify_append_left (l : List Elem) (a : Elem) (c : Nat) (f : Elem → Elem)
    (h : c < l.length) : (l ++ [a]).modify c f = l.modify c f ++ [a] := by
  apply List.ext_getElem?
  intro i
  rw [List.getElem?_modify]
  by_cases hi : i < l.length
  · rw [List.getElem?_append_left hi, List.getElem?_append_left (by simpa using hi),
      List.getElem?_modify]
  · by_cases hi' : i = l.length
    · subst hi'
      have : c ≠ l.length := by omega
      simp [this]
    · have : l.length + 1 ≤ i := by omega
      rw [List.getElem?_eq_none (by simpa using this),
        List.getElem?_eq_none (by simpa using this)]
      rfl

theorem modify_append_right (l : List Elem) (a : Elem) (f : Elem → Elem) :
    (l ++ [a]).modify l.length f = l ++ [f a] := by
  apply List.ext_getElem?
  intro i
  rw [List.getElem?_modify]
  by_cases hi : i < l.length
  · rw [List.getElem?_append_left hi, List.getElem?_append_left hi]
    have : l.length ≠ i := by omega
    simp [this]
  · by_cases hi' : i = l.length
    · subst hi'; simp
    · have : l.length + 1 ≤ i := by omega
      rw [List.getElem?_eq_none (by simpa using this),
        List.getElem?_eq_none (by simpa using this)]
      rfl

/-- The container, with the new element in its list. -/
def withKid (sl : Slot) (e : Nat) (x : Elem) : Elem :=
  { x with kids := fun sl' => if sl' = sl then x.kids sl ++ [e] else x.kids sl' }

/-- The heap with the container changed. -/
def placedIn (l : List Elem) (c : Option Nat) (sl : Slot) : List Elem :=
  match c with
  | none => l
  | some c => l.modify c (withKid sl l.length)

theorem create_heap {s s' : St} {k : Kind} {c : Option Nat} {i : Option Int}
    (hk : ∀ (e : Nat) x sl, s.heap[e]? = some x → ∀ j ∈ x.kids sl, j < s.heap.length)
    (h : create s k c i = some s') :
    s'.heap = placedIn s.heap c (slotOf k) ++
        [{ kind := k, container := c, ident := i.getD (-1) }] ∧
      (∀ c', c = some c' → c' < s.heap.length) := by
  unfold create at h
  split at h
  · exact absurd h (by simp)
  · obtain ⟨s2, rfl, h⟩ : ∃ s2 : St, s2 = ⟨s.heap ++ [{ kind := k, ident := i.getD (-1) }]⟩ ∧
        (c = none ∧ s2 = s' ∨ ∃ c' x, c = some c' ∧ s.heap[c']? = some x ∧
          s2.add c' (slotOf k) s.heap.length = s') := by
      refine ⟨_, rfl, ?_⟩
      cases c with
      | none =>
        left
        cases i <;> simp_all [St.set, modify_append_right]
      | some c =>
        right
        cases hc : s.heap[c]? with
        | none => simp [hc] at h
        | some x =>
          refine ⟨c, x, rfl, hc, ?_⟩
          simp only [hc] at h
          split at h
          · cases i <;> simp_all [St.set, modify_append_right]
          · exact absurd h (by simp)
    rcases h with ⟨rfl, rfl⟩ | ⟨c, x, rfl, hc, rfl⟩
    · exact ⟨rfl, by simp⟩
    · have hlt : c < s.heap.length := (List.getElem?_eq_some_iff.mp hc).1
      refine ⟨?_, by simpa using hlt⟩
      have hx : (s.heap ++ [({ kind := k, ident := i.getD (-1) } : Elem)])[c]? = some x := by
        rw [List.getElem?_append_left hlt, hc]
      have hn : s.heap.length ∉ x.kids (slotOf k) := fun hm =>
        absurd (hk c x _ hc _ hm) (by omega)
      simp only [St.add, hx, hn, if_false, St.set]
      rw [modify_append_left _ _ _ _ hlt]
      have hl : s.heap.length = (s.heap.modify c (withKid (slotOf k) s.heap.length)).length := by
        simp
      have := modify_append_right (s.heap.modify c (withKid (slotOf k) s.heap.length))
        { kind := k, ident := i.getD (-1) } (fun y => { y with container := some c })
      rw [← hl] at this
      exact this

theorem slotOf_eq (k : Kind) : slotOf k = listOf k := by cases k <;> rfl

/-- What a call that creates nothing does. -/
theorem step_init {s s' : St} {c : Call} (hm : made c = none)
    (h : step conv s c = some s') :
    ∃ e g, (∀ n, subject n c = some e) ∧ e < s.heap.length ∧
      s'.heap = s.heap.modify e g ∧
      (∀ x, (g x).kind = x.kind ∧ (g x).container = x.container ∧ (g x).ident = x.ident ∧
        (g x).kids = x.kids) ∧
      (∀ x f, (g x).get f = (says conv c f).getD (x.get f)) := by
  have hmm : ∀ (l : List Elem) e (g g' : Elem → Elem),
      (l.modify e g).modify e g' = l.modify e (fun x => g' (g x)) := by
    intro l e g g'
    apply List.ext_getElem?
    intro i
    simp only [List.getElem?_modify]
    cases l[i]? <;> simp
    split <;> rfl
  have hlt : ∀ {e k}, s.kindIs e k = true → e < s.heap.length := by
    intro e k hk
    unfold St.kindIs at hk
    cases hx : s.heap[e]? with
    | none => simp [hx] at hk
    | some x => exact (List.getElem?_eq_some_iff.mp hx).1
  cases c with
  | create => exact absurd hm (by simp [made])
  | addParameter => exact absurd hm (by simp [made])
  | addLiteral => exact absurd hm (by simp [made])
  | initClass e n t a i =>
    simp only [step] at h
    split at h
    · rename_i hk
      simp only [Option.some.injEq] at h
      subst h
      refine ⟨e, _, fun _ => rfl, hlt hk, rfl, fun x => ⟨rfl, rfl, rfl, rfl⟩, fun x f => ?_⟩
      cases f <;> rfl
    · exact absurd h (by simp)
  | initAttribute e a d =>
    simp only [step] at h
    split at h
    · rename_i hk
      simp only [Option.some.injEq] at h
      subst h
      refine ⟨e, _, fun _ => rfl, hlt hk, hmm _ _ _ _, fun x => ⟨rfl, rfl, rfl, rfl⟩,
        fun x f => ?_⟩
      cases f <;> rfl
    · exact absurd h (by simp)
  | initReference e a o c r =>
    simp only [step] at h
    split at h
    · rename_i hk
      simp only [Option.some.injEq] at h
      subst h
      refine ⟨e, _, fun _ => rfl, hlt hk, hmm _ _ _ _, fun x => ⟨rfl, rfl, rfl, rfl⟩,
        fun x f => ?_⟩
      cases f <;> rfl
    · exact absurd h (by simp)
  | initOperation e a =>
    simp only [step] at h
    split at h
    · rename_i hk
      simp only [Option.some.injEq] at h
      subst h
      refine ⟨e, _, fun _ => rfl, hlt hk, rfl, fun x => ⟨rfl, rfl, rfl, rfl⟩, fun x f => ?_⟩
      cases f <;> rfl
    · exact absurd h (by simp)
  | initEnum e n t =>
    simp only [step] at h
    split at h
    · rename_i hk
      simp only [Option.some.injEq] at h
      subst h
      refine ⟨e, _, fun _ => rfl, hlt hk, rfl, fun x => ⟨rfl, rfl, rfl, rfl⟩, fun x f => ?_⟩
      cases f <;> rfl
    · exact absurd h (by simp)
  | initDataType p e n t d z =>
    simp only [step] at h
    split at h
    · rename_i hk
      have hk' := hlt (Bool.and_eq_true_iff.mp hk).1
      split at h
      · rename_i hd
        have hd' : d ≠ "" := fun he => by subst he; exact absurd hd (by decide)
        simp only [St.set, hmm] at h
        split at h
        · exact absurd h (by simp)
        · rename_i x hx
          split at h
          · split at h
            · exact absurd h (by simp)
            · rename_i v hv
              simp only [Option.some.injEq] at h
              subst h
              have hinst : x.instanceClassName = t := by
                rw [List.getElem?_modify] at hx
                cases hy : s.heap[e]? with
                | none => simp [hy] at hx
                | some y =>
                  rw [hy] at hx
                  simp only [Option.map_eq_map, Option.map_some, if_true,
                    Option.some.injEq] at hx
                  subst hx
                  rfl
              rw [hinst] at hv
              refine ⟨e, _, fun _ => rfl, hk', rfl, fun x => ⟨rfl, rfl, rfl, rfl⟩,
                fun x f => ?_⟩
              cases f <;> first | rfl | simp [says, hd', hv, Elem.get]
          · exact absurd h (by simp)
      · rename_i hd
        have hd' : d = "" := by
          have : d.length = 0 := by omega
          exact String.length_eq_zero_iff.mp this
        simp only [Option.some.injEq] at h
        subst h
        refine ⟨e, _, fun _ => rfl, hk', hmm _ _ _ _, fun x => ⟨rfl, rfl, rfl, rfl⟩,
          fun x f => ?_⟩
        cases f <;> first | rfl | simp [says, hd', Elem.get, setClassifier]
    · exact absurd h (by simp)

/-- What a call that creates an element does. -/
theorem step_made {s s' : St} {c : Call} {k : Kind} {co : Option Nat} {i : Option Int}
    (hm : made c = some (k, co, i))
    (hk : ∀ (e : Nat) x sl, s.heap[e]? = some x → ∀ j ∈ x.kids sl, j < s.heap.length)
    (h : step conv s c = some s') :
    ∃ y, s'.heap = placedIn s.heap co (listOf k) ++ [y] ∧
      y.kind = k ∧ y.container = co ∧ y.ident = i.getD (-1) ∧ (∀ sl, y.kids sl = []) ∧
      (∀ f, y.get f = if subject s.heap.length c = some s.heap.length
        then (says conv c f).getD (unsaid f) else unsaid f) ∧
      (∀ c', co = some c' → c' < s.heap.length) ∧
      (∀ e, subject s.heap.length c = some e → e = s.heap.length) := by
  have hlen : ∀ sl, (placedIn s.heap co sl).length = s.heap.length := by
    intro sl; unfold placedIn; split <;> simp
  cases c with
  | create k' c' i' =>
    simp only [made, Option.some.injEq, Prod.mk.injEq] at hm
    obtain ⟨rfl, rfl, rfl⟩ := hm
    have hc := create_heap hk h
    rw [slotOf_eq] at hc
    refine ⟨_, hc.1, rfl, rfl, rfl, fun _ => rfl, fun f => ?_, hc.2, by simp [subject]⟩
    simp only [subject]
    cases f <;> rfl
  | addParameter op a =>
    simp only [made, Option.some.injEq, Prod.mk.injEq] at hm
    obtain ⟨rfl, rfl, rfl⟩ := hm
    simp only [step, Option.map_eq_some_iff] at h
    obtain ⟨s1, h1, rfl⟩ := h
    have hc := create_heap hk h1
    rw [slotOf_eq] at hc
    refine ⟨setTyped a { kind := .parameter, container := some op, ident := -1 }, ?_, rfl, rfl,
      rfl, fun _ => rfl, fun f => ?_, hc.2, by simp [subject]⟩
    · have := modify_append_right (placedIn s.heap (some op) (listOf .parameter))
        { kind := .parameter, container := some op, ident := -1 } (setTyped a)
      rw [hlen] at this
      simp only [St.set, hc.1]
      exact this
    · simp only [subject, if_true]
      cases f <;> rfl
  | addLiteral en n lit v iv =>
    simp only [made, Option.some.injEq, Prod.mk.injEq] at hm
    obtain ⟨rfl, rfl, rfl⟩ := hm
    simp only [step, Option.map_eq_some_iff] at h
    obtain ⟨s1, h1, rfl⟩ := h
    have hc := create_heap hk h1
    rw [slotOf_eq] at hc
    let y : Elem := { kind := .literal, container := some en, ident := (-1), name := n, literal := lit, value := v, inst := iv }
    refine ⟨y, ?_, rfl, rfl,
      rfl, fun _ => rfl, fun f => ?_, hc.2, by simp [subject]⟩
    · have := modify_append_right (placedIn s.heap (some en) (listOf .literal))
        { kind := .literal, container := some en, ident := -1 }
        (fun x => { x with name := n, literal := lit, value := v, inst := iv })
      rw [hlen] at this
      simp only [St.set, hc.1]
      exact this
    · simp only [subject, if_true]
      cases f <;> rfl
  | _ => exact absurd hm (by simp [made])

theorem elements_snoc (pre : List Call) (c : Call) :
    elements (pre ++ [c]) = elements pre ++ (made c).toList := by
  simp [elements, List.filterMap_append, List.filterMap_cons]
  cases made c <;> rfl

theorem told_snoc (e : Nat) (f : Field) (pre : List Call) (c : Call) :
    ∀ n v, told conv e f n v (pre ++ [c]) =
      if subject (n + (elements pre).length) c = some e
      then (says conv c f).getD (told conv e f n v pre) else told conv e f n v pre := by
  induction pre with
  | nil =>
    intro n v
    by_cases h : subject n c = some e <;> simp [told, elements, h]
  | cons d ds ih =>
    intro n v
    simp only [List.cons_append, told]
    rw [ih]
    have : (if (made d).isSome then n + 1 else n) + (elements ds).length =
        n + (elements (d :: ds)).length := by
      simp only [elements, List.filterMap_cons]
      cases made d <;> simp
      omega
    rw [this]

/-- Containers were created before what is in them. -/
def Ordered (l : List (Kind × Option Nat × Option Int)) : Prop :=
  ∀ (i : Nat) k c j, l[i]? = some (k, some c, j) → c < i

theorem placed_snoc_none {pre : List Call} {c : Call} (hm : made c = none) (e : Nat)
    (sl : Slot) : placed (pre ++ [c]) e sl = placed pre e sl := by
  simp [placed, elements_snoc, hm]

theorem placed_snoc_some {pre : List Call} {c : Call} {k : Kind} {co : Option Nat}
    {i : Option Int} (hm : made c = some (k, co, i)) (e : Nat) (sl : Slot) :
    placed (pre ++ [c]) e sl = placed pre e sl ++
      (if co = some e ∧ listOf k = sl then [(elements pre).length] else []) := by
  unfold placed
  rw [elements_snoc, hm]
  simp only [Option.toList_some, List.length_append, List.length_cons, List.length_nil,
    Nat.zero_add, List.range_succ, List.filter_append]
  congr 1
  · apply List.filter_congr
    intro j hj
    rw [List.getElem?_append_left (List.mem_range.mp hj)]
  · simp [List.filter_cons]

theorem placed_lt {pre : List Call} {e : Nat} {sl : Slot} {j : Nat}
    (h : j ∈ placed pre e sl) : j < (elements pre).length := by
  unfold placed at h
  exact List.mem_range.mp (List.mem_filter.mp h).1

theorem placed_fresh {pre : List Call} (ho : Ordered (elements pre)) (sl : Slot) {e : Nat}
    (he : (elements pre).length ≤ e) : placed pre e sl = [] := by
  unfold placed
  rw [List.filter_eq_nil_iff]
  intro j hj
  have hj := List.mem_range.mp hj
  split
  · rename_i k c' i hx
    intro hh
    simp only [Bool.and_eq_true, beq_iff_eq] at hh
    obtain ⟨rfl, -⟩ := hh
    have := ho _ _ _ _ hx
    omega
  · simp

theorem told_fresh (e : Nat) (f : Field) : ∀ (pre : List Call) (n : Nat) (v : Val),
    (∀ c ∈ pre, ∀ m, made c = none → subject m c ≠ some e) → n + (elements pre).length ≤ e →
    told conv e f n v pre = v := by
  intro pre
  induction pre with
  | nil => intros; rfl
  | cons c cs ih =>
    intro n v hs hn
    simp only [told]
    have hne : subject n c ≠ some e := by
      cases hm : made c with
      | none => exact hs c (by simp) n hm
      | some t =>
        have hlen : n < e := by
          simp only [elements, List.filterMap_cons, hm, List.length_cons] at hn
          omega
        cases c <;> simp_all [subject, made] <;> omega
    rw [if_neg hne]
    apply ih
    · exact fun c hc => hs c (by simp [hc])
    · simp only [elements, List.filterMap_cons] at hn ⊢
      cases hm : made c with
      | none => simp [hm] at hn ⊢; omega
      | some t => simp [hm] at hn ⊢; omega

/-- After a prefix of the program. -/
structure Inv (conv : String → String → Option Nat) (s : St) (pre : List Call) : Prop where
  len : s.heap.length = (elements pre).length
  ordered : Ordered (elements pre)
  subj : ∀ c ∈ pre, ∀ m e, made c = none → subject m c = some e → e < s.heap.length
  place : ∀ (e : Nat) x, s.heap[e]? = some x →
    (elements pre)[e]?.map (fun t => (t.1, t.2.1, t.2.2.getD (-1))) =
      some (x.kind, x.container, x.ident)
  kids : ∀ (e : Nat) x sl, s.heap[e]? = some x → x.kids sl = placed pre e sl
  vals : ∀ (e : Nat) x f, s.heap[e]? = some x → x.get f = described conv pre e f

theorem inv_step {s s' : St} {pre : List Call} {c : Call} (hi : Inv conv s pre)
    (h : step conv s c = some s') : Inv conv s' (pre ++ [c]) := by
  have hd : ∀ e f, described conv (pre ++ [c]) e f =
      if subject s.heap.length c = some e
      then (says conv c f).getD (described conv pre e f) else described conv pre e f := by
    intro e f
    unfold described
    rw [told_snoc, Nat.zero_add, hi.len]
  cases hm : made c with
  | none =>
    obtain ⟨e, g, hs, hlt, hh, hg, hv⟩ := step_init hm h
    have hE : elements (pre ++ [c]) = elements pre := by simp [elements_snoc, hm]
    have hl : s'.heap.length = s.heap.length := by rw [hh]; simp
    have hx : ∀ {e' : Nat} {x}, s'.heap[e']? = some x →
        ∃ y, s.heap[e']? = some y ∧ x = if e = e' then g y else y := by
      intro e' x hx
      rw [hh, List.getElem?_modify] at hx
      cases hy : s.heap[e']? with
      | none => simp [hy] at hx
      | some y =>
        rw [hy] at hx
        simp only [Option.map_eq_map, Option.map_some, Option.some.injEq] at hx
        exact ⟨y, rfl, hx.symm⟩
    refine ⟨?_, ?_, ?_, ?_, ?_, ?_⟩
    · rw [hl, hi.len, hE]
    · rw [hE]; exact hi.ordered
    · intro d hd' m e' hmd hsd
      rw [hl]
      rcases List.mem_append.mp hd' with hd' | hd'
      · exact hi.subj d hd' m e' hmd hsd
      · have : d = c := by simpa using hd'
        subst this
        rw [hs m] at hsd
        have : e = e' := by simpa using hsd
        omega
    · intro e' x hx'
      obtain ⟨y, hy, rfl⟩ := hx hx'
      rw [hE, hi.place e' y hy]
      split
      · rw [(hg y).1, (hg y).2.1, (hg y).2.2.1]
      · rfl
    · intro e' x sl hx'
      obtain ⟨y, hy, rfl⟩ := hx hx'
      rw [placed_snoc_none hm, ← hi.kids e' y sl hy]
      split
      · rw [(hg y).2.2.2]
      · rfl
    · intro e' x f hx'
      obtain ⟨y, hy, rfl⟩ := hx hx'
      rw [hd, hs, ← hi.vals e' y f hy]
      by_cases he : e = e'
      · simp [he, hv]
      · simp [he]
  | some t =>
    obtain ⟨k, co, i⟩ := t
    have hk : ∀ (e : Nat) x sl, s.heap[e]? = some x → ∀ j ∈ x.kids sl, j < s.heap.length := by
      intro e x sl hx j hj
      rw [hi.kids e x sl hx] at hj
      rw [hi.len]
      exact placed_lt hj
    obtain ⟨y, hh, hyk, hyc, hyi, hykids, hyv, hc, hsub⟩ := step_made hm hk h
    have hE : elements (pre ++ [c]) = elements pre ++ [(k, co, i)] := by
      simp [elements_snoc, hm]
    have hpl : (placedIn s.heap co (listOf k)).length = s.heap.length := by
      unfold placedIn; split <;> simp
    have hl : s'.heap.length = s.heap.length + 1 := by rw [hh]; simp [hpl]
    have hx : ∀ {e' : Nat} {x}, s'.heap[e']? = some x →
        (e' = s.heap.length ∧ x = y) ∨
        (e' < s.heap.length ∧ ∃ z, s.heap[e']? = some z ∧
          x = if co = some e' then withKid (listOf k) s.heap.length z else z) := by
      intro e' x hx
      rw [hh] at hx
      by_cases he : e' < s.heap.length
      · right
        refine ⟨he, ?_⟩
        rw [List.getElem?_append_left (by omega)] at hx
        unfold placedIn at hx
        cases co with
        | none => exact ⟨x, hx, by simp⟩
        | some c' =>
          simp only at hx
          rw [List.getElem?_modify] at hx
          cases hz : s.heap[e']? with
          | none => simp [hz] at hx
          | some z =>
            rw [hz] at hx
            simp only [Option.map_eq_map, Option.map_some, Option.some.injEq] at hx
            refine ⟨z, rfl, ?_⟩
            simp only [Option.some.injEq]
            exact hx.symm
      · left
        have : e' < s.heap.length + 1 := by
          have := (List.getElem?_eq_some_iff.mp hx).1
          simp [hpl] at this
          omega
        have he' : e' = s.heap.length := by omega
        refine ⟨he', ?_⟩
        rw [List.getElem?_append_right (by omega), hpl, he'] at hx
        simpa using hx.symm
    refine ⟨?_, ?_, ?_, ?_, ?_, ?_⟩
    · rw [hl, hi.len, hE]; simp
    · intro j k' c' i' hj
      rw [hE] at hj
      by_cases hjl : j < (elements pre).length
      · rw [List.getElem?_append_left hjl] at hj
        exact hi.ordered _ _ _ _ hj
      · rw [List.getElem?_append_right (by omega)] at hj
        have hj0 : j - (elements pre).length = 0 := by
          have := (List.getElem?_eq_some_iff.mp hj).1
          simp at this
          omega
        rw [hj0] at hj
        simp only [List.getElem?_cons_zero, Option.some.injEq, Prod.mk.injEq] at hj
        have := hc c' hj.2.1
        have := hi.len
        omega
    · intro d hd' m e' hmd hsd
      rw [hl]
      rcases List.mem_append.mp hd' with hd' | hd'
      · have := hi.subj d hd' m e' hmd hsd
        omega
      · have : d = c := by simpa using hd'
        subst this
        rw [hm] at hmd
        exact absurd hmd (by simp)
    · intro e' x hx'
      rw [hE]
      rcases hx hx' with ⟨rfl, rfl⟩ | ⟨hlt, z, hz, rfl⟩
      · rw [hi.len, List.getElem?_append_right (Nat.le_refl _)]
        simp [hyk, hyc, hyi]
      · rw [List.getElem?_append_left (by rw [← hi.len]; exact hlt), hi.place e' z hz]
        split <;> rfl
    · intro e' x sl hx'
      rw [placed_snoc_some hm, ← hi.len]
      rcases hx hx' with ⟨rfl, rfl⟩ | ⟨hlt, z, hz, rfl⟩
      · rw [hykids, placed_fresh hi.ordered sl (by rw [hi.len]; exact Nat.le_refl _)]
        have : co ≠ some s.heap.length := fun he => absurd (hc _ he) (by omega)
        simp [this]
      · rw [← hi.kids e' z sl hz]
        by_cases hce : co = some e'
        · by_cases hsl : listOf k = sl
          · simp [hce, hsl, withKid]
          · have : sl ≠ listOf k := fun h => hsl h.symm
            simp [hce, hsl, withKid, this]
        · simp [hce]
    · intro e' x f hx'
      rw [hd]
      rcases hx hx' with ⟨rfl, rfl⟩ | ⟨hlt, z, hz, rfl⟩
      · have : described conv pre s.heap.length f = unsaid f := by
          unfold described
          apply told_fresh
          · intro c' hc' m hm' hsu
            have := hi.subj c' hc' m _ hm' hsu
            omega
          · rw [hi.len]; omega
        rw [this, hyv]
      · have hne : subject s.heap.length c ≠ some e' := fun he =>
          absurd (hsub e' he) (by omega)
        rw [if_neg hne, ← hi.vals e' z f hz]
        split
        · cases f <;> rfl
        · rfl

theorem inv_run : ∀ (prog : List Call) {s s' : St} {pre : List Call}, Inv conv s pre →
    run conv s prog = some s' → Inv conv s' (pre ++ prog) := by
  intro prog
  induction prog with
  | nil =>
    intro s s' pre hi h
    simp only [run, Option.some.injEq] at h
    subst h
    simpa using hi
  | cons c cs ih =>
    intro s s' pre hi h
    simp only [run, Option.bind_eq_some_iff] at h
    obtain ⟨s1, h1, h2⟩ := h
    have := ih (inv_step hi h1) h2
    simpa using this

theorem inv_init : Inv conv {} [] := by
  refine ⟨rfl, ?_, ?_, ?_, ?_, ?_⟩
  · intro i k c j h; simp [elements] at h
  · simp
  · intro e x h; simp at h
  · intro e x sl h; simp at h
  · intro e x f h; simp at h

theorem inv_prog {s : St} {prog : List Call} (h : run conv {} prog = some s) :
    Inv conv s prog := by
  simpa using inv_run prog inv_init h

theorem inv_kind {s : St} {pre : List Call} (hi : Inv conv s pre) (e : Nat) :
    (elements pre)[e]?.map (·.1) = s.heap[e]?.map (·.kind) := by
  cases hx : s.heap[e]? with
  | none =>
    have : (elements pre)[e]? = none := by
      rw [List.getElem?_eq_none_iff] at hx ⊢
      rw [← hi.len]; exact hx
    simp [this]
  | some x =>
    have := hi.place e x hx
    cases hy : (elements pre)[e]? with
    | none => simp [hy] at this
    | some y =>
      rw [hy] at this
      simp only [Option.map_some, Option.some.injEq, Prod.mk.injEq] at this
      simp [this.1]

theorem inv_container {s : St} {pre : List Call} (hi : Inv conv s pre) (e : Nat) :
    (elements pre)[e]?.map (·.2.1) = s.heap[e]?.map (·.container) := by
  cases hx : s.heap[e]? with
  | none =>
    have : (elements pre)[e]? = none := by
      rw [List.getElem?_eq_none_iff] at hx ⊢
      rw [← hi.len]; exact hx
    simp [this]
  | some x =>
    have := hi.place e x hx
    cases hy : (elements pre)[e]? with
    | none => simp [hy] at this
    | some y =>
      rw [hy] at this
      simp only [Option.map_some, Option.some.injEq, Prod.mk.injEq] at this
      simp [this.2.1]

theorem kindIs_iff (s : St) (e : Nat) (k : Kind) :
    s.kindIs e k = true ↔ s.heap[e]?.map (·.kind) = some k := by
  unfold St.kindIs
  cases s.heap[e]? <;> simp

theorem accepts_iff (sl : Slot) (k : Kind) : accepts sl k = true ↔ k ∈ owners sl := by
  cases sl <;> cases k <;> decide

theorem hasID_iff (k : Kind) :
    hasID k = true ↔ k ∈ [Kind.class, .dataType, .enum, .attribute, .reference, .operation] := by
  cases k <;> decide

theorem create_isSome {s : St} {k : Kind} {co : Option Nat} {i : Option Int} :
    (create s k co i).isSome ↔
      (i ≠ none → k ∈ [Kind.class, .dataType, .enum, .attribute, .reference, .operation]) ∧
      ∀ c, co = some c → ∃ kc ∈ owners (listOf k), s.heap[c]?.map (·.kind) = some kc := by
  rw [← hasID_iff, ← slotOf_eq]
  unfold create
  cases hh : hasID k <;> cases i <;> cases co <;> simp [← accepts_iff]
  all_goals
    rename_i c
    cases s.heap[c]? <;> simp

theorem step_isSome {s : St} {pre : List Call} (hi : Inv conv s pre) (c : Call) :
    (step conv s c).isSome ↔ Sensible conv (elements pre) c := by
  cases c with
  | create k co i =>
    simp only [step, Sensible, inv_kind hi]
    exact create_isSome
  | initClass e n t a i =>
    simp only [step, Sensible, inv_kind hi, ← kindIs_iff]
    split <;> simp_all
  | initAttribute e a d =>
    simp only [step, Sensible, inv_kind hi, ← kindIs_iff]
    split <;> simp_all
  | initReference e a o c r =>
    simp only [step, Sensible, inv_kind hi, ← kindIs_iff]
    split <;> simp_all
  | initOperation e a =>
    simp only [step, Sensible, inv_kind hi, ← kindIs_iff]
    split <;> simp_all
  | initEnum e n t =>
    simp only [step, Sensible, inv_kind hi, ← kindIs_iff]
    split <;> simp_all
  | addParameter op a =>
    simp only [step, Sensible, inv_kind hi, Option.isSome_map, create_isSome]
    simp [listOf, owners]
  | addLiteral en n l v iv =>
    simp only [step, Sensible, inv_kind hi, Option.isSome_map, create_isSome]
    simp [listOf, owners]
  | initDataType p e n t d z =>
    simp only [step, Sensible, inv_kind hi, inv_container hi, ← kindIs_iff]
    by_cases hk : s.kindIs e .dataType = true
    · by_cases hp : s.kindIs p .package = true
      · simp only [hk, hp, Bool.and_self, if_true, true_and]
        by_cases hd : d = ""
        · simp [hd]
        · have hl : d.length > 0 := by
            have : d.length ≠ 0 := fun h => hd (String.length_eq_zero_iff.mp h)
            omega
          simp only [hl, if_true, ne_eq, hd, not_false_eq_true, forall_const, St.set,
            List.getElem?_modify]
          cases hx : s.heap[e]? with
          | none =>
            have := (kindIs_iff s e .dataType).mp hk
            simp [hx] at this
          | some x =>
            simp only [Option.map_eq_map, Option.map_some, if_true, setClassifier]
            by_cases hc : x.container = some p
            · simp only [hc, if_true, true_and]
              cases conv t d <;> simp
            · simp [hc]
      · simp [hp]
    · simp [hk]

theorem run_isSome : ∀ (prog : List Call) {s : St} {pre : List Call}, Inv conv s pre →
    ((run conv s prog).isSome ↔
      ∀ a c b, prog = a ++ c :: b → Sensible conv (elements (pre ++ a)) c) := by
  intro prog
  induction prog with
  | nil => intro s pre _; simp [run]
  | cons d ds ih =>
    intro s pre hi
    simp only [run]
    have hs := step_isSome hi d
    constructor
    · intro h a c b hp
      cases h1 : step conv s d with
      | none => simp [h1] at h
      | some s1 =>
        rw [h1] at h
        cases a with
        | nil =>
          simp only [List.nil_append, List.cons.injEq] at hp
          obtain ⟨rfl, -⟩ := hp
          rw [List.append_nil]
          exact hs.mp (by simp [h1])
        | cons a0 a =>
          simp only [List.cons_append, List.cons.injEq] at hp
          obtain ⟨rfl, hp⟩ := hp
          have := (ih (inv_step hi h1)).mp h a c b hp
          simpa using this
    · intro h
      have h0 := hs.mpr (by simpa using h [] d ds rfl)
      cases h1 : step conv s d with
      | none => simp [h1] at h0
      | some s1 =>
        refine (ih (inv_step hi h1)).mpr ?_
        intro a c b hp
        have := h (d :: a) c b (by simp [hp])
        simpa using this

theorem told_none (e : Nat) (f : Field) : ∀ (prog : List Call) (n : Nat) (v : Val),
    (∀ a c b, prog = a ++ c :: b → subject (n + (elements a).length) c ≠ some e) →
    told conv e f n v prog = v := by
  intro prog
  induction prog with
  | nil => intros; rfl
  | cons c cs ih =>
    intro n v h
    simp only [told]
    have hne : subject n c ≠ some e := by simpa [elements] using h [] c cs rfl
    rw [if_neg hne]
    apply ih
    intro a d b hp
    have := h (c :: a) d b (by simp [hp])
    simp only [elements, List.filterMap_cons] at this ⊢
    cases hm : made c with
    | none => simpa [hm] using this
    | some t =>
      simp only [hm, List.length_cons] at this
      simp only [Option.isSome_some, if_true]
      have he : n + ((List.filterMap made a).length + 1) =
        n + 1 + (List.filterMap made a).length := by omega
      rwa [he] at this

theorem told_append (e : Nat) (f : Field) (a b : List Call) : ∀ n v,
    told conv e f n v (a ++ b) =
      told conv e f (n + (elements a).length) (told conv e f n v a) b := by
  induction a with
  | nil => intro n v; simp [told, elements]
  | cons d ds ih =>
    intro n v
    simp only [List.cons_append, told]
    rw [ih]
    have : (if (made d).isSome then n + 1 else n) + (elements ds).length =
        n + (elements (d :: ds)).length := by
      simp only [elements, List.filterMap_cons]
      cases made d <;> simp
      omega
    rw [this]

theorem described_once {prog a b : List Call} {c : Call} {e : Nat} (f : Field)
    (hp : prog = a ++ c :: b) (hs : subject (elements a).length c = some e)
    (ho : ∀ a' c' b', prog = a' ++ c' :: b' → subject (elements a').length c' = some e →
      a'.length = a.length) :
    described conv prog e f = (says conv c f).getD (unsaid f) := by
  unfold described
  subst hp
  rw [told_append, Nat.zero_add]
  have ha : told conv e f 0 (unsaid f) a = unsaid f := by
    apply told_none
    intro a' c' b' hp' hs'
    have := ho a' c' (b' ++ c :: b) (by simp [hp']) (by simpa using hs')
    rw [hp'] at this
    simp at this
  rw [ha]
  have hc : a ++ c :: b = (a ++ [c]) ++ b := by simp
  simp only [told, hs, if_true]
  apply told_none
  intro a' c' b' hp' hs'
  have := ho (a ++ c :: a') c' b' (by simp [hp']) (by
    rw [← hs']
    congr 1
    simp only [elements, List.filterMap_append, List.filterMap_cons, List.length_append]
    cases made c <;> simp
    omega)
  simp at this

theorem placed_mem {prog : List Call} {e c : Nat} {k : Kind} {i : Option Int}
    (h : (elements prog)[e]? = some (k, some c, i)) : e ∈ placed prog c (listOf k) := by
  unfold placed
  rw [List.mem_filter]
  refine ⟨List.mem_range.mpr (List.getElem?_eq_some_iff.mp h).1, ?_⟩
  rw [h]
  simp

end Verif.MetaBuild
