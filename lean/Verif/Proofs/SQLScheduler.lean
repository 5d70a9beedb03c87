import Verif.Spec.SQLScheduler

/-!
# Proofs about the scheduler
-/

namespace Verif.SQLScheduler

/-! ## Queues -/

theorem get_put (q : Queues) (k k' : Area) (l : List Nat) : get (put q k l) k' = if k = k' then l else get q k' := by
  induction q with
  | nil => simp [put, get]
  | cons e q ih => obtain ⟨a, m⟩ := e; simp only [put]; split <;> simp only [get, ih] <;> grind

theorem get_del (q : Queues) (k k' : Area) : get (del q k) k' = if k = k' then [] else get q k' := by
  induction q with
  | nil => simp [del, get]
  | cons e q ih =>
    obtain ⟨a, m⟩ := e
    by_cases h : a = k
    · simp only [del, List.filter_cons, h] at ih ⊢
      simp only [ne_eq, not_true_eq_false, decide_false, Bool.false_eq_true, ↓reduceIte, ih, get]
      split <;> rfl
    · simp only [del, List.filter_cons] at ih ⊢
      simp only [ne_eq, h, not_false_eq_true, decide_true, ↓reduceIte, get, ih]
      grind

def keysOf (q : Queues) : List Area := q.map (·.1)

/-- well formed queues: an entry for each key with operations -/
structure QOK (q : Queues) : Prop where
  nodup : (keysOf q).Nodup
  nonempty : ∀ e ∈ q, e.2 ≠ []

theorem mem_keysOf_of_get {q : Queues} {k : Area} (h : get q k ≠ []) : k ∈ keysOf q := by
  induction q with
  | nil => simp [get] at h
  | cons e q ih => obtain ⟨a, m⟩ := e; simp only [get] at h; simp only [keysOf, List.map_cons, List.mem_cons]; grind [keysOf]

theorem get_of_mem_keysOf {q : Queues} (hq : ∀ e ∈ q, e.2 ≠ []) {k : Area} (h : k ∈ keysOf q) : get q k ≠ [] := by
  induction q with
  | nil => simp [keysOf] at h
  | cons e q ih =>
    obtain ⟨a, m⟩ := e
    simp only [get]
    split
    · exact hq (a, m) (by simp)
    · exact ih (fun e he => hq e (by simp [he])) (by simp only [keysOf, List.map_cons, List.mem_cons] at h; grind [keysOf])

theorem keysOf_put (q : Queues) (k : Area) (l : List Nat) : keysOf (put q k l) = if k ∈ keysOf q then keysOf q else keysOf q ++ [k] := by
  induction q with
  | nil => simp [put, keysOf]
  | cons e q ih => obtain ⟨a, m⟩ := e; simp only [put]; grind [keysOf]

theorem mem_put {q : Queues} {k : Area} {l : List Nat} {e : Area × List Nat} (h : e ∈ put q k l) : e ∈ q ∨ e = (k, l) := by
  induction q with
  | nil => simp [put] at h; simp [h]
  | cons e' q ih => obtain ⟨a, m⟩ := e'; simp only [put] at h; grind

theorem QOK.put {q : Queues} (h : QOK q) (k : Area) {l : List Nat} (hl : l ≠ []) : QOK (put q k l) := by
  refine ⟨?_, ?_⟩
  · rw [keysOf_put]
    have := h.nodup
    split
    · exact this
    · rw [List.nodup_append]; grind
  · intro e he
    rcases mem_put he with h' | rfl
    · exact h.nonempty _ h'
    · exact hl

theorem QOK.del {q : Queues} (h : QOK q) (k : Area) : QOK (del q k) := by
  refine ⟨?_, ?_⟩
  · exact h.nodup.sublist ((List.filter_sublist (l := q)).map _)
  · intro e he
    exact h.nonempty e (List.mem_filter.mp he).1

/-! ## Keys of an area -/

/-- the key of an area -/
def norm (a : Area) : Area := if a.obj = none then ⟨none, none⟩ else a

theorem mem_objects (q : Queues) (o : Nat) : o ∈ objects q ↔ ∃ k ∈ keysOf q, k.obj = some o := by
  simp only [objects, List.mem_eraseDups, List.mem_filterMap, keysOf, List.mem_map]
  grind

theorem mem_features (q : Queues) (o : Nat) (k : Area) : k ∈ features q o ↔ k ∈ keysOf q ∧ k.obj = some o ∧ k.feat ≠ none := by
  simp [features, keysOf, List.mem_filter]

theorem norm_mem_expand (q : Queues) (a : Area) : norm a ∈ expand q a := by
  obtain ⟨o, f⟩ := a
  rcases o with - | o <;> rcases f with - | f <;> simp [norm, expand]

theorem mem_expand_of_within {q : Queues} {a b : Area} (h : Within a b) (ha : norm a ∈ keysOf q) : norm a ∈ expand q b := by
  obtain ⟨o, f⟩ := a
  obtain ⟨o', f'⟩ := b
  simp only [Within] at h
  rcases o' with - | o'
  · rcases o with - | o
    · rcases f' with - | f' <;> simp [norm, expand]
    · have h1 : o ∈ objects q := (mem_objects _ _).2 ⟨_, ha, by simp [norm]⟩
      have h2 : (⟨some o, f⟩ : Area) ∈ (⟨some o, none⟩ : Area) :: features q o := by
        rcases f with - | f
        · simp
        · simp only [List.mem_cons, mem_features]
          right
          simpa [norm] using ha
      simp only [norm, expand]
      simp only [reduceCtorEq, ↓reduceIte, List.mem_cons, Area.mk.injEq, false_and, false_or, List.mem_flatMap]
      exact ⟨o, h1, by simpa using h2⟩
  · simp only [reduceCtorEq, false_or] at h
    obtain ⟨rfl, h⟩ := h
    rcases f' with - | f'
    · rcases f with - | f
      · simp [norm, expand]
      · simp only [norm, expand, List.mem_cons, mem_features]
        right
        simpa [norm] using ha
    · simp only [reduceCtorEq, false_or] at h
      subst h
      simp [norm, expand]

theorem within_of_mem_expand {q : Queues} {a k : Area} (h : k ∈ expand q a) : Within k a := by
  obtain ⟨o, f⟩ := a
  rcases o with - | o
  · exact Or.inl rfl
  · right
    rcases f with - | f
    · simp only [expand, List.mem_cons, mem_features] at h
      grind
    · simp only [expand, List.mem_singleton] at h
      subst h; simp

theorem nodup_eraseDups (l : List Nat) : l.eraseDups.Nodup := by
  generalize hn : l.length = n
  induction n using Nat.strongRecOn generalizing l with
  | ind n ih =>
    cases l with
    | nil => simp
    | cons a as =>
      rw [List.eraseDups_cons, List.nodup_cons]
      refine ⟨by simp [List.mem_eraseDups], ih _ ?_ _ rfl⟩
      have := List.length_filter_le (fun b => !b == a) as
      simp only [List.length_cons] at hn
      omega

theorem expand_nodup {q : Queues} (hq : QOK q) (a : Area) : (expand q a).Nodup := by
  have hf : ∀ o, ((⟨some o, none⟩ : Area) :: features q o).Nodup := by
    intro o
    rw [List.nodup_cons]
    refine ⟨by simp [mem_features], ?_⟩
    exact hq.nodup.sublist List.filter_sublist
  obtain ⟨o, f⟩ := a
  rcases o with - | o
  · have : ((objects q).flatMap fun o => (⟨some o, none⟩ : Area) :: features q o).Nodup := by
      have hn : (objects q).Nodup := nodup_eraseDups _
      refine List.pairwise_flatMap.mpr ⟨fun o _ => hf o, hn.imp ?_⟩
      intro x y hxy k hk1 k2 hk2 hkk
      subst hkk
      simp only [List.mem_cons, mem_features] at hk1 hk2
      grind
    simp only [expand]
    rw [List.nodup_cons]
    refine ⟨?_, this⟩
    simp only [List.mem_flatMap, List.mem_cons, mem_features]
    rintro ⟨o, -, h | h⟩ <;> grind
  · rcases f with - | f
    · exact hf o
    · simp [expand]

/-! ## Registration -/

/-- the operations of each key are in the order of the calls -/
def Sorted (q : Queues) (id : Nat) : Prop := ∀ k, (get q k).Pairwise (· ≤ ·) ∧ ∀ x ∈ get q k, x ≤ id

theorem last_ge {l : List Nat} (hs : l.Pairwise (· ≤ ·)) {x : Nat} (hx : x ∈ l) : ∃ p, l.getLast? = some p ∧ x ≤ p := by
  induction l with
  | nil => simp at hx
  | cons a l ih =>
    rcases l with - | ⟨b, l⟩
    · simp at hx ⊢; omega
    · rw [List.getLast?_cons_cons]
      rw [List.pairwise_cons] at hs
      rcases List.mem_cons.mp hx with rfl | hx
      · have hl : (b :: l).getLast? = some ((b :: l).getLast (by simp)) := List.getLast?_eq_some_getLast _
        exact ⟨_, hl, hs.1 _ (List.getLast_mem _)⟩
      · exact ih hs.2 hx

theorem find_ge {l : List Nat} (isW : Nat → Bool) (hs : l.Pairwise (· ≤ ·)) {x : Nat} (hx : x ∈ l) (hw : isW x = true) :
    ∃ p, l.reverse.find? isW = some p ∧ x ≤ p := by
  induction l with
  | nil => simp at hx
  | cons a l ih =>
    rw [List.pairwise_cons] at hs
    rw [List.reverse_cons, List.find?_append]
    rcases List.mem_cons.mp hx with rfl | hx
    · cases h : l.reverse.find? isW with
      | none => simp [hw]
      | some p =>
        have := List.mem_of_find?_eq_some h
        exact ⟨p, by simp, hs.1 p (by simpa using this)⟩
    · obtain ⟨p, h1, h2⟩ := ih hs.2 hx
      exact ⟨p, by simp [h1], h2⟩

/-- What the registration with a list of keys does. -/
structure Reg (isW : Nat → Bool) (id : Nat) (ks : List Area) (q : Queues) (p : List Nat) (q' : Queues) (p' : List Nat) : Prop where
  ok : QOK q → QOK q'
  counts : ∀ k i, (get q' k).count i = (get q k).count i + if i = id then ks.count k else 0
  prev : ∀ x ∈ p, x ∈ p'
  sorted : Sorted q id → Sorted q' id
  dep : Sorted q id → ∀ k ∈ ks, ∀ x ∈ get q k, isW x = true ∨ isW id = true → ∃ y ∈ p', x ≤ y ∧ y ∈ get q' k
  src : ks.Nodup → ∀ y ∈ p', y ∈ p ∨ ∃ k ∈ ks, y ∈ get q k

theorem Reg.mono {isW id ks q p q' p'} (h : Reg isW id ks q p q' p') {k : Area} {i : Nat} (hi : i ∈ get q k) : i ∈ get q' k := by
  have := h.counts k i
  have h1 : 0 < (get q k).count i := List.count_pos_iff.mpr hi
  exact List.count_pos_iff.mp (by omega)

theorem Reg.back {isW id ks q p q' p'} (h : Reg isW id ks q p q' p') {k : Area} {i : Nat} (hi : i ∈ get q' k) (hk : k ∉ ks) :
    i ∈ get q k := by
  have := h.counts k i
  have h1 : 0 < (get q' k).count i := List.count_pos_iff.mpr hi
  have h2 : ks.count k = 0 := List.count_eq_zero_of_not_mem hk
  exact List.count_pos_iff.mp (by split at this <;> omega)

theorem Reg.refl (isW : Nat → Bool) (id : Nat) (q : Queues) (p : List Nat) : Reg isW id [] q p q p :=
  ⟨fun h => h, by simp, fun _ h => h, fun h => h, by simp, fun _ y hy => Or.inl hy⟩

theorem Reg.trans {isW id ks ks' q p q' p' q'' p''} (h1 : Reg isW id ks q p q' p') (h2 : Reg isW id ks' q' p' q'' p'') :
    Reg isW id (ks ++ ks') q p q'' p'' := by
  refine ⟨fun h => h2.ok (h1.ok h), ?_, fun x hx => h2.prev x (h1.prev x hx), fun h => h2.sorted (h1.sorted h), ?_, ?_⟩
  · intro k i
    rw [h2.counts, h1.counts, List.count_append]
    split <;> omega
  · intro hs k hk x hx hw
    by_cases hk1 : k ∈ ks
    · obtain ⟨y, hy, hxy, hyk⟩ := h1.dep hs k hk1 x hx hw
      exact ⟨y, h2.prev y hy, hxy, h2.mono hyk⟩
    · have hk2 : k ∈ ks' := by grind
      exact h2.dep (h1.sorted hs) k hk2 x (h1.mono hx) hw
  · intro hnd y hy
    rw [List.nodup_append] at hnd
    rcases h2.src hnd.2.1 y hy with h | ⟨k, hk, hyk⟩
    · rcases h1.src hnd.1 y h with h | ⟨k, hk, h⟩
      · exact Or.inl h
      · exact Or.inr ⟨k, by simp [hk], h⟩
    · exact Or.inr ⟨k, by simp [hk], h1.back hyk (fun h => hnd.2.2 _ h _ hk rfl)⟩

theorem reg_register (isW : Nat → Bool) (id : Nat) (acc : Queues × List Nat) (k : Area) :
    Reg isW id [k] acc.1 acc.2 (register isW id acc k).1 (register isW id acc k).2 := by
  obtain ⟨q, p⟩ := acc
  simp only [register]
  refine ⟨fun h => h.put k (by simp), ?_, by simp; grind, ?_, ?_, ?_⟩
  · intro k' i
    rw [get_put]
    by_cases hk : k = k'
    · subst hk
      simp only [↓reduceIte, List.count_append, List.count_singleton]
      grind
    · simp only [hk, ↓reduceIte]
      have : List.count k' [k] = 0 := by simp [List.count_singleton, hk]
      simp [this]
  · intro hs k'
    rw [get_put]
    split
    · refine ⟨?_, ?_⟩
      · rw [List.pairwise_append]
        exact ⟨(hs k).1, by simp, fun a ha b hb => by simp at hb; subst hb; exact (hs k).2 a ha⟩
      · intro x hx
        rcases List.mem_append.mp hx with h | h
        · exact (hs k).2 x h
        · simp at h; omega
    · exact hs k'
  · intro hs k' hk' x hx hw
    simp only [List.mem_singleton] at hk'
    subst hk'
    rw [get_put]
    simp only [↓reduceIte]
    split
    · obtain ⟨y, h1, h2⟩ := last_ge (hs k').1 hx
      exact ⟨y, by simp [h1], h2, by simp [List.mem_of_getLast? h1]⟩
    · rename_i hid
      obtain ⟨y, h1, h2⟩ := find_ge isW (hs k').1 hx (hw.resolve_right hid)
      refine ⟨y, by simp [h1], h2, ?_⟩
      have := List.mem_of_find?_eq_some h1
      simp at this; simp [this]
  · intro _ y hy
    rcases List.mem_append.mp hy with h | h
    · exact Or.inl h
    · right
      refine ⟨k, by simp, ?_⟩
      simp only [Option.mem_toList] at h
      split at h
      · exact List.mem_of_getLast? h
      · have := List.mem_of_find?_eq_some h
        simpa using this

theorem reg_foldl (isW : Nat → Bool) (id : Nat) (ks : List Area) : ∀ acc : Queues × List Nat,
    Reg isW id ks acc.1 acc.2 (ks.foldl (register isW id) acc).1 (ks.foldl (register isW id) acc).2 := by
  induction ks with
  | nil => intro acc; exact Reg.refl ..
  | cons k ks ih => intro acc; exact (reg_register isW id acc k).trans (ih _)

/-- What the registration of a call does: the keys. -/
structure Keys (as : List Area) (q : Queues) (ks : List Area) : Prop where
  own : ∀ a ∈ as, norm a ∈ ks
  covers : ∀ a, ∀ b ∈ as, Within a b → get q (norm a) ≠ [] → norm a ∈ ks
  within : ∀ k ∈ ks, ∃ a ∈ as, Within k a

theorem reg_registerAll (isW : Nat → Bool) (id : Nat) (as : List Area) : ∀ (q : Queues) (p : List Nat) (ks : List Area),
    ∃ new, (registerAll isW id (q, p, ks) as).2.2 = ks ++ new ∧
      Reg isW id new q p (registerAll isW id (q, p, ks) as).1 (registerAll isW id (q, p, ks) as).2.1 ∧ Keys as q new := by
  induction as with
  | nil => intro q p ks; exact ⟨[], by simp [registerAll], Reg.refl .., by simp, by simp, by simp⟩
  | cons a as ih =>
    intro q p ks
    have h1 := reg_foldl isW id (expand q a) (q, p)
    obtain ⟨new, e, h2, h3⟩ := ih ((expand q a).foldl (register isW id) (q, p)).1 ((expand q a).foldl (register isW id) (q, p)).2
      (ks ++ expand q a)
    refine ⟨expand q a ++ new, ?_, h1.trans h2, ?_, ?_, ?_⟩
    · simp only [registerAll]; rw [e, List.append_assoc]
    · intro b hb
      rcases List.mem_cons.mp hb with rfl | hb
      · exact List.mem_append_left _ (norm_mem_expand ..)
      · exact List.mem_append_right _ (h3.own b hb)
    · intro a' b hb hw hne
      rcases List.mem_cons.mp hb with rfl | hb
      · exact List.mem_append_left _ (mem_expand_of_within hw (mem_keysOf_of_get hne))
      · refine List.mem_append_right _ (h3.covers a' b hb hw ?_)
        obtain ⟨x, hx⟩ := List.exists_mem_of_ne_nil _ hne
        exact List.ne_nil_of_mem (h1.mono hx)
    · intro k hk
      rcases List.mem_append.mp hk with hk | hk
      · exact ⟨a, by simp, within_of_mem_expand hk⟩
      · obtain ⟨b, hb, h⟩ := h3.within k hk
        exact ⟨b, by simp [hb], h⟩

/-- areas that have no key in common -/
def Apart (as : List Area) : Prop := as.Pairwise fun a b => a.obj ≠ none ∧ b.obj ≠ none ∧ a.obj ≠ b.obj

theorem registerAll_nodup (isW : Nat → Bool) (id : Nat) (as : List Area) : ∀ (q : Queues) (p : List Nat) (ks : List Area),
    QOK q → Apart as → ks.Nodup → (∀ k ∈ ks, ∀ a ∈ as, a.obj ≠ none ∧ k.obj ≠ a.obj) →
    (registerAll isW id (q, p, ks) as).2.2.Nodup := by
  induction as with
  | nil => intro q p ks _ _ h _; exact h
  | cons a as ih =>
    intro q p ks hq ha hk hd
    simp only [Apart, List.pairwise_cons] at ha
    simp only [registerAll]
    refine ih _ _ _ ((reg_foldl isW id (expand q a) (q, p)).ok hq) ha.2 ?_ ?_
    · rw [List.nodup_append]
      refine ⟨hk, expand_nodup hq a, ?_⟩
      intro x hx y hy hxy
      subst hxy
      obtain ⟨h1, h2⟩ := hd x hx a (by simp)
      have := within_of_mem_expand hy
      simp only [Within] at this
      grind
    · intro k hk' b hb
      rcases List.mem_append.mp hk' with h | h
      · exact hd k h b (by simp [hb])
      · obtain ⟨h1, h2, h3⟩ := ha.1 b hb
        have := within_of_mem_expand h
        simp only [Within] at this
        grind

/-! ## Deregistration -/

theorem unregister_counts {q q' : Queues} {k : Area} {id : Nat} (h : unregister q k id = some q') :
    (QOK q → QOK q') ∧ (∀ i, Sorted q i → Sorted q' i) ∧
    (∀ k' i, (get q' k').count i = (get q k').count i - if i = id ∧ k' = k then 1 else 0) := by
  simp only [unregister] at h
  split at h
  · injection h with h
    subst h
    have hg : ∀ k', get (if (get q k).erase id = [] then del q k else put q k ((get q k).erase id)) k' =
        if k = k' then (get q k).erase id else get q k' := by
      intro k'
      split
      · rw [get_del]; grind
      · rw [get_put]
    refine ⟨fun hq => ?_, fun i hs k' => ?_, fun k' i => ?_⟩
    · split
      · exact hq.del k
      · exact hq.put k (by assumption)
    · rw [hg]
      split
      · exact ⟨(hs k).1.sublist List.erase_sublist, fun x hx => (hs k).2 x (List.mem_of_mem_erase hx)⟩
      · exact hs k'
    · rw [hg]
      split
      · rename_i hk
        subst hk
        rw [List.count_erase]
        grind
      · grind
  · simp at h

theorem unregisterAll_counts (id : Nat) (ks : List Area) : ∀ (q : Queues),
    (QOK q → QOK (unregisterAll id q ks).1) ∧ (∀ i, Sorted q i → Sorted (unregisterAll id q ks).1 i) ∧
    (∀ k i, i ≠ id → (get (unregisterAll id q ks).1 k).count i = (get q k).count i) := by
  induction ks with
  | nil => intro q; simp [unregisterAll]
  | cons k ks ih =>
    intro q
    simp only [unregisterAll]
    cases h : unregister q k id with
    | none => simp
    | some q' =>
      obtain ⟨h1, h2, h3⟩ := unregister_counts h
      obtain ⟨i1, i2, i3⟩ := ih q'
      refine ⟨fun hq => i1 (h1 hq), fun i hs => i2 i (h2 i hs), fun k' i hi => ?_⟩
      simp only []
      rw [i3 k' i hi, h3]
      simp [hi]

theorem unregisterAll_own (id : Nat) (ks : List Area) : ∀ (q : Queues), (∀ k, (get q k).count id = ks.count k) →
    (unregisterAll id q ks).2 = true ∧ ∀ k, id ∉ get (unregisterAll id q ks).1 k := by
  induction ks with
  | nil =>
    intro q h
    refine ⟨rfl, fun k hk => ?_⟩
    have := h k
    have h1 : 0 < (get q k).count id := List.count_pos_iff.mpr hk
    simp at this; omega
  | cons k ks ih =>
    intro q h
    have hm : id ∈ get q k := by
      apply List.count_pos_iff.mp
      rw [h]; simp
    simp only [unregisterAll]
    cases h' : unregister q k id with
    | none => simp [unregister, hm] at h'
    | some q' =>
      obtain ⟨-, -, h3⟩ := unregister_counts h'
      refine ih q' (fun k' => ?_)
      rw [h3, h, List.count_cons]
      by_cases hk : k' = k
      · simp [hk]
      · have : ¬ k = k' := fun h => hk h.symm
        simp [hk, this]

/-! ## Executions -/

theorem run_append (s : St) (A B : List Label) : run s (A ++ B) = (run s A).bind (run · B) := by
  induction A generalizing s with
  | nil => rfl
  | cons l A ih =>
    simp only [List.cons_append, run]
    cases step s l with
    | none => rfl
    | some s' => exact ih s'

theorem calls_append (A B : List Label) : calls (A ++ B) = calls A ++ calls B := by
  induction A with
  | nil => rfl
  | cons l A ih => cases l <;> simp [calls, ih]

theorem mem_areas (c : Call) (a : Area) : a ∈ c.areas ↔ Touches c a := by
  obtain ⟨w, o, f, cs, v⟩ := c
  simp only [Call.areas, Touches, List.mem_cons, List.mem_append]
  have h1 : a ∈ (if o = none then [] else cs.map fun o => (⟨some o, none⟩ : Area)) ↔ o ≠ none ∧ ∃ x ∈ cs, a = ⟨some x, none⟩ := by
    split
    · simp [*]
    · simp only [List.mem_map]
      constructor
      · rintro ⟨x, hx, rfl⟩; exact ⟨by assumption, x, hx, rfl⟩
      · rintro ⟨-, x, hx, rfl⟩; exact ⟨x, hx, rfl⟩
  have h2 : a ∈ (if v = none ∨ v = o then [] else [(⟨v, none⟩ : Area)]) ↔ v ≠ none ∧ v ≠ o ∧ a = ⟨v, none⟩ := by
    split
    · simp; grind
    · simp; grind
  rw [h1, h2]

theorem apart_of_plain {c : Call} (h : Plain c) : Apart c.areas := by
  obtain ⟨w, o, f, cs, v⟩ := c
  obtain ⟨h1, h2, h3⟩ := h
  simp only at h1 h2 h3
  simp only [Apart, Call.areas]
  by_cases ho : o = none
  · simp [ho, h1 ho]
  · rw [List.pairwise_cons]
    have hc : ∀ a ∈ ((if o = none then [] else cs.map fun o => (⟨some o, none⟩ : Area)) ++
        if v = none ∨ v = o then [] else [(⟨v, none⟩ : Area)]), a.obj ≠ none ∧ o ≠ a.obj := by
      intro a ha
      simp only [ho, ↓reduceIte] at ha
      rcases List.mem_append.mp ha with ha | ha
      · obtain ⟨x, hx, rfl⟩ := List.mem_map.mp ha
        exact ⟨by simp, fun h => (h3 x hx).1 h.symm⟩
      · split at ha
        · simp at ha
        · simp at ha; subst ha; grind
    refine ⟨fun a ha => ⟨ho, hc a ha⟩, ?_⟩
    rw [List.pairwise_append]
    simp only [ho, ↓reduceIte]
    refine ⟨?_, ?_, ?_⟩
    · rw [List.pairwise_map]
      exact h2.imp (fun hab => ⟨by simp, by simp, by simpa using hab⟩)
    · split <;> simp
    · intro a ha b hb
      obtain ⟨x, hx, rfl⟩ := List.mem_map.mp ha
      split at hb
      · simp at hb
      · simp at hb; subst hb
        exact ⟨by simp, by grind, (h3 x hx).2⟩

/-- no key has the operation -/
def Gone (s : St) (x : Nat) : Prop := ∀ k, x ∉ get s.queues k

/-- the goroutine has started `fn` -/
def Started : Phase → Prop
  | .running => True
  | .done => True
  | .failed => True
  | _ => False

instance (p : Phase) : Decidable (Started p) := by cases p <;> simp only [Started] <;> infer_instance

/-- the invariant of executions -/
structure Inv (ls : List Label) (s : St) : Prop where
  len : s.ops.length = (calls ls).length
  write : ∀ (i : Nat) (op : Op) (c : Call), s.ops[i]? = some op → (calls ls)[i]? = some c → op.write = c.write
  qok : QOK s.queues
  sorted : Sorted s.queues s.ops.length
  fresh : ∀ i : Nat, s.ops.length ≤ i → Gone s i
  reg : ∀ (i : Nat) (op : Op), s.ops[i]? = some op →
    (∀ k, (get s.queues k).count i = op.keys.count k) ∨ (Gone s i ∧ (op.phase = .done ∨ op.phase = .failed))
  done : ∀ (i : Nat) (op : Op), s.ops[i]? = some op → op.phase = .done → Gone s i
  failed : NoPanic ls → ∀ (i : Nat) (op : Op), s.ops[i]? = some op → op.phase = .failed → Gone s i
  own : ∀ (i : Nat) (op : Op) (c : Call), s.ops[i]? = some op → (calls ls)[i]? = some c → ∀ a, Touches c a → norm a ∈ op.keys
  within : ∀ (i : Nat) (op : Op) (c : Call), s.ops[i]? = some op → (calls ls)[i]? = some c → ∀ k ∈ op.keys, ∃ a, Touches c a ∧ Within k a
  covers : ∀ (x y : Nat) (ox oy : Op) (cx cy : Call), x < y → s.ops[x]? = some ox → s.ops[y]? = some oy → (calls ls)[x]? = some cx →
    (calls ls)[y]? = some cy → Covered cx cy → Gone s x ∨ ∃ k, k ∈ ox.keys ∧ k ∈ oy.keys
  dep : ∀ (x y : Nat) (ox oy : Op) (k : Area), x < y → s.ops[x]? = some ox → s.ops[y]? = some oy →
    ox.write = true ∨ oy.write = true → k ∈ ox.keys → k ∈ oy.keys → Gone s x ∨ ∃ (p : Nat) (op : Op), s.ops[p]? = some op ∧ p ∈ oy.previous ∧ x ≤ p ∧ p ≤ y ∧ k ∈ op.keys
  started : ∀ (y : Nat) (oy : Op), s.ops[y]? = some oy → Started oy.phase → oy.cancelled = false →
    ∀ p ∈ oy.previous, p ≠ y ∧ phase s p = some .done
  cancelled : NoTimeout ls → ∀ (y : Nat) (oy : Op), s.ops[y]? = some oy → oy.cancelled = false
  prev : (∀ c ∈ calls ls, Plain c) → ∀ (y : Nat) (oy : Op) (p : Nat), s.ops[y]? = some oy → p ∈ oy.previous →
    p < y ∧ ∃ op : Op, s.ops[p]? = some op ∧ ∃ k, k ∈ op.keys ∧ k ∈ oy.keys
  starts : ∀ (i : Nat) (op : Op), s.ops[i]? = some op → ls.count (.start i) = if Started op.phase then 1 else 0
  refused : ∀ i : Nat, Label.refuse i ∈ ls → phase s i = some .refused
  starts' : ∀ i : Nat, s.ops.length ≤ i → Label.start i ∉ ls
  ends' : ∀ i : Nat, s.ops.length ≤ i → ¬ Finished i ls
  ends : ∀ (i : Nat) (op : Op), s.ops[i]? = some op → (Finished i ls ↔ (op.phase = .done ∨ op.phase = .failed))

theorem inv_init : Inv [] init := by
  refine ⟨rfl, ?_, ⟨by simp [keysOf, init], by simp [init]⟩, ?_, ?_, ?_, ?_, ?_, ?_, ?_, ?_, ?_, ?_, ?_, ?_, ?_, ?_, ?_, ?_, ?_⟩ <;>
    simp [init, Sorted, Gone, get, Finished]

/-- change of one operation -/
structure Update (ls : List Label) (s : St) (l : Label) (id : Nat) (op op' : Op) (q' : Queues) : Prop where
  old : s.ops[id]? = some op
  lab : calls [l] = []
  write : op'.write = op.write
  keys : op'.keys = op.keys
  previous : op'.previous = op.previous
  qok : QOK q'
  sorted : Sorted q' s.ops.length
  counts : ∀ k i, i ≠ id → (get q' k).count i = (get s.queues k).count i
  reg : (∀ k, (get q' k).count id = op.keys.count k) ∨ ((∀ k, id ∉ get q' k) ∧ (op'.phase = .done ∨ op'.phase = .failed))
  gone : Gone s id → ∀ k, id ∉ get q' k
  done : op'.phase = .done → ∀ k, id ∉ get q' k
  failed : NoPanic (ls ++ [l]) → op'.phase = .failed → ∀ k, id ∉ get q' k
  started : Started op'.phase → op'.cancelled = false → ∀ p ∈ op.previous, p ≠ id ∧ phase s p = some .done
  cancelled : NoTimeout (ls ++ [l]) → op'.cancelled = false
  stays : op.phase = .done → op'.phase = .done
  starts : [l].count (.start id) + (if Started op.phase then 1 else 0) = if Started op'.phase then 1 else 0
  refused : l = .refuse id ∨ op.phase = .refused → op'.phase = .refused
  refused' : ∀ i, i ≠ id → l ≠ .refuse i
  starts' : ∀ i, i ≠ id → l ≠ .start i
  ends : ((∃ r, l = .finish id r) ∨ op.phase = .done ∨ op.phase = .failed) ↔ (op'.phase = .done ∨ op'.phase = .failed)
  ends' : ∀ i r, i ≠ id → l ≠ .finish i r

theorem inv_update {ls s l id op op' q'} (h : Inv ls s) (u : Update ls s l id op op' q') : Inv (ls ++ [l]) ⟨q', s.ops.set id op'⟩ := by
  have hid : id < s.ops.length := (List.getElem?_eq_some_iff.mp u.old).1
  have hcalls : calls (ls ++ [l]) = calls ls := by rw [calls_append, u.lab, List.append_nil]
  have hmem : ∀ k i, i ≠ id → (i ∈ get q' k ↔ i ∈ get s.queues k) := by
    intro k i hi
    rw [← List.count_pos_iff, ← List.count_pos_iff, u.counts k i hi]
  have hgone : ∀ i, Gone s i → Gone ⟨q', s.ops.set id op'⟩ i := by
    intro i hi k
    by_cases h : i = id
    · subst h; exact u.gone hi k
    · exact fun hk => hi k ((hmem k i h).1 hk)
  have hget : ∀ i o', (s.ops.set id op')[i]? = some o' → ∃ o, s.ops[i]? = some o ∧ o'.write = o.write ∧ o'.keys = o.keys ∧
      o'.previous = o.previous ∧ (i = id → o' = op' ∧ o = op) ∧ (i ≠ id → o' = o) := by
    intro i o' hi
    rw [List.getElem?_set] at hi
    split at hi
    · rename_i he
      subst he
      try rw [if_pos hid] at hi
      injection hi with hi
      subst hi
      exact ⟨op, u.old, u.write, u.keys, u.previous, fun _ => ⟨rfl, rfl⟩, fun h => absurd rfl h⟩
    · exact ⟨o', hi, rfl, rfl, rfl, fun h => by omega, fun _ => rfl⟩
  have hfwd : ∀ (i : Nat) (o : Op), s.ops[i]? = some o → ∃ o' : Op, (s.ops.set id op')[i]? = some o' ∧ o'.keys = o.keys := by
    intro i o hi
    by_cases he : i = id
    · subst he
      have : o = op := by rw [u.old] at hi; injection hi with hi; exact hi.symm
      subst this
      exact ⟨op', by simp [List.getElem?_set, hid], u.keys⟩
    · exact ⟨o, by rw [List.getElem?_set]; simp [Ne.symm he, hi], rfl⟩
  have hphase : ∀ i, phase s i = some .done → phase ⟨q', s.ops.set id op'⟩ i = some .done := by
    intro i hi
    simp only [phase] at hi ⊢
    rw [List.getElem?_set]
    by_cases he : id = i
    · subst he
      simp only [u.old, Option.map_some, Option.some.injEq] at hi
      simp [hid, u.stays hi]
    · simp only [he, ↓reduceIte]; exact hi
  refine ⟨by simp [hcalls, h.len], ?_, u.qok, by simpa using u.sorted, ?_, ?_, ?_, ?_, ?_, ?_, ?_, ?_, ?_, ?_, ?_, ?_, ?_, ?_, ?_, ?_⟩
  · intro i o' c hi hc
    obtain ⟨o, h1, h2, -⟩ := hget i o' hi
    rw [h2]; exact h.write i o c h1 (by rwa [hcalls] at hc)
  · intro i hi k hk
    simp only [List.length_set] at hi
    exact h.fresh i hi k ((hmem k i (by omega)).1 hk)
  · intro i o' hi
    obtain ⟨o, h1, -, h3, -, h5, h6⟩ := hget i o' hi
    by_cases he : i = id
    · obtain ⟨rfl, rfl⟩ := h5 he
      subst he
      rw [h3]
      exact u.reg
    · have := h6 he
      subst this
      rcases h.reg i o' h1 with hr | ⟨hr, hr'⟩
      · left; intro k; show (get q' k).count i = _; rw [u.counts k i he, hr]
      · exact Or.inr ⟨hgone i hr, hr'⟩
  · intro i o' hi hd
    obtain ⟨o, h1, -, h3, -, h5, h6⟩ := hget i o' hi
    by_cases he : i = id
    · obtain ⟨rfl, rfl⟩ := h5 he
      subst he
      exact u.done hd
    · have := h6 he
      subst this
      exact hgone i (h.done i o' h1 hd)
  · intro hn i o' hi hd
    obtain ⟨o, h1, -, h3, -, h5, h6⟩ := hget i o' hi
    by_cases he : i = id
    · obtain ⟨rfl, rfl⟩ := h5 he
      subst he
      exact u.failed hn hd
    · have := h6 he
      subst this
      exact hgone i (h.failed (fun j hj => hn j (by simp [hj])) i o' h1 hd)
  · intro i o' c hi hc a ha
    obtain ⟨o, h1, -, h3, -⟩ := hget i o' hi
    rw [h3]; exact h.own i o c h1 (by rwa [hcalls] at hc) a ha
  · intro i o' c hi hc k hk
    obtain ⟨o, h1, -, h3, -⟩ := hget i o' hi
    rw [h3] at hk; exact h.within i o c h1 (by rwa [hcalls] at hc) k hk
  · intro x y ox' oy' cx cy hxy hx hy hcx hcy hcov
    obtain ⟨ox, x1, -, x3, -⟩ := hget x ox' hx
    obtain ⟨oy, y1, -, y3, -⟩ := hget y oy' hy
    rw [hcalls] at hcx hcy
    rw [x3, y3]
    exact (h.covers x y ox oy cx cy hxy x1 y1 hcx hcy hcov).imp (hgone x) (fun h => h)
  · intro x y ox' oy' k hxy hx hy hw hkx hky
    obtain ⟨ox, x1, x2, x3, -⟩ := hget x ox' hx
    obtain ⟨oy, y1, y2, y3, y4, -⟩ := hget y oy' hy
    rcases h.dep x y ox oy k hxy x1 y1 (by rw [← x2, ← y2]; exact hw) (by rwa [← x3]) (by rwa [← y3]) with h | ⟨p, op1, p1, p2, p3, p4, p5⟩
    · exact Or.inl (hgone x h)
    · obtain ⟨op2, p6, p7⟩ := hfwd p op1 p1
      exact Or.inr ⟨p, op2, p6, by rwa [y4], p3, p4, by rwa [p7]⟩
  · intro y oy' hy hst hcan p hp
    obtain ⟨oy, y1, -, y3, y4, y5, y6⟩ := hget y oy' hy
    rw [y4] at hp
    by_cases he : y = id
    · obtain ⟨rfl, rfl⟩ := y5 he
      subst he
      obtain ⟨h1, h2⟩ := u.started hst hcan p hp
      exact ⟨h1, hphase p h2⟩
    · have := y6 he
      subst this
      obtain ⟨h1, h2⟩ := h.started y oy' y1 hst hcan p hp
      exact ⟨h1, hphase p h2⟩
  · intro hn y oy' hy
    obtain ⟨oy, y1, -, y3, y4, y5, y6⟩ := hget y oy' hy
    by_cases he : y = id
    · obtain ⟨rfl, rfl⟩ := y5 he
      exact u.cancelled hn
    · have := y6 he
      subst this
      exact h.cancelled (fun j hj => hn j (by simp [hj])) y oy' y1
  · intro hpl y oy' p hy hp
    obtain ⟨oy, y1, -, y3, y4, -⟩ := hget y oy' hy
    rw [hcalls] at hpl
    obtain ⟨h1, op1, p1, k, k1, k2⟩ := h.prev hpl y oy p y1 (by rwa [← y4])
    obtain ⟨op2, p6, p7⟩ := hfwd p op1 p1
    exact ⟨h1, op2, p6, k, by rwa [p7], by rwa [y3]⟩
  · intro i o' hi
    obtain ⟨o, h1, -, h3, -, h5, h6⟩ := hget i o' hi
    rw [List.count_append, h.starts i o h1]
    by_cases he : i = id
    · obtain ⟨rfl, rfl⟩ := h5 he
      subst he
      rw [← u.starts]; omega
    · have := h6 he
      subst this
      have : [l].count (Label.start i) = 0 := List.count_eq_zero_of_not_mem (by simp; exact fun h => u.starts' i he h.symm)
      omega
  · intro i hm
    simp only [phase]
    by_cases he : i = id
    · subst he
      simp only [List.getElem?_set, ↓reduceIte, hid, Option.map_some, Option.some.injEq]
      apply u.refused
      rcases List.mem_append.mp hm with hm | hm
      · right
        have := h.refused i hm
        simpa [phase, u.old] using this
      · left; simp at hm; exact hm.symm
    · rw [List.getElem?_set]
      simp only [Ne.symm he, ↓reduceIte]
      rcases List.mem_append.mp hm with hm | hm
      · exact h.refused i hm
      · simp at hm; exact absurd hm.symm (u.refused' i he)
  · intro i hi hm
    simp only [List.length_set] at hi
    rcases List.mem_append.mp hm with hm | hm
    · exact h.starts' i hi hm
    · simp at hm; exact u.starts' i (by omega) hm.symm
  · intro i hi ⟨r, hm⟩
    simp only [List.length_set] at hi
    rcases List.mem_append.mp hm with hm | hm
    · exact h.ends' i hi ⟨r, hm⟩
    · simp at hm; exact u.ends' i r (by omega) hm.symm
  · intro i o' hi
    obtain ⟨o, h1, -, h3, -, h5, h6⟩ := hget i o' hi
    have hf : Finished i (ls ++ [l]) ↔ Finished i ls ∨ ∃ r, l = .finish i r := by
      simp only [Finished, List.mem_append, List.mem_singleton]
      grind
    rw [hf, h.ends i o h1]
    by_cases he : i = id
    · obtain ⟨rfl, rfl⟩ := h5 he
      subst he
      rw [← u.ends]; grind
    · have := h6 he
      subst this
      constructor
      · rintro (h | ⟨r, hr⟩)
        · exact h
        · exact absurd hr (u.ends' i r he)
      · exact Or.inl

theorem modify_set {l : List Op} {id : Nat} {op : Op} (h : l[id]? = some op) (f : Op → Op) : l.modify id f = l.set id (f op) := by
  apply List.ext_getElem?
  intro i
  rw [List.getElem?_modify, List.getElem?_set]
  obtain ⟨h1, h2⟩ := List.getElem?_eq_some_iff.mp h
  by_cases he : id = i
  · subst he; simp [h1, h2]
  · simp [he]

theorem inv_call {ls s} (h : Inv ls s) (c : Call) : Inv (ls ++ [.call c]) (call s c) := by
  have hcalls : calls (ls ++ [.call c]) = calls ls ++ [c] := by rw [calls_append]; rfl
  obtain ⟨new, e, hr, hk⟩ := reg_registerAll (fun i => if i = s.ops.length then c.write else writes s.ops i) s.ops.length c.areas
    s.queues [] []
  have hnd := registerAll_nodup (fun i => if i = s.ops.length then c.write else writes s.ops i) s.ops.length c.areas
    s.queues [] [] h.qok
  simp only [call]
  generalize registerAll (fun i => if i = s.ops.length then c.write else writes s.ops i) s.ops.length (s.queues, [], []) c.areas = r at *
  obtain ⟨q', p', ks⟩ := r
  simp only [List.nil_append] at e hr hnd ⊢
  subst e
  have hlt : ∀ i op, s.ops[i]? = some op → i < s.ops.length := fun i op hi => (List.getElem?_eq_some_iff.mp hi).1
  have hmem : ∀ k i, i ≠ s.ops.length → (i ∈ get q' k ↔ i ∈ get s.queues k) := by
    intro k i hi
    rw [← List.count_pos_iff, ← List.count_pos_iff, hr.counts k i]
    simp [hi]
  have hgone : ∀ i ops, i < s.ops.length → Gone s i → Gone ⟨q', ops⟩ i := by
    intro i ops hi hg k hk
    exact hg k ((hmem k i (by omega)).1 hk)
  have hget : ∀ (i : Nat) (o' : Op), (s.ops ++ [⟨c.write, ks, p', .waiting, false⟩])[i]? = some o' →
      (i < s.ops.length ∧ s.ops[i]? = some o') ∨ (i = s.ops.length ∧ o' = ⟨c.write, ks, p', .waiting, false⟩) := by
    intro i o' hi
    rw [List.getElem?_append] at hi
    split at hi
    · exact Or.inl ⟨by assumption, hi⟩
    · rw [List.getElem?_singleton] at hi
      split at hi
      · right; exact ⟨by omega, by injection hi with hi; exact hi.symm⟩
      · simp at hi
  have hcl : ∀ (i : Nat) (c' : Call), (calls ls ++ [c])[i]? = some c' → i < s.ops.length → (calls ls)[i]? = some c' := by
    intro i c' hi hl
    rw [List.getElem?_append_left (by rw [← h.len]; exact hl)] at hi
    exact hi
  have hcn : ∀ (c' : Call), (calls ls ++ [c])[s.ops.length]? = some c' → c' = c := by
    intro c' hi
    rw [h.len, List.getElem?_append_right (Nat.le_refl _)] at hi
    simpa using hi.symm
  have hzero : ∀ k, (get s.queues k).count s.ops.length = 0 := fun k => List.count_eq_zero_of_not_mem (h.fresh _ (Nat.le_refl _) k)
  have hfwd : ∀ (i : Nat) (o : Op), s.ops[i]? = some o → (s.ops ++ [(⟨c.write, ks, p', .waiting, false⟩ : Op)])[i]? = some o := by
    intro i o hi
    rw [List.getElem?_append_left (hlt i o hi)]; exact hi
  have hsort : Sorted q' s.ops.length := hr.sorted h.sorted
  refine ⟨by simp [hcalls, h.len], ?_, hr.ok h.qok, ?_, ?_, ?_, ?_, ?_, ?_, ?_, ?_, ?_, ?_, ?_, ?_, ?_, ?_, ?_, ?_, ?_⟩
  · intro i o' c' hi hc
    rw [hcalls] at hc
    rcases hget i o' hi with ⟨h1, h2⟩ | ⟨rfl, rfl⟩
    · exact h.write i o' c' h2 (hcl i c' hc h1)
    · rw [hcn c' hc]
  · intro k
    exact ⟨(hsort k).1, fun x hx => Nat.le_trans ((hsort k).2 x hx) (by simp)⟩
  · intro i hi k hk'
    simp only [List.length_append, List.length_singleton] at hi
    exact h.fresh i (by omega) k ((hmem k i (by omega)).1 hk')
  · intro i o' hi
    rcases hget i o' hi with ⟨h1, h2⟩ | ⟨rfl, rfl⟩
    · rcases h.reg i o' h2 with hr' | ⟨hr', hr''⟩
      · left; intro k; show (get q' k).count i = _
        rw [hr.counts, ← hr' k]; simp; omega
      · exact Or.inr ⟨hgone i _ h1 hr', hr''⟩
    · left; intro k; show (get q' k).count s.ops.length = _
      rw [hr.counts, hzero]; simp
  · intro i o' hi hd
    rcases hget i o' hi with ⟨h1, h2⟩ | ⟨rfl, rfl⟩
    · exact hgone i _ h1 (h.done i o' h2 hd)
    · simp at hd
  · intro hn i o' hi hd
    rcases hget i o' hi with ⟨h1, h2⟩ | ⟨rfl, rfl⟩
    · exact hgone i _ h1 (h.failed (fun j hj => hn j (by simp [hj])) i o' h2 hd)
    · simp at hd
  · intro i o' c' hi hc a ha
    rw [hcalls] at hc
    rcases hget i o' hi with ⟨h1, h2⟩ | ⟨rfl, rfl⟩
    · exact h.own i o' c' h2 (hcl i c' hc h1) a ha
    · rw [hcn c' hc, ← mem_areas] at ha
      exact hk.own a ha
  · intro i o' c' hi hc k hk'
    rw [hcalls] at hc
    rcases hget i o' hi with ⟨h1, h2⟩ | ⟨rfl, rfl⟩
    · exact h.within i o' c' h2 (hcl i c' hc h1) k hk'
    · obtain ⟨a, ha, hw⟩ := hk.within k hk'
      exact ⟨a, by rw [hcn c' hc, ← mem_areas]; exact ha, hw⟩
  · intro x y ox oy cx cy hxy hx hy hcx hcy hcov
    rw [hcalls] at hcx hcy
    rcases hget x ox hx with ⟨x1, x2⟩ | ⟨rfl, rfl⟩
    · have hcx' := hcl x cx hcx x1
      rcases hget y oy hy with ⟨y1, y2⟩ | ⟨rfl, rfl⟩
      · exact (h.covers x y ox oy cx cy hxy x2 y2 hcx' (hcl y cy hcy y1) hcov).imp (hgone x _ x1) (fun h => h)
      · obtain ⟨a, b, ha, hb, hab⟩ := hcov
        rw [hcn cy hcy, ← mem_areas] at hb
        have hown := h.own x ox cx x2 hcx' a ha
        rcases h.reg x ox x2 with hr' | ⟨hr', -⟩
        · right
          refine ⟨norm a, hown, hk.covers a b hb hab ?_⟩
          have h1 : 0 < ox.keys.count (norm a) := List.count_pos_iff.mpr hown
          rw [← hr'] at h1
          exact List.ne_nil_of_mem (List.count_pos_iff.mp h1)
        · exact Or.inl (hgone x _ x1 hr')
    · rcases hget y oy hy with ⟨y1, y2⟩ | ⟨rfl, rfl⟩ <;> omega
  · intro x y ox oy k hxy hx hy hw hkx hky
    rcases hget x ox hx with ⟨x1, x2⟩ | ⟨rfl, rfl⟩
    · rcases hget y oy hy with ⟨y1, y2⟩ | ⟨rfl, rfl⟩
      · rcases h.dep x y ox oy k hxy x2 y2 hw hkx hky with h | ⟨p, op1, p1, p2⟩
        · exact Or.inl (hgone x _ x1 h)
        · exact Or.inr ⟨p, op1, hfwd p op1 p1, p2⟩
      · rcases h.reg x ox x2 with hr' | ⟨hr', -⟩
        · right
          have h1 : 0 < ox.keys.count k := List.count_pos_iff.mpr hkx
          rw [← hr'] at h1
          have hxm := List.count_pos_iff.mp h1
          have hisw : (if x = s.ops.length then c.write else writes s.ops x) = true ∨
              (if s.ops.length = s.ops.length then c.write else writes s.ops s.ops.length) = true := by
            have : x ≠ s.ops.length := by omega
            rcases hw with hw | hw
            · left; simp [this, writes, x2, hw]
            · right; simpa using hw
          obtain ⟨y, hy1, hy2, hy3⟩ := hr.dep h.sorted k hky x hxm hisw
          have hyle := (hsort k).2 y hy3
          by_cases hye : y = s.ops.length
          · exact ⟨y, _, by rw [hye]; exact hy, hy1, hy2, hyle, hky⟩
          · have hyl : y < s.ops.length := by omega
            obtain ⟨oy, hoy⟩ : ∃ oy, s.ops[y]? = some oy := ⟨_, List.getElem?_eq_getElem hyl⟩
            refine ⟨y, oy, hfwd y oy hoy, hy1, hy2, hyle, ?_⟩
            have hym := (hmem k y hye).1 hy3
            rcases h.reg y oy hoy with hr2 | ⟨hr2, -⟩
            · have : 0 < (get s.queues k).count y := List.count_pos_iff.mpr hym
              rw [hr2] at this
              exact List.count_pos_iff.mp this
            · exact absurd hym (hr2 k)
        · exact Or.inl (hgone x _ x1 hr')
    · rcases hget y oy hy with ⟨y1, y2⟩ | ⟨rfl, rfl⟩ <;> omega
  · intro y oy hy hst hcan p hp
    rcases hget y oy hy with ⟨y1, y2⟩ | ⟨rfl, rfl⟩
    · obtain ⟨h1, h2⟩ := h.started y oy y2 hst hcan p hp
      refine ⟨h1, ?_⟩
      simp only [phase] at h2 ⊢
      cases h3 : s.ops[p]? with
      | none => simp [h3] at h2
      | some o => rw [hfwd p o h3]; rw [h3] at h2; exact h2
    · simp [Started] at hst
  · intro hn y oy hy
    rcases hget y oy hy with ⟨y1, y2⟩ | ⟨rfl, rfl⟩
    · exact h.cancelled (fun j hj => hn j (by simp [hj])) y oy y2
    · rfl
  · intro hpl y oy p hy hp
    rw [hcalls] at hpl
    rcases hget y oy hy with ⟨y1, y2⟩ | ⟨rfl, rfl⟩
    · obtain ⟨h1, op1, p1, p2⟩ := h.prev (fun c hc => hpl c (by simp [hc])) y oy p y2 hp
      exact ⟨h1, op1, hfwd p op1 p1, p2⟩
    · have hap := apart_of_plain (hpl c (by simp))
      have hnd' := hnd hap (by simp) (by simp)
      rcases hr.src hnd' p hp with h1 | ⟨k, hkk, hpk⟩
      · simp at h1
      · have hpl : p < s.ops.length := by
          apply Classical.byContradiction
          intro hc
          exact h.fresh p (by omega) k hpk
        obtain ⟨op, hop⟩ : ∃ op, s.ops[p]? = some op := ⟨_, List.getElem?_eq_getElem hpl⟩
        refine ⟨hpl, op, hfwd p op hop, k, ?_, hkk⟩
        rcases h.reg p op hop with hr2 | ⟨hr2, -⟩
        · have : 0 < (get s.queues k).count p := List.count_pos_iff.mpr hpk
          rw [hr2] at this
          exact List.count_pos_iff.mp this
        · exact absurd hpk (hr2 k)
  · intro i o' hi
    have h0 : [Label.call c].count (Label.start i) = 0 := List.count_eq_zero_of_not_mem (by simp)
    rw [List.count_append, h0, Nat.add_zero]
    rcases hget i o' hi with ⟨h1, h2⟩ | ⟨rfl, rfl⟩
    · exact h.starts i o' h2
    · rw [List.count_eq_zero_of_not_mem (h.starts' _ (Nat.le_refl _))]; simp [Started]
  · intro i hm
    simp at hm
    have hp := h.refused i hm
    simp only [phase] at hp ⊢
    cases h3 : s.ops[i]? with
    | none => simp [h3] at hp
    | some o => rw [hfwd i o h3]; rw [h3] at hp; exact hp
  · intro i hi hm
    simp only [List.length_append, List.length_singleton] at hi
    simp at hm
    exact h.starts' i (by omega) hm
  · intro i hi ⟨r, hm⟩
    simp only [List.length_append, List.length_singleton] at hi
    simp at hm
    exact h.ends' i (by omega) ⟨r, hm⟩
  · intro i o' hi
    have hf : Finished i (ls ++ [.call c]) ↔ Finished i ls := by simp [Finished]
    rw [hf]
    rcases hget i o' hi with ⟨h1, h2⟩ | ⟨rfl, rfl⟩
    · exact h.ends i o' h2
    · constructor
      · intro hfin
        have := h.ends' _ (Nat.le_refl _)
        exact absurd hfin this
      · simp

theorem not_started_ne {ph : Phase} (h : ¬ Started ph) : ph ≠ .done ∧ ph ≠ .failed ∧ ph ≠ .running := by
  cases ph <;> simp [Started] at h ⊢

theorem inv_step {ls s s'} (h : Inv ls s) {l : Label} (hs : step s l = some s') : Inv (ls ++ [l]) s' := by
  cases l with
  | call c =>
    simp only [step, Option.some.injEq] at hs
    subst hs
    exact inv_call h c
  | start id =>
    simp only [step] at hs
    cases ho : s.ops[id]? with
    | none => simp [ho] at hs
    | some op =>
      simp only [ho] at hs
      split at hs
      · rename_i hc
        obtain ⟨hph, hrd⟩ := hc
        injection hs with hs
        subst hs
        simp only [setOp]
        rw [modify_set ho]
        have hreg : ∀ k, (get s.queues k).count id = op.keys.count k := by
          rcases h.reg id op ho with h1 | ⟨-, h1⟩
          · exact h1
          · simp [hph] at h1
        refine inv_update h ⟨ho, rfl, rfl, rfl, rfl, h.qok, h.sorted, fun _ _ _ => rfl, Or.inl hreg, fun h => h, by simp, by simp, ?_,
          ?_, by simp [hph], by simp [hph, Started], by simp [hph], by simp, by intro i hi; simp; omega, by simp [hph], by simp⟩
        · intro _ hcan p hp
          simp only at hcan
          simp only [ready, hcan, Bool.false_or, List.all_eq_true, decide_eq_true_eq] at hrd
          refine ⟨?_, hrd p hp⟩
          rintro rfl
          have := hrd p hp
          simp [phase, ho, hph] at this
        · intro hn
          exact h.cancelled (fun j hj => hn j (by simp [hj])) id op ho
      · simp at hs
  | refuse id =>
    simp only [step] at hs
    cases ho : s.ops[id]? with
    | none => simp [ho] at hs
    | some op =>
      simp only [ho] at hs
      split at hs
      · rename_i hc
        obtain ⟨hph, -⟩ := hc
        injection hs with hs
        subst hs
        simp only [setOp]
        rw [modify_set ho]
        have hreg : ∀ k, (get s.queues k).count id = op.keys.count k := by
          rcases h.reg id op ho with h1 | ⟨-, h1⟩
          · exact h1
          · simp [hph] at h1
        refine inv_update h ⟨ho, rfl, rfl, rfl, rfl, h.qok, h.sorted, fun _ _ _ => rfl, Or.inl hreg, fun h => h, by simp, by simp,
          by simp [Started], ?_, by simp [hph], by simp [hph, Started], by simp, by intro i hi; simp; omega, by simp, by simp [hph], by simp⟩
        intro hn
        exact h.cancelled (fun j hj => hn j (by simp [hj])) id op ho
      · simp at hs
  | timeout id =>
    simp only [step] at hs
    cases ho : s.ops[id]? with
    | none => simp [ho] at hs
    | some op =>
      simp only [ho, Option.some.injEq] at hs
      subst hs
      simp only [setOp]
      rw [modify_set ho]
      exact inv_update h ⟨ho, rfl, rfl, rfl, rfl, h.qok, h.sorted, fun _ _ _ => rfl, h.reg id op ho, fun h => h, h.done id op ho,
        fun hn => h.failed (fun j hj => hn j (by simp [hj])) id op ho, by simp,
        fun hn => absurd (List.mem_append_right _ (List.mem_singleton.mpr rfl)) (hn id), fun h => h, by simp, by simp, by simp, by simp, by simp, by simp⟩
  | finish id r =>
    simp only [step] at hs
    cases ho : s.ops[id]? with
    | none => simp [ho] at hs
    | some op =>
      simp only [ho] at hs
      split at hs
      · rename_i hph
        have hreg : ∀ k, (get s.queues k).count id = op.keys.count k := by
          rcases h.reg id op ho with h1 | ⟨-, h1⟩
          · exact h1
          · simp [hph] at h1
        have hcan : ∀ l, NoTimeout (ls ++ [l]) → op.cancelled = false :=
          fun l hn => h.cancelled (fun j hj => hn j (by simp [hj])) id op ho
        have hst : op.cancelled = false → ∀ p ∈ op.previous, p ≠ id ∧ phase s p = some .done :=
          fun hc => h.started id op ho (by simp [hph, Started]) hc
        split at hs
        · rename_i hr
          subst hr
          injection hs with hs
          subst hs
          simp only [setOp]
          rw [modify_set ho]
          exact inv_update h ⟨ho, rfl, rfl, rfl, rfl, h.qok, h.sorted, fun _ _ _ => rfl, Or.inl hreg, fun h => h, by simp,
            fun hn => absurd (List.mem_append_right _ (List.mem_singleton.mpr rfl)) (hn id), fun _ => hst, hcan _,
            by simp [hph], by simp [hph, Started], by simp [hph], by simp, by simp, by simp, by intro i r hi; simp; omega⟩
        · obtain ⟨u1, u2, u3⟩ := unregisterAll_counts id op.keys s.queues
          obtain ⟨u4, u5⟩ := unregisterAll_own id op.keys s.queues hreg
          injection hs with hs
          subst hs
          simp only [setOp]
          rw [modify_set ho]
          refine inv_update h ⟨ho, rfl, rfl, rfl, rfl, u1 h.qok, u2 _ h.sorted, u3, Or.inr ⟨u5, ?_⟩, fun _ => u5, fun _ => u5,
            fun _ _ => u5, fun _ => hst, hcan _, by simp [hph], ?_, by simp [hph], by simp, by simp, ?_, by intro i r hi; simp; omega⟩
          · simp only; split <;> simp
          · by_cases hh : (unregisterAll id s.queues op.keys).2 = false ∨ r = .error <;> simp [hh, hph, Started]
          · simp only; split <;> simp
      · simp at hs

theorem inv_run {ls s} (h : run init ls = some s) : Inv ls s := by
  have : ∀ (B A : List Label) (s0 : St), Inv A s0 → run s0 B = some s → Inv (A ++ B) s := by
    intro B
    induction B with
    | nil => intro A s0 hi hr; simp only [run, Option.some.injEq] at hr; subst hr; simpa using hi
    | cons l B ih =>
      intro A s0 hi hr
      simp only [run] at hr
      cases hst : step s0 l with
      | none => simp [hst] at hr
      | some s1 =>
        rw [hst] at hr
        have := ih (A ++ [l]) s1 (inv_step hi hst) hr
        simpa using this
  simpa using this ls [] init inv_init h

theorem run_split {ls A B : List Label} {l : Label} {s : St} (h : run init ls = some s) (e : ls = A ++ l :: B) :
    ∃ s1 s2, run init A = some s1 ∧ step s1 l = some s2 ∧ run init (A ++ [l]) = some s2 ∧ run s2 B = some s := by
  subst e
  rw [run_append] at h
  cases h1 : run init A with
  | none => simp [h1] at h
  | some s1 =>
    rw [h1] at h
    simp only [Option.bind_some, run] at h
    cases h2 : step s1 l with
    | none => simp [h2] at h
    | some s2 =>
      rw [h2] at h
      refine ⟨s1, s2, rfl, h2, ?_, h⟩
      rw [run_append, h1]
      simp [run, h2]

/-- an operation that has started comes after the earlier writes with a common key -/
theorem settled {ls s} (h : Inv ls s) (hn : NoTimeout ls) : ∀ (y x : Nat) (ox oy : Op) (k : Area), x < y → s.ops[x]? = some ox →
    s.ops[y]? = some oy → ox.write = true → k ∈ ox.keys → k ∈ oy.keys → Started oy.phase → ox.phase = .done ∨ ox.phase = .failed := by
  intro y
  induction y using Nat.strongRecOn with
  | ind y ih =>
    intro x ox oy k hxy hx hy hw hkx hky hst
    rcases h.dep x y ox oy k hxy hx hy (Or.inl hw) hkx hky with hg | ⟨p, op, p1, p2, p3, p4, p5⟩
    · rcases h.reg x ox hx with hr | ⟨-, hr⟩
      · have : 0 < ox.keys.count k := List.count_pos_iff.mpr hkx
        rw [← hr] at this
        exact absurd (List.count_pos_iff.mp this) (hg k)
      · exact hr
    · obtain ⟨h1, h2⟩ := h.started y oy hy hst (h.cancelled hn y oy hy) p p2
      simp only [phase, p1, Option.map_some, Option.some.injEq] at h2
      by_cases hpx : p = x
      · subst hpx
        rw [hx] at p1
        injection p1 with p1
        subst p1
        exact Or.inl h2
      · exact ih p (by omega) x ox op k (by omega) hx p1 hw hkx p5 (by simp [h2, Started])

/-- the same for any two operations if no other one with the key is called between them -/
theorem settled_next {ls s} (h : Inv ls s) (hn : NoTimeout ls) (y x : Nat) (ox oy : Op) (k : Area) (hxy : x < y)
    (hx : s.ops[x]? = some ox) (hy : s.ops[y]? = some oy) (hw : ox.write = true ∨ oy.write = true) (hkx : k ∈ ox.keys)
    (hky : k ∈ oy.keys) (hno : ∀ p op, x < p → p < y → s.ops[p]? = some op → k ∉ op.keys) (hst : Started oy.phase) :
    ox.phase = .done ∨ ox.phase = .failed := by
  rcases h.dep x y ox oy k hxy hx hy hw hkx hky with hg | ⟨p, op, p1, p2, p3, p4, p5⟩
  · rcases h.reg x ox hx with hr | ⟨-, hr⟩
    · have : 0 < ox.keys.count k := List.count_pos_iff.mpr hkx
      rw [← hr] at this
      exact absurd (List.count_pos_iff.mp this) (hg k)
    · exact hr
  · obtain ⟨h1, h2⟩ := h.started y oy hy hst (h.cancelled hn y oy hy) p p2
    simp only [phase, p1, Option.map_some, Option.some.injEq] at h2
    by_cases hpx : p = x
    · subst hpx
      rw [hx] at p1
      injection p1 with p1
      subst p1
      exact Or.inl h2
    · exact absurd p5 (hno p op (by omega) (by omega) p1)

theorem inOrder_of {ls s} (h : run init ls = some s) (x y : Nat) (cx cy : Call) (hxy : x < y) (hx : (calls ls)[x]? = some cx)
    (hy : (calls ls)[y]? = some cy)
    (hset : ∀ A s' ox oy, Inv A s' → A <+: ls → s'.ops[x]? = some ox → s'.ops[y]? = some oy → (calls A)[x]? = some cx →
      (calls A)[y]? = some cy → Started oy.phase → ox.phase = .done ∨ ox.phase = .failed) : InOrder ls x y := by
  intro A B e
  obtain ⟨s1, s2, hA, hst, hA1, hB⟩ := run_split h e
  have hi := inv_run hA1
  have hf := inv_run h
  -- `y` runs
  obtain ⟨oy1, ho1⟩ : ∃ oy1, s1.ops[y]? = some oy1 := by
    simp only [step] at hst
    cases ho : s1.ops[y]? with
    | none => simp [ho] at hst
    | some op => exact ⟨op, rfl⟩
  have hyl : y < s2.ops.length := by
    have h1 : y < s1.ops.length := (List.getElem?_eq_some_iff.mp ho1).1
    have := (inv_run hA).len
    have := hi.len
    rw [calls_append] at this
    simp only [calls, List.append_nil] at this
    omega
  obtain ⟨oy, hoy⟩ : ∃ oy, s2.ops[y]? = some oy := ⟨_, List.getElem?_eq_getElem hyl⟩
  obtain ⟨ox, hox⟩ : ∃ ox, s2.ops[x]? = some ox := ⟨_, List.getElem?_eq_getElem (by omega)⟩
  have hys : Started oy.phase := by
    have := hi.starts y oy hoy
    rw [List.count_append] at this
    simp only [List.count_singleton_self] at this
    apply Classical.byContradiction
    intro hc
    rw [if_neg hc] at this
    omega
  have hpre : ∀ i c, i ≤ y → (calls ls)[i]? = some c → (calls (A ++ [Label.start y]))[i]? = some c := by
    intro i c hiy hc
    have e2 : ls = (A ++ [Label.start y]) ++ B := by simpa using e
    rw [e2, calls_append, List.getElem?_append_left (by rw [← hi.len]; omega)] at hc
    exact hc
  have hph := hset (A ++ [.start y]) s2 ox oy hi ⟨B, by simpa using e.symm⟩ hox hoy (hpre x cx (by omega) hx) (hpre y cy (Nat.le_refl _) hy) hys
  have hfin := (hi.ends x ox hox).2 hph
  have hxstart : Label.start x ∈ A := by
    have h1 := hi.starts x ox hox
    have h2 : Started ox.phase := by rcases hph with h | h <;> simp [h, Started]
    rw [if_pos h2] at h1
    have h3 : Label.start x ∈ A ++ [Label.start y] := List.count_pos_iff.mp (by omega)
    rcases List.mem_append.mp h3 with h | h
    · exact h
    · simp at h; omega
  refine ⟨?_, fun _ => ?_⟩
  · intro hxB
    have hxl : x < s.ops.length := by rw [hf.len]; exact (List.getElem?_eq_some_iff.mp hx).1
    have h1 := hf.starts x _ (List.getElem?_eq_getElem hxl)
    subst e
    have h2 : 0 < A.count (Label.start x) := List.count_pos_iff.mpr hxstart
    have h3 : 0 < B.count (Label.start x) := List.count_pos_iff.mpr hxB
    rw [List.count_append, List.count_cons] at h1
    split at h1 <;> split at h1 <;> omega
  · obtain ⟨r, hr⟩ := hfin
    rcases List.mem_append.mp hr with h | h
    · exact ⟨r, h⟩
    · simp at h

/-! ## Progress -/

/-- how many steps an operation still has -/
def rest : Phase → Nat
  | .waiting => 2
  | .running => 1
  | _ => 0

/-- how many steps all operations still have, at most -/
def restAll (s : St) : Nat := (s.ops.map fun op => rest op.phase).sum

theorem sum_set_lt (l : List Op) (id : Nat) (op op' : Op) (h : l[id]? = some op) (hr : rest op'.phase < rest op.phase) :
    ((l.set id op').map fun op => rest op.phase).sum < (l.map fun op => rest op.phase).sum := by
  induction l generalizing id with
  | nil => simp at h
  | cons a l ih =>
    cases id with
    | zero => simp at h; subst h; simp; omega
    | succ id => simp at h; have := ih id h; simpa using this

theorem step_rest {s s' : St} {l : Label} (hl : Internal l) (h : step s l = some s') : restAll s' < restAll s := by
  cases l with
  | call c => simp [Internal] at hl
  | timeout c => simp [Internal] at hl
  | start id =>
    simp only [step] at h
    cases ho : s.ops[id]? with
    | none => simp [ho] at h
    | some op =>
      simp only [ho] at h
      split at h
      · rename_i hc
        injection h with h
        subst h
        simp only [setOp, restAll]
        rw [modify_set ho]
        exact sum_set_lt _ _ _ _ ho (by simp [hc.1, rest])
      · simp at h
  | refuse id =>
    simp only [step] at h
    cases ho : s.ops[id]? with
    | none => simp [ho] at h
    | some op =>
      simp only [ho] at h
      split at h
      · rename_i hc
        injection h with h
        subst h
        simp only [setOp, restAll]
        rw [modify_set ho]
        exact sum_set_lt _ _ _ _ ho (by simp [hc.1, rest])
      · simp at h
  | finish id r =>
    simp only [step] at h
    cases ho : s.ops[id]? with
    | none => simp [ho] at h
    | some op =>
      simp only [ho] at h
      split at h
      · rename_i hc
        split at h
        · injection h with h
          subst h
          simp only [setOp, restAll]
          rw [modify_set ho]
          exact sum_set_lt _ _ _ _ ho (by simp [hc, rest])
        · injection h with h
          subst h
          simp only [setOp, restAll]
          rw [modify_set ho]
          refine sum_set_lt _ _ _ _ ho ?_
          by_cases hh : (unregisterAll id s.queues op.keys).2 = false ∨ r = .error <;> simp [hh, hc, rest]
      · simp at h

theorem run_rest (B : List Label) : ∀ s s', (∀ l ∈ B, Internal l) → run s B = some s' → B.length + restAll s' ≤ restAll s := by
  induction B with
  | nil => intro s s' _ h; simp only [run, Option.some.injEq] at h; subst h; simp
  | cons l B ih =>
    intro s s' hB h
    simp only [run] at h
    cases hst : step s l with
    | none => simp [hst] at h
    | some s1 =>
      rw [hst] at h
      have h1 := ih s1 s' (fun l hl => hB l (by simp [hl])) h
      have h2 := step_rest (hB l (by simp)) hst
      simp only [List.length_cons]
      omega

theorem restAll_le (s : St) : restAll s ≤ 2 * s.ops.length := by
  simp only [restAll]
  induction s.ops with
  | nil => simp
  | cons a l ih =>
    have : rest a.phase ≤ 2 := by cases a.phase <;> simp [rest]
    simp only [List.map_cons, List.sum_cons, List.length_cons]
    omega

/-- the goroutine has come to its end -/
def Settled (ph : Phase) : Prop := ph = .done ∨ ph = .failed ∨ ph = .refused

theorem phase_cases (ph : Phase) : ph = .waiting ∨ ph = .running ∨ Settled ph := by cases ph <;> simp [Settled]

theorem progress {ls s} (h : Inv ls s) (hp : ∀ c ∈ calls ls, Plain c) : ∀ (i : Nat) (op : Op), s.ops[i]? = some op →
    ¬ Settled op.phase → ∃ l s', Internal l ∧ step s l = some s' := by
  intro i
  induction i using Nat.strongRecOn with
  | ind i ih =>
    intro op ho hns
    rcases phase_cases op.phase with hw | hr | hs
    · by_cases hsm : ∃ p ∈ op.previous, ∃ o, s.ops[p]? = some o ∧ ¬ Settled o.phase
      · obtain ⟨p, hp1, o, ho1, ho2⟩ := hsm
        exact ih p (h.prev hp i op p ho hp1).1 o ho1 ho2
      · by_cases hb : blocked s op = true
        · exact ⟨.refuse i, _, trivial, by simp only [step, ho, hw, hb, and_self, ↓reduceIte]; rfl⟩
        · have hrdy : ready s op = true := by
            simp only [ready, Bool.or_eq_true, List.all_eq_true, decide_eq_true_eq]
            right
            intro p hpp
            obtain ⟨-, o, ho1, -⟩ := h.prev hp i op p ho hpp
            simp only [blocked, List.any_eq_true, Bool.or_eq_true, decide_eq_true_eq, not_exists, not_and, not_or] at hb
            obtain ⟨hb1, hb2⟩ := hb p hpp
            have hset : Settled o.phase := Classical.byContradiction fun hc => hsm ⟨p, hpp, o, ho1, hc⟩
            simp only [phase, ho1, Option.map_some, Option.some.injEq] at hb1 hb2 ⊢
            rcases hset with h1 | h1 | h1
            · exact h1
            · exact absurd h1 hb1
            · exact absurd h1 hb2
          exact ⟨.start i, _, trivial, by simp only [step, ho, hw, hrdy, and_self, ↓reduceIte]; rfl⟩
    · exact ⟨.finish i .panic, _, trivial, by simp only [step, ho, hr, ↓reduceIte]; rfl⟩
    · exact absurd hs hns

theorem mem_pending {s : St} {o : Option Nat} {i : Nat} (hq : QOK s.queues) (h : i ∈ pending s o) : ∃ k, i ∈ get s.queues k := by
  simp only [pending, List.mem_flatMap, List.mem_filter] at h
  obtain ⟨e, ⟨he, -⟩, hi⟩ := h
  obtain ⟨k, l⟩ := e
  refine ⟨k, ?_⟩
  have : ∀ q : Queues, (keysOf q).Nodup → (k, l) ∈ q → get q k = l := by
    intro q
    induction q with
    | nil => simp
    | cons e q ih =>
      intro hn hm
      obtain ⟨k', l'⟩ := e
      simp only [keysOf, List.map_cons, List.nodup_cons] at hn
      simp only [get]
      rcases List.mem_cons.mp hm with h | h
      · simp at h; simp [h]
      · have : k' ≠ k := by
          rintro rfl
          exact hn.1 (List.mem_map.mpr ⟨_, h, rfl⟩)
        simp [this]
        exact ih hn.2 h
  rw [this _ hq.nodup he]
  exact hi

/-! ## Failures without others waiting -/

/-- no operation waits for one that failed -/
def Clean (s : St) : Prop := (∀ (y : Nat) (oy : Op), s.ops[y]? = some oy → oy.phase ≠ .refused ∧
  (oy.phase = .waiting → ∀ p ∈ oy.previous, phase s p ≠ some .failed ∧ phase s p ≠ some .refused))

theorem within_comparable {k a b : Area} (h1 : Within k a) (h2 : Within k b) : Within a b ∨ Within b a := by
  simp only [Within] at *
  grind

theorem clean_run {ls s} (h : run init ls = some s) (hp : ∀ c ∈ calls ls, Plain c) (hn : NoPanic ls) (hf : FailsAlone ls) : Clean s := by
  have key : ∀ (B A : List Label) (s0 : St), A ++ B = ls → run init A = some s0 → Clean s0 → run s0 B = some s → Clean s := by
    intro B
    induction B with
    | nil => intro A s0 _ _ hc hr; simp only [run, Option.some.injEq] at hr; subst hr; exact hc
    | cons l B ih =>
      intro A s0 he hA hc hr
      simp only [run] at hr
      cases hst : step s0 l with
      | none => simp [hst] at hr
      | some s1 =>
        rw [hst] at hr
        have hA1 : run init (A ++ [l]) = some s1 := by rw [run_append, hA]; simp [run, hst]
        refine ih (A ++ [l]) s1 (by simpa using he) hA1 ?_ hr
        have hi := inv_run hA
        have hpA : ∀ c ∈ calls A, Plain c := by
          intro c hcm; apply hp; rw [← he, calls_append]; simp [hcm]
        have hnA : NoPanic A := by intro j hj; apply hn j; rw [← he]; simp [hj]
        -- a change of one operation to a phase that is not failed or refused
        have harmless : ∀ (id : Nat) (op op' : Op) (q' : Queues), s0.ops[id]? = some op → op'.previous = op.previous →
            (op'.phase = .waiting → op.phase = .waiting) → op'.phase ≠ .refused → (op'.phase = .failed → op.phase = .failed) →
            Clean ⟨q', s0.ops.set id op'⟩ := by
          intro id op op' q' ho h1 h2 h3 h4 y oy hy
          have hph : ∀ p, (phase s0 p ≠ some .failed ∧ phase s0 p ≠ some .refused) →
              phase ⟨q', s0.ops.set id op'⟩ p ≠ some .failed ∧ phase ⟨q', s0.ops.set id op'⟩ p ≠ some .refused := by
            intro p hpp
            simp only [phase] at hpp ⊢
            rw [List.getElem?_set]
            split
            · rename_i hid
              subst hid
              split
              · simp only [ho, Option.map_some, ne_eq, Option.some.injEq] at hpp ⊢
                exact ⟨fun h => hpp.1 (h4 h), h3⟩
              · simp
            · exact hpp
          by_cases hid : id = y
          · subst hid
            have hlt := (List.getElem?_eq_some_iff.mp ho).1
            simp only [List.getElem?_set, ↓reduceIte, hlt, Option.some.injEq] at hy
            subst hy
            refine ⟨h3, fun hw p hpp => ?_⟩
            rw [h1] at hpp
            exact hph p ((hc id op ho).2 (h2 hw) p hpp)
          · simp only [List.getElem?_set, hid, ↓reduceIte] at hy
            exact ⟨(hc y oy hy).1, fun hw p hpp => hph p ((hc y oy hy).2 hw p hpp)⟩
        cases l with
        | call c =>
          have hi1 := inv_run hA1
          intro y oy hy
          simp only [step, Option.some.injEq] at hst
          subst hst
          simp only [call] at hy
          obtain ⟨new, e, hreg, hkeys⟩ := reg_registerAll (fun i => if i = s0.ops.length then c.write else writes s0.ops i)
            s0.ops.length c.areas s0.queues [] []
          have hnd := registerAll_nodup (fun i => if i = s0.ops.length then c.write else writes s0.ops i) s0.ops.length c.areas
            s0.queues [] [] hi.qok (apart_of_plain (hp c (by rw [← he, calls_append]; simp [calls]))) (by simp) (by simp)
          simp only [phase, call]
          generalize registerAll (fun i => if i = s0.ops.length then c.write else writes s0.ops i) s0.ops.length
            (s0.queues, [], []) c.areas = r at *
          obtain ⟨q', p', ks⟩ := r
          simp only [List.nil_append] at e hreg hnd hy ⊢
          subst e
          have hph : ∀ (p : Nat), p < s0.ops.length → (s0.ops ++ [(⟨c.write, ks, p', .waiting, false⟩ : Op)])[p]? = s0.ops[p]? :=
            fun p hpp => List.getElem?_append_left hpp
          rw [List.getElem?_append] at hy
          split at hy
          · refine ⟨(hc y oy hy).1, fun hw p hpp => ?_⟩
            have hpl := (hi.prev hpA y oy p hy hpp).1
            rw [hph p (by omega)]
            exact (hc y oy hy).2 hw p hpp
          · rw [List.getElem?_singleton] at hy
            split at hy
            · injection hy with hy
              subst hy
              refine ⟨by simp, fun _ p hpp => ?_⟩
              rcases hreg.src hnd p hpp with h1 | ⟨k, -, hk⟩
              · simp at h1
              · have hpl : p < s0.ops.length := by
                  apply Classical.byContradiction
                  intro hcc
                  exact hi.fresh p (by omega) k hk
                rw [hph p hpl]
                obtain ⟨op, hop⟩ : ∃ op, s0.ops[p]? = some op := ⟨_, List.getElem?_eq_getElem hpl⟩
                simp only [hop, Option.map_some, ne_eq, Option.some.injEq]
                exact ⟨fun hph => hi.failed hnA p op hop hph k hk, (hc p op hop).1⟩
            · simp at hy
        | timeout id =>
          simp only [step] at hst
          cases ho : s0.ops[id]? with
          | none => simp [ho] at hst
          | some op =>
            simp only [ho, Option.some.injEq] at hst
            subst hst
            simp only [setOp]
            rw [modify_set ho]
            exact harmless id op _ _ ho rfl (fun h => h) (hc id op ho).1 (fun h => h)
        | start id =>
          simp only [step] at hst
          cases ho : s0.ops[id]? with
          | none => simp [ho] at hst
          | some op =>
            simp only [ho] at hst
            split at hst
            · injection hst with hst
              subst hst
              simp only [setOp]
              rw [modify_set ho]
              exact harmless id op _ _ ho rfl (by simp) (by simp) (by simp)
            · simp at hst
        | refuse id =>
          simp only [step] at hst
          cases ho : s0.ops[id]? with
          | none => simp [ho] at hst
          | some op =>
            simp only [ho] at hst
            split at hst
            · rename_i hcc
              obtain ⟨hw, hb⟩ := hcc
              simp only [blocked, List.any_eq_true, Bool.or_eq_true, decide_eq_true_eq] at hb
              obtain ⟨p, hpp, hb⟩ := hb
              obtain ⟨h1, h2⟩ := (hc id op ho).2 hw p hpp
              rcases hb with h | h
              · exact absurd h h1
              · exact absurd h h2
            · simp at hst
        | finish id r =>
          simp only [step] at hst
          cases ho : s0.ops[id]? with
          | none => simp [ho] at hst
          | some op =>
            simp only [ho] at hst
            split at hst
            · rename_i hrun
              split at hst
              · rename_i hr'
                subst hr'
                exact absurd (by rw [← he]; simp) (hn id)
              · have hreg : ∀ k, (get s0.queues k).count id = op.keys.count k := by
                  rcases hi.reg id op ho with h1 | ⟨-, h1⟩
                  · exact h1
                  · simp [hrun] at h1
                obtain ⟨u4, u5⟩ := unregisterAll_own id op.keys s0.queues hreg
                injection hst with hst
                subst hst
                simp only [setOp]
                rw [modify_set ho]
                by_cases hre : r = .error
                · subst hre
                  simp only [or_true, ↓reduceIte]
                  intro y oy hy
                  -- nobody waits for it
                  have hno : ∀ (y : Nat) (oy : Op), s0.ops[y]? = some oy → id ∉ oy.previous := by
                    intro y oy hy hm
                    obtain ⟨hlt, op1, ho1, k, hk1, hk2⟩ := hi.prev hpA y oy id hy hm
                    rw [ho] at ho1
                    injection ho1 with ho1
                    subst ho1
                    have l1 : id < (calls A).length := by rw [← hi.len]; exact (List.getElem?_eq_some_iff.mp ho).1
                    have l2 : y < (calls A).length := by rw [← hi.len]; exact (List.getElem?_eq_some_iff.mp hy).1
                    obtain ⟨a, ha, hka⟩ := hi.within id op _ ho (List.getElem?_eq_getElem l1) k hk1
                    obtain ⟨b, hb, hkb⟩ := hi.within y oy _ hy (List.getElem?_eq_getElem l2) k hk2
                    refine hf A id B he.symm y _ _ hlt (List.getElem?_eq_getElem l1) (List.getElem?_eq_getElem l2) ?_
                    rcases within_comparable hka hkb with h | h
                    · exact Or.inl ⟨a, b, ha, hb, h⟩
                    · exact Or.inr ⟨b, a, hb, ha, h⟩
                  have hph : ∀ p, p ≠ id → phase ⟨(unregisterAll id s0.queues op.keys).1,
                      s0.ops.set id { op with phase := .failed }⟩ p = phase s0 p := by
                    intro p hpp
                    simp only [phase]
                    rw [List.getElem?_set]
                    simp [Ne.symm hpp]
                  by_cases hid : id = y
                  · subst hid
                    have hlt := (List.getElem?_eq_some_iff.mp ho).1
                    simp only [List.getElem?_set, ↓reduceIte, hlt, Option.some.injEq] at hy
                    subst hy
                    exact ⟨by simp, by simp⟩
                  · simp only [List.getElem?_set, hid, ↓reduceIte] at hy
                    refine ⟨(hc y oy hy).1, fun hw p hpp => ?_⟩
                    rw [hph p (by rintro rfl; exact hno y oy hy hpp)]
                    exact (hc y oy hy).2 hw p hpp
                · simp only [u4, Bool.true_eq_false, hre, or_self, ↓reduceIte]
                  exact harmless id op _ _ ho rfl (by simp) (by simp) (by simp)
            · simp at hst
  exact key ls [] init (by simp) rfl (by intro y oy hy; simp [init] at hy) h

end Verif.SQLScheduler
