import Verif.Model.SQLMemory
import Verif.Spec.SQLMemory

namespace Verif.Proofs.SQLMemory

open Verif.SQLMemory Verif.Spec.SQLMemory

/-! ## Names -/

theorem percent_plain (n : Name) (h : '%' ∉ n) : percent n = n := by
  induction n with
  | nil => simp [percent]
  | cons c n ih =>
    simp only [List.mem_cons, not_or] at h
    have hc : c ≠ '%' := fun e => h.1 e.symm
    rw [percent.eq_2]
    · rw [ih h.2]
    · intro a b cs h1 _
      exact hc h1

theorem takeWhile_mid {p : Char → Bool} {a b : List Char} {c : Char} (ha : ∀ x ∈ a, p x = true) (hc : p c = false) :
    (a ++ c :: b).takeWhile p = a ∧ (a ++ c :: b).dropWhile p = c :: b := by
  induction a with
  | nil => simp [hc]
  | cons x a ih =>
    have h1 := ih (fun y hy => ha y (by simp [hy]))
    simp [ha x (by simp), h1.1, h1.2]

theorem memory_plain {n : Name} (h : Plain n) : memory n = .mem n := by
  obtain ⟨h1, h2, h3⟩ := h
  have hs : "?mode=memory&cache=shared".toList = '?' :: "mode=memory&cache=shared".toList := by decide
  have hm := takeWhile_mid (p := fun c => decide (c ≠ '?' ∧ c ≠ '#')) (a := n) (b := "mode=memory&cache=shared".toList) (c := '?')
    (by intro x hx; simp only [decide_eq_true_eq]; exact ⟨fun e => h1 (e ▸ hx), fun e => h2 (e ▸ hx)⟩) (by decide)
  simp only [memory, uriTarget, uriPath, uriQuery, hs, hm.1, hm.2, percent_plain n h3]
  rw [if_pos (by decide)]

theorem memory_memory : memory ":memory:".toList = .mem ":memory:".toList := memory_plain (by unfold Plain; decide)

/-! ## Isolation -/

/-- what a step looks at or changes -/
def foot : Instr → List Target
  | .create p _ => [.file p]
  | .openDB t => [t]
  | .closeDB t => [t]
  | .backup d s => [d, s]
  | .insert t _ => [t]
  | .read t => [t]
  | .remove p => [.file p]
  | .panic => []

/-- two systems have the same there -/
def Agree (F : Target → Prop) (s s' : System) : Prop :=
  (∀ p, F (.file p) → s.files p = s'.files p) ∧ (∀ n, F (.mem n) → s.mems n = s'.mems n)

theorem content_agree {F : Target → Prop} {s s' : System} (h : Agree F s s') {t : Target} (ht : F t) : content s t = content s' t := by
  cases t with
  | file p => simp [content, h.1 p ht]
  | mem n => simp [content, h.2 n ht]

theorem setFile_agree {F : Target → Prop} {s s' : System} (h : Agree F s s') (p : Name) (c : Option Content) :
    Agree F (setFile s p c) (setFile s' p c) := by
  refine ⟨fun q hq => ?_, h.2⟩
  simp only [setFile]
  split
  · rfl
  · exact h.1 q hq

theorem setMem_agree {F : Target → Prop} {s s' : System} (h : Agree F s s') (n : Name) (c : Option (Content × Nat)) :
    Agree F (setMem s n c) (setMem s' n c) := by
  refine ⟨h.1, fun q hq => ?_⟩
  simp only [setMem]
  split
  · rfl
  · exact h.2 q hq

theorem write_agree {F : Target → Prop} {s s' : System} (h : Agree F s s') {t : Target} (ht : F t) (c : Content) :
    Agree F (write s t c) (write s' t c) := by
  cases t with
  | file p => exact setFile_agree h _ _
  | mem n => simp only [write, h.2 n ht]; exact setMem_agree h _ _

theorem exec_agree {F : Target → Prop} {s s' : System} (h : Agree F s s') (a : Instr) (ha : ∀ t ∈ foot a, F t) (r : Result) :
    Agree F (exec s a) (exec s' a) ∧ note s r a = note s' r a := by
  cases a with
  | create p c => exact ⟨setFile_agree h _ _, rfl⟩
  | openDB t =>
    refine ⟨?_, rfl⟩
    have ht := ha t (by simp [foot])
    cases t with
    | file p => simp only [exec, h.1 p ht]; exact setFile_agree h _ _
    | mem n =>
      simp only [exec, h.2 n ht]
      split <;> exact setMem_agree h _ _
  | closeDB t =>
    refine ⟨?_, rfl⟩
    have ht := ha t (by simp [foot])
    cases t with
    | file p => exact h
    | mem n =>
      simp only [exec, h.2 n ht]
      split
      · exact setMem_agree h _ _
      · exact h
  | backup d t =>
    refine ⟨?_, rfl⟩
    simp only [exec, content_agree h (ha t (by simp [foot]))]
    exact write_agree h (ha d (by simp [foot])) _
  | insert t row =>
    refine ⟨?_, rfl⟩
    have ht := ha t (by simp [foot])
    simp only [exec, content_agree h ht]
    exact write_agree h ht _
  | read t => exact ⟨h, by simp only [note, content_agree h (ha t (by simp [foot]))]⟩
  | remove p => exact ⟨setFile_agree h _ _, rfl⟩
  | panic => exact ⟨h, rfl⟩

theorem setFile_frame {F : Target → Prop} (s : System) {p : Name} (hp : ¬ F (.file p)) (c : Option Content) :
    Agree F (setFile s p c) s := by
  refine ⟨fun q hq => ?_, fun _ _ => rfl⟩
  simp only [setFile]
  split
  · rename_i h; exact absurd (h ▸ hq) hp
  · rfl

theorem setMem_frame {F : Target → Prop} (s : System) {n : Name} (hp : ¬ F (.mem n)) (c : Option (Content × Nat)) :
    Agree F (setMem s n c) s := by
  refine ⟨fun _ _ => rfl, fun q hq => ?_⟩
  simp only [setMem]
  split
  · rename_i h; exact absurd (h ▸ hq) hp
  · rfl

theorem agree_refl (F : Target → Prop) (s : System) : Agree F s s := ⟨fun _ _ => rfl, fun _ _ => rfl⟩

theorem agree_trans {F : Target → Prop} {s s' s'' : System} (h : Agree F s s') (h' : Agree F s' s'') : Agree F s s'' :=
  ⟨fun p hp => (h.1 p hp).trans (h'.1 p hp), fun p hp => (h.2 p hp).trans (h'.2 p hp)⟩

theorem write_frame {F : Target → Prop} (s : System) {t : Target} (ht : ¬ F t) (c : Content) : Agree F (write s t c) s := by
  cases t with
  | file p => exact setFile_frame s ht _
  | mem n => exact setMem_frame s ht _

theorem exec_frame {F : Target → Prop} (s : System) (a : Instr) (ha : ∀ t ∈ foot a, ¬ F t) : Agree F (exec s a) s := by
  cases a with
  | create p c => exact setFile_frame s (ha _ (by simp [foot])) _
  | openDB t =>
    have ht := ha t (by simp [foot])
    cases t with
    | file p => exact setFile_frame s ht _
    | mem n => simp only [exec]; split <;> exact setMem_frame s ht _
  | closeDB t =>
    have ht := ha t (by simp [foot])
    cases t with
    | file p => exact agree_refl F s
    | mem n =>
      simp only [exec]
      split
      · exact setMem_frame s ht _
      · exact agree_refl F s
  | backup d t => exact write_frame s (ha d (by simp [foot])) _
  | insert t row => exact write_frame s (ha t (by simp [foot])) _
  | read t => exact agree_refl F s
  | remove p => exact setFile_frame s (ha _ (by simp [foot])) _
  | panic => exact agree_refl F s

/-- a user alone -/
def alone (x : System × Result) : List Instr → System × Result
  | [] => x
  | a :: as => alone (exec x.1 a, note x.1 x.2 a) as

theorem alone_append (x : System × Result) (a b : List Instr) : alone x (a ++ b) = alone (alone x a) b := by
  induction a generalizing x with
  | nil => rfl
  | cons c a ih => simp [alone, ih]

/-- what a user uses -/
def uses (u : User) (t : Target) : Prop := t ∈ (filesOf u).map Target.file ++ (memoryOf u).map Target.mem

/-- what the users have done so far, as if they were alone -/
structure Inv (s0 : System) (us : List User) (c : Conf) : Prop where
  len : c.users.length = us.length
  each : ∀ (i : Nat) u, us[i]? = some u → ∃ k, c.users[i]? = some ((program u).drop k, (alone (s0, .nothing) ((program u).take k)).2) ∧
    Agree (uses u) c.sys (alone (s0, .nothing) ((program u).take k)).1
  rest : Agree (fun t => ∀ u ∈ us, ¬ uses u t) c.sys s0

theorem inv_step {s0 : System} {us : List User} (hf : ∀ u ∈ us, ∀ a ∈ program u, ∀ t ∈ foot a, uses u t)
    (hd : ∀ (i j : Nat) u v, us[i]? = some u → us[j]? = some v → i ≠ j → ∀ t, uses u t → ¬ uses v t) {c : Conf} (h : Inv s0 us c)
    (i : Nat) : Inv s0 us (step c i) := by
  simp only [step]
  split
  · rename_i a as r hi
    have hlt : i < us.length := by
      rw [← h.len]
      exact (List.getElem?_eq_some_iff.1 hi).1
    have hu : us[i]? = some us[i] := List.getElem?_eq_getElem hlt
    obtain ⟨k, h1, h2⟩ := h.each i _ hu
    rw [hi] at h1
    simp only [Option.some.injEq, Prod.mk.injEq] at h1
    obtain ⟨h1, h3⟩ := h1
    have hka : (program us[i])[k]? = some a := by
      have := congrArg (·[0]?) h1
      simpa using this.symm
    have hmem : a ∈ program us[i] := List.mem_of_getElem? hka
    have hfa := hf _ (List.getElem_mem hlt) a hmem
    have htake : (program us[i]).take (k + 1) = (program us[i]).take k ++ [a] := by
      rw [List.take_add_one, hka]; rfl
    have hdrop : (program us[i]).drop (k + 1) = as := by
      rw [← List.drop_drop, ← h1]; rfl
    refine ⟨by simp [h.len], ?_, ?_⟩
    · intro j v hv
      by_cases hij : j = i
      · subst hij
        rw [hu] at hv
        simp only [Option.some.injEq] at hv
        subst hv
        refine ⟨k + 1, ?_, ?_⟩
        · rw [List.getElem?_set_self (by rw [h.len]; exact hlt), hdrop, htake, alone_append]
          simp only [alone]
          rw [h3, (exec_agree h2 a hfa _).2]
        · rw [htake, alone_append]
          exact (exec_agree h2 a hfa r).1
      · obtain ⟨k', h4, h5⟩ := h.each j v hv
        refine ⟨k', by rw [List.getElem?_set_ne (Ne.symm hij)]; exact h4, ?_⟩
        exact agree_trans (exec_frame _ a fun t ht => hd i j _ v hu hv (Ne.symm hij) t (hfa t ht)) h5
    · exact agree_trans (exec_frame _ a fun t ht hn => hn _ (List.getElem_mem hlt) (hfa t ht)) h.rest
  · exact h

theorem inv_run {s0 : System} {us : List User} (hf : ∀ u ∈ us, ∀ a ∈ program u, ∀ t ∈ foot a, uses u t)
    (hd : ∀ (i j : Nat) u v, us[i]? = some u → us[j]? = some v → i ≠ j → ∀ t, uses u t → ¬ uses v t) {c : Conf} (h : Inv s0 us c)
    (is : List Nat) : Inv s0 us (run c is) := by
  induction is generalizing c with
  | nil => exact h
  | cons i is ih => exact ih (inv_step hf hd h i)

/-! ## Users alone -/

theorem program_foot (u : User) (hp : ∀ n ∈ memoryOf u, Plain n) : ∀ a ∈ program u, ∀ t ∈ foot a, uses u t := by
  intro a ha t ht
  cases u with
  | reader m name dbPath tmp doc bytes =>
    simp only [program, readerProgram] at ha
    have hpath : uses (.reader m name dbPath tmp doc bytes) (.file (dbPath.getD tmp)) := by
      cases dbPath <;> simp [uses, filesOf]
    have htmp : uses (.reader m name dbPath tmp doc bytes) (.file tmp) := by simp [uses, filesOf]
    have hgone : ∀ b ∈ (if dbPath = none then [Instr.remove tmp] else []), ∀ t ∈ foot b,
        uses (.reader m name dbPath tmp doc bytes) t := by
      intro b hb t ht
      split at hb
      · simp at hb; subst hb; simp [foot] at ht; exact ht ▸ htmp
      · simp at hb
    cases m with
    | true =>
      have hm := memory_plain (hp name (by simp [memoryOf]))
      have hmem : uses (.reader true name dbPath tmp doc bytes) (.mem name) := by simp [uses, memoryOf]
      simp only [if_true] at ha
      split at ha
      · simp at ha; subst ha; simp [foot] at ht
      · simp only [memoryPool, hm, List.mem_append, List.mem_cons, List.not_mem_nil, or_false] at ha
        rcases ha with (h | h) | h
        · rcases h with h | h | h | h | h | h <;> subst h <;> simp [foot] at ht <;> grind
        · rcases h with h | h <;> subst h <;> simp [foot] at ht <;> grind
        · exact hgone a h t ht
    | false =>
      simp only [Bool.false_eq_true, if_false, filePool, List.mem_append, List.mem_cons, List.not_mem_nil, or_false] at ha
      rcases ha with (h | h) | h
      · rcases h with h | h <;> subst h <;> simp [foot] at ht <;> grind
      · rcases h with h | h <;> subst h <;> simp [foot] at ht <;> grind
      · exact hgone a h t ht
  | writer m tmp rows =>
    simp only [program, writerProgram, memory_memory] at ha
    cases m with
    | true =>
      have hmem : uses (.writer true tmp rows) (.mem ":memory:".toList) := by simp [uses, memoryOf]
      simp only [if_true, List.cons_append, List.mem_append, List.mem_cons, List.not_mem_nil, or_false, List.mem_map] at ha
      rcases ha with h | ⟨x, _, h⟩ | h | h <;> subst h <;> simp only [foot, List.mem_cons, List.not_mem_nil, or_false] at ht <;>
        exact ht ▸ hmem
    | false =>
      have htmp : uses (.writer false tmp rows) (.file tmp) := by simp [uses, filesOf]
      simp only [Bool.false_eq_true, if_false, List.cons_append, List.mem_append, List.mem_cons, List.not_mem_nil, or_false,
        List.mem_map] at ha
      rcases ha with h | ⟨x, _, h⟩ | h | h | h <;> subst h <;> simp only [foot, List.mem_cons, List.not_mem_nil, or_false] at ht <;>
        exact ht ▸ htmp
  | store m dir base rows =>
    have hfile : uses (.store m dir base rows) (.file (dir ++ base)) := by simp [uses, filesOf]
    simp only [program, storeProgram] at ha
    cases m with
    | true =>
      have hm := memory_plain (hp base (by simp [memoryOf]))
      have hmem : uses (.store true dir base rows) (.mem base) := by simp [uses, memoryOf]
      simp only [if_true, hm, List.mem_append, List.mem_cons, List.not_mem_nil, or_false, List.mem_map] at ha
      rcases ha with (h | ⟨x, _, h⟩) | h
      · rcases h with h | h | h | h <;> subst h <;> simp [foot] at ht <;> grind
      · subst h; simp [foot] at ht; grind
      · rcases h with h | h | h | h <;> subst h <;> simp [foot] at ht <;> grind
    | false =>
      simp only [Bool.false_eq_true, if_false, List.cons_append, List.mem_append, List.mem_cons, List.not_mem_nil, or_false,
        List.mem_map] at ha
      rcases ha with h | ⟨x, _, h⟩ | h <;> subst h <;> simp only [foot, List.mem_cons, List.not_mem_nil, or_false] at ht <;>
        exact ht ▸ hfile

theorem alone_inserts_file (s : System) (r : Result) (p : Name) (c rows : Content) (h : s.files p = some c) :
    alone (s, r) (rows.map (.insert (.file p))) = (setFile s p (some (c ++ rows)), r) := by
  induction rows generalizing s c with
  | nil =>
    simp only [List.map_nil, alone, List.append_nil, Prod.mk.injEq, and_true, setFile]
    have : (fun q => if q = p then some c else s.files q) = s.files := by funext q; split <;> simp_all
    rw [this]
  | cons x rows ih =>
    simp only [List.map_cons, alone, exec, write, content, h, Option.getD_some, note]
    rw [ih _ (c ++ [x]) (by simp [setFile])]
    simp only [setFile, Prod.mk.injEq, and_true, List.append_assoc, List.cons_append, List.nil_append]
    congr 1
    funext q
    split <;> rfl

theorem alone_inserts_mem (s : System) (r : Result) (n : Name) (c rows : Content) (k : Nat) (h : s.mems n = some (c, k)) :
    alone (s, r) (rows.map (.insert (.mem n))) = (setMem s n (some (c ++ rows, k)), r) := by
  induction rows generalizing s c with
  | nil =>
    simp only [List.map_nil, alone, List.append_nil, Prod.mk.injEq, and_true, setMem]
    have : (fun q => if q = n then some (c, k) else s.mems q) = s.mems := by funext q; split <;> simp_all
    rw [this]
  | cons x rows ih =>
    simp only [List.map_cons, alone, exec, write, content, h, Option.map_some, Option.getD_some, note]
    rw [ih _ (c ++ [x]) (by simp [setMem])]
    simp only [setMem, Prod.mk.injEq, and_true, List.append_assoc, List.cons_append, List.nil_append]
    congr 1
    funext q
    split <;> rfl

/-- a user alone has what is expected -/
theorem alone_expected (files : Name → Option Content) (u : User) (hp : ∀ n ∈ memoryOf u, Plain n) (hf : Fresh files u) (hl : Long u) :
    (alone (⟨files, fun _ => none⟩, .nothing) (program u)).2 = expected u ∧
    (∀ f ∈ filesOf u, (alone (⟨files, fun _ => none⟩, .nothing) (program u)).1.files f = left (files f) u f) ∧
    (∀ n ∈ memoryOf u, (alone (⟨files, fun _ => none⟩, .nothing) (program u)).1.mems n = none) := by
  cases u with
  | reader m name dbPath tmp doc bytes =>
    have hlb : ¬ bytes < 20 := by simp only [Long] at hl; omega
    obtain ⟨hf1, hf2⟩ := hf
    cases m with
    | true =>
      have hm := memory_plain (hp name (by simp [memoryOf]))
      simp only [program, readerProgram, if_true, if_neg hlb, memoryPool, hm]
      cases dbPath with
      | none =>
        simp [alone, exec, note, setFile, setMem, content, write, expected, left, filesOf, memoryOf, hf1]
      | some p =>
        have hne : tmp ≠ p := fun e => hf2 (by rw [e])
        simp [alone, exec, note, setFile, setMem, content, write, expected, left, filesOf, memoryOf, hf1, hne, Ne.symm hne]
    | false =>
      simp only [program, readerProgram, Bool.false_eq_true, if_false, filePool]
      cases dbPath with
      | none =>
        simp [alone, exec, note, setFile, content, expected, left, filesOf, memoryOf, hf1]
      | some p =>
        have hne : tmp ≠ p := fun e => hf2 (by rw [e])
        simp [alone, exec, note, setFile, content, expected, left, filesOf, memoryOf, hf1, hne, Ne.symm hne]
  | writer m tmp rows =>
    cases m with
    | true =>
      simp only [program, writerProgram, if_true, memory_memory, filesOf, memoryOf]
      generalize ":memory:".toList = n
      simp only [List.cons_append, alone, exec]
      rw [alone_append, alone_inserts_mem _ _ _ [] _ 1 (by simp [setMem])]
      simp only [alone, exec, note, setMem, content]
      simp [expected, left]
    | false =>
      have hf : files tmp = none := hf
      simp only [program, writerProgram, Bool.false_eq_true, if_false, List.cons_append, alone, exec]
      rw [alone_append, alone_inserts_file _ _ _ [] _ (by simp [setFile, hf])]
      simp only [alone, exec, note, setFile, content]
      simp [expected, left, filesOf, memoryOf, hf]
  | store m dir base rows =>
    cases m with
    | true =>
      have hm := memory_plain (hp base (by simp [memoryOf]))
      simp only [program, storeProgram, if_true, hm]
      rw [List.append_assoc, alone_append, alone_append]
      simp only [alone, exec, note, setFile, setMem, content, write]
      rw [alone_inserts_mem _ _ _ ((files (dir ++ base)).getD []) _ 1 (by simp)]
      simp only [alone, exec, note, setFile, setMem, content, write]
      simp [expected, left, filesOf, memoryOf]
    | false =>
      simp only [program, storeProgram, Bool.false_eq_true, if_false, List.cons_append, alone, exec]
      rw [alone_append, alone_inserts_file _ _ _ ((files (dir ++ base)).getD []) _ (by simp [setFile])]
      simp only [alone, exec, note, setFile, content]
      simp [expected, left, filesOf, memoryOf]

theorem apart_uses {us : List User} (h : Apart us) : ∀ (i j : Nat) u v, us[i]? = some u → us[j]? = some v → i ≠ j →
    ∀ t, uses u t → ¬ uses v t := by
  have key : ∀ u v : User, ((∀ f ∈ filesOf u, f ∉ filesOf v) ∧ (∀ n ∈ memoryOf u, n ∉ memoryOf v)) → ∀ t, uses u t → uses v t → False := by
    intro u v ⟨h1, h2⟩ t hu hv
    simp only [uses, List.mem_append, List.mem_map] at hu hv
    rcases hu with ⟨x, hx, rfl⟩ | ⟨x, hx, rfl⟩
    · rcases hv with ⟨y, hy, h⟩ | ⟨y, hy, h⟩
      · simp at h; exact h1 x hx (h ▸ hy)
      · simp at h
    · rcases hv with ⟨y, hy, h⟩ | ⟨y, hy, h⟩
      · simp at h
      · simp at h; exact h2 x hx (h ▸ hy)
  intro i j u v hi hj hij t hu hv
  obtain ⟨hi', rfl⟩ := List.getElem?_eq_some_iff.1 hi
  obtain ⟨hj', rfl⟩ := List.getElem?_eq_some_iff.1 hj
  rcases Nat.lt_or_gt_of_ne hij with h1 | h1
  · exact key _ _ (List.pairwise_iff_getElem.1 h i j hi' hj' h1) t hu hv
  · exact key _ _ (List.pairwise_iff_getElem.1 h j i hj' hi' h1) t hv hu

theorem inv_start (files : Name → Option Content) (us : List User) : Inv ⟨files, fun _ => none⟩ us (start files us) := by
  refine ⟨by simp [start], fun i u hu => ⟨0, ?_, ?_⟩, agree_refl _ _⟩
  · simp [start, hu, alone]
  · simp only [List.take_zero, alone]; exact agree_refl _ _

theorem isolated (files : Name → Option Content) (us : List User) (hp : ∀ u ∈ us, ∀ n ∈ memoryOf u, Plain n)
    (ha : Apart us) (hf : ∀ u ∈ us, Fresh files u) (hl : ∀ u ∈ us, Long u) (is : List Nat)
    (hd : ∀ x ∈ (run (start files us) is).users, x.1 = []) :
    (∀ (i : Nat) u, us[i]? = some u → ∃ x, (run (start files us) is).users[i]? = some x ∧ x.2 = expected u) ∧
    (∀ u ∈ us, ∀ f ∈ filesOf u, (run (start files us) is).sys.files f = left (files f) u f) ∧
    (∀ f, (∀ u ∈ us, f ∉ filesOf u) → (run (start files us) is).sys.files f = files f) ∧
    (∀ n, (run (start files us) is).sys.mems n = none) := by
  have h := inv_run (fun u hu => program_foot u (hp u hu)) (apart_uses ha) (inv_start files us) is
  have key : ∀ (i : Nat) u, us[i]? = some u →
      (run (start files us) is).users[i]? = some ([], (alone (⟨files, fun _ => none⟩, .nothing) (program u)).2) ∧
      Agree (uses u) (run (start files us) is).sys (alone (⟨files, fun _ => none⟩, .nothing) (program u)).1 := by
    intro i u hu
    obtain ⟨k, h1, h2⟩ := h.each i u hu
    have h3 := hd _ (List.mem_of_getElem? h1)
    have h4 : (program u).take k = program u := by
      rw [List.take_of_length_le (by simpa [List.drop_eq_nil_iff] using h3)]
    rw [h4] at h1 h2
    exact ⟨by rw [h1, show (program u).drop k = [] from h3], h2⟩
  refine ⟨?_, ?_, ?_, ?_⟩
  · intro i u hu
    have hm := List.mem_of_getElem? hu
    exact ⟨_, (key i u hu).1, (alone_expected files u (hp u hm) (hf u hm) (hl u hm)).1⟩
  · intro u hm f hf'
    obtain ⟨i, hi⟩ := List.mem_iff_getElem?.1 hm
    rw [(key i u hi).2.1 f (by simp [uses, hf'])]
    exact (alone_expected files u (hp u hm) (hf u hm) (hl u hm)).2.1 f hf'
  · intro f hn
    exact h.rest.1 f (fun u hu hx => hn u hu (by simpa [uses] using hx))
  · intro n
    by_cases hn : ∃ u ∈ us, n ∈ memoryOf u
    · obtain ⟨u, hm, hn⟩ := hn
      obtain ⟨i, hi⟩ := List.mem_iff_getElem?.1 hm
      rw [(key i u hi).2.2 n (by simp [uses, hn])]
      exact (alone_expected files u (hp u hm) (hf u hm) (hl u hm)).2.2 n hn
    · exact h.rest.2 n (fun u hu hx => hn ⟨u, hu, by simpa [uses] using hx⟩)

end Verif.Proofs.SQLMemory
