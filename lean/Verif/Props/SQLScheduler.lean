import Verif.Proofs.SQLScheduler

/-!
# C39: order of the operations of the SQL store, C41: failed operations
-/

namespace Verif.SQLScheduler

/-! ## C39 -/

/-- **C39** (partial): in every execution, a write is executed completely before every later call that touches the
same object feature, or all features of the same object, or the whole store.
Missing: operations cancelled after the time limit (`C39_timeout_violated`), writes after reads (`C39_reads_violated`; see
`C39_next_partial`), calls for one feature after calls for the whole object (`C39_whole_violated`). -/
theorem C39_write_first_partial {ls : List Label} {s : St} (h : run init ls = some s) (hn : NoTimeout ls) (x y : Nat) (cx cy : Call)
    (hxy : x < y) (hx : (calls ls)[x]? = some cx) (hy : (calls ls)[y]? = some cy) (hw : cx.write = true) (hc : Covered cx cy) :
    InOrder ls x y := by
  refine inOrder_of h x y cx cy hxy hx hy ?_
  intro A s' ox oy hi hA hox hoy hcx hcy hst
  have hnA : NoTimeout A := fun j hj => hn j (hA.mem hj)
  have hww : ox.write = true := by rw [hi.write x ox cx hox hcx]; exact hw
  rcases hi.covers x y ox oy cx cy hxy hox hoy hcx hcy hc with hg | ⟨k, hk1, hk2⟩
  · have hown := hi.own x ox cx hox hcx ⟨cx.object, cx.feature⟩ (Or.inl rfl)
    rcases hi.reg x ox hox with hr | ⟨-, hr⟩
    · have h1 : 0 < ox.keys.count (norm ⟨cx.object, cx.feature⟩) := List.count_pos_iff.mpr hown
      rw [← hr] at h1
      exact absurd (List.count_pos_iff.mp h1) (hg _)
    · exact hr
  · exact settled hi hnA y x ox oy k hxy hox hoy hww hk1 hk2 hst

/-- **C39** (partial): the same if one of the two calls is a write, provided that no call between them touches
something in common with the first one. -/
theorem C39_next_partial {ls : List Label} {s : St} (h : run init ls = some s) (hn : NoTimeout ls) (x y : Nat) (cx cy : Call)
    (hxy : x < y) (hx : (calls ls)[x]? = some cx) (hy : (calls ls)[y]? = some cy) (hw : cx.write = true ∨ cy.write = true)
    (hc : Covered cx cy) (hb : ∀ z cz, x < z → z < y → (calls ls)[z]? = some cz → ¬ Overlap cx cz) : InOrder ls x y := by
  refine inOrder_of h x y cx cy hxy hx hy ?_
  intro A s' ox oy hi hA hox hoy hcx hcy hst
  have hnA : NoTimeout A := fun j hj => hn j (hA.mem hj)
  have hww : ox.write = true ∨ oy.write = true := by rw [hi.write x ox cx hox hcx, hi.write y oy cy hoy hcy]; exact hw
  rcases hi.covers x y ox oy cx cy hxy hox hoy hcx hcy hc with hg | ⟨k, hk1, hk2⟩
  · have hown := hi.own x ox cx hox hcx ⟨cx.object, cx.feature⟩ (Or.inl rfl)
    rcases hi.reg x ox hox with hr | ⟨-, hr⟩
    · have h1 : 0 < ox.keys.count (norm ⟨cx.object, cx.feature⟩) := List.count_pos_iff.mpr hown
      rw [← hr] at h1
      exact absurd (List.count_pos_iff.mp h1) (hg _)
    · exact hr
  · refine settled_next hi hnA y x ox oy k hxy hox hoy hww hk1 hk2 ?_ hst
    intro p op hxp hpy hop hkp
    have hpl : p < (calls A).length := by rw [← hi.len]; exact (List.getElem?_eq_some_iff.mp hop).1
    have hcp : (calls ls)[p]? = some (calls A)[p] := by
      obtain ⟨B, rfl⟩ := hA
      rw [calls_append, List.getElem?_append_left hpl]
      exact List.getElem?_eq_getElem hpl
    obtain ⟨a, ha, hka⟩ := hi.within x ox cx hox hcx k hk1
    obtain ⟨b, hb', hkb⟩ := hi.within p op _ hop (List.getElem?_eq_getElem hpl) k hkp
    apply hb p _ hxp hpy hcp
    rcases within_comparable hka hkb with h | h
    · exact Or.inl ⟨a, b, ha, hb', h⟩
    · exact Or.inr ⟨b, a, hb', ha, h⟩

/-- `Set` of feature `f` of object `o` -/
def set (o f : Nat) : Call := ⟨true, some o, some f, [], none⟩

/-- `Get` of feature `f` of object `o` -/
def read (o f : Nat) : Call := ⟨false, some o, some f, [], none⟩

/-- `UnRegister` of object `o` -/
def unRegister (o : Nat) : Call := ⟨true, some o, none, [], none⟩

/-- `GetContainer` of object `o` -/
def getContainer (o : Nat) : Call := ⟨false, some o, none, [], none⟩

theorem covered_same (w w' : Bool) (o f : Nat) : Covered ⟨w, some o, some f, [], none⟩ ⟨w', some o, some f, [], none⟩ :=
  ⟨_, _, Or.inl rfl, Or.inl rfl, by simp [Within]⟩

/-- a write, a read and a write of a feature, a read of the container -/
def sample : List Label :=
  [.call (set 1 2), .call (read 1 2), .call (set 1 2), .call (getContainer 1), .start 0, .finish 0 .ok, .start 1, .finish 1 .ok, .start 2,
    .finish 2 .ok, .start 3, .finish 3 .ok]

example : (run init sample).isSome ∧ NoTimeout sample ∧ Covered (set 1 2) (read 1 2) ∧ Covered (set 1 2) (getContainer 1) :=
  ⟨by decide, by simp [NoTimeout, sample], covered_same .., ⟨_, _, Or.inl rfl, Or.inl rfl, by decide⟩⟩

/-- other orders are not possible -/
example : run init [.call (set 1 2), .call (read 1 2), .start 1] = none ∧
    run init [.call (set 1 2), .call (getContainer 1), .start 1] = none ∧
    run init [.call (set 1 2), .call (read 1 2), .call (set 1 2), .start 0, .finish 0 .ok, .start 2] = none := by decide

/-- **C39** is violated: a write overtakes a read that was called before, because it only waits for the second read. -/
theorem C39_reads_violated :
    (run init [.call (read 1 2), .call (read 1 2), .call (set 1 2), .start 1, .finish 1 .ok, .start 2, .finish 2 .ok, .start 0]).isSome ∧
    Covered (read 1 2) (set 1 2) ∧
    ¬ InOrder [.call (read 1 2), .call (read 1 2), .call (set 1 2), .start 1, .finish 1 .ok, .start 2, .finish 2 .ok, .start 0] 0 2 := by
  refine ⟨by decide, covered_same .., fun h => ?_⟩
  have := h [.call (read 1 2), .call (read 1 2), .call (set 1 2), .start 1, .finish 1 .ok] [.finish 2 .ok, .start 0] rfl
  simp at this

/-- **C39** is violated: a write of a feature overtakes the deregistration of its object. -/
theorem C39_whole_violated :
    (run init [.call (unRegister 1), .call (set 1 2), .start 1, .finish 1 .ok, .start 0]).isSome ∧
    Covered (set 1 2) (unRegister 1) ∧
    ¬ InOrder [.call (unRegister 1), .call (set 1 2), .start 1, .finish 1 .ok, .start 0] 0 1 := by
  refine ⟨by decide, ⟨_, _, Or.inl rfl, Or.inl rfl, by decide⟩, fun h => ?_⟩
  have := h [.call (unRegister 1), .call (set 1 2)] [.finish 1 .ok, .start 0] rfl
  simp at this

/-- **C39** is violated: after the time limit an operation is executed before the previous one. -/
theorem C39_timeout_violated :
    (run init [.call (set 1 2), .call (set 1 2), .timeout 1, .start 1, .finish 1 .ok, .start 0]).isSome ∧
    ¬ InOrder [.call (set 1 2), .call (set 1 2), .timeout 1, .start 1, .finish 1 .ok, .start 0] 0 1 := by
  refine ⟨by decide, fun h => ?_⟩
  have := h [.call (set 1 2), .call (set 1 2), .timeout 1] [.finish 1 .ok, .start 0] rfl
  simp at this

/-! ## C41 -/

/-- no goroutine has a step left -/
def Quiet (s : St) : Prop := ∀ l, Internal l → step s l = none

theorem quiet_settled {ls : List Label} {s : St} (h : run init ls = some s) (hp : ∀ c ∈ calls ls, Plain c) (hq : Quiet s) (i : Nat) (op : Op)
    (ho : s.ops[i]? = some op) : Settled op.phase := by
  apply Classical.byContradiction
  intro hc
  obtain ⟨l, s', h1, h2⟩ := progress (inv_run h) hp i op ho hc
  rw [hq l h1] at h2
  simp at h2

/-- **C41** (the part about `WaitOperations`): whatever fails, panics or is cancelled, the goroutines make at most two
steps for each call, and when they have no step left `WaitOperations` returns, for every object and for the store. -/
theorem C41_wait {ls : List Label} {s : St} (h : run init ls = some s) (hp : ∀ c ∈ calls ls, Plain c) :
    (∀ B s', (∀ l ∈ B, Internal l) → run s B = some s' → B.length ≤ 2 * (calls ls).length) ∧
    (Quiet s → ∀ o, ∃ e, waitOperations s o = .returns e) := by
  have hi := inv_run h
  refine ⟨fun B s' hB hr => ?_, fun hq o => ?_⟩
  · have h1 := run_rest B s s' hB hr
    have h2 := restAll_le s
    rw [hi.len] at h2
    omega
  · simp only [waitOperations]
    by_cases h0 : pending s o = []
    · exact ⟨false, by simp [h0]⟩
    · obtain ⟨i, hm⟩ := List.exists_mem_of_ne_nil _ h0
      obtain ⟨k, hk⟩ := mem_pending hi.qok hm
      have hil : i < s.ops.length := by
        apply Classical.byContradiction
        intro hc
        exact hi.fresh i (by omega) k hk
      obtain ⟨op, ho⟩ : ∃ op, s.ops[i]? = some op := ⟨_, List.getElem?_eq_getElem hil⟩
      have hset := quiet_settled h hp hq i op ho
      refine ⟨true, ?_⟩
      rw [if_neg h0, if_pos]
      rw [List.any_eq_true]
      refine ⟨i, hm, ?_⟩
      rcases hset with hd | hd | hd
      · exact absurd hk (hi.done i op ho hd k)
      · simp [phase, ho, hd]
      · simp [phase, ho, hd]

/-- **C41** (partial): if no operation that touches something in common has been called when an operation fails, then all
operations are executed, and `WaitOperations` returns without error afterwards.
Missing: operations called before the failure (`C41_blocked_violated`, `C41_refused_violated`) and panics
(`C41_panic_violated`). -/
theorem C41_executed_partial {ls : List Label} {s : St} (h : run init ls = some s) (hp : ∀ c ∈ calls ls, Plain c) (hn : NoPanic ls)
    (hf : FailsAlone ls) :
    (∀ i, Label.refuse i ∉ ls) ∧
    (Quiet s → (∀ i, i < (calls ls).length → Label.start i ∈ ls ∧ Finished i ls) ∧ ∀ o, waitOperations s o = .returns false) := by
  have hi := inv_run h
  have hc := clean_run h hp hn hf
  refine ⟨fun i hm => ?_, fun hq => ?_⟩
  · have := hi.refused i hm
    simp only [phase] at this
    cases ho : s.ops[i]? with
    | none => simp [ho] at this
    | some op => simp [ho] at this; exact (hc i op ho).1 this
  · have hex : ∀ (i : Nat) (op : Op), s.ops[i]? = some op → op.phase = .done ∨ op.phase = .failed := by
      intro i op ho
      rcases quiet_settled h hp hq i op ho with hd | hd | hd
      · exact Or.inl hd
      · exact Or.inr hd
      · exact absurd hd (hc i op ho).1
    refine ⟨fun i hl => ?_, fun o => ?_⟩
    · rw [← hi.len] at hl
      have ho := List.getElem?_eq_getElem hl
      have hd := hex i _ ho
      refine ⟨?_, (hi.ends i _ ho).2 hd⟩
      have h1 := hi.starts i _ ho
      rw [if_pos (by rcases hd with h | h <;> simp [h, Started])] at h1
      exact List.count_pos_iff.mp (by omega)
    · have : pending s o = [] := by
        apply Classical.byContradiction
        intro h0
        obtain ⟨i, hm⟩ := List.exists_mem_of_ne_nil _ h0
        obtain ⟨k, hk⟩ := mem_pending hi.qok hm
        have hil : i < s.ops.length := by
          apply Classical.byContradiction
          intro hc
          exact hi.fresh i (by omega) k hk
        have ho := List.getElem?_eq_getElem hil
        rcases hex i _ ho with hd | hd
        · exact hi.done i _ ho hd k hk
        · exact hi.failed hn i _ ho hd k hk
      simp [waitOperations, this]

/-- a failure, then calls for the same feature -/
def failure : List Label :=
  [.call (set 1 2), .start 0, .finish 0 .error, .call (set 1 2), .call (read 1 2), .start 1, .finish 1 .ok, .start 2, .finish 2 .ok]

example : (run init failure).isSome ∧ (∀ c ∈ calls failure, Plain c) ∧ NoPanic failure :=
  ⟨by decide, by decide, by simp [NoPanic, failure]⟩

example : FailsAlone failure := by
  intro A i B e j c d hij hc hd
  have : (calls A).length ≤ 1 := by
    match A, e with
    | [], _ => simp [calls]
    | [a], e => simp [failure] at e
    | [a, b], e => simp only [failure, List.cons_append, List.cons.injEq] at e; simp [← e.1, ← e.2.1, calls]
    | a :: b :: c :: A, e =>
      have h1 : Label.finish i .error ∈ failure.drop 3 := by rw [e]; simp
      simp [failure] at h1
  have h1 := (List.getElem?_eq_some_iff.mp hd).1
  omega

/-- **C41** is violated, in every execution: after a write has been given up because of a failure of a previous one,
no later call for the same object feature, for the object or for the store is ever executed. -/
theorem C41_blocked_violated {ls : List Label} {s : St} (h : run init ls = some s) (hn : NoTimeout ls) (x y : Nat) (cx cy : Call)
    (hxy : x < y) (hx : (calls ls)[x]? = some cx) (hy : (calls ls)[y]? = some cy) (hw : cx.write = true) (hc : Covered cx cy)
    (hr : Label.refuse x ∈ ls) : Label.start y ∉ ls := by
  intro hm
  have hi := inv_run h
  have hl : y < s.ops.length := by rw [hi.len]; exact (List.getElem?_eq_some_iff.mp hy).1
  obtain ⟨oy, hoy⟩ : ∃ oy, s.ops[y]? = some oy := ⟨_, List.getElem?_eq_getElem hl⟩
  obtain ⟨ox, hox⟩ : ∃ ox, s.ops[x]? = some ox := ⟨_, List.getElem?_eq_getElem (by omega)⟩
  have hph := hi.refused x hr
  simp only [phase, hox, Option.map_some, Option.some.injEq] at hph
  have hst : Started oy.phase := by
    have h1 := hi.starts y oy hoy
    have h2 : 0 < ls.count (Label.start y) := List.count_pos_iff.mpr hm
    apply Classical.byContradiction
    intro hcc
    rw [if_neg hcc] at h1
    omega
  have hww : ox.write = true := by rw [hi.write x ox cx hox hx]; exact hw
  rcases hi.covers x y ox oy cx cy hxy hox hoy hx hy hc with hg | ⟨k, hk1, hk2⟩
  · have hown := hi.own x ox cx hox hx ⟨cx.object, cx.feature⟩ (Or.inl rfl)
    rcases hi.reg x ox hox with hr | ⟨-, hr⟩
    · have h1 : 0 < ox.keys.count (norm ⟨cx.object, cx.feature⟩) := List.count_pos_iff.mpr hown
      rw [← hr] at h1
      exact absurd (List.count_pos_iff.mp h1) (hg _)
    · simp [hph] at hr
  · have := settled hi hn y x ox oy k hxy hox hoy hww hk1 hk2 hst
    simp [hph] at this

/-- two writes, the first one fails, then calls for the feature and for the object -/
def blockedRun : List Label :=
  [.call (set 1 2), .call (set 1 2), .start 0, .finish 0 .error, .refuse 1, .call (set 1 2), .call (read 1 2), .call (getContainer 1)]

/-- **C41** is violated: after the failure of a write with another one pending, later calls are given up, and
`WaitOperations` returns an error. -/
theorem C41_refused_violated :
    (run init blockedRun).isSome ∧ Label.refuse 1 ∈ blockedRun ∧
    run init (blockedRun ++ [.start 2]) = none ∧ run init (blockedRun ++ [.start 3]) = none ∧ run init (blockedRun ++ [.start 4]) = none ∧
    ((run init (blockedRun ++ [.refuse 2, .refuse 3, .refuse 4])).map (waitOperations · (some 1))) = some (.returns true) := by decide

/-- **C41** is violated: the same after a panic, without another call pending. -/
theorem C41_panic_violated :
    (run init [.call (set 1 2), .start 0, .finish 0 .panic, .call (set 1 2)]).isSome ∧
    run init [.call (set 1 2), .start 0, .finish 0 .panic, .call (set 1 2), .start 1] = none ∧
    (run init [.call (set 1 2), .start 0, .finish 0 .panic, .call (set 1 2), .refuse 1]).isSome := by decide

/-! ## C54 -/

theorem mem_get {q : Queues} {k : Area} {i : Nat} (h : i ∈ get q k) : ∃ l, (k, l) ∈ q ∧ i ∈ l := by
  induction q with
  | nil => simp [get] at h
  | cons e q ih =>
    obtain ⟨k', l'⟩ := e
    simp only [get] at h
    split at h
    · rename_i hk
      exact ⟨l', by simp [← hk], h⟩
    · obtain ⟨l, h1, h2⟩ := ih h
      exact ⟨l, by simp [h1], h2⟩

/-- **C54**: when `WaitOperations` returns without error, every operation called before that touches the object, every
operation at all for the store, has been executed: `fn` has begun and has ended. -/
theorem C54_wait {ls : List Label} {s : St} (h : run init ls = some s) (o : Option Nat) (hw : waitOperations s o = .returns false)
    (x : Nat) (c : Call) (hx : (calls ls)[x]? = some c) (ht : o = none ∨ ∃ a, Touches c a ∧ a.obj = o) :
    Label.start x ∈ ls ∧ Finished x ls := by
  have hi := inv_run h
  have h0 : pending s o = [] := by
    simp only [waitOperations] at hw
    split at hw
    · assumption
    · split at hw
      · simp at hw
      · split at hw <;> simp at hw
  have hl : x < s.ops.length := by rw [hi.len]; exact (List.getElem?_eq_some_iff.mp hx).1
  have ho := List.getElem?_eq_getElem hl
  obtain ⟨a, ha, hao⟩ : ∃ a, Touches c a ∧ (o = none ∨ (norm a).obj = o) := by
    rcases ht with ht | ⟨a, ha, hao⟩
    · exact ⟨_, Or.inl rfl, Or.inl ht⟩
    · refine ⟨a, ha, ?_⟩
      cases o with
      | none => exact Or.inl rfl
      | some o => exact Or.inr (by simp [norm, hao])
  have hk := hi.own x _ c ho hx a ha
  have hd : s.ops[x].phase = .done ∨ s.ops[x].phase = .failed := by
    rcases hi.reg x _ ho with hr | ⟨-, hd⟩
    · have h1 : 0 < (get s.queues (norm a)).count x := by rw [hr]; exact List.count_pos_iff.mpr hk
      obtain ⟨l, h2, h3⟩ := mem_get (List.count_pos_iff.mp h1)
      have : x ∈ pending s o := by
        simp only [pending, List.mem_flatMap, List.mem_filter]
        exact ⟨_, ⟨h2, by simpa using hao⟩, h3⟩
      simp [h0] at this
    · exact hd
  refine ⟨?_, (hi.ends x _ ho).2 hd⟩
  have h1 := hi.starts x _ ho
  rw [if_pos (by rcases hd with h | h <;> simp [h, Started])] at h1
  exact List.count_pos_iff.mp (by omega)

/-- object 1 is idle while an operation of object 2 is pending -/
example : ((run init [.call (set 1 2), .call (set 2 2), .start 0, .finish 0 .ok]).map fun s =>
    (waitOperations s (some 1), waitOperations s (some 2), waitOperations s none)) = some (.returns false, .waits, .waits) := by decide

end Verif.SQLScheduler
