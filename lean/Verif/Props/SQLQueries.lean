import Verif.Proofs.SQLQueries

/-! # C58: SQL statements are executed in order, and errors do not spread -/

namespace Verif.SQLQueries

theorem has_query {s : St} {ls : List Label} (hi : Inv s ls) (i : Nat) (p : Option Nat) (b : Bool) (ps : List Parsed)
    (h : (calls ls)[i]? = some (p, b, ps)) : ∃ q, s.queries[i]? = some q ∧ q.write = (newQuery b ps).write ∧ q.tables = (newQuery b ps).tables ∧ q.parent = p := by
  have hl : i < s.queries.length := by rw [hi.len]; exact (List.getElem?_eq_some_iff.mp h).1
  exact ⟨_, List.getElem?_eq_getElem hl, hi.kind i _ p b ps (List.getElem?_eq_getElem hl) h⟩

theorem has_call {s : St} {ls : List Label} (hi : Inv s ls) (i : Nat) (q : Query) (h : s.queries[i]? = some q) :
    ∃ (p : Option Nat) (b : Bool) (ps : List Parsed), (calls ls)[i]? = some (p, b, ps) ∧ q.write = (newQuery b ps).write ∧
      q.tables = (newQuery b ps).tables ∧ q.parent = p := by
  have hl : i < (calls ls).length := by rw [← hi.len]; exact (List.getElem?_eq_some_iff.mp h).1
  exact ⟨_, _, _, List.getElem?_eq_getElem hl, hi.kind i q _ _ _ h (List.getElem?_eq_getElem hl)⟩

theorem write_query {s : St} {ls : List Label} (hi : Inv s ls) (i : Nat) (h : Writes ls i) :
    ∃ q, s.queries[i]? = some q ∧ q.write = true := by
  obtain ⟨p, b, ps, hc, hw⟩ := h
  obtain ⟨q, hq, h1, -⟩ := has_query hi i p b ps hc
  refine ⟨q, hq, ?_⟩
  rw [h1, newQuery_write]
  rcases hw with rfl | ⟨hne, hw⟩
  · rw [parse_true]
  · exact parse_writes _ _ _ (Or.inr hne) hw

theorem touch_query {s : St} {ls : List Label} (hi : Inv s ls) (i : Nat) (t : String) (h : Touches ls i t) (hk : Known ls i) :
    ∃ q, s.queries[i]? = some q ∧ t ∈ q.tables := by
  obtain ⟨p, ps, hc, hu⟩ := hk
  obtain ⟨p', b', ps', hc', x, hx, ht⟩ := h
  rw [hc] at hc'; cases hc'
  obtain ⟨q, hq, -, h2, -⟩ := has_query hi i p false ps hc
  exact ⟨q, hq, by rw [h2]; exact newQuery_known ps t hu x hx ht⟩

theorem query_touch {s : St} {ls : List Label} (hi : Inv s ls) (i : Nat) (t : String) (q : Query) (h : s.queries[i]? = some q)
    (ht : t ∈ q.tables) (he : t ≠ "") : Touches ls i t := by
  obtain ⟨p, b, ps, hc, -, h2, -⟩ := has_call hi i q h
  rw [h2] at ht
  rcases newQuery_sub b ps t ht with ⟨h, -⟩ | ⟨x, hx, h⟩
  · exact absurd h he
  · exact ⟨p, b, ps, hc, x, hx, h⟩

theorem global {s : St} {ls : List Label} (hi : Inv s ls) (hn : Named ls) (i : Nat) (q : Query) (h : s.queries[i]? = some q) :
    "" ∈ q.tables ↔ q.write = true := by
  obtain ⟨p, b, ps, hc, h1, h2, -⟩ := has_call hi i q h
  rw [h1, h2]
  refine ⟨fun ht => ?_, newQuery_global b ps⟩
  rcases newQuery_sub b ps "" ht with ⟨-, h⟩ | ⟨x, hx, h⟩
  · exact h
  · exact absurd ⟨p, b, ps, hc, x, hx, h⟩ (hn i)

theorem started_done {s : St} {ls : List Label} (hi : Inv s ls) (y : Nat) (q : Query) (hq : s.queries[y]? = some q) (hs : Started q.phase)
    (p : Nat) (hp : p ∈ q.prev) (u : Query) (hu : s.queries[p]? = some u) : u.phase = .done := by
  have := hi.started y q hq hs p hp
  simpa [phaseOf, hu] using this

/-- all writes before a write that was started are done -/
theorem chain_write {s : St} {ls : List Label} (hi : Inv s ls) (hn : Named ls) (x : Nat) (r : Query) (hr : s.queries[x]? = some r)
    (hw : r.write = true) : ∀ (y : Nat) (q : Query), s.queries[y]? = some q → q.write = true → Started q.phase → x < y → r.phase = .done := by
  intro y
  induction y using Nat.strongRecOn with
  | _ y ih =>
    intro q hq hqw hs hxy
    rcases hi.waits y q hq "" ((global hi hn y q hq).mpr hqw) x r hxy hr ((global hi hn x r hr).mpr hw) (Or.inl hqw) with hd | ⟨p, hp, hxp, u, hu, htu, -, hpy⟩
    · exact hd
    · have hud := started_done hi y q hq hs p hp u hu
      by_cases e : x = p
      · subst e; rw [hr] at hu; cases hu; exact hud
      · exact ih p hpy u hu ((global hi hn p u hu).mp htu) (by simp [hud, Started]) (by omega)

/-- all writes to a table before a read of the table that was started are done -/
theorem chain_read {s : St} {ls : List Label} (hi : Inv s ls) (hn : Named ls) (t : String) (x : Nat) (r : Query) (hr : s.queries[x]? = some r)
    (hw : r.write = true) (ht : t ∈ r.tables) (y : Nat) (q : Query) (hq : s.queries[y]? = some q) (htq : t ∈ q.tables) (hs : Started q.phase)
    (hxy : x < y) : r.phase = .done := by
  by_cases hqw : q.write = true
  · exact chain_write hi hn x r hr hw y q hq hqw hs hxy
  · rcases hi.waits y q hq t htq x r hxy hr ht (Or.inr hw) with hd | ⟨p, hp, hxp, u, hu, htu, hwu, hpy⟩
    · exact hd
    · have hud := started_done hi y q hq hs p hp u hu
      by_cases e : x = p
      · subst e; rw [hr] at hu; cases hu; exact hud
      · exact chain_write hi hn x r hr hw p u hu (by simpa [hqw] using hwu) (by simp [hud, Started]) (by omega)

/-- a statement is done if it is the last to read a table before a write that was started -/
theorem chain_last {s : St} {ls : List Label} (hi : Inv s ls) (t : String) (he : t ≠ "") (x : Nat) (r : Query)
    (hr : s.queries[x]? = some r) (ht : t ∈ r.tables) : ∀ (y : Nat) (q : Query), s.queries[y]? = some q → q.write = true → t ∈ q.tables →
    Started q.phase → x < y → (∀ (z : Nat), x < z → z < y → Touches ls z t → Writes ls z) → r.phase = .done := by
  intro y
  induction y using Nat.strongRecOn with
  | _ y ih =>
    intro q hq hqw htq hs hxy hb
    rcases hi.waits y q hq t htq x r hxy hr ht (Or.inl hqw) with hd | ⟨p, hp, hxp, u, hu, htu, -, hpy⟩
    · exact hd
    · have hud := started_done hi y q hq hs p hp u hu
      by_cases e : x = p
      · subst e; rw [hr] at hu; cases hu; exact hud
      · obtain ⟨u', hu', huw⟩ := write_query hi p (hb p (by omega) hpy (query_touch hi p t u hu htu he))
        rw [hu] at hu'; cases hu'
        exact ih p hpy u hu huw htu (by simp [hud, Started]) (by omega) (fun z h1 h2 => hb z h1 (by omega))

/-- from the end of a run to its part before a start -/
theorem before_of {ls : List Label} {s : St} (h : run init ls = some s) (x y : Nat) (hxy : x < y)
    (hdone : ∀ (A B : List Label) (s' : St) (q r : Query), Inv s' A → ls = A ++ B → s'.queries[y]? = some q → Started q.phase →
      s'.queries[x]? = some r → (∀ (z : Nat), z < s'.queries.length → (calls A)[z]? = (calls ls)[z]?) → r.phase = .done) : Before ls x y := by
  intro A B he
  subst he
  have hr := h
  rw [show A ++ Label.start y :: B = (A ++ [Label.start y]) ++ B by simp, run_append] at hr
  cases h2 : run init (A ++ [.start y]) with
  | none => simp [h2] at hr
  | some s2 =>
    have hi := inv_run h2
    obtain ⟨ph, hph, hst⟩ := hi.began y (by simp)
    simp only [phaseOf, Option.map_eq_some_iff] at hph
    obtain ⟨q, hq, rfl⟩ := hph
    have hl := (List.getElem?_eq_some_iff.mp hq).1
    have hl2 : x < s2.queries.length := by omega
    have hd := hdone (A ++ [.start y]) B s2 q _ hi (by simp) hq hst (List.getElem?_eq_getElem hl2) (fun z hz => ?_)
    · have := hi.finished x (by simp [phaseOf, List.getElem?_eq_getElem hl2, hd])
      simpa using this
    · rw [hi.len] at hz
      rw [show A ++ Label.start y :: B = (A ++ [Label.start y]) ++ B by simp, calls_append (A ++ [Label.start y]) B, List.getElem?_append_left hz]

/-- what is known of a call does not depend on the end of the trace -/
theorem named_prefix {A B : List Label} (h : Named (A ++ B)) : Named A := by
  rintro i ⟨p, b, ps, hc, hx⟩
  refine h i ⟨p, b, ps, ?_, hx⟩
  rw [calls_append, List.getElem?_append_left (List.getElem?_eq_some_iff.mp hc).1]
  exact hc

section Transfer
variable {A ls : List Label} {z : Nat} (e : (calls A)[z]? = (calls ls)[z]?)
include e
theorem writes_of : Writes ls z ↔ Writes A z := by simp only [Writes, e]
theorem reads_of : Reads ls z ↔ Reads A z := by simp only [Reads, e]
theorem known_of : Known ls z ↔ Known A z := by simp only [Known, e]
theorem touches_of (t : String) : Touches ls z t ↔ Touches A z t := by simp only [Touches, e]
end Transfer

/-- **C58** (the part about writes): statements that change the database, whatever the tables, are executed one after the other, in the order of
the calls. -/
theorem C58_writes {ls : List Label} {s : St} (h : run init ls = some s) (hn : Named ls) (x y : Nat) (hxy : x < y) (hx : Writes ls x) (hy : Writes ls y) :
    Before ls x y := by
  refine before_of h x y hxy ?_
  intro A B s' q r hi he hq hs hr hc
  have hly := (List.getElem?_eq_some_iff.mp hq).1
  have hlx := (List.getElem?_eq_some_iff.mp hr).1
  obtain ⟨q', hq', hqw⟩ := write_query hi y ((writes_of (hc y hly)).mp hy)
  obtain ⟨r', hr', hrw⟩ := write_query hi x ((writes_of (hc x hlx)).mp hx)
  rw [hq] at hq'; cases hq'
  rw [hr] at hr'; cases hr'
  exact chain_write hi (named_prefix (he ▸ hn)) x r hr hrw y q hq hqw hs hxy

/-- **C58** (the part about reads): a statement that reads a table starts after all statements called before that change the table. -/
theorem C58_reads_partial {ls : List Label} {s : St} (h : run init ls = some s) (hn : Named ls) (x y : Nat) (t : String) (hxy : x < y) (hx : Writes ls x)
    (hkx : Known ls x) (hy : Reads ls y) (htx : Touches ls x t) (hty : Touches ls y t) : Before ls x y := by
  refine before_of h x y hxy ?_
  intro A B s' q r hi he hq hs hr hc
  have hly := (List.getElem?_eq_some_iff.mp hq).1
  have hlx := (List.getElem?_eq_some_iff.mp hr).1
  have hky : Known ls y := by
    obtain ⟨p, ps, h1, h2⟩ := hy
    exact ⟨p, ps, h1, fun hm => by have := h2 _ hm; simp [writes] at this⟩
  obtain ⟨q', hq', hqt⟩ := touch_query hi y t ((touches_of (hc y hly) t).mp hty) ((known_of (hc y hly)).mp hky)
  obtain ⟨r', hr', hrw⟩ := write_query hi x ((writes_of (hc x hlx)).mp hx)
  obtain ⟨r'', hr'', hrt⟩ := touch_query hi x t ((touches_of (hc x hlx) t).mp htx) ((known_of (hc x hlx)).mp hkx)
  rw [hq] at hq'; cases hq'
  rw [hr] at hr'; cases hr'
  rw [hr] at hr''; cases hr''
  exact chain_read hi (named_prefix (he ▸ hn)) t x r hr hrw hrt y q hq hqt hs hxy

/-- **C58** (the part about a write after a read): a statement that changes a table starts after a statement called before that reads it, unless
another read of the table was called in between. -/
theorem C58_write_after_read_partial {ls : List Label} {s : St} (h : run init ls = some s) (hn : Named ls) (x y : Nat) (t : String) (hxy : x < y)
    (hy : Writes ls y) (hkx : Known ls x) (hky : Known ls y) (htx : Touches ls x t) (hty : Touches ls y t)
    (hb : ∀ (z : Nat), x < z → z < y → Touches ls z t → Writes ls z) : Before ls x y := by
  have hte : t ≠ "" := fun e => hn x (e ▸ htx)
  refine before_of h x y hxy ?_
  intro A B s' q r hi he hq hs hr hc
  have hly := (List.getElem?_eq_some_iff.mp hq).1
  have hlx := (List.getElem?_eq_some_iff.mp hr).1
  obtain ⟨q', hq', hqt⟩ := touch_query hi y t ((touches_of (hc y hly) t).mp hty) ((known_of (hc y hly)).mp hky)
  obtain ⟨q'', hq'', hqw⟩ := write_query hi y ((writes_of (hc y hly)).mp hy)
  obtain ⟨r', hr', hrt⟩ := touch_query hi x t ((touches_of (hc x hlx) t).mp htx) ((known_of (hc x hlx)).mp hkx)
  rw [hq] at hq'; cases hq'
  rw [hq] at hq''; cases hq''
  rw [hr] at hr'; cases hr'
  refine chain_last hi t hte x r hr hrt y q hq hqw hqt hs hxy (fun z h1 h2 h3 => ?_)
  have hz := hc z (by omega)
  exact (writes_of hz).mp (hb z h1 h2 ((touches_of hz t).mpr h3))

/-! ## progress -/

def rest : Phase → Nat
  | .waiting => 2
  | .running => 1
  | _ => 0

def restAll (l : List Query) : Nat := (l.map fun q => rest q.phase).sum

theorem restAll_set (l : List Query) (i : Nat) (q q' : Query) (hq : l[i]? = some q) (h : rest q'.phase < rest q.phase) :
    restAll (l.set i q') < restAll l := by
  induction l generalizing i with
  | nil => simp at hq
  | cons a l ih =>
    cases i with
    | zero => simp at hq; subst hq; simp [restAll]; omega
    | succ i =>
      have := ih i (by simpa using hq)
      simp [restAll] at this ⊢
      omega

theorem step_rest (s s' : St) (l : Label) (hl : Internal l) (h : step s l = some s') : restAll s'.queries < restAll s.queries := by
  cases l with
  | call => exact hl.elim
  | start i =>
    simp only [step] at h
    split at h
    case h_2 => simp at h
    case h_1 q hq =>
    split at h
    case isFalse => simp at h
    case isTrue hc =>
    simp only [Option.some.injEq] at h; subst h
    simp only [setPhase, hq]
    exact restAll_set _ i q _ hq (by simp [hc.1, rest])
  | finish i ok =>
    simp only [step] at h
    split at h
    case h_2 => simp at h
    case h_1 q hq =>
    split at h
    case isFalse => simp at h
    case isTrue hc =>
    split at h <;> simp only [Option.some.injEq] at h <;> subst h <;> simp only [setPhase, hq] <;>
      exact restAll_set _ i q _ hq (by simp [hc.1, rest])
  | refuse i =>
    simp only [step] at h
    split at h
    case h_2 => simp at h
    case h_1 q hq =>
    split at h
    case isFalse => simp at h
    case isTrue hc =>
    simp only [Option.some.injEq] at h; subst h
    simp only [setPhase, hq]
    exact restAll_set _ i q _ hq (by simp [hc.1, rest])

theorem run_rest (B : List Label) (s s' : St) (hB : ∀ l ∈ B, Internal l) (h : run s B = some s') :
    B.length + restAll s'.queries ≤ restAll s.queries := by
  induction B generalizing s with
  | nil => simp [run] at h; subst h; simp
  | cons l B ih =>
    simp only [run, Option.bind_eq_some_iff] at h
    obtain ⟨s1, h1, h2⟩ := h
    have := ih s1 (fun l hl => hB l (by simp [hl])) h2
    have := step_rest s s1 l (hB l (by simp)) h1
    simp; omega

theorem restAll_le (l : List Query) : restAll l ≤ 2 * l.length := by
  induction l with
  | nil => simp [restAll]
  | cons a l ih =>
    have : rest a.phase ≤ 2 := by cases a.phase <;> simp [rest]
    simp [restAll] at ih ⊢
    omega

theorem settled_all {ls : List Label} {s : St} (h : run init ls = some s) (hn : Named ls) (hf : Flat ls) (ho : Once ls) (hq : Quiet s) :
    ∀ (i : Nat) (q : Query), s.queries[i]? = some q → Settled q.phase := by
  have hi := inv_run h
  intro i
  induction i using Nat.strongRecOn with
  | _ i ih =>
    intro q hqi
    obtain ⟨p, b, ps, hc, -, h2, -⟩ := has_call hi i q hqi
    have hmem := List.mem_of_getElem? hc
    have hnd : q.tables.Nodup := by
      rw [h2]
      exact newQuery_nodup b ps (ho _ hmem) (fun x hx he => hn i ⟨p, b, ps, hc, x, hx, he⟩)
    have hlow : ∀ x ∈ q.prev, x < i := fun x hx => by
      rcases hi.low i q hqi x hx with h | ⟨-, h⟩
      · exact h
      · exact absurd hnd h
    cases hp : q.phase with
    | done => simp [Settled]
    | failed => simp [Settled]
    | refused => simp [Settled]
    | running =>
      exfalso
      have h0 := hq (.finish i false) trivial
      simp only [step, hqi, hp, true_and] at h0
      rw [if_pos] at h0
      · simp at h0
      · intro c hcm hcp
        obtain ⟨k, hk⟩ := List.mem_iff_getElem?.mp hcm
        obtain ⟨p', b', ps', hc', -, -, h3⟩ := has_call hi k c hk
        have := hf _ (List.mem_of_getElem? hc')
        simp [h3, this] at hcp
        simp [hcp] at this
    | waiting =>
      exfalso
      by_cases hall : ∀ x ∈ q.prev, phaseOf s x = some .done
      · have h0 := hq (.start i) trivial
        simp only [step, hqi, hp, true_and] at h0
        rw [if_pos hall] at h0
        simp at h0
      · simp only [Classical.not_forall] at hall
        obtain ⟨x, hx, hxd⟩ := hall
        have hlt := hlow x hx
        have hl : x < s.queries.length := by have := (List.getElem?_eq_some_iff.mp hqi).1; omega
        have hset := ih x hlt _ (List.getElem?_eq_getElem hl)
        have h0 := hq (.refuse i) trivial
        simp only [step, hqi, hp, true_and] at h0
        rw [if_pos] at h0
        · simp at h0
        · refine ⟨x, hx, ?_⟩
          simp only [phaseOf, List.getElem?_eq_getElem hl, Option.map_some] at hxd ⊢
          rcases hset with h | h | h
          · exact absurd (by rw [h]) hxd
          · exact Or.inl (by rw [h])
          · exact Or.inr (by rw [h])

/-- **C58** (the part about termination): if no statement is executed inside the result function of another one, all calls return: the goroutines make at most two steps for
each call, and when they have no step left every statement has ended, or was refused.  If none of them failed, all ended with success. -/
theorem C58_progress_partial {ls : List Label} {s : St} (h : run init ls = some s) (hn : Named ls) (hf : Flat ls) (ho : Once ls) :
    (∀ (B : List Label) (s' : St), (∀ (l : Label), l ∈ B → Internal l) → run s B = some s' → B.length ≤ 2 * (calls ls).length) ∧
    (Quiet s → ∀ (i : Nat), i < (calls ls).length → .finish i true ∈ ls ∨ .finish i false ∈ ls ∨ .refuse i ∈ ls) ∧
    (Quiet s → (∀ (i : Nat), .finish i false ∉ ls) → ∀ (i : Nat), i < (calls ls).length → .finish i true ∈ ls) := by
  have hi := inv_run h
  refine ⟨fun B s' hB hr => ?_, fun hq i hl => ?_, fun hq hnf i hl => ?_⟩
  · have h1 := run_rest B s s' hB hr
    have h2 := restAll_le s.queries
    rw [hi.len] at h2
    omega
  · have hl2 : i < s.queries.length := by rw [hi.len]; exact hl
    have hs := settled_all h hn hf ho hq i _ (List.getElem?_eq_getElem hl2)
    rcases hs with hs | hs | hs
    · exact Or.inl (hi.finished i (by simp [phaseOf, List.getElem?_eq_getElem hl2, hs]))
    · exact Or.inr (Or.inl (hi.failedL i (by simp [phaseOf, List.getElem?_eq_getElem hl2, hs])))
    · exact Or.inr (Or.inr (hi.refusedL i (by simp [phaseOf, List.getElem?_eq_getElem hl2, hs])))
  · have hnr : ∀ (i : Nat), phaseOf s i ≠ some .refused := by
      intro i
      induction i using Nat.strongRecOn with
      | _ i ih =>
        intro hr
        simp only [phaseOf, Option.map_eq_some_iff] at hr
        obtain ⟨q, hqi, hr⟩ := hr
        obtain ⟨x, hx, hx2⟩ := hi.why i q hqi hr
        rcases hx2 with hx2 | hx2
        · exact hnf x (hi.failedL x hx2)
        · obtain ⟨p, b, ps, hc, -, h2, -⟩ := has_call hi i q hqi
          rcases hi.low i q hqi x hx with hlt | ⟨-, hnd⟩
          · exact ih x hlt hx2
          · exact hnd (h2 ▸ newQuery_nodup b ps (ho _ (List.mem_of_getElem? hc)) (fun x hx he => hn i ⟨p, b, ps, hc, x, hx, he⟩))
    have hl2 : i < s.queries.length := by rw [hi.len]; exact hl
    have hs := settled_all h hn hf ho hq i _ (List.getElem?_eq_getElem hl2)
    rcases hs with hs | hs | hs
    · exact hi.finished i (by simp [phaseOf, List.getElem?_eq_getElem hl2, hs])
    · exact absurd (hi.failedL i (by simp [phaseOf, List.getElem?_eq_getElem hl2, hs])) (hnf i)
    · exact absurd (by simp [phaseOf, List.getElem?_eq_getElem hl2, hs]) (hnr i)

/-! ## violations -/

theorem never {ls : List Label} (x y : Nat) (hb : Before ls x y) (hx : Label.finish x true ∉ ls) : Label.start y ∉ ls := by
  intro hm
  obtain ⟨A, B, he⟩ := List.append_of_mem hm
  exact hx (by rw [he]; simp [hb A B he])

theorem not_both {ls : List Label} {s : St} (h : run init ls = some s) (x : Nat)
    (hf : Label.finish x false ∈ ls ∨ Label.refuse x ∈ ls ∨ Label.start x ∉ ls) : Label.finish x true ∉ ls := by
  have hi := inv_run h
  intro hm
  have hd := hi.ended x hm
  rcases hf with hf | hf | hf
  · have := hi.failed x hf; rw [hd] at this; simp at this
  · have := hi.refused x hf; rw [hd] at this; simp at this
  · exact hf (hi.startedL x .done hd (by simp [Started]))

/-- **C58** is violated, in every case: after a statement that changes the database failed, no such statement called later is ever executed, and
no read of its tables. -/
theorem C58_failed_violated {ls : List Label} {s : St} (h : run init ls = some s) (hn : Named ls) (x y : Nat) (hxy : x < y) (hx : Writes ls x)
    (hf : Label.finish x false ∈ ls) :
    (Writes ls y → .start y ∉ ls) ∧ (∀ (t : String), Known ls x → Touches ls x t → Reads ls y → Touches ls y t → .start y ∉ ls) := by
  have h1 := not_both h x (Or.inl hf)
  exact ⟨fun hy => never x y (C58_writes h hn x y hxy hx hy) h1,
    fun t hk ht hy hty => never x y (C58_reads_partial h hn x y t hxy hx hk hy ht hty) h1⟩

/-- **C58** is violated, in every case: after a read of a table fails, for example because the user stops an iteration, the next statement that
changes the table is never executed; and then no statement that changes the database is executed any more. -/
theorem C58_break_violated {ls : List Label} {s : St} (h : run init ls = some s) (hn : Named ls) (x y : Nat) (t : String) (hxy : x < y)
    (hf : Label.finish x false ∈ ls) (hy : Writes ls y) (hkx : Known ls x) (hky : Known ls y) (htx : Touches ls x t) (hty : Touches ls y t)
    (hb : ∀ (z : Nat), x < z → z < y → Touches ls z t → Writes ls z) : ∀ (z : Nat), y ≤ z → Writes ls z → .start z ∉ ls := by
  have h1 := never x y (C58_write_after_read_partial h hn x y t hxy hy hkx hky htx hty hb) (not_both h x (Or.inl hf))
  intro z hz hw
  by_cases e : y = z
  · exact e ▸ h1
  · exact never y z (C58_writes h hn y z (by omega) hy hw) (not_both h y (Or.inr (Or.inr h1)))

/-- a read, a write and a write of another table, in the order of the calls -/
def sample : List Label :=
  [.call none false [.select ["a"]], .call none false [.insert "a"], .call none false [.update "b"], .call none false [.select ["b", "a"]],
    .start 0, .finish 0 true, .start 1, .finish 1 true, .start 2, .finish 2 true, .start 3, .finish 3 true]

example : (run init sample).isSome ∧ (run init (sample.take 4 ++ [.start 1])).isNone := by decide
example : (run init (sample.take 4 ++ [.start 2])).isNone ∧ (run init (sample.take 4 ++ [.start 3])).isNone := by decide
example : Writes sample 1 ∧ Writes sample 2 ∧ Reads sample 3 ∧ Known sample 1 ∧ Touches sample 1 "a" ∧ Touches sample 3 "a" :=
  ⟨⟨none, false, _, rfl, by simp [writes]⟩, ⟨none, false, _, rfl, by simp [writes]⟩, ⟨none, _, rfl, by simp [writes]⟩, ⟨none, _, rfl, by simp⟩,
    ⟨none, false, _, rfl, .insert "a", by simp, by simp [touches]⟩, ⟨none, false, _, rfl, .select ["b", "a"], by simp, by simp [touches]⟩⟩

/-- an iteration is stopped, and nothing is written any more -/
def broken : List Label :=
  [.call none false [.select ["a"]], .start 0, .finish 0 false, .call none false [.insert "a"], .refuse 1, .call none false [.update "b"], .refuse 2]

example : (run init broken).isSome ∧ Label.finish 0 false ∈ broken := by decide

/-- **C58** is violated: a table is changed while a statement called before reads it. -/
theorem C58_readers_violated :
    let ls : List Label := [.call none false [.select ["a"]], .call none false [.select ["a"]], .call none false [.insert "a"], .start 0, .start 1,
      .finish 1 true, .start 2]
    (run init ls).isSome ∧ ¬ Before ls 0 2 := by
  refine ⟨by decide, fun h => ?_⟩
  have := h [.call none false [.select ["a"]], .call none false [.select ["a"]], .call none false [.insert "a"], .start 0, .start 1, .finish 1 true] []
    rfl
  simp at this

/-- **C58** is violated: a read does not wait for the creation of the table together with an index. -/
theorem C58_script_violated :
    let ls : List Label := [.call none false [.createTable "a", .unknown], .call none false [.select ["a"]], .start 1]
    (run init ls).isSome ∧ ¬ Before ls 0 1 := by
  refine ⟨by decide, fun h => ?_⟩
  have := h [.call none false [.createTable "a", .unknown], .call none false [.select ["a"]]] [] rfl
  simp at this

theorem quiet_of (s : St) (h : ∀ i < s.queries.length, step s (.start i) = none ∧ step s (.finish i true) = none ∧ step s (.finish i false) = none ∧
    step s (.refuse i) = none) : Quiet s := by
  intro l hl
  have hn : ∀ i, ¬ i < s.queries.length → s.queries[i]? = none := by intro i hi; simp; omega
  cases l with
  | call => exact hl.elim
  | start i => by_cases hi : i < s.queries.length
               · exact (h i hi).1
               · simp [step, hn i hi]
  | finish i ok => by_cases hi : i < s.queries.length
                   · cases ok
                     · exact (h i hi).2.2.1
                     · exact (h i hi).2.1
                   · simp [step, hn i hi]
  | refuse i => by_cases hi : i < s.queries.length
                · exact (h i hi).2.2.2
                · simp [step, hn i hi]

/-- **C58** is violated: if the result function of a read executes statements, as when objects of a list are created, and other goroutines write
at the same time, all of them wait for ever. -/
theorem C58_nested_violated :
    ∃ s, run init [.call none false [.select ["list"]], .start 0, .call none false [.insert "list"], .call none false [.insert "objects"],
      .call (some 0) false [.select ["objects"]]] = some s ∧ Quiet s ∧ s.queries.map (·.phase) = [.running, .waiting, .waiting, .waiting] := by
  refine ⟨_, rfl, quiet_of _ ?_, by decide⟩
  decide

/-- **C58** is violated: a call that changes a table twice waits for itself. -/
theorem C58_twice_violated :
    ∃ s, run init [.call none false [.insert "a", .delete "a"]] = some s ∧ Quiet s ∧ s.queries.map (·.phase) = [.waiting] := by
  refine ⟨_, rfl, quiet_of _ ?_, by decide⟩
  decide

end Verif.SQLQueries
