import Verif.Spec.SQLPending
import Verif.Proofs.SQLScheduler

/-!
# Proofs about pending reads
-/

namespace Verif.SQLPending

open SQLScheduler

theorem decode_bind {k : Kind} {v : Val} (h : OfKind k v) : decode k (bind v) = v := by
  cases k <;> cases v <;> simp_all [OfKind, bind, decode]

theorem same_bind {k : Kind} {v d : Val} (hv : OfKind k v) (hd : OfKind k d) (h : v ≠ d) : same (bind v) d = false := by
  cases k <;> cases v <;> simp only [OfKind] at hv <;> cases d <;> simp_all [OfKind, bind, same]

theorem same_self {k : Kind} {d : Val} (hd : OfKind k d) (h : k ≠ .bool ∧ k ≠ .int ∧ ∀ o, d ≠ .obj o) : same (bind d) d = true := by
  cases k <;> cases d <;> simp_all [OfKind, bind, same]

/-- what a call stores in a feature -/
def stored (fs : Area → Feature) (k : Area) : Api → Option Val
  | .set o f v => if k = ⟨some o, some f⟩ then some v else none
  | .unSet o f => if k = ⟨some o, some f⟩ then some (fs k).default else none
  | _ => none

theorem lastStored_cons (fs : Area → Feature) (k : Area) (a : Api) (as : List Api) :
    lastStored fs k (a :: as) = (lastStored fs k as).or (stored fs k a) := by
  cases a <;> simp [lastStored, stored]

theorem lastStored_append (fs : Area → Feature) (k : Area) (as bs : List Api) :
    lastStored fs k (as ++ bs) = (lastStored fs k bs).or (lastStored fs k as) := by
  induction as with
  | nil => simp [lastStored]
  | cons a as ih => rw [List.cons_append, lastStored_cons, ih, lastStored_cons, Option.or_assoc]

theorem lastStored_none {fs : Area → Feature} {k : Area} {as : List Api} (h : ∀ a ∈ as, stored fs k a = none) :
    lastStored fs k as = none := by
  induction as with
  | nil => rfl
  | cons a as ih => rw [lastStored_cons, ih (fun a ha => h a (by simp [ha])), h a (by simp)]; rfl

theorem lastStored_some {fs : Area → Feature} {k : Area} {as : List Api} {m : Nat} {a : Api} {v : Val} (h : as[m]? = some a)
    (hv : stored fs k a = some v) (hm : ∀ (j : Nat) (b : Api), m < j → as[j]? = some b → stored fs k b = none) : lastStored fs k as = some v := by
  induction as generalizing m with
  | nil => simp at h
  | cons x as ih =>
    rw [lastStored_cons]
    cases m with
    | zero =>
      simp at h
      subst h
      rw [lastStored_none, hv]; rfl
      intro b hb
      obtain ⟨j, hj⟩ := List.mem_iff_getElem?.mp hb
      exact hm (j + 1) b (by omega) (by simpa using hj)
    | succ m =>
      rw [ih (m := m) (by simpa using h) (fun j b hj hb => hm (j + 1) b (by omega) (by simpa using hb))]
      rfl

theorem exists_last (p : Nat → Prop) (n : Nat) : (∀ i, i < n → ¬ p i) ∨ ∃ m, m < n ∧ p m ∧ ∀ j, m < j → j < n → ¬ p j := by
  induction n with
  | zero => left; intro i hi; omega
  | succ n ih =>
    by_cases hp : p n
    · right; exact ⟨n, by omega, hp, fun j h1 h2 => by omega⟩
    · rcases ih with h | ⟨m, h1, h2, h3⟩
      · left; intro i hi
        by_cases he : i = n
        · subst he; exact hp
        · exact h i (by omega)
      · right; refine ⟨m, by omega, h2, fun j h4 h5 => ?_⟩
        by_cases he : j = n
        · subst he; exact hp
        · exact h3 j h4 (by omega)

/-- the last call that stores in a feature -/
theorem lastStored_cases (fs : Area → Feature) (k : Area) (as : List Api) : lastStored fs k as = none ∨
    ∃ m a v, as[m]? = some a ∧ stored fs k a = some v ∧ lastStored fs k as = some v ∧
      ∀ (j : Nat) (b : Api), m < j → as[j]? = some b → stored fs k b = none := by
  rcases exists_last (fun i => ∃ a, as[i]? = some a ∧ stored fs k a ≠ none) as.length with h | ⟨m, h1, ⟨a, h2, h3⟩, h4⟩
  · left
    apply lastStored_none
    intro a ha
    obtain ⟨j, hj⟩ := List.mem_iff_getElem?.mp ha
    apply Classical.byContradiction
    intro hc
    exact h j (List.getElem?_eq_some_iff.mp hj).1 ⟨a, hj, hc⟩
  · right
    obtain ⟨v, hv⟩ := Option.ne_none_iff_exists'.mp h3
    have hl : ∀ (j : Nat) (b : Api), m < j → as[j]? = some b → stored fs k b = none := by
      intro j b hj hb
      apply Classical.byContradiction
      intro hc
      exact h4 j hj (List.getElem?_eq_some_iff.mp hb).1 ⟨b, hb, hc⟩
    exact ⟨m, a, v, h2, hv, lastStored_some h2 hv hl, hl⟩

theorem answers_append (fs : Area → Feature) (before as : List Api) (a : Api) :
    answers fs before (as ++ [a]) = answers fs before as ++ answer fs (before ++ as) a := by
  induction as generalizing before with
  | nil => simp [answers]
  | cons x as ih => simp only [List.cons_append, answers, ih, List.append_assoc, List.nil_append]

/-- results are as expected; those of `IsSet` if `B` -/
def Agree (B : Prop) (r : List Result) (e : List (Option Result)) : Prop :=
  r.length = e.length ∧ ∀ (i : Nat) (x y : Result), r[i]? = some x → e[i]? = some (some y) → ((∃ v, y = .value v) ∨ B) → x = y

theorem Agree.snoc {B : Prop} {r : List Result} {e : List (Option Result)} (h : Agree B r e) (x : Result) (y : Option Result)
    (hxy : ∀ z, y = some z → ((∃ v, z = .value v) ∨ B) → x = z) : Agree B (r ++ [x]) (e ++ [y]) := by
  refine ⟨by simp [h.1], ?_⟩
  intro i a b ha hb hB
  have hlen := h.1
  by_cases hi : i < r.length
  · rw [List.getElem?_append_left hi] at ha
    rw [List.getElem?_append_left (by omega)] at hb
    exact h.2 i a b ha hb hB
  · rw [List.getElem?_append_right (by omega), List.getElem?_singleton] at ha
    rw [List.getElem?_append_right (by omega), List.getElem?_singleton] at hb
    split at ha
    · simp only [Option.some.injEq] at ha
      split at hb
      · simp only [Option.some.injEq] at hb
        subst ha
        exact hxy b hb hB
      · simp at hb
    · simp at ha

/-- the client waits for these calls -/
def Sync : Api → Prop
  | .get _ _ => True
  | .isSet _ _ => True
  | .unSet _ _ => True
  | _ => False

/-- the invariant -/
structure CInv (fs : Area → Feature) (C pre : List Api) (ls : List Label) (c : Client) : Prop where
  inv : Inv ls c.sched
  nt : NoTimeout ls
  calls : calls ls = c.apis.map Api.call
  sub : ∀ a ∈ c.apis, a ∈ C
  phases : ∀ (i : Nat) (op : Op), c.sched.ops[i]? = some op → op.phase ≠ .failed ∧ op.phase ≠ .refused
  db : ∀ (i : Nat) (a : Api) (k : Area) (v : Val), c.apis[i]? = some a → stored fs k a = some v → phase c.sched i = some .done →
    (∀ (j : Nat) (b : Api), i < j → c.apis[j]? = some b → stored fs k b ≠ none → phase c.sched j ≠ some .done) → c.db k = some (bind v)
  sync : ∀ (i : Nat) (a : Api), c.apis[i]? = some a → Sync a → phase c.sched i = some .done ∨ c.waiting = some i
  wait : ∀ i, c.waiting = some i → i + 1 = c.apis.length ∧ phase c.sched i ≠ some .done
  last : ∀ k, lastStored fs k pre = lastStored fs k c.apis
  free : c.waiting = none → Agree (NoDefault fs C) c.results (answers fs [] pre)
  busy : ∀ i, c.waiting = some i → ∃ pre' a, pre = pre' ++ [a] ∧ c.apis[i]? = some a ∧ Agree (NoDefault fs C) c.results (answers fs [] pre')

theorem cinv_start (fs : Area → Feature) (C : List Api) : CInv fs C [] [] start := by
  refine ⟨inv_init, by simp [NoTimeout], rfl, by simp [start], by simp [start, init], by simp [start], by simp [start], by simp [start],
    by simp [start], ?_, by simp [start]⟩
  intro _
  simp [Agree, start, answers]

variable {fs : Area → Feature} {C pre : List Api} {ls : List Label} {c : Client}

theorem CInv.len (h : CInv fs C pre ls c) : c.sched.ops.length = c.apis.length := by
  rw [h.inv.len, h.calls, List.length_map]

theorem CInv.op (h : CInv fs C pre ls c) {i : Nat} {a : Api} (hi : c.apis[i]? = some a) :
    ∃ op, c.sched.ops[i]? = some op ∧ (SQLScheduler.calls ls)[i]? = some a.call ∧ op.write = a.call.write := by
  have hl : i < c.sched.ops.length := by rw [h.len]; exact (List.getElem?_eq_some_iff.mp hi).1
  have hc : (SQLScheduler.calls ls)[i]? = some a.call := by rw [h.calls, List.getElem?_map, hi]; rfl
  exact ⟨_, List.getElem?_eq_getElem hl, hc, h.inv.write i _ _ (List.getElem?_eq_getElem hl) hc⟩

theorem stored_call {k : Area} {a : Api} (h : stored fs k a ≠ none) : a.call.write = true ∧ k = ⟨a.call.object, a.call.feature⟩ ∧
    a.call.object ≠ none := by
  cases a <;> simp [stored] at h <;> simp [Api.call, h]

/-- the key of a call is registered -/
theorem CInv.key (h : CInv fs C pre ls c) {i : Nat} {a : Api} (hi : c.apis[i]? = some a) {op : Op} (ho : c.sched.ops[i]? = some op)
    (hn : a.call.object ≠ none) : (⟨a.call.object, a.call.feature⟩ : Area) ∈ op.keys := by
  obtain ⟨op', h1, h2, -⟩ := h.op hi
  rw [ho] at h1
  injection h1 with h1
  subst h1
  have := h.inv.own i op a.call ho h2 _ (Or.inl rfl)
  simpa [norm, hn] using this

/-- a finished write comes after the earlier ones -/
theorem CInv.order (h : CInv fs C pre ls c) {i j : Nat} {a b : Api} {k : Area} (hij : i < j) (hi : c.apis[i]? = some a)
    (hj : c.apis[j]? = some b) (ha : stored fs k a ≠ none) (hk : k = ⟨b.call.object, b.call.feature⟩)
    (hs : ∀ ph, phase c.sched j = some ph → Started ph) : phase c.sched i = some .done := by
  obtain ⟨oi, i1, i2, i3⟩ := h.op hi
  obtain ⟨oj, j1, j2, j3⟩ := h.op hj
  obtain ⟨w1, w2, w3⟩ := stored_call ha
  have ki := h.key hi i1 w3
  have kj := h.key hj j1 (by rw [w2] at hk; injection hk with h1 h2; rw [← h1]; exact w3)
  have := settled h.inv h.nt j i oi oj k hij i1 j1 (by rw [i3]; exact w1) (by rw [w2]; exact ki) (by rw [hk]; exact kj)
    (hs oj.phase (by simp [phase, j1]))
  rcases this with h' | h'
  · simp [phase, i1, h']
  · exact absurd h' (h.phases i oi i1).1

/-- a call is scheduled -/
theorem cinv_schedule (h : CInv fs C pre ls c) (a : Api) (ha : a ∈ C) (hw : c.waiting = none) (wait : Bool) (hsync : Sync a ↔ wait = true)
    (hans : wait = false → answer fs pre a = []) : CInv fs C (pre ++ [a]) (ls ++ [.call a.call]) (schedule c a wait) := by
  have hinv : Inv (ls ++ [.call a.call]) (call c.sched a.call) := inv_step h.inv (l := .call a.call) rfl
  have hlen := h.len
  have hcalls : SQLScheduler.calls (ls ++ [.call a.call]) = (c.apis ++ [a]).map Api.call := by
    rw [calls_append, h.calls]; simp [SQLScheduler.calls]
  have hops : ∀ (i : Nat) (op : Op), (call c.sched a.call).ops[i]? = some op →
      (i < c.apis.length ∧ c.sched.ops[i]? = some op) ∨ (i = c.apis.length ∧ op.phase = .waiting) := by
    intro i op hi
    simp only [call] at hi
    rw [List.getElem?_append] at hi
    split at hi
    · exact Or.inl ⟨by omega, hi⟩
    · rw [List.getElem?_singleton] at hi
      split at hi
      · right; injection hi with hi; subst hi; exact ⟨by omega, rfl⟩
      · simp at hi
  have hph : ∀ i, i < c.apis.length → phase (call c.sched a.call) i = phase c.sched i := by
    intro i hi
    simp only [phase, call]
    rw [List.getElem?_append_left (by omega)]
  have hnew : phase (call c.sched a.call) c.apis.length ≠ some .done := by
    simp [phase, call, ← hlen]
  have hap : ∀ (i : Nat) (b : Api), (c.apis ++ [a])[i]? = some b → (i < c.apis.length ∧ c.apis[i]? = some b) ∨ (i = c.apis.length ∧ b = a) := by
    intro i b hi
    rw [List.getElem?_append] at hi
    split at hi
    · exact Or.inl ⟨by assumption, hi⟩
    · rw [List.getElem?_singleton] at hi
      split at hi
      · right; injection hi with hi; exact ⟨by omega, hi.symm⟩
      · simp at hi
  refine ⟨hinv, ?_, hcalls, ?_, ?_, ?_, ?_, ?_, ?_, ?_, ?_⟩
  · intro j hj; simp at hj; exact h.nt j hj
  · intro b hb
    simp only [schedule, List.mem_append, List.mem_singleton] at hb
    rcases hb with hb | rfl
    · exact h.sub b hb
    · exact ha
  · intro i op hi
    rcases hops i op hi with ⟨-, h2⟩ | ⟨-, h2⟩
    · exact h.phases i op h2
    · simp [h2]
  · intro i b k v hi hst hd hmax
    simp only [schedule] at hi hd hmax ⊢
    rcases hap i b hi with ⟨h1, h2⟩ | ⟨rfl, rfl⟩
    · rw [hph i h1] at hd
      refine h.db i b k v h2 hst hd ?_
      intro j b' hj hb' hs' hd'
      have hjl := (List.getElem?_eq_some_iff.mp hb').1
      refine hmax j b' hj (by rw [List.getElem?_append_left hjl]; exact hb') hs' ?_
      rw [hph j hjl]; exact hd'
    · exact absurd hd hnew
  · intro i b hi hs
    simp only [schedule] at hi ⊢
    rcases hap i b hi with ⟨h1, h2⟩ | ⟨rfl, rfl⟩
    · left
      rw [hph i h1]
      rcases h.sync i b h2 hs with h3 | h3
      · exact h3
      · rw [hw] at h3; simp at h3
    · right
      rw [if_pos (hsync.1 hs), hlen]
  · intro i hi
    simp only [schedule] at hi ⊢
    split at hi
    · injection hi with hi
      subst hi
      rw [hlen]
      exact ⟨by simp, hnew⟩
    · simp at hi
  · intro k
    simp only [schedule]
    rw [lastStored_append, lastStored_append, h.last k]
  · intro hwn
    simp only [schedule] at hwn ⊢
    cases wait with
    | true => simp at hwn
    | false =>
      rw [answers_append, List.nil_append, hans rfl, List.append_nil]
      exact h.free hw
  · intro i hi
    simp only [schedule] at hi ⊢
    split at hi
    · injection hi with hi
      subst hi
      exact ⟨pre, a, rfl, by simp [hlen], h.free hw⟩
    · simp at hi

/-- the pending write found is the last one -/
theorem CInv.pending (h : CInv fs C pre ls c) (hS : Simple fs C) (hw : c.waiting = none) {o f id : Nat} {a : Api} (ha : a ∈ C)
    (hao : a.object = some o) (hl : lastOperation c.sched ⟨some o, some f⟩ = some id) :
    ∃ v, c.apis[id]? = some (.set o f v) ∧ lastStored fs ⟨some o, some f⟩ pre = some v := by
  simp only [lastOperation] at hl
  have hmem : id ∈ get c.sched.queues ⟨some o, some f⟩ := by
    have := List.mem_of_find?_eq_some hl
    simpa using this
  have hwr : writes c.sched.ops id = true := List.find?_some hl
  have hidl : id < c.sched.ops.length := by
    apply Classical.byContradiction
    intro hc
    exact h.inv.fresh id (by omega) _ hmem
  obtain ⟨op, hop⟩ : ∃ op, c.sched.ops[id]? = some op := ⟨_, List.getElem?_eq_getElem hidl⟩
  obtain ⟨b, hb⟩ : ∃ b, c.apis[id]? = some b := ⟨_, List.getElem?_eq_getElem (by rw [← h.len]; exact hidl)⟩
  obtain ⟨op', o1, o2, o3⟩ := h.op hb
  rw [hop] at o1
  injection o1 with o1
  subst o1
  have hbC : b ∈ C := h.sub b (List.mem_of_getElem? hb)
  -- the keys of a registered operation
  have hkey : ∀ (j : Nat) (oj : Op), c.sched.ops[j]? = some oj → (⟨some o, some f⟩ : Area) ∈ oj.keys →
      ∀ bj, c.apis[j]? = some bj → bj.call.object = some o ∧ bj.call.feature = some f := by
    intro j oj hj hk bj hbj
    obtain ⟨oj', j1, j2, j3⟩ := h.op hbj
    rw [hj] at j1
    injection j1 with j1
    subst j1
    obtain ⟨ar, har, hwi⟩ := h.inv.within j oj bj.call hj j2 _ hk
    have hbjC : bj ∈ C := h.sub bj (List.mem_of_getElem? hbj)
    rcases har with rfl | ⟨hne, x, hx, rfl⟩ | ⟨hv1, hv2, rfl⟩
    · have hobj : bj.call.object ≠ none ∧ bj.call.feature ≠ none := by
        have := hS.calls bj hbjC
        cases bj <;> simp [Api.call] at this ⊢
      simp only [Within] at hwi
      grind
    · exfalso
      have : bj.call.contents = [] := by cases bj <;> rfl
      simp [this] at hx
    · exfalso
      obtain ⟨v, hv⟩ := Option.ne_none_iff_exists'.mp hv1
      have hoth : bj.other = some v := by simp only [Api.other, if_neg hv2]; exact hv
      have := hS.objects bj hbjC v hoth a ha
      simp only [Within, hv] at hwi
      rw [hao] at this
      simp at hwi
      simp [hwi] at this
  have hreg : ∀ k, (get c.sched.queues k).count id = op.keys.count k := by
    rcases h.inv.reg id op hop with hr | ⟨hr, -⟩
    · exact hr
    · exact absurd hmem (hr _)
  have hkm : (⟨some o, some f⟩ : Area) ∈ op.keys := by
    have : 0 < (get c.sched.queues ⟨some o, some f⟩).count id := List.count_pos_iff.mpr hmem
    rw [hreg] at this
    exact List.count_pos_iff.mp this
  obtain ⟨k1, k2⟩ := hkey id op hop hkm b hb
  have hbw : b.call.write = true := by
    rw [← o3]
    simpa [writes, hop] using hwr
  have hnd : phase c.sched id ≠ some .done := by
    intro hd
    simp [phase, hop] at hd
    exact h.inv.done id op hop hd _ hmem
  -- it is a `Set`
  have hset : ∃ v, b = .set o f v := by
    cases b with
    | get => simp [Api.call] at hbw
    | isSet => simp [Api.call] at hbw
    | set o' f' v => simp [Api.call] at k1 k2; exact ⟨v, by rw [k1, k2]⟩
    | unSet =>
      rcases h.sync id _ hb trivial with hd | hd
      · exact absurd hd hnd
      · rw [hw] at hd; simp at hd
    | setContainer => exact absurd rfl ((hS.calls _ hbC).2 _ _ _)
    | addRoot => exact absurd rfl (hS.calls _ hbC).1
  obtain ⟨v, rfl⟩ := hset
  refine ⟨v, hb, ?_⟩
  rw [h.last]
  refine lastStored_some hb (v := v) (by simp [stored]) ?_
  intro j bj hij hbj
  apply Classical.byContradiction
  intro hst
  obtain ⟨oj, j1, j2, j3⟩ := h.op hbj
  obtain ⟨s1, s2, s3⟩ := stored_call hst
  have hkj := h.key hbj j1 s3
  rw [← s2] at hkj
  by_cases hjm : j ∈ get c.sched.queues ⟨some o, some f⟩
  · obtain ⟨p, p1, p2⟩ := find_ge (writes c.sched.ops) (h.inv.sorted ⟨some o, some f⟩).1 hjm (by simp [writes, j1, j3, s1])
    rw [hl] at p1
    injection p1 with p1
    omega
  · have hjd : phase c.sched j = some .done := by
      rcases h.inv.reg j oj j1 with hr | ⟨-, hr | hr⟩
      · have : 0 < oj.keys.count ⟨some o, some f⟩ := List.count_pos_iff.mpr hkj
        rw [← hr] at this
        exact absurd (List.count_pos_iff.mp this) hjm
      · simp [phase, j1, hr]
      · exact absurd hr (h.phases j oj j1).1
    have := h.order (k := ⟨some o, some f⟩) hij hb hbj (by simp [stored]) s2 (by rw [hjd]; rintro ph ⟨⟩; trivial)
    exact hnd this

theorem phase_setOp (s : St) (q : Queues) (id : Nat) (op op' : Op) (ho : s.ops[id]? = some op) (j : Nat) :
    phase ⟨q, s.ops.set id op'⟩ j = if j = id then some op'.phase else phase s j := by
  have := (List.getElem?_eq_some_iff.mp ho).1
  simp only [phase, List.getElem?_set]
  by_cases h : id = j
  · subst h; simp [this]
  · simp [h, Ne.symm h]

theorem start_phase {s s' : St} {id : Nat} (h : SQLScheduler.step s (.start id) = some s') :
    (∀ j, phase s' j = if j = id then some .running else phase s j) ∧ phase s id = some .waiting ∧ s'.ops.length = s.ops.length := by
  simp only [SQLScheduler.step] at h
  cases ho : s.ops[id]? with
  | none => simp [ho] at h
  | some op =>
    simp only [ho] at h
    split at h
    · rename_i hc
      injection h with h
      subst h
      simp only [setOp]
      rw [modify_set ho]
      exact ⟨fun j => phase_setOp s _ id op _ ho j, by simp [phase, ho, hc.1], by simp⟩
    · simp at h

theorem finish_phase {ls : List Label} {s s' : St} {id : Nat} (hi : Inv ls s) (h : SQLScheduler.step s (.finish id .ok) = some s') :
    (∀ j, phase s' j = if j = id then some .done else phase s j) ∧ phase s id = some .running ∧ s'.ops.length = s.ops.length := by
  simp only [SQLScheduler.step] at h
  cases ho : s.ops[id]? with
  | none => simp [ho] at h
  | some op =>
    simp only [ho] at h
    split at h
    · rename_i hc
      have hreg : ∀ k, (get s.queues k).count id = op.keys.count k := by
        rcases hi.reg id op ho with h1 | ⟨-, h1⟩
        · exact h1
        · simp [hc] at h1
      obtain ⟨u4, u5⟩ := unregisterAll_own id op.keys s.queues hreg
      simp only [reduceCtorEq, ↓reduceIte, u4, or_self] at h
      injection h with h
      subst h
      simp only [setOp]
      rw [modify_set ho]
      refine ⟨fun j => ?_, by simp [phase, ho, hc], by simp⟩
      rw [phase_setOp s _ id op _ ho j]
    · simp at h

theorem phases_of {s : St} (h : ∀ j, phase s j ≠ some .failed ∧ phase s j ≠ some .refused) (i : Nat) (op : Op) (ho : s.ops[i]? = some op) :
    op.phase ≠ .failed ∧ op.phase ≠ .refused := by
  have := h i
  simp only [phase, ho, Option.map_some, ne_eq, Option.some.injEq] at this
  exact this

theorem CInv.phases' (h : CInv fs C pre ls c) (j : Nat) : phase c.sched j ≠ some .failed ∧ phase c.sched j ≠ some .refused := by
  simp only [phase]
  cases ho : c.sched.ops[j]? with
  | none => simp
  | some op => have := h.phases j op ho; simpa using this

/-- the result of an executed read -/
theorem CInv.executed (h : CInv fs C pre ls c) (hS : Simple fs C) {id : Nat} {a : Api} (ha : c.apis[id]? = some a) (hw : c.waiting = some id)
    (hrun : phase c.sched id = some .running) (r : List Result) (pre' : List Api) (hpre : pre = pre' ++ [a])
    (hag : Agree (NoDefault fs C) r (answers fs [] pre')) : Agree (NoDefault fs C) (r ++ result fs c.db a) (answers fs [] pre) := by
  have hlast : id + 1 = c.apis.length := (h.wait id hw).1
  -- the column of a feature that was set
  have hcol : ∀ k : Area, k = ⟨a.call.object, a.call.feature⟩ → stored fs k a = none → ∀ v, lastStored fs k pre' = some v →
      c.db k = some (bind v) ∧ ((∃ o f, k = ⟨some o, some f⟩ ∧ Api.set o f v ∈ C) ∨
        ∃ o f, k = ⟨some o, some f⟩ ∧ Api.unSet o f ∈ C ∧ v = (fs k).default) := by
    intro k hk hsa v hv
    have hv' : lastStored fs k c.apis = some v := by
      rw [← h.last k, hpre, lastStored_append, lastStored_cons, hsa, hv]; rfl
    rcases lastStored_cases fs k c.apis with h0 | ⟨m, b, w, m1, m2, m3, m4⟩
    · rw [h0] at hv'; simp at hv'
    · rw [m3] at hv'
      injection hv' with hv'
      subst hv'
      have hml := (List.getElem?_eq_some_iff.mp m1).1
      have hmid : m < id := by
        by_cases he : m = id
        · subst he
          rw [ha] at m1
          injection m1 with m1
          subst m1
          rw [hsa] at m2
          simp at m2
        · omega
      have hmd := h.order hmid m1 ha (by rw [m2]; simp) hk (by rw [hrun]; rintro ph ⟨⟩; trivial)
      refine ⟨h.db m b k w m1 m2 hmd ?_, ?_⟩
      · intro j b' hj hb' hs'
        exact absurd (m4 j b' hj hb') hs'
      · have hbC := h.sub b (List.mem_of_getElem? m1)
        cases b with
        | set o f v' =>
          simp only [stored] at m2
          split at m2
          · rename_i hk'
            injection m2 with m2
            subst m2
            exact Or.inl ⟨o, f, hk', hbC⟩
          · simp at m2
        | unSet o f =>
          simp only [stored] at m2
          split at m2
          · rename_i hk'
            injection m2 with m2
            exact Or.inr ⟨o, f, hk', hbC, m2.symm⟩
          · simp at m2
        | get => simp [stored] at m2
        | isSet => simp [stored] at m2
        | setContainer => simp [stored] at m2
        | addRoot => simp [stored] at m2
  rw [hpre, answers_append, List.nil_append]
  cases a with
  | get o f =>
    have hres : ∃ x, result fs c.db (.get o f) = [x] ∧
        ∀ raw, c.db ⟨some o, some f⟩ = some raw → x = .value (decode (fs ⟨some o, some f⟩).kind raw) := by
      simp only [result]
      cases c.db ⟨some o, some f⟩ with
      | none => exact ⟨_, rfl, by simp⟩
      | some raw => exact ⟨_, rfl, by simp⟩
    obtain ⟨x, hx, hx'⟩ := hres
    rw [hx]
    simp only [answer]
    refine hag.snoc x _ ?_
    intro z hz _
    cases hv : lastStored fs ⟨some o, some f⟩ pre' with
    | none => simp [hv] at hz
    | some v =>
      simp [hv] at hz
      subst hz
      obtain ⟨h1, h2⟩ := hcol ⟨some o, some f⟩ rfl rfl v hv
      rw [hx' _ h1]
      rcases h2 with ⟨o', f', hk, hC⟩ | ⟨o', f', hk, hC, hd⟩
      · injection hk with ho hf
        injection ho with ho
        injection hf with hf
        subst ho hf
        rw [decode_bind (hS.values o f v hC)]
      · injection hk with ho hf
        injection ho with ho
        injection hf with hf
        subst ho hf
        rw [hd, decode_bind (hS.defaults _)]
  | isSet o f =>
    have hres : ∃ x, result fs c.db (.isSet o f) = [x] ∧
        ∀ raw, c.db ⟨some o, some f⟩ = some raw → x = .bool (!same raw (fs ⟨some o, some f⟩).default) := by
      simp only [result]
      cases c.db ⟨some o, some f⟩ with
      | none => exact ⟨_, rfl, by simp⟩
      | some raw => exact ⟨_, rfl, by simp⟩
    obtain ⟨x, hx, hx'⟩ := hres
    rw [hx]
    simp only [answer]
    refine hag.snoc x _ ?_
    intro z hz hB
    cases hv : lastStored fs ⟨some o, some f⟩ pre' with
    | none => simp [hv] at hz
    | some v =>
      simp [hv] at hz
      subst hz
      have hN : NoDefault fs C := by rcases hB with ⟨v', hv'⟩ | hB; simp at hv'; exact hB
      obtain ⟨h1, h2⟩ := hcol ⟨some o, some f⟩ rfl rfl v hv
      rw [hx' _ h1]
      rcases h2 with ⟨o', f', hk, hC⟩ | ⟨o', f', hk, hC, hd⟩
      · injection hk with ho hf
        injection ho with ho
        injection hf with hf
        subst ho hf
        obtain ⟨n2, n3⟩ := hN.values o f v hC
        simp [same_bind (hS.values o f v hC) (hS.defaults _) n3, n3]
      · injection hk with ho hf
        injection ho with ho
        injection hf with hf
        subst ho hf
        rw [hd]
        simp [same_self (hS.defaults _) (hN.defaults o f hC)]
  | set => simpa [answer, result] using hag
  | unSet => simpa [answer, result] using hag
  | setContainer => simpa [answer, result] using hag
  | addRoot => simpa [answer, result] using hag

theorem cinv_step (h : CInv fs C pre ls c) (hS : Simple fs C) {e : Event} {c' : Client} (hs : step fs c e = some c')
    (he : ∀ a, e = .api a → a ∈ C) : ∃ ls', CInv fs C (pre ++ apiCalls [e]) ls' c' := by
  cases e with
  | api a =>
    have haC := he a rfl
    simp only [step] at hs
    split at hs
    · simp at hs
    · rename_i hw
      have hw : c.waiting = none := by simpa using hw
      have hpre : pre ++ apiCalls [.api a] = pre ++ [a] := rfl
      rw [hpre]
      cases a with
      | get o f =>
        simp only at hs
        cases hl : lastOperation c.sched ⟨some o, some f⟩ with
        | none =>
          simp only [hl, Option.some.injEq] at hs
          subst hs
          exact ⟨_, cinv_schedule h _ haC hw true (by simp [Sync]) (by simp)⟩
        | some id =>
          simp only [hl, Option.some.injEq] at hs
          subst hs
          obtain ⟨v, h1, h2⟩ := h.pending hS hw haC rfl hl
          refine ⟨ls, h.inv, h.nt, h.calls, h.sub, h.phases, h.db, h.sync, h.wait, ?_, fun _ => ?_, fun i hi => ?_⟩
          · intro k; rw [lastStored_append, lastStored_cons, h.last k]; rfl
          · simp only [h1, Option.map_some, Option.getD_some, Api.value]
            rw [answers_append, List.nil_append]
            exact (h.free hw).snoc _ _ (by rintro z hz -; simp [h2] at hz; exact hz)
          · simp only [hw] at hi; simp at hi
      | isSet o f =>
        simp only at hs
        cases hl : lastOperation c.sched ⟨some o, some f⟩ with
        | none =>
          simp only [hl, Option.some.injEq] at hs
          subst hs
          exact ⟨_, cinv_schedule h _ haC hw true (by simp [Sync]) (by simp)⟩
        | some id =>
          simp only [hl, Option.some.injEq] at hs
          subst hs
          obtain ⟨v, h1, h2⟩ := h.pending hS hw haC rfl hl
          refine ⟨ls, h.inv, h.nt, h.calls, h.sub, h.phases, h.db, h.sync, h.wait, ?_, fun _ => ?_, fun i hi => ?_⟩
          · intro k; rw [lastStored_append, lastStored_cons, h.last k]; rfl
          · simp only [h1, Option.map_some, Option.getD_some, Api.value]
            rw [answers_append, List.nil_append]
            refine (h.free hw).snoc _ _ ?_
            intro z hz hB
            simp [h2] at hz
            subst hz
            have hN : NoDefault fs C := by rcases hB with ⟨v', hv'⟩ | hB; simp at hv'; exact hB
            obtain ⟨n1, n3⟩ := hN.values o f v (h.sub _ (List.mem_of_getElem? h1))
            simp [n1, n3]
          · simp only [hw] at hi; simp at hi
      | set o f v =>
        simp only [Option.some.injEq] at hs
        subst hs
        exact ⟨_, cinv_schedule h _ haC hw false (by simp [Sync]) (by simp [answer])⟩
      | unSet o f =>
        simp only [Option.some.injEq] at hs
        subst hs
        exact ⟨_, cinv_schedule h _ haC hw true (by simp [Sync]) (by simp)⟩
      | setContainer o x f =>
        simp only [Option.some.injEq] at hs
        subst hs
        exact ⟨_, cinv_schedule h _ haC hw false (by simp [Sync]) (by simp [answer])⟩
      | addRoot =>
        simp only [Option.some.injEq] at hs
        subst hs
        exact ⟨_, cinv_schedule h _ haC hw false (by simp [Sync]) (by simp [answer])⟩
  | start id =>
    simp only [step] at hs
    cases hst : SQLScheduler.step c.sched (.start id) with
    | none => simp [hst] at hs
    | some s' =>
      simp only [hst, Option.map_some, Option.some.injEq] at hs
      subst hs
      obtain ⟨h1, h2, h3⟩ := start_phase hst
      have hdone : ∀ j, phase s' j = some .done ↔ phase c.sched j = some .done := by
        intro j
        rw [h1 j]
        split
        · rename_i hj; subst hj; rw [h2]; simp
        · rfl
      have hpre : pre ++ apiCalls [.start id] = pre := by simp [apiCalls]
      rw [hpre]
      refine ⟨ls ++ [.start id], inv_step h.inv hst, ?_, ?_, h.sub, ?_, ?_, ?_, ?_, h.last, h.free, h.busy⟩
      · intro j hj; simp at hj; exact h.nt j hj
      · rw [calls_append, h.calls]; simp [SQLScheduler.calls]
      · apply phases_of
        intro j
        rw [h1 j]
        split
        · simp
        · exact h.phases' j
      · intro i a k v hi hst' hd hmax
        refine h.db i a k v hi hst' ((hdone i).1 hd) ?_
        intro j b hj hb hsb
        rw [Ne, ← hdone j]
        exact hmax j b hj hb hsb
      · intro i a hi hsy
        rw [hdone i]
        exact h.sync i a hi hsy
      · intro i hi
        rw [Ne, hdone i]
        exact h.wait i hi
  | finish id =>
    simp only [step] at hs
    cases hst : SQLScheduler.step c.sched (.finish id .ok) with
    | none => simp [hst] at hs
    | some s' =>
      cases ha : c.apis[id]? with
      | none => simp [hst, ha] at hs
      | some a =>
        simp only [hst, ha, Option.some.injEq] at hs
        subst hs
        obtain ⟨h1, h2, h3⟩ := finish_phase h.inv hst
        have hpre : pre ++ apiCalls [.finish id] = pre := by simp [apiCalls]
        rw [hpre]
        refine ⟨ls ++ [.finish id .ok], inv_step h.inv hst, ?_, ?_, h.sub, ?_, ?_, ?_, ?_, h.last, ?_, ?_⟩
        · intro j hj; simp at hj; exact h.nt j hj
        · rw [calls_append, h.calls]; simp [SQLScheduler.calls]
        · apply phases_of
          intro j
          rw [h1 j]
          split
          · simp
          · exact h.phases' j
        · intro i b k v hi hsb hd hmax
          simp only at hd hmax hi ⊢
          by_cases hii : i = id
          · subst hii
            rw [ha] at hi
            injection hi with hi
            subst hi
            cases a with
            | set o f v' =>
              simp only [stored] at hsb
              split at hsb
              · rename_i hk; injection hsb with hsb; subst hsb; subst hk; simp [effect]
              · simp at hsb
            | unSet o f =>
              simp only [stored] at hsb
              split at hsb
              · rename_i hk; injection hsb with hsb; subst hsb; subst hk; simp [effect]
              · simp at hsb
            | get => simp [stored] at hsb
            | isSet => simp [stored] at hsb
            | setContainer => simp [stored] at hsb
            | addRoot => simp [stored] at hsb
          · have hd0 : phase c.sched i = some .done := by rw [h1 i, if_neg hii] at hd; exact hd
            by_cases hsa : stored fs k a = none
            · have heff : effect fs c.db a k = c.db k := by
                cases a <;> simp [stored] at hsa <;> simp [effect, hsa]
              rw [heff]
              refine h.db i b k v hi hsb hd0 ?_
              intro j b' hj hb' hs' hd'
              refine hmax j b' hj hb' hs' ?_
              rw [h1 j]
              split
              · rfl
              · exact hd'
            · exfalso
              by_cases hlt : i < id
              · exact hmax id a hlt ha hsa (by rw [h1 id]; simp)
              · obtain ⟨t1, t2, t3⟩ := stored_call (fs := fs) (k := k) (a := b) (by rw [hsb]; simp)
                have := h.order (k := k) (i := id) (j := i) (by omega) ha hi hsa t2 (by rw [hd0]; rintro ph ⟨⟩; trivial)
                rw [h2] at this
                simp at this
        · intro i b hi hsy
          simp only at hi ⊢
          rw [h1 i]
          by_cases hii : i = id
          · simp [hii]
          · simp only [hii, ↓reduceIte]
            rcases h.sync i b hi hsy with hh | hh
            · exact Or.inl hh
            · right
              rw [hh]
              simp [hii]
        · intro i hi
          simp only at hi ⊢
          split at hi
          · simp at hi
          · rename_i hne
            have hii : i ≠ id := by rintro rfl; exact hne hi
            rw [h1 i, if_neg hii]
            exact h.wait i hi
        · intro hwn
          simp only at hwn ⊢
          by_cases hwi : c.waiting = some id
          · simp only [hwi, ↓reduceIte]
            obtain ⟨pre', a', p1, p2, p3⟩ := h.busy id hwi
            rw [ha] at p2
            injection p2 with p2
            subst p2
            exact h.executed hS ha hwi h2 _ pre' p1 p3
          · simp only [hwi, ↓reduceIte] at hwn ⊢
            exact h.free hwn
        · intro i hi
          simp only at hi ⊢
          by_cases hwi : c.waiting = some id
          · simp [hwi] at hi
          · simp only [hwi, ↓reduceIte] at hi ⊢
            exact h.busy i hi

theorem apiCalls_append (A B : List Event) : apiCalls (A ++ B) = apiCalls A ++ apiCalls B := by
  induction A with
  | nil => rfl
  | cons e A ih => cases e <;> simp [apiCalls, ih]

theorem cinv_run (es : List Event) : ∀ (c c' : Client) (pre : List Api) (ls : List Label), CInv fs C pre ls c → Simple fs C →
    (∀ a ∈ apiCalls es, a ∈ C) → run fs c es = some c' → ∃ ls', CInv fs C (pre ++ apiCalls es) ls' c' := by
  induction es with
  | nil => intro c c' pre ls h _ _ hr; simp only [run, Option.some.injEq] at hr; subst hr; exact ⟨ls, by simpa [apiCalls] using h⟩
  | cons e es ih =>
    intro c c' pre ls h hS hsub hr
    simp only [run] at hr
    cases hst : step fs c e with
    | none => simp [hst] at hr
    | some c1 =>
      rw [hst] at hr
      have hsplit : apiCalls (e :: es) = apiCalls [e] ++ apiCalls es := by
        rw [← apiCalls_append]; rfl
      rw [hsplit] at hsub ⊢
      obtain ⟨ls1, h1⟩ := cinv_step h hS hst (by rintro a rfl; apply hsub; simp [apiCalls])
      obtain ⟨ls2, h2⟩ := ih c1 c' _ ls1 h1 hS (fun a ha => hsub a (by simp [ha])) hr
      exact ⟨ls2, by simpa using h2⟩

end Verif.SQLPending
