import Verif.Proofs.EncoderLocks

/-!
# Interleavings of goroutines that encode
-/

namespace Verif.EncoderLocks

open Spec

variable {C : Cfg} {rank : Nat → Nat} {s s' : St} {i : Nat} {t u : Thread}

theorem not_mem_encodes {x : Nat} {l : List Nat} : Act.insert x ∉ l.map Act.encode := by
  intro h
  obtain ⟨y, -, e⟩ := List.mem_map.1 h
  cases e

theorem setThread_rows (s : St) (i : Nat) (u : Thread) : setThread { s with rows := s.rows } i u = setThread s i u := rfl

theorem Inv.step (hC : Acyclic C rank) (h : Inv rank s) {c : Option Nat} (hs : step C s i c = some s') : Inv rank s' := by
  unfold EncoderLocks.step at hs
  cases hi : s.threads[i]? with
  | none => simp [hi] at hs
  | some t =>
    simp only [hi] at hs
    have hfine := h.fine i t hi
    cases hp : t.phase with
    | waiting x m =>
      simp only [hp] at hs
      cases hm : s.locked m with
      | true => simp [hm] at hs
      | false =>
        simp only [hm, Bool.false_eq_true, if_false, Option.some.injEq] at hs
        subst hs; exact h.locks_mutex hi hp hm
    | unlocking m =>
      simp only [hp, Option.some.injEq] at hs
      subst hs; exact h.unlocks hi hp
    | writing x =>
      simp only [hp, Option.some.injEq] at hs
      subst hs
      have hrefs : t.refs = t.held := by unfold Thread.refs; rw [hp]
      obtain ⟨hhead, hni⟩ := hfine.writes x hp
      have hxh : x ∈ t.held := List.mem_of_head? hhead
      obtain ⟨m, n, hx⟩ := h.some_of_mem hi (held_refs hxh)
      have hnr := h.todo i t x hi (.inr hp)
      refine h.loc (u := ⟨t.todo, t.held, .ready⟩) hi rfl hrefs.symm ⟨?_, ?_, ?_, ?_⟩ (by simp [hp]) (by simp) (by simp) _ ?_ ?_
      · have := hfine.shape; rw [hrefs] at this; exact this
      · have := hfine.sorted; rw [hrefs] at this; exact this
      · intro y k e; cases e
      · intro y e; cases e
      · rw [List.nodup_append]
        exact ⟨h.rows, by simp, by intro a ha b hb; simp at hb; subst hb; exact fun e => hnr (e ▸ ha)⟩
      · intro j v y hv hy hmem
        rw [get_set hi] at hv
        rcases List.mem_append.1 hmem with hmem | hmem
        · split at hv
          · cases hv
            rcases hy with hy | hy
            · exact h.todo i t y hi (.inl hy) hmem
            · cases hy
          · exact h.todo j v y hv hy hmem
        · simp only [List.mem_singleton] at hmem
          subst hmem
          split at hv
          · cases hv
            rcases hy with hy | hy
            · exact hni hy
            · cases hy
          · rename_i hj
            have hfv := h.fine j v hv
            have hyh : y ∈ v.held := by
              rcases hy with hy | hy
              · have := hfv.shape.insert_mem hy
                unfold Thread.refs at this
                split at this
                · rename_i z k hz
                  rcases List.mem_cons.1 this with e | e
                  · subst e; exact absurd hy (hfv.waits y k hz)
                  · exact e
                · exact this
              · exact List.mem_of_head? (hfv.writes y hy).1
            exact hj (h.owner j i v t m hv hi (.inr ⟨y, n, hyh, hx⟩) (.inr ⟨y, n, hxh, hx⟩))
    | ready =>
      simp only [hp] at hs
      have hrefs : t.refs = t.held := by unfold Thread.refs; rw [hp]
      have hshape := hfine.shape
      have hsorted := hfine.sorted
      rw [hrefs] at hshape hsorted
      have hloc : ∀ (todo : List Act) (ph : Phase), (∀ m, ph ≠ .unlocking m) → (∀ x m, ph ≠ .waiting x m) → Shape rank t.held todo →
          (∀ x, ph = .writing x → t.held.head? = some x ∧ .insert x ∉ todo) →
          (∀ x, .insert x ∈ todo ∨ ph = .writing x → x ∉ s.rows) → Inv rank (setThread s i ⟨todo, t.held, ph⟩) := by
        intro todo ph h1 h2 h3 h4 h5
        have hr : Thread.refs ⟨todo, t.held, ph⟩ = t.held := by
          unfold Thread.refs
          split
          · rename_i x m e; exact absurd e (h2 x m)
          · rfl
        have := h.loc (u := ⟨todo, t.held, ph⟩) hi rfl (by rw [hr, hrefs]) ⟨by rw [hr]; exact h3, by rw [hr]; exact hsorted,
          fun x m e => absurd e (h2 x m), h4⟩ (by simp [hp]) h1 h2 s.rows h.rows (by
            intro j v x hv hx
            rw [get_set hi] at hv
            split at hv
            · cases hv; exact h5 x hx
            · exact h.todo j v x hv hx)
        exact this
      cases htodo : t.todo with
      | nil => simp [htodo] at hs
      | cons a todo =>
        have hold : ∀ x, .insert x ∈ todo → x ∉ s.rows := fun x hx => h.todo i t x hi (.inl (by rw [htodo]; exact List.mem_cons_of_mem _ hx))
        rw [htodo] at hshape
        cases a with
        | encode x =>
          simp only [htodo] at hs
          obtain ⟨hlow, hsh⟩ := hshape
          have hni : .insert x ∉ todo := fun hx => by have := hlow x (hsh.insert_mem hx); omega
          split at hs
          · simp only [Option.some.injEq] at hs; subst hs
            exact hloc _ _ (by simp) (by simp) hsh (by simp) (by intro y hy; simpa using hold y (by simpa using hy))
          · simp only [Option.some.injEq] at hs; subst hs
            refine hloc _ _ (by simp) (by simp) ?_ (by simp) ?_
            · refine Shape.encodes (p := .acquire x :: .check x :: .release x :: todo) ⟨hlow, ?_, rfl, ?_, rfl, hni, hsh⟩ _ ?_
              · simpa using hni
              · simpa using hni
              · intro y hy z hz
                have := hC x y (by simp [hy])
                have := hlow z hz
                omega
            · intro y hy
              refine hold y ?_
              rcases hy with hy | hy
              · rcases List.mem_append.1 hy with hy | hy
                · exact absurd hy not_mem_encodes
                · simpa using hy
              · cases hy
        | acquire x =>
          simp only [htodo, Option.some.injEq] at hs
          subst hs
          exact h.acquire hi hp htodo c
        | check x =>
          simp only [htodo] at hs
          obtain ⟨hhead, hni, hsh⟩ := hshape
          split at hs
          · simp only [Option.some.injEq] at hs; subst hs
            exact hloc _ _ (by simp) (by simp) hsh (by simp) (by intro y hy; simpa using hold y (by simpa using hy))
          · rename_i hnr
            simp only [Option.some.injEq] at hs; subst hs
            have hlow : ∀ y ∈ C.first x ++ C.before x ++ C.after x, ∀ z ∈ t.held, rank y < rank z := by
              intro y hy z hz
              have h1 := hC x y hy
              cases hh : t.held with
              | nil => rw [hh] at hz; cases hz
              | cons w l =>
                rw [hh] at hz hhead hsorted
                simp only [List.head?_cons, Option.some.injEq] at hhead
                subst hhead
                rcases List.mem_cons.1 hz with rfl | hz
                · exact h1
                · have := (List.pairwise_cons.1 hsorted).1 z hz; omega
            refine hloc _ _ (by simp) (by simp) ?_ (by simp) ?_
            · rw [List.append_assoc]
              refine Shape.encodes (p := .insert x :: ((C.after x).map .encode ++ todo)) ⟨hhead, ?_, Shape.encodes hsh _ fun y hy => hlow y (by simp [hy])⟩ (C.before x) fun y hy => hlow y (by simp [hy])
              intro hx
              rcases List.mem_append.1 hx with hx | hx
              · exact not_mem_encodes hx
              · exact hni hx
            · intro y hy
              rcases hy with hy | hy
              · simp only [List.append_assoc, List.cons_append, List.mem_append, List.mem_cons, Act.insert.injEq] at hy
                rcases hy with hy | rfl | hy | hy
                · exact absurd hy not_mem_encodes
                · exact hnr
                · exact absurd hy not_mem_encodes
                · exact hold y hy
              · cases hy
        | insert x =>
          simp only [htodo, Option.some.injEq] at hs
          subst hs
          obtain ⟨hhead, hni, hsh⟩ := hshape
          refine hloc _ _ (by simp) (by simp) hsh ?_ ?_
          · intro y e; simp only [Phase.writing.injEq] at e; subst e; exact ⟨hhead, hni⟩
          · intro y hy
            refine h.todo i t y hi (.inl ?_)
            rw [htodo]
            rcases hy with hy | hy
            · exact List.mem_cons_of_mem _ hy
            · cases hy; exact List.mem_cons_self ..
        | release x =>
          simp only [htodo] at hs
          obtain ⟨m, hm, hinv⟩ := h.release hi hp htodo
          revert hs hinv
          generalize hrel : releaseMutex s x = r at hm ⊢
          obtain ⟨r1, r2⟩ := r
          simp only at hm
          subst hm
          intro hs hinv
          simp only [Option.some.injEq] at hs
          subst hs; exact hinv

theorem Inv.init (xs : List (List Nat)) : Inv rank (init xs) := by
  have hth : ∀ (i : Nat) t, (EncoderLocks.init xs).threads[i]? = some t → ∃ l : List Nat, t = ⟨l.map .encode, [], .ready⟩ := by
    intro i t hi
    simp only [EncoderLocks.init, List.getElem?_map, Option.map_eq_some_iff] at hi
    obtain ⟨l, -, e⟩ := hi
    exact ⟨l, e.symm⟩
  have hno : ∀ (i : Nat) t m, (EncoderLocks.init xs).threads[i]? = some t → ¬ Owns (EncoderLocks.init xs) t m := by
    intro i t m hi ho
    obtain ⟨l, rfl⟩ := hth i t hi
    rcases ho with ho | ⟨x, n, hx, -⟩
    · cases ho
    · cases hx
  have hsh : ∀ l : List Nat, Shape rank [] (l.map .encode) := by
    intro l
    have := Shape.encodes (rank := rank) (h := []) (p := []) rfl l (by simp)
    simpa using this
  refine ⟨?_, ?_, ?_, ?_, ?_, ⟨List.nodup_nil, by simp [EncoderLocks.init]⟩, ?_, ?_, ?_, ?_, ?_, List.nodup_nil, ?_, rfl⟩
  · intro i t hi
    obtain ⟨l, rfl⟩ := hth i t hi
    exact ⟨hsh l, List.Pairwise.nil, by simp, by simp⟩
  · intro x m n hx; simp [EncoderLocks.init] at hx
  · intro x _
    refine List.countP_eq_zero.2 ?_
    intro t ht
    obtain ⟨i, hi⟩ := List.getElem?_of_mem ht
    obtain ⟨l, rfl⟩ := hth i t hi
    simp [Thread.refs]
  · intro x y m n k hx; simp [EncoderLocks.init] at hx
  · intro x m n hx; simp [EncoderLocks.init] at hx
  · intro i t x m hi hw
    obtain ⟨l, rfl⟩ := hth i t hi
    cases hw
  · intro i t m hi ho; exact absurd ho (hno i t m hi)
  · intro m
    constructor
    · intro h; simp [EncoderLocks.init] at h
    · rintro ⟨i, t, hi, ho⟩; exact absurd ho (hno i t m hi)
  · intro i j t u m hi _ ho; exact absurd ho (hno i t m hi)
  · intro i t m x n hi hw
    obtain ⟨l, rfl⟩ := hth i t hi
    cases hw
  · intro i t x _ _ h; cases h

theorem Inv.run (hC : Acyclic C rank) (sched : List (Nat × Option Nat)) : ∀ {s s' : St}, Inv rank s → run C s sched = some s' → Inv rank s' := by
  induction sched with
  | nil => intro s s' h hs; simp only [EncoderLocks.run, Option.some.injEq] at hs; subst hs; exact h
  | cons p sched ih =>
    intro s s' h hs
    obtain ⟨i, c⟩ := p
    simp only [EncoderLocks.run, Option.bind_eq_some_iff] at hs
    obtain ⟨s1, h1, h2⟩ := hs
    exact ih (h.step hC h1) h2

/-! ## Nobody waits for ever -/

/-- a goroutine that is not waiting can proceed -/
theorem step_isSome (hi : s.threads[i]? = some t) (hw : ∀ x m, t.phase = .waiting x m → s.locked m = false) (he : ¬ Ended t) :
    (step C s i none).isSome := by
  unfold step
  simp only [hi]
  cases hp : t.phase with
  | waiting x m => simp [hw x m hp]
  | unlocking m => rfl
  | writing x => rfl
  | ready =>
    simp only
    cases ht : t.todo with
    | nil => exact absurd ⟨ht, hp⟩ he
    | cons a todo =>
      cases a with
      | encode x => simp only; split <;> rfl
      | acquire x => rfl
      | check x => simp only; split <;> rfl
      | insert x => rfl
      | release x =>
        simp only
        rcases releaseMutex s x with ⟨r, _ | m⟩ <;> rfl

theorem Inv.waiting_proceeds (h : Inv rank s) (n : Nat) : ∀ (i : Nat) (t : Thread) (x m : Nat), rank x ≤ n → s.threads[i]? = some t →
    t.phase = .waiting x m → ∃ (j : Nat), (EncoderLocks.step C s j none).isSome := by
  induction n with
  | zero =>
    intro i t x m hr hi hp
    cases hm : s.locked m with
    | false => exact ⟨i, step_isSome hi (fun y k e => by rw [hp] at e; cases e; exact hm) (fun e => by have := e.2; rw [hp] at this; cases this)⟩
    | true =>
      obtain ⟨j, u, hj, ho⟩ := (h.locked m).1 hm
      obtain ⟨l, hl⟩ := h.waits i t x m hi hp
      have hpu : (∀ y k, u.phase ≠ .waiting y k) → ¬ Ended u → ∃ (j : Nat), (EncoderLocks.step C s j none).isSome :=
        fun h1 h2 => ⟨j, step_isSome hj (fun y k e => absurd e (h1 y k)) h2⟩
      rcases ho with ho | ⟨y, k, hy, hk⟩
      · exact hpu (by simp [ho]) (fun e => by have := e.2; rw [ho] at this; cases this)
      · have := h.inj y x m k l hk hl
        subst this
        cases hq : u.phase with
        | waiting z k' =>
          have hs := (h.fine j u hj).sorted
          unfold Thread.refs at hs
          rw [hq] at hs
          have := (List.pairwise_cons.1 hs).1 y hy
          omega
        | unlocking k' => exact hpu (by simp [hq]) (fun e => by have := e.2; rw [hq] at this; cases this)
        | writing z => exact hpu (by simp [hq]) (fun e => by have := e.2; rw [hq] at this; cases this)
        | ready =>
          refine hpu (by simp [hq]) fun e => ?_
          have hs := (h.fine j u hj).shape
          rw [e.1] at hs
          have := held_refs hy
          rw [hs] at this; cases this
  | succ n ih =>
    intro i t x m hr hi hp
    cases hm : s.locked m with
    | false => exact ⟨i, step_isSome hi (fun y k e => by rw [hp] at e; cases e; exact hm) (fun e => by have := e.2; rw [hp] at this; cases this)⟩
    | true =>
      obtain ⟨j, u, hj, ho⟩ := (h.locked m).1 hm
      obtain ⟨l, hl⟩ := h.waits i t x m hi hp
      have hpu : (∀ y k, u.phase ≠ .waiting y k) → ¬ Ended u → ∃ (j : Nat), (EncoderLocks.step C s j none).isSome :=
        fun h1 h2 => ⟨j, step_isSome hj (fun y k e => absurd e (h1 y k)) h2⟩
      rcases ho with ho | ⟨y, k, hy, hk⟩
      · exact hpu (by simp [ho]) (fun e => by have := e.2; rw [ho] at this; cases this)
      · have := h.inj y x m k l hk hl
        subst this
        cases hq : u.phase with
        | waiting z k' =>
          have hs := (h.fine j u hj).sorted
          unfold Thread.refs at hs
          rw [hq] at hs
          have := (List.pairwise_cons.1 hs).1 y hy
          exact ih j u z k' (by omega) hj hq
        | unlocking k' => exact hpu (by simp [hq]) (fun e => by have := e.2; rw [hq] at this; cases this)
        | writing z => exact hpu (by simp [hq]) (fun e => by have := e.2; rw [hq] at this; cases this)
        | ready =>
          refine hpu (by simp [hq]) fun e => ?_
          have hs := (h.fine j u hj).shape
          rw [e.1] at hs
          have := held_refs hy
          rw [hs] at this; cases this

theorem Inv.proceeds (h : Inv rank s) (hi : s.threads[i]? = some t) (he : ¬ Ended t) : ∃ (j : Nat), (EncoderLocks.step C s j none).isSome := by
  cases hp : t.phase with
  | waiting x m => exact h.waiting_proceeds (rank x) i t x m (Nat.le_refl _) hi hp
  | _ => exact ⟨i, step_isSome hi (by simp [hp]) he⟩

/-- when all goroutines have ended, there are no locks left -/
theorem Inv.ended (h : Inv rank s) (he : ∀ t ∈ s.threads, Ended t) : (∀ x, s.locks x = none) ∧ ∀ m, s.locked m = false := by
  have hr : ∀ (i : Nat) t, s.threads[i]? = some t → t.refs = [] := by
    intro i t hi
    have hs := (h.fine i t hi).shape
    rw [(he t (List.mem_of_getElem? hi)).1] at hs
    exact hs
  have hlocks : ∀ x, s.locks x = none := by
    intro x
    cases hl : s.locks x with
    | none => rfl
    | some p =>
      have h1 := h.cnt x p.1 p.2 hl
      have : refCount s x = 0 := by
        refine List.countP_eq_zero.2 ?_
        intro t ht
        obtain ⟨i, hi⟩ := List.getElem?_of_mem ht
        simp [hr i t hi]
      omega
  refine ⟨hlocks, ?_⟩
  intro m
  cases hm : s.locked m with
  | false => rfl
  | true =>
    obtain ⟨j, u, hj, ho⟩ := (h.locked m).1 hm
    rcases ho with ho | ⟨y, k, hy, hk⟩
    · have := (he u (List.mem_of_getElem? hj)).2
      rw [ho] at this; cases this
    · rw [hlocks y] at hk; cases hk

/-! ## All goroutines end -/

def deps (C : Cfg) (x : Nat) : List Nat := C.first x ++ C.before x ++ C.after x

/-- the number of steps it may take to encode something -/
def size (C : Cfg) : Nat → Nat → Nat
  | 0, _ => 0
  | n + 1, x => 10 + ((deps C x).map (size C n)).sum

theorem size_eq (hC : Acyclic C rank) : ∀ (n k x : Nat), rank x < n → rank x < k → size C n x = size C k x := by
  intro n
  induction n with
  | zero => intro k x h; omega
  | succ n ih =>
    intro k x h1 h2
    cases k with
    | zero => omega
    | succ k =>
      unfold size
      congr 2
      refine List.map_congr_left ?_
      intro y hy
      have := hC x y hy
      exact ih k y (by omega) (by omega)

def weigh (C : Cfg) (rank : Nat → Nat) (x : Nat) : Nat := size C (rank x + 1) x

def sumOf (f : Nat → Nat) (l : List Nat) : Nat := (l.map f).sum

theorem weigh_eq (hC : Acyclic C rank) (x : Nat) :
    weigh C rank x = 10 + sumOf (weigh C rank) (C.first x) + sumOf (weigh C rank) (C.before x) + sumOf (weigh C rank) (C.after x) := by
  have h : (deps C x).map (size C (rank x)) = (deps C x).map (weigh C rank) := by
    refine List.map_congr_left ?_
    intro y hy
    have := hC x y hy
    exact size_eq hC _ _ y this (by omega)
  have h2 : weigh C rank x = 10 + ((deps C x).map (size C (rank x))).sum := rfl
  rw [h2, h]
  unfold deps sumOf
  simp only [List.map_append, List.sum_append]
  omega

def actCost (C : Cfg) (rank : Nat → Nat) : Act → Nat
  | .encode x => weigh C rank x
  | .acquire _ => 2
  | .check x => 4 + sumOf (weigh C rank) (C.before x) + sumOf (weigh C rank) (C.after x)
  | .insert _ => 2
  | .release _ => 2

def phaseCost : Phase → Nat
  | .ready => 0
  | _ => 1

def todoCost (C : Cfg) (rank : Nat → Nat) (l : List Act) : Nat := (l.map (actCost C rank)).sum

def cost (C : Cfg) (rank : Nat → Nat) (t : Thread) : Nat := todoCost C rank t.todo + phaseCost t.phase

def total (C : Cfg) (rank : Nat → Nat) (s : St) : Nat := (s.threads.map (cost C rank)).sum

theorem sum_set {α : Type} (f : α → Nat) : ∀ (l : List α) (i : Nat) (a b : α), l[i]? = some a →
    ((l.set i b).map f).sum + f a = (l.map f).sum + f b := by
  intro l
  induction l with
  | nil => intro i a b h; simp at h
  | cons c l ih =>
    intro i a b h
    cases i with
    | zero =>
      simp only [List.getElem?_cons_zero, Option.some.injEq] at h
      subst h; simp only [List.set_cons_zero, List.map_cons, List.sum_cons]; omega
    | succ i =>
      simp only [List.getElem?_cons_succ] at h
      have := ih i a b h
      simp only [List.set_cons_succ, List.map_cons, List.sum_cons]; omega

theorem todoCost_encodes (l : List Nat) (p : List Act) :
    todoCost C rank (l.map .encode ++ p) = sumOf (weigh C rank) l + todoCost C rank p := by
  unfold todoCost sumOf
  rw [List.map_append, List.sum_append, List.map_map]
  rfl

theorem todoCost_cons (a : Act) (p : List Act) : todoCost C rank (a :: p) = actCost C rank a + todoCost C rank p := by
  simp [todoCost]

theorem total_set {s₀ : St} (hs : s₀.threads = s.threads) (hi : s.threads[i]? = some t) (hlt : cost C rank u < cost C rank t) :
    total C rank (setThread s₀ i u) < total C rank s := by
  have := sum_set (cost C rank) s.threads i t u hi
  unfold total setThread
  simp only [hs]
  omega

theorem total_step (hC : Acyclic C rank) {c : Option Nat} (hs : step C s i c = some s') : total C rank s' < total C rank s := by
  unfold step at hs
  cases hi : s.threads[i]? with
  | none => simp [hi] at hs
  | some t =>
    simp only [hi] at hs
    cases hp : t.phase with
    | waiting x m =>
      simp only [hp] at hs
      split at hs
      · cases hs
      · simp only [Option.some.injEq] at hs
        subst hs; exact total_set rfl hi (by simp [cost, phaseCost, hp])
    | unlocking m =>
      simp only [hp, Option.some.injEq] at hs
      subst hs; exact total_set rfl hi (by simp [cost, phaseCost, hp])
    | writing x =>
      simp only [hp, Option.some.injEq] at hs
      subst hs; exact total_set rfl hi (by simp [cost, phaseCost, hp])
    | ready =>
      simp only [hp] at hs
      cases htodo : t.todo with
      | nil => simp [htodo] at hs
      | cons a todo =>
        have hcost : cost C rank t = actCost C rank a + todoCost C rank todo := by
          simp [cost, htodo, todoCost_cons, hp, phaseCost]
        cases a with
        | encode x =>
          simp only [htodo] at hs
          have hw := weigh_eq hC x
          split at hs
          · simp only [Option.some.injEq] at hs; subst hs
            refine total_set rfl hi ?_
            rw [hcost]; simp only [cost, phaseCost, actCost]; omega
          · simp only [Option.some.injEq] at hs; subst hs
            refine total_set rfl hi ?_
            rw [hcost]
            simp only [cost, phaseCost, todoCost_encodes, todoCost_cons, actCost]
            omega
        | acquire x =>
          simp only [htodo, Option.some.injEq] at hs
          subst hs
          have : (acquireMutex s x c).1.threads = s.threads := by
            rcases hl : s.locks x with _ | ⟨m, n⟩ <;> rcases hc : c.bind fun i => s.pool[i]? with _ | k <;> simp [acquireMutex, poolGet, hl, hc]
          refine total_set this hi ?_
          rw [hcost]; simp only [cost, phaseCost, actCost]; omega
        | check x =>
          simp only [htodo] at hs
          split at hs
          · simp only [Option.some.injEq] at hs; subst hs
            refine total_set rfl hi ?_
            rw [hcost]; simp only [cost, phaseCost, actCost]; omega
          · simp only [Option.some.injEq] at hs; subst hs
            refine total_set rfl hi ?_
            rw [hcost, List.append_assoc]
            simp only [cost, phaseCost, todoCost_encodes, todoCost_cons, actCost, List.cons_append]
            omega
        | insert x =>
          simp only [htodo, Option.some.injEq] at hs
          subst hs
          refine total_set rfl hi ?_
          rw [hcost]; simp only [cost, phaseCost, actCost]; omega
        | release x =>
          simp only [htodo] at hs
          have hthr : (releaseMutex s x).1.threads = s.threads := by
            unfold releaseMutex
            split
            · split <;> rfl
            · rfl
          revert hs hthr
          rcases releaseMutex s x with ⟨r, _ | m⟩ <;> intro hs hthr <;> simp only [Option.some.injEq] at hs <;> subst hs <;>
            refine total_set hthr hi ?_ <;> rw [hcost] <;> simp only [cost, phaseCost, actCost] <;> omega

theorem total_run (hC : Acyclic C rank) (sched : List (Nat × Option Nat)) : ∀ {s s' : St}, run C s sched = some s' →
    sched.length + total C rank s' ≤ total C rank s := by
  induction sched with
  | nil => intro s s' hs; simp only [run, Option.some.injEq] at hs; subst hs; simp
  | cons p sched ih =>
    intro s s' hs
    obtain ⟨i, c⟩ := p
    simp only [run, Option.bind_eq_some_iff] at hs
    obtain ⟨s1, h1, h2⟩ := hs
    have := total_step hC h1
    have := ih h2
    simp only [List.length_cons]; omega

/-! ## All is written -/

/-- a goroutine still has to see to `x` -/
def Owed (t : Thread) (x : Nat) : Prop := .encode x ∈ t.todo ∨ .check x ∈ t.todo ∨ .insert x ∈ t.todo ∨ t.phase = .writing x

def Covered (s : St) (x : Nat) : Prop := x ∈ s.rows ∨ ∃ t ∈ s.threads, Owed t x

/-- the goroutine `j` has seen to `x` or still has to -/
def CoveredBy (s : St) (j x : Nat) : Prop := x ∈ s.rows ∨ ∃ t, s.threads[j]? = some t ∧ Owed t x

theorem CoveredBy.covered {j x : Nat} (h : CoveredBy s j x) : Covered s x := by
  rcases h with h | ⟨t, ht, h⟩
  · exact .inl h
  · exact .inr ⟨t, List.mem_of_getElem? ht, h⟩

/-- what is written and what has to be is what is needed -/
structure Books (C : Cfg) (want : Nat → Prop) (s : St) : Prop where
  rows : ∀ x ∈ s.rows, want x ∧ ∀ y ∈ deps C x, Covered s y
  todo : ∀ t ∈ s.threads, (∀ x, .encode x ∈ t.todo → want x) ∧ (∀ x, .check x ∈ t.todo → want x ∧ ∀ y ∈ C.first x, Covered s y) ∧
    ∀ x, .insert x ∈ t.todo ∨ t.phase = .writing x → want x ∧ ∀ y ∈ deps C x, Covered s y

theorem mem_set {s₀ : St} (hs : s₀.threads = s.threads) (hi : s.threads[i]? = some t) {v : Thread} :
    v ∈ (setThread s₀ i u).threads → v = u ∨ v ∈ s.threads := by
  intro hv
  unfold setThread at hv
  simp only [hs] at hv
  rcases List.mem_or_eq_of_mem_set hv with h | h
  · exact .inr h
  · exact .inl h

theorem mem_set_self {s₀ : St} (hs : s₀.threads = s.threads) (hi : s.threads[i]? = some t) : u ∈ (setThread s₀ i u).threads := by
  have hlt : i < s.threads.length := by
    rcases Nat.lt_or_ge i s.threads.length with h | h
    · exact h
    · rw [List.getElem?_eq_none h] at hi; cases hi
  unfold setThread
  simp only [hs]
  exact List.mem_iff_getElem?.2 ⟨i, by rw [List.getElem?_set]; simp [hlt]⟩

theorem mem_set_other {s₀ : St} (hs : s₀.threads = s.threads) (hi : s.threads[i]? = some t) {v : Thread} (hv : v ∈ s.threads) :
    v = t ∨ v ∈ (setThread s₀ i u).threads := by
  obtain ⟨j, hj⟩ := List.mem_iff_getElem?.1 hv
  by_cases e : j = i
  · subst e; rw [hi] at hj; cases hj; exact .inl rfl
  · right
    unfold setThread
    simp only [hs]
    exact List.mem_iff_getElem?.2 ⟨j, by rw [List.getElem?_set, if_neg (Ne.symm e)]; exact hj⟩

/-- a goroutine does something: what it had to see to is seen to -/
theorem Books.set {want : Nat → Prop} {s₀ : St} (h : Books C want s) (hs : s₀.threads = s.threads) (hi : s.threads[i]? = some t)
    (hr : ∀ x ∈ s.rows, x ∈ s₀.rows) (ho : ∀ x, Owed t x → Owed u x ∨ x ∈ s₀.rows)
    (hnew : ∀ x ∈ s₀.rows, x ∈ s.rows ∨ (Act.insert x ∈ t.todo ∨ t.phase = .writing x))
    (h1 : ∀ x, .encode x ∈ u.todo → want x)
    (h2 : ∀ x, .check x ∈ u.todo → want x ∧ ∀ y ∈ C.first x, Covered s y ∨ Owed u y)
    (h3 : ∀ x, .insert x ∈ u.todo ∨ u.phase = .writing x → want x ∧ ∀ y ∈ deps C x, Covered s y ∨ Owed u y) :
    Books C want (setThread s₀ i u) := by
  have hcov : ∀ y, Covered s y → Covered (setThread s₀ i u) y := by
    rintro y (hy | ⟨v, hv, hy⟩)
    · exact .inl (hr y hy)
    · rcases mem_set_other (u := u) hs hi hv with rfl | hv'
      · rcases ho y hy with hy | hy
        · exact .inr ⟨u, mem_set_self hs hi, hy⟩
        · exact .inl hy
      · exact .inr ⟨v, hv', hy⟩
  have hcov' : ∀ y, Covered s y ∨ Owed u y → Covered (setThread s₀ i u) y := by
    rintro y (hy | hy)
    · exact hcov y hy
    · exact .inr ⟨u, mem_set_self hs hi, hy⟩
  refine ⟨?_, ?_⟩
  · intro x hx
    rcases hnew x hx with hx | hx
    · exact ⟨(h.rows x hx).1, fun y hy => hcov y ((h.rows x hx).2 y hy)⟩
    · have := (h.todo t (List.mem_of_getElem? hi)).2.2 x hx
      exact ⟨this.1, fun y hy => hcov y (this.2 y hy)⟩
  · intro v hv
    rcases mem_set hs hi hv with rfl | hv
    · exact ⟨h1, fun x hx => ⟨(h2 x hx).1, fun y hy => hcov' y ((h2 x hx).2 y hy)⟩,
        fun x hx => ⟨(h3 x hx).1, fun y hy => hcov' y ((h3 x hx).2 y hy)⟩⟩
    · have hv' := h.todo v hv
      exact ⟨hv'.1, fun x hx => ⟨(hv'.2.1 x hx).1, fun y hy => hcov y ((hv'.2.1 x hx).2 y hy)⟩,
        fun x hx => ⟨(hv'.2.2 x hx).1, fun y hy => hcov y ((hv'.2.2 x hx).2 y hy)⟩⟩

theorem covered_set {s₀ : St} (hs : s₀.threads = s.threads) (hi : s.threads[i]? = some t) (hr : ∀ x ∈ s.rows, x ∈ s₀.rows)
    (ho : ∀ x, Owed t x → Owed u x ∨ x ∈ s₀.rows) (j y : Nat) (hy : CoveredBy s j y) : CoveredBy (setThread s₀ i u) j y := by
  rcases hy with hy | ⟨v, hv, hy⟩
  · exact .inl (hr y hy)
  · have hg : (setThread s₀ i u).threads[j]? = if j = i then some u else s.threads[j]? := by
      have := get_set (s := s) (u := u) (j := j) hi
      unfold setThread
      simp only [hs]
      exact this
    by_cases e : j = i
    · subst e
      rw [hi] at hv; cases hv
      rcases ho y hy with hy | hy
      · exact .inr ⟨u, by rw [hg]; simp, hy⟩
      · exact .inl hy
    · exact .inr ⟨v, by rw [hg, if_neg e]; exact hv, hy⟩

/-- what a step does to the goroutine, seen from outside -/
theorem Books.step {want : Nat → Prop} (hw : ∀ x, want x → ∀ y ∈ deps C x, want y) (h : Books C want s) {c : Option Nat}
    (hs : step C s i c = some s') : Books C want s' ∧ ∀ j y, CoveredBy s j y → CoveredBy s' j y := by
  unfold EncoderLocks.step at hs
  cases hi : s.threads[i]? with
  | none => simp [hi] at hs
  | some t =>
    simp only [hi] at hs
    obtain ⟨b1, b2, b3⟩ := h.todo t (List.mem_of_getElem? hi)
    -- the same things to do
    have hsame : ∀ (s₀ : St) (held : List Nat) (hth : s₀.threads = s.threads) (hro : s₀.rows = s.rows), (∀ x, t.phase ≠ .writing x) →
        Books C want (setThread s₀ i ⟨t.todo, held, .ready⟩) ∧ ∀ j y, CoveredBy s j y → CoveredBy (setThread s₀ i ⟨t.todo, held, .ready⟩) j y := by
      intro s₀ held hth hro hnw
      have ho : ∀ x, Owed t x → Owed ⟨t.todo, held, .ready⟩ x ∨ x ∈ s₀.rows := by
        rintro x (hx | hx | hx | hx)
        · exact .inl (.inl hx)
        · exact .inl (.inr (.inl hx))
        · exact .inl (.inr (.inr (.inl hx)))
        · exact absurd hx (hnw x)
      refine ⟨h.set hth hi (by rw [hro]; exact fun _ hx => hx) ho (by rw [hro]; exact fun _ hx => .inl hx) b1 ?_ ?_,
        covered_set hth hi (by rw [hro]; exact fun _ hx => hx) ho⟩
      · intro x hx; exact ⟨(b2 x hx).1, fun y hy => .inl ((b2 x hx).2 y hy)⟩
      · intro x hx
        have hx' : .insert x ∈ t.todo := by rcases hx with hx | hx; exact hx; cases hx
        exact ⟨(b3 x (.inl hx')).1, fun y hy => .inl ((b3 x (.inl hx')).2 y hy)⟩
    cases hp : t.phase with
    | waiting x m =>
      simp only [hp] at hs
      split at hs
      · cases hs
      · simp only [Option.some.injEq] at hs
        subst hs; exact hsame { s with locked := upd s.locked m true } _ rfl rfl (by simp [hp])
    | unlocking m =>
      simp only [hp, Option.some.injEq] at hs
      subst hs; exact hsame { s with fatal := s.fatal || !s.locked m, locked := upd s.locked m false } _ rfl rfl (by simp [hp])
    | writing x =>
      simp only [hp, Option.some.injEq] at hs
      subst hs
      have ho : ∀ y, Owed t y → Owed ⟨t.todo, t.held, .ready⟩ y ∨ y ∈ s.rows ++ [x] := by
        rintro y (hy | hy | hy | hy)
        · exact .inl (.inl hy)
        · exact .inl (.inr (.inl hy))
        · exact .inl (.inr (.inr (.inl hy)))
        · rw [hp] at hy; cases hy; exact .inr (by simp)
      refine ⟨h.set (s₀ := { s with rows := s.rows ++ [x] }) rfl hi (fun _ hy => List.mem_append_left _ hy) ho ?_ b1 ?_ ?_,
        covered_set (s₀ := { s with rows := s.rows ++ [x] }) rfl hi (fun _ hy => List.mem_append_left _ hy) ho⟩
      · intro y hy
        rcases List.mem_append.1 hy with hy | hy
        · exact .inl hy
        · simp only [List.mem_singleton] at hy; subst hy; exact .inr (.inr hp)
      · intro y hy; exact ⟨(b2 y hy).1, fun z hz => .inl ((b2 y hy).2 z hz)⟩
      · intro y hy
        have hy' : .insert y ∈ t.todo := by rcases hy with hy | hy; exact hy; cases hy
        exact ⟨(b3 y (.inl hy')).1, fun z hz => .inl ((b3 y (.inl hy')).2 z hz)⟩
    | ready =>
      simp only [hp] at hs
      cases htodo : t.todo with
      | nil => simp [htodo] at hs
      | cons a todo =>
        rw [htodo] at b1 b2 b3
        -- the first thing is done, or others are to be done for it
        have hgen : ∀ (s₀ : St) (new : List Act) (held : List Nat) (ph : Phase), s₀.threads = s.threads → s₀.rows = s.rows →
            (∀ x, a = .encode x ∨ a = .check x ∨ a = .insert x → Owed ⟨new ++ todo, held, ph⟩ x ∨ x ∈ s.rows) →
            (∀ x, .encode x ∈ new → want x) → (∀ x, .check x ∈ new → want x ∧ ∀ y ∈ C.first x, Covered s y ∨ Owed ⟨new ++ todo, held, ph⟩ y) →
            (∀ x, .insert x ∈ new ∨ ph = .writing x → want x ∧ ∀ y ∈ deps C x, Covered s y ∨ Owed ⟨new ++ todo, held, ph⟩ y) →
            Books C want (setThread s₀ i ⟨new ++ todo, held, ph⟩) ∧
              ∀ j y, CoveredBy s j y → CoveredBy (setThread s₀ i ⟨new ++ todo, held, ph⟩) j y := by
          intro s₀ new held ph hth hro h1 h2 h3 h4
          have ho : ∀ x, Owed t x → Owed ⟨new ++ todo, held, ph⟩ x ∨ x ∈ s₀.rows := by
            rw [hro]
            rintro x (hx | hx | hx | hx)
            · rw [htodo] at hx
              rcases List.mem_cons.1 hx with e | hx
              · exact h1 x (.inl e.symm)
              · exact .inl (.inl (List.mem_append_right _ hx))
            · rw [htodo] at hx
              rcases List.mem_cons.1 hx with e | hx
              · exact h1 x (.inr (.inl e.symm))
              · exact .inl (.inr (.inl (List.mem_append_right _ hx)))
            · rw [htodo] at hx
              rcases List.mem_cons.1 hx with e | hx
              · exact h1 x (.inr (.inr e.symm))
              · exact .inl (.inr (.inr (.inl (List.mem_append_right _ hx))))
            · rw [hp] at hx; cases hx
          refine ⟨h.set hth hi (by rw [hro]; exact fun _ hx => hx) ho (by rw [hro]; exact fun _ hx => .inl hx) ?_ ?_ ?_,
            covered_set hth hi (by rw [hro]; exact fun _ hx => hx) ho⟩
          · intro x hx
            rcases List.mem_append.1 hx with hx | hx
            · exact h2 x hx
            · exact b1 x (List.mem_cons_of_mem _ hx)
          · intro x hx
            rcases List.mem_append.1 hx with hx | hx
            · exact h3 x hx
            · have := b2 x (List.mem_cons_of_mem _ hx); exact ⟨this.1, fun y hy => .inl (this.2 y hy)⟩
          · intro x hx
            rcases hx with hx | hx
            · rcases List.mem_append.1 hx with hx | hx
              · exact h4 x (.inl hx)
              · have := b3 x (.inl (List.mem_cons_of_mem _ hx)); exact ⟨this.1, fun y hy => .inl (this.2 y hy)⟩
            · exact h4 x (.inr hx)
        cases a with
        | encode x =>
          have hwx := b1 x (List.mem_cons_self ..)
          simp only [htodo] at hs
          split at hs
          · rename_i hpre
            simp only [Option.some.injEq] at hs; subst hs
            simp only [Bool.and_eq_true, decide_eq_true_eq] at hpre
            refine hgen s [] t.held .ready rfl rfl ?_ (by simp) (by simp) (by simp)
            intro y hy
            simp at hy; subst hy; exact .inr hpre.2
          · simp only [Option.some.injEq] at hs; subst hs
            have := hgen s ((C.first x).map .encode ++ [.acquire x, .check x, .release x]) t.held .ready rfl rfl ?_ ?_ ?_ ?_
            · simpa using this
            · intro y hy; simp at hy; subst hy; exact .inl (.inr (.inl (by simp)))
            · intro y hy; simp at hy; exact hw x hwx y (by simp [deps, hy])
            · intro y hy
              simp at hy
              subst hy
              exact ⟨hwx, fun z hz => .inr (.inl (by simp [hz]))⟩
            · intro y hy; simp at hy
        | acquire x =>
          simp only [htodo, Option.some.injEq] at hs
          subst hs
          have h1 : (acquireMutex s x c).1.threads = s.threads := by
            rcases hl : s.locks x with _ | ⟨m, n⟩ <;> rcases hc : c.bind fun i => s.pool[i]? with _ | k <;> simp [acquireMutex, poolGet, hl, hc]
          have h2 : (acquireMutex s x c).1.rows = s.rows := by
            rcases hl : s.locks x with _ | ⟨m, n⟩ <;> rcases hc : c.bind fun i => s.pool[i]? with _ | k <;> simp [acquireMutex, poolGet, hl, hc]
          exact hgen _ [] t.held _ h1 h2 (by simp) (by simp) (by simp) (by simp)
        | check x =>
          have hwx := b2 x (List.mem_cons_self ..)
          simp only [htodo] at hs
          split at hs
          · rename_i hx
            simp only [Option.some.injEq] at hs; subst hs
            refine hgen s [] t.held .ready rfl rfl ?_ (by simp) (by simp) (by simp)
            intro y hy
            simp at hy; subst hy; exact .inr hx
          · simp only [Option.some.injEq] at hs; subst hs
            have := hgen s ((C.before x).map .encode ++ .insert x :: (C.after x).map .encode) t.held .ready rfl rfl ?_ ?_ ?_ ?_
            · exact this
            · intro y hy; simp at hy; subst hy; exact .inl (.inr (.inr (.inl (by simp))))
            · intro y hy
              simp at hy
              rcases hy with hy | hy
              · exact hw x hwx.1 y (by simp [deps, hy])
              · exact hw x hwx.1 y (by simp [deps, hy])
            · intro y hy; simp at hy
            · intro y hy
              simp at hy
              subst hy
              refine ⟨hwx.1, ?_⟩
              intro z hz
              simp only [deps, List.mem_append] at hz
              rcases hz with (hz | hz) | hz
              · exact .inl (hwx.2 z hz)
              · exact .inr (.inl (by simp [hz]))
              · exact .inr (.inl (by simp [hz]))
        | insert x =>
          have hwx := b3 x (.inl (List.mem_cons_self ..))
          simp only [htodo, Option.some.injEq] at hs
          subst hs
          refine hgen s [] t.held (.writing x) rfl rfl ?_ (by simp) (by simp) ?_
          · intro y hy; simp at hy; subst hy; exact .inl (.inr (.inr (.inr rfl)))
          · intro y hy
            simp at hy
            subst hy
            exact ⟨hwx.1, fun z hz => .inl (hwx.2 z hz)⟩
        | release x =>
          simp only [htodo] at hs
          have h1 : (releaseMutex s x).1.threads = s.threads := by
            unfold releaseMutex
            split
            · split <;> rfl
            · rfl
          have h2 : (releaseMutex s x).1.rows = s.rows := by
            unfold releaseMutex
            split
            · split <;> rfl
            · rfl
          revert hs h1 h2
          rcases releaseMutex s x with ⟨r, _ | m⟩ <;> intro hs h1 h2 <;> simp only [Option.some.injEq] at hs <;> subst hs <;>
            exact hgen r [] _ _ h1 h2 (by simp) (by simp) (by simp) (by simp)

theorem Books.run {want : Nat → Prop} (hw : ∀ x, want x → ∀ y ∈ deps C x, want y) (sched : List (Nat × Option Nat)) :
    ∀ {s s' : St}, Books C want s → run C s sched = some s' → Books C want s' ∧ ∀ j y, CoveredBy s j y → CoveredBy s' j y := by
  induction sched with
  | nil => intro s s' h hs; simp only [EncoderLocks.run, Option.some.injEq] at hs; subst hs; exact ⟨h, fun _ _ h => h⟩
  | cons p sched ih =>
    intro s s' h hs
    obtain ⟨i, c⟩ := p
    simp only [EncoderLocks.run, Option.bind_eq_some_iff] at hs
    obtain ⟨s1, h1, h2⟩ := hs
    have h3 := h.step hw h1
    have h4 := ih h3.1 h2
    exact ⟨h4.1, fun j y hy => h4.2 j y (h3.2 j y hy)⟩

theorem Books.init {want : Nat → Prop} (xs : List (List Nat)) (hx : ∀ l ∈ xs, ∀ x ∈ l, want x) : Books C want (init xs) := by
  refine ⟨by simp [EncoderLocks.init], ?_⟩
  intro t ht
  simp only [EncoderLocks.init, List.mem_map] at ht
  obtain ⟨l, hl, rfl⟩ := ht
  refine ⟨?_, ?_, ?_⟩
  · intro x h; simp at h; exact hx l hl x h
  · intro x h; simp at h
  · intro x h; simp at h

theorem Covered.ended {x : Nat} (h : Covered s x) (he : ∀ t ∈ s.threads, Ended t) : x ∈ s.rows := by
  rcases h with h | ⟨t, ht, h⟩
  · exact h
  · obtain ⟨h1, h2⟩ := he t ht
    unfold Owed at h
    rw [h1, h2] at h
    simp at h

end Verif.EncoderLocks
