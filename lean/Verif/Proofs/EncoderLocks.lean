import Verif.Spec.EncoderLocks

/-!
# The locks of the encoder
-/

namespace Verif.EncoderLocks

open Spec

/-- the locks a goroutine refers to -/
def Thread.refs (t : Thread) : List Nat :=
  match t.phase with
  | .waiting x _ => x :: t.held
  | _ => t.held

/-- what a goroutine still has to do fits the locks it refers to -/
def Shape (rank : Nat → Nat) : List Nat → List Act → Prop
  | h, [] => h = []
  | h, .encode x :: p => (∀ y ∈ h, rank x < rank y) ∧ Shape rank h p
  | h, .acquire x :: p => (∀ y ∈ h, rank x < rank y) ∧ .insert x ∉ p ∧ Shape rank (x :: h) p
  | h, .check x :: p => h.head? = some x ∧ .insert x ∉ p ∧ Shape rank h p
  | h, .insert x :: p => h.head? = some x ∧ .insert x ∉ p ∧ Shape rank h p
  | h, .release x :: p => h.head? = some x ∧ .insert x ∉ p ∧ Shape rank h.tail p

theorem Shape.insert_mem {rank : Nat → Nat} {x : Nat} : ∀ {p : List Act} {h : List Nat}, Shape rank h p → .insert x ∈ p → x ∈ h := by
  intro p
  induction p with
  | nil => intro h _ hx; cases hx
  | cons a p ih =>
    intro h hs hx
    cases a with
    | encode y => exact ih hs.2 (by simpa using hx)
    | acquire y =>
      have hx' : .insert x ∈ p := by simpa using hx
      have := ih hs.2.2 hx'
      rcases List.mem_cons.1 this with e | e
      · subst e; exact absurd hx' hs.2.1
      · exact e
    | check y => exact ih hs.2.2 (by simpa using hx)
    | insert y =>
      rcases List.mem_cons.1 hx with e | e
      · cases e; exact List.mem_of_head? hs.1
      · exact ih hs.2.2 e
    | release y => exact List.mem_of_mem_tail (ih hs.2.2 (by simpa using hx))

theorem Shape.encodes {rank : Nat → Nat} {h : List Nat} {p : List Act} (hp : Shape rank h p) :
    ∀ (l : List Nat), (∀ x ∈ l, ∀ y ∈ h, rank x < rank y) → Shape rank h (l.map .encode ++ p) := by
  intro l
  induction l with
  | nil => intro _; exact hp
  | cons x l ih =>
    intro hl
    exact ⟨hl x (List.mem_cons_self ..), ih fun y hy => hl y (List.mem_cons_of_mem _ hy)⟩

/-- a goroutine as it should be -/
structure Fine (rank : Nat → Nat) (t : Thread) : Prop where
  shape : Shape rank t.refs t.todo
  sorted : t.refs.Pairwise fun a b => rank a < rank b
  waits : ∀ x m, t.phase = .waiting x m → .insert x ∉ t.todo
  writes : ∀ x, t.phase = .writing x → t.held.head? = some x ∧ .insert x ∉ t.todo

def Owns (s : St) (t : Thread) (m : Nat) : Prop := t.phase = .unlocking m ∨ ∃ x n, x ∈ t.held ∧ s.locks x = some (m, n)

def refCount (s : St) (x : Nat) : Nat := s.threads.countP fun t => decide (x ∈ t.refs)

/-- the state of the lock manager fits the goroutines -/
structure Inv (rank : Nat → Nat) (s : St) : Prop where
  fine : ∀ (i : Nat) t, s.threads[i]? = some t → Fine rank t
  cnt : ∀ x m n, s.locks x = some (m, n) → n = refCount s x ∧ 0 < n
  zero : ∀ x, s.locks x = none → refCount s x = 0
  inj : ∀ x y m n k, s.locks x = some (m, n) → s.locks y = some (m, k) → x = y
  free : ∀ x m n, s.locks x = some (m, n) → m ∉ s.pool ∧ m < s.next
  pool : s.pool.Nodup ∧ ∀ m ∈ s.pool, m < s.next
  waits : ∀ (i : Nat) t x m, s.threads[i]? = some t → t.phase = .waiting x m → ∃ n, s.locks x = some (m, n)
  made : ∀ (i : Nat) t m, s.threads[i]? = some t → Owns s t m → m < s.next
  locked : ∀ m, s.locked m = true ↔ ∃ (i : Nat) (t : Thread), s.threads[i]? = some t ∧ Owns s t m
  owner : ∀ (i j : Nat) t u m, s.threads[i]? = some t → s.threads[j]? = some u → Owns s t m → Owns s u m → i = j
  apart : ∀ (i : Nat) t m x n, s.threads[i]? = some t → t.phase = .unlocking m → x ∈ t.held → s.locks x ≠ some (m, n)
  rows : s.rows.Nodup
  todo : ∀ (i : Nat) t x, s.threads[i]? = some t → .insert x ∈ t.todo ∨ t.phase = .writing x → x ∉ s.rows
  fatal : s.fatal = false

variable {C : Cfg} {rank : Nat → Nat} {s s' : St} {i : Nat} {t u : Thread}

theorem refCount_set (hi : s.threads[i]? = some t) (u : Thread) (x : Nat) :
    refCount (setThread s i u) x + (if x ∈ t.refs then 1 else 0) = refCount s x + (if x ∈ u.refs then 1 else 0) := by
  have hlt : i < s.threads.length := by
    rcases Nat.lt_or_ge i s.threads.length with h | h
    · exact h
    · rw [List.getElem?_eq_none h] at hi; cases hi
  have ht : s.threads[i] = t := by rw [List.getElem?_eq_getElem hlt] at hi; exact Option.some.inj hi
  unfold refCount setThread
  rw [List.countP_set hlt, ht]
  have : (if decide (x ∈ t.refs) = true then 1 else 0) ≤ s.threads.countP fun t => decide (x ∈ t.refs) := by
    split
    · rename_i hx
      exact List.countP_pos_iff.2 ⟨t, List.mem_of_getElem? hi, hx⟩
    · exact Nat.zero_le _
  simp only [decide_eq_true_eq] at this ⊢
  omega

theorem get_set (hi : s.threads[i]? = some t) (u : Thread) (j : Nat) :
    (setThread s i u).threads[j]? = if j = i then some u else s.threads[j]? := by
  have hlt : i < s.threads.length := by
    rcases Nat.lt_or_ge i s.threads.length with h | h
    · exact h
    · rw [List.getElem?_eq_none h] at hi; cases hi
  unfold setThread
  rw [List.getElem?_set]
  by_cases h : i = j
  · subst h; simp [hlt]
  · simp [h, Ne.symm h]

theorem Inv.some_of_mem (h : Inv rank s) (hi : s.threads[i]? = some t) {x : Nat} (hx : x ∈ t.refs) : ∃ m n, s.locks x = some (m, n) := by
  cases hl : s.locks x with
  | none =>
    have := h.zero x hl
    have hp : 0 < refCount s x := List.countP_pos_iff.2 ⟨t, List.mem_of_getElem? hi, by simpa using hx⟩
    omega
  | some p => exact ⟨p.1, p.2, rfl⟩

theorem held_refs {x : Nat} (hx : x ∈ t.held) : x ∈ t.refs := by
  unfold Thread.refs
  split
  · exact List.mem_cons_of_mem _ hx
  · exact hx

/-- a goroutine does something that has nothing to do with locks -/
theorem Inv.loc (h : Inv rank s) (hi : s.threads[i]? = some t) (hh : u.held = t.held) (hr : u.refs = t.refs) (hf : Fine rank u)
    (hp : ∀ m, t.phase ≠ .unlocking m) (hp' : ∀ m, u.phase ≠ .unlocking m) (hw' : ∀ x m, u.phase ≠ .waiting x m) (r : List Nat)
    (hn : r.Nodup) (hrow : ∀ (j : Nat) v x, (setThread s i u).threads[j]? = some v → .insert x ∈ v.todo ∨ v.phase = .writing x → x ∉ r) :
    Inv rank (setThread { s with rows := r } i u) := by
  have hg : ∀ j, (setThread { s with rows := r } i u).threads[j]? = if j = i then some u else s.threads[j]? := get_set (s := { s with rows := r }) hi u
  have hg' : ∀ j, (setThread s i u).threads[j]? = if j = i then some u else s.threads[j]? := get_set hi u
  have hc : ∀ x, refCount (setThread { s with rows := r } i u) x = refCount s x := by
    intro x
    have := refCount_set hi u x
    rw [hr] at this
    have e : refCount (setThread { s with rows := r } i u) x = refCount (setThread s i u) x := rfl
    omega
  have hown : ∀ m, Owns (setThread { s with rows := r } i u) u m ↔ Owns s t m := by
    intro m
    unfold Owns
    have h1 := hp m
    have h2 := hp' m
    rw [hh]
    constructor
    · rintro (e | e)
      · exact absurd e h2
      · exact .inr e
    · rintro (e | e)
      · exact absurd e h1
      · exact .inr e
  have hown' : ∀ v m, Owns (setThread { s with rows := r } i u) v m ↔ Owns s v m := fun v m => Iff.rfl
  refine ⟨?_, ?_, ?_, h.inj, h.free, h.pool, ?_, ?_, ?_, ?_, ?_, hn, ?_, h.fatal⟩
  · intro j v hv
    rw [hg] at hv
    split at hv
    · cases hv; exact hf
    · exact h.fine j v hv
  · intro x m n hx; rw [hc]; exact h.cnt x m n hx
  · intro x hx; rw [hc]; exact h.zero x hx
  · intro j v x m hv hw
    rw [hg] at hv
    split at hv
    · cases hv; exact absurd hw (hw' x m)
    · exact h.waits j v x m hv hw
  · intro j v m hv hw
    rw [hg] at hv
    split at hv
    · cases hv; exact h.made i t m hi ((hown m).1 hw)
    · exact h.made j v m hv hw
  · intro m
    show s.locked m = true ↔ _
    rw [h.locked m]
    constructor
    · rintro ⟨j, v, hv, ho⟩
      by_cases hj : j = i
      · subst hj; rw [hi] at hv; cases hv
        exact ⟨j, u, by rw [hg, if_pos rfl], (hown m).2 ho⟩
      · exact ⟨j, v, by rw [hg, if_neg hj]; exact hv, ho⟩
    · rintro ⟨j, v, hv, ho⟩
      rw [hg] at hv
      split at hv
      · rename_i e; cases hv; exact ⟨i, t, hi, (hown m).1 ho⟩
      · exact ⟨j, v, hv, ho⟩
  · intro j k v w m hv hw ho ho'
    rw [hg] at hv hw
    by_cases hj : j = i <;> by_cases hk : k = i
    · rw [hj, hk]
    · rw [if_pos hj] at hv; rw [if_neg hk] at hw; cases hv
      rw [hj]; exact h.owner i k t w m hi hw ((hown m).1 ho) ho'
    · rw [if_neg hj] at hv; rw [if_pos hk] at hw; cases hw
      rw [hk]; exact h.owner j i v t m hv hi ho ((hown m).1 ho')
    · rw [if_neg hj] at hv; rw [if_neg hk] at hw
      exact h.owner j k v w m hv hw ho ho'
  · intro j v m x n hv hw hx
    rw [hg] at hv
    split at hv
    · cases hv; exact absurd hw (hp' m)
    · exact h.apart j v m x n hv hw hx
  · intro j v x hv hx
    refine hrow j v x ?_ hx
    rw [hg'] ; rw [hg] at hv; exact hv

/-- a goroutine asks for a lock -/
theorem Inv.acquire (h : Inv rank s) (hi : s.threads[i]? = some t) (hp : t.phase = .ready) {x : Nat} {todo : List Act}
    (ht : t.todo = .acquire x :: todo) (c : Option Nat) :
    Inv rank (setThread (acquireMutex s x c).1 i ⟨todo, t.held, .waiting x (acquireMutex s x c).2⟩) := by
  have hrefs : t.refs = t.held := by unfold Thread.refs; rw [hp]
  have hfine := h.fine i t hi
  have hsh := hfine.shape
  rw [ht, hrefs] at hsh
  obtain ⟨hlow, hni, hsh'⟩ := hsh
  have hxh : x ∉ t.held := fun hx => by have := hlow x hx; omega
  -- what the lock manager does
  obtain ⟨m, n, hm, hlocks, hpool, hnext, hlocked, hrows, hthreads, hfatal⟩ :
      ∃ m n, (acquireMutex s x c).2 = m ∧ (acquireMutex s x c).1.locks = upd s.locks x (some (m, n)) ∧
        ((s.locks x = some (m, n - 1) ∧ 1 < n ∧ (acquireMutex s x c).1.pool = s.pool ∧ (acquireMutex s x c).1.next = s.next) ∨
          (s.locks x = none ∧ n = 1 ∧ m ∈ s.pool ∧ (acquireMutex s x c).1.pool = s.pool.erase m ∧ (acquireMutex s x c).1.next = s.next) ∨
          (s.locks x = none ∧ n = 1 ∧ m = s.next ∧ (acquireMutex s x c).1.pool = s.pool ∧ (acquireMutex s x c).1.next = s.next + 1)) ∧
        s.next ≤ (acquireMutex s x c).1.next ∧ (acquireMutex s x c).1.locked = s.locked ∧ (acquireMutex s x c).1.rows = s.rows ∧
        (acquireMutex s x c).1.threads = s.threads ∧ (acquireMutex s x c).1.fatal = s.fatal := by
    unfold acquireMutex
    cases hl : s.locks x with
    | some p =>
      have := (h.cnt x p.1 p.2 hl).2
      exact ⟨p.1, p.2 + 1, rfl, rfl, .inl ⟨by simp, by omega, rfl, rfl⟩, Nat.le_refl _, rfl, rfl, rfl, rfl⟩
    | none =>
      unfold poolGet
      cases hc : c.bind fun i => s.pool[i]? with
      | some m =>
        have hmem : m ∈ s.pool := by
          cases c with
          | none => simp at hc
          | some k => exact List.mem_of_getElem? hc
        exact ⟨m, 1, rfl, rfl, .inr (.inl ⟨rfl, rfl, hmem, rfl, rfl⟩), Nat.le_refl _, rfl, rfl, rfl, rfl⟩
      | none => exact ⟨s.next, 1, rfl, rfl, .inr (.inr ⟨rfl, rfl, rfl, rfl, rfl⟩), Nat.le_succ _, rfl, rfl, rfl, rfl⟩
  generalize acquireMutex s x c = a at *
  obtain ⟨a, m'⟩ := a
  simp only at hm hlocks hpool hnext hlocked hrows hthreads hfatal ⊢
  subst hm
  have hi' : a.threads[i]? = some t := by rw [hthreads]; exact hi
  have hg := get_set (s := a) hi' ⟨todo, t.held, .waiting x m'⟩
  have hc := refCount_set (s := a) hi' ⟨todo, t.held, .waiting x m'⟩
  have hca : ∀ y, refCount a y = refCount s y := fun y => by unfold refCount; rw [hthreads]
  have hurefs : Thread.refs ⟨todo, t.held, .waiting x m'⟩ = x :: t.held := rfl
  -- the count
  have hcx : refCount (setThread a i ⟨todo, t.held, .waiting x m'⟩) x = refCount s x + 1 := by
    have := hc x
    rw [hca, hrefs, hurefs, if_neg hxh, if_pos (List.mem_cons_self ..)] at this
    exact this
  have hcy : ∀ y, y ≠ x → refCount (setThread a i ⟨todo, t.held, .waiting x m'⟩) y = refCount s y := by
    intro y hy
    have := hc y
    rw [hca, hrefs, hurefs] at this
    simp only [List.mem_cons, hy, false_or] at this
    omega
  have hlx : a.locks x = some (m', n) := by rw [hlocks]; simp [upd]
  have hly : ∀ y, y ≠ x → a.locks y = s.locks y := fun y hy => by rw [hlocks]; simp [upd, hy]
  have hheld : ∀ (j : Nat) v y, s.threads[j]? = some v → y ∈ v.held → ∀ k, (∃ n, a.locks y = some (k, n)) ↔ ∃ n, s.locks y = some (k, n) := by
    intro j v y hv hy k
    by_cases e : y = x
    · subst e
      obtain ⟨k', n', hk⟩ := h.some_of_mem hv (held_refs hy)
      rcases hpool with ⟨h1, -⟩ | ⟨h1, -⟩ | ⟨h1, -⟩
      · rw [hlx, h1]; simp
      · rw [h1] at hk; cases hk
      · rw [h1] at hk; cases hk
    · rw [hly y e]
  have hown : ∀ (j : Nat) v k, s.threads[j]? = some v → (Owns a v k ↔ Owns s v k) := by
    intro j v k hv
    unfold Owns
    constructor
    · rintro (e | ⟨y, n, hy, e⟩)
      · exact .inl e
      · obtain ⟨n', e'⟩ := (hheld j v y hv hy k).1 ⟨n, e⟩; exact .inr ⟨y, n', hy, e'⟩
    · rintro (e | ⟨y, n, hy, e⟩)
      · exact .inl e
      · obtain ⟨n', e'⟩ := (hheld j v y hv hy k).2 ⟨n, e⟩; exact .inr ⟨y, n', hy, e'⟩
  have hownu : ∀ k, Owns a ⟨todo, t.held, .waiting x m'⟩ k ↔ Owns s t k := by
    intro k
    rw [← hown i t k hi]
    unfold Owns
    simp [hp]
  -- other keys have other mutexes
  have hdiff : ∀ y k, y ≠ x → s.locks y ≠ some (m', k) := by
    intro y k hy e
    rcases hpool with ⟨h1, -⟩ | ⟨-, -, h1, -⟩ | ⟨-, -, h1, -⟩
    · exact hy (h.inj y x m' k _ e h1)
    · exact (h.free y m' k e).1 h1
    · have := (h.free y m' k e).2; omega
  have hpl : ∀ k, k ∈ a.pool → k ∈ s.pool ∧ k ≠ m' := by
    intro k hk
    rcases hpool with ⟨h1, -, h2, -⟩ | ⟨-, -, h1, h2, -⟩ | ⟨-, -, h1, h2, -⟩
    · rw [h2] at hk; exact ⟨hk, fun e => (h.free x m' _ h1).1 (e ▸ hk)⟩
    · rw [h2, h.pool.1.mem_erase_iff] at hk; exact ⟨hk.2, hk.1⟩
    · rw [h2] at hk; exact ⟨hk, fun e => by have := h.pool.2 k hk; omega⟩
  have hmn : m' < a.next := by
    rcases hpool with ⟨h1, -, -, h2⟩ | ⟨-, -, h1, -, h2⟩ | ⟨-, -, h1, -, h2⟩
    · rw [h2]; exact (h.free x m' _ h1).2
    · rw [h2]; exact h.pool.2 m' h1
    · omega
  refine ⟨?_, ?_, ?_, ?_, ?_, ?_, ?_, ?_, ?_, ?_, ?_, ?_, ?_, ?_⟩
  · intro j v hv
    rw [hg] at hv
    split at hv
    · cases hv
      refine ⟨hsh', ?_, ?_, ?_⟩
      · rw [hurefs, List.pairwise_cons]
        have := hfine.sorted
        rw [hrefs] at this
        exact ⟨hlow, this⟩
      · intro y k e; simp only [Phase.waiting.injEq] at e; rw [← e.1]; exact hni
      · intro y e; cases e
    · rw [hthreads] at hv; exact h.fine j v hv
  · intro y k l hy
    by_cases e : y = x
    · subst e
      rw [show (setThread a i ⟨todo, t.held, .waiting y m'⟩).locks y = a.locks y from rfl, hlx] at hy
      cases hy
      rw [hcx]
      rcases hpool with ⟨h1, h2, -⟩ | ⟨h1, h2, -⟩ | ⟨h1, h2, -⟩
      · have := h.cnt y _ _ h1; omega
      · have := h.zero y h1; omega
      · have := h.zero y h1; omega
    · rw [hcy y e]
      rw [show (setThread a i ⟨todo, t.held, .waiting x m'⟩).locks y = a.locks y from rfl, hly y e] at hy
      exact h.cnt y k l hy
  · intro y hy
    by_cases e : y = x
    · subst e
      rw [show (setThread a i ⟨todo, t.held, .waiting y m'⟩).locks y = a.locks y from rfl, hlx] at hy
      cases hy
    · rw [hcy y e]
      rw [show (setThread a i ⟨todo, t.held, .waiting x m'⟩).locks y = a.locks y from rfl, hly y e] at hy
      exact h.zero y hy
  · intro y z k n1 n2 hy hz
    have hy' : a.locks y = some (k, n1) := hy
    have hz' : a.locks z = some (k, n2) := hz
    by_cases ey : y = x <;> by_cases ez : z = x
    · rw [ey, ez]
    · rw [ey, hlx] at hy'; cases hy'; rw [hly z ez] at hz'; exact absurd hz' (hdiff z _ ez)
    · rw [ez, hlx] at hz'; cases hz'; rw [hly y ey] at hy'; exact absurd hy' (hdiff y _ ey)
    · rw [hly y ey] at hy'; rw [hly z ez] at hz'; exact h.inj y z k n1 n2 hy' hz'
  · intro y k l hy
    have hy' : a.locks y = some (k, l) := hy
    show k ∉ a.pool ∧ k < a.next
    by_cases e : y = x
    · subst e; rw [hlx] at hy'; cases hy'
      exact ⟨fun hk => (hpl _ hk).2 rfl, hmn⟩
    · rw [hly y e] at hy'
      have := h.free y k l hy'
      exact ⟨fun hk => this.1 (hpl k hk).1, by omega⟩
  · show a.pool.Nodup ∧ ∀ m ∈ a.pool, m < a.next
    refine ⟨?_, fun k hk => by have := h.pool.2 k (hpl k hk).1; omega⟩
    rcases hpool with ⟨h1, -, h2, -⟩ | ⟨-, -, h1, h2, -⟩ | ⟨-, -, h1, h2, -⟩
    · rw [h2]; exact h.pool.1
    · rw [h2]; exact h.pool.1.erase _
    · rw [h2]; exact h.pool.1
  · intro j v y k hv hw
    rw [hg] at hv
    split at hv
    · cases hv; simp only [Phase.waiting.injEq] at hw; obtain ⟨rfl, rfl⟩ := hw; exact ⟨n, hlx⟩
    · rw [hthreads] at hv
      obtain ⟨l, hl⟩ := h.waits j v y k hv hw
      show ∃ l, a.locks y = some (k, l)
      by_cases e : y = x
      · subst e
        rcases hpool with ⟨h1, -⟩ | ⟨h1, -⟩ | ⟨h1, -⟩
        · rw [h1] at hl; cases hl; exact ⟨n, hlx⟩
        · rw [h1] at hl; cases hl
        · rw [h1] at hl; cases hl
      · exact ⟨l, by rw [hly y e]; exact hl⟩
  · intro j v k hv ho
    rw [hg] at hv
    show k < a.next
    split at hv
    · cases hv
      have := h.made i t k hi ((hownu k).1 ho); omega
    · rw [hthreads] at hv
      have := h.made j v k hv ((hown j v k hv).1 ho); omega
  · intro k
    show a.locked k = true ↔ _
    rw [hlocked, h.locked k]
    constructor
    · rintro ⟨j, v, hv, ho⟩
      by_cases hj : j = i
      · subst hj; rw [hi] at hv; cases hv
        exact ⟨j, _, by rw [hg, if_pos rfl], (hownu k).2 ho⟩
      · exact ⟨j, v, by rw [hg, if_neg hj, hthreads]; exact hv, (hown j v k hv).2 ho⟩
    · rintro ⟨j, v, hv, ho⟩
      rw [hg] at hv
      split at hv
      · cases hv; exact ⟨i, t, hi, (hownu k).1 ho⟩
      · rw [hthreads] at hv; exact ⟨j, v, hv, (hown j v k hv).1 ho⟩
  · intro j l v w k hv hw ho ho'
    rw [hg] at hv hw
    by_cases hj : j = i <;> by_cases hl : l = i
    · rw [hj, hl]
    · rw [if_pos hj] at hv; rw [if_neg hl, hthreads] at hw; cases hv
      rw [hj]; exact h.owner i l t w k hi hw ((hownu k).1 ho) ((hown l w k hw).1 ho')
    · rw [if_neg hj, hthreads] at hv; rw [if_pos hl] at hw; cases hw
      rw [hl]; exact h.owner j i v t k hv hi ((hown j v k hv).1 ho) ((hownu k).1 ho')
    · rw [if_neg hj, hthreads] at hv; rw [if_neg hl, hthreads] at hw
      exact h.owner j l v w k hv hw ((hown j v k hv).1 ho) ((hown l w k hw).1 ho')
  · intro j v k y l hv hw hy hl
    rw [hg] at hv
    split at hv
    · cases hv; cases hw
    · rw [hthreads] at hv
      obtain ⟨l', hl'⟩ := (hheld j v y hv hy k).1 ⟨l, hl⟩
      exact h.apart j v k y l' hv hw hy hl'
  · show a.rows.Nodup; rw [hrows]; exact h.rows
  · intro j v y hv hy
    show y ∉ a.rows
    rw [hrows]
    rw [hg] at hv
    split at hv
    · cases hv
      refine h.todo i t y hi (.inl ?_)
      rcases hy with hy | hy
      · rw [ht]; exact List.mem_cons_of_mem _ hy
      · cases hy
    · rw [hthreads] at hv; exact h.todo j v y hv hy
  · show a.fatal = false; rw [hfatal]; exact h.fatal

/-- a goroutine gets a lock -/
theorem Inv.locks_mutex (h : Inv rank s) (hi : s.threads[i]? = some t) {x m : Nat} (hp : t.phase = .waiting x m) (hm : s.locked m = false) :
    Inv rank (setThread { s with locked := upd s.locked m true } i ⟨t.todo, x :: t.held, .ready⟩) := by
  have hg : ∀ j, (setThread { s with locked := upd s.locked m true } i ⟨t.todo, x :: t.held, .ready⟩).threads[j]? =
      if j = i then some ⟨t.todo, x :: t.held, .ready⟩ else s.threads[j]? :=
    get_set (s := { s with locked := upd s.locked m true }) hi _
  have hrefs : t.refs = x :: t.held := by unfold Thread.refs; rw [hp]
  have hc : ∀ y, refCount (setThread { s with locked := upd s.locked m true } i ⟨t.todo, x :: t.held, .ready⟩) y = refCount s y := by
    intro y
    have := refCount_set hi ⟨t.todo, x :: t.held, .ready⟩ y
    rw [hrefs, show Thread.refs ⟨t.todo, x :: t.held, .ready⟩ = x :: t.held from rfl] at this
    have e : refCount (setThread { s with locked := upd s.locked m true } i ⟨t.todo, x :: t.held, .ready⟩) y =
      refCount (setThread s i ⟨t.todo, x :: t.held, .ready⟩) y := rfl
    omega
  obtain ⟨n, hx⟩ := h.waits i t x m hi hp
  have hno : ∀ (j : Nat) v, s.threads[j]? = some v → ¬ Owns s v m := by
    intro j v hv ho
    have := (h.locked m).2 ⟨j, v, hv, ho⟩
    rw [hm] at this; cases this
  have hown : ∀ k, Owns s ⟨t.todo, x :: t.held, .ready⟩ k ↔ k = m ∨ Owns s t k := by
    intro k
    unfold Owns
    simp only [hp, List.mem_cons, reduceCtorEq, false_or]
    constructor
    · rintro ⟨y, l, rfl | hy, hl⟩
      · rw [hx] at hl; cases hl; exact .inl rfl
      · exact .inr ⟨y, l, hy, hl⟩
    · rintro (rfl | ⟨y, l, hy, hl⟩)
      · exact ⟨x, n, .inl rfl, hx⟩
      · exact ⟨y, l, .inr hy, hl⟩
  have hfine := h.fine i t hi
  refine ⟨?_, ?_, ?_, h.inj, h.free, h.pool, ?_, ?_, ?_, ?_, ?_, h.rows, ?_, h.fatal⟩
  · intro j v hv
    rw [hg] at hv
    split at hv
    · cases hv
      refine ⟨?_, ?_, ?_, ?_⟩
      · have := hfine.shape; rw [hrefs] at this; exact this
      · have := hfine.sorted; rw [hrefs] at this; exact this
      · intro y k e; cases e
      · intro y e; cases e
    · exact h.fine j v hv
  · intro y k l hy; rw [hc]; exact h.cnt y k l hy
  · intro y hy; rw [hc]; exact h.zero y hy
  · intro j v y k hv hw
    rw [hg] at hv
    split at hv
    · cases hv; cases hw
    · exact h.waits j v y k hv hw
  · intro j v k hv ho
    rw [hg] at hv
    split at hv
    · cases hv
      rcases (hown k).1 ho with rfl | ho
      · exact (h.free x k n hx).2
      · exact h.made i t k hi ho
    · exact h.made j v k hv ho
  · intro k
    show upd s.locked m true k = true ↔ _
    by_cases hk : k = m
    · subst hk
      simp only [upd, if_true, true_iff]
      exact ⟨i, _, by rw [hg, if_pos rfl], (hown k).2 (.inl rfl)⟩
    · simp only [upd, if_neg hk]
      rw [h.locked k]
      constructor
      · rintro ⟨j, v, hv, ho⟩
        by_cases hj : j = i
        · subst hj; rw [hi] at hv; cases hv
          exact ⟨j, _, by rw [hg, if_pos rfl], (hown k).2 (.inr ho)⟩
        · exact ⟨j, v, by rw [hg, if_neg hj]; exact hv, ho⟩
      · rintro ⟨j, v, hv, ho⟩
        rw [hg] at hv
        split at hv
        · cases hv; exact ⟨i, t, hi, ((hown k).1 ho).resolve_left hk⟩
        · exact ⟨j, v, hv, ho⟩
  · intro j l v w k hv hw ho ho'
    rw [hg] at hv hw
    by_cases hj : j = i <;> by_cases hl : l = i
    · rw [hj, hl]
    · rw [if_pos hj] at hv; rw [if_neg hl] at hw; cases hv
      rcases (hown k).1 ho with rfl | ho
      · exact absurd ho' (hno l w hw)
      · rw [hj]; exact h.owner i l t w k hi hw ho ho'
    · rw [if_neg hj] at hv; rw [if_pos hl] at hw; cases hw
      rcases (hown k).1 ho' with rfl | ho'
      · exact absurd ho (hno j v hv)
      · rw [hl]; exact h.owner j i v t k hv hi ho ho'
    · rw [if_neg hj] at hv; rw [if_neg hl] at hw
      exact h.owner j l v w k hv hw ho ho'
  · intro j v k y l hv hw hy
    rw [hg] at hv
    split at hv
    · cases hv; cases hw
    · exact h.apart j v k y l hv hw hy
  · intro j v y hv hy
    rw [hg] at hv
    split at hv
    · cases hv
      refine h.todo i t y hi (.inl ?_)
      rcases hy with hy | hy
      · exact hy
      · cases hy
    · exact h.todo j v y hv hy

/-- a goroutine unlocks a mutex -/
theorem Inv.unlocks (h : Inv rank s) (hi : s.threads[i]? = some t) {m : Nat} (hp : t.phase = .unlocking m) :
    Inv rank (setThread { s with fatal := s.fatal || !s.locked m, locked := upd s.locked m false } i ⟨t.todo, t.held, .ready⟩) := by
  have hg : ∀ j, (setThread { s with fatal := s.fatal || !s.locked m, locked := upd s.locked m false } i ⟨t.todo, t.held, .ready⟩).threads[j]? =
      if j = i then some ⟨t.todo, t.held, .ready⟩ else s.threads[j]? :=
    get_set (s := { s with fatal := s.fatal || !s.locked m, locked := upd s.locked m false }) hi _
  have hrefs : t.refs = t.held := by unfold Thread.refs; rw [hp]
  have hc : ∀ y, refCount (setThread { s with fatal := s.fatal || !s.locked m, locked := upd s.locked m false } i ⟨t.todo, t.held, .ready⟩) y = refCount s y := by
    intro y
    have := refCount_set hi ⟨t.todo, t.held, .ready⟩ y
    rw [hrefs, show Thread.refs ⟨t.todo, t.held, .ready⟩ = t.held from rfl] at this
    have e : refCount (setThread { s with fatal := s.fatal || !s.locked m, locked := upd s.locked m false } i ⟨t.todo, t.held, .ready⟩) y =
      refCount (setThread s i ⟨t.todo, t.held, .ready⟩) y := rfl
    omega
  have hlm : s.locked m = true := (h.locked m).2 ⟨i, t, hi, .inl hp⟩
  have hown : ∀ k, Owns s ⟨t.todo, t.held, .ready⟩ k ↔ k ≠ m ∧ Owns s t k := by
    intro k
    unfold Owns
    simp only [hp, reduceCtorEq, false_or, Phase.unlocking.injEq]
    constructor
    · rintro ⟨y, l, hy, hl⟩
      exact ⟨fun e => h.apart i t m y l hi hp hy (e ▸ hl), .inr ⟨y, l, hy, hl⟩⟩
    · rintro ⟨hk, e | e⟩
      · exact absurd e.symm hk
      · exact e
  have hfine := h.fine i t hi
  refine ⟨?_, ?_, ?_, h.inj, h.free, h.pool, ?_, ?_, ?_, ?_, ?_, h.rows, ?_, ?_⟩
  · intro j v hv
    rw [hg] at hv
    split at hv
    · cases hv
      refine ⟨?_, ?_, ?_, ?_⟩
      · have := hfine.shape; rw [hrefs] at this; exact this
      · have := hfine.sorted; rw [hrefs] at this; exact this
      · intro y k e; cases e
      · intro y e; cases e
    · exact h.fine j v hv
  · intro y k l hy; rw [hc]; exact h.cnt y k l hy
  · intro y hy; rw [hc]; exact h.zero y hy
  · intro j v y k hv hw
    rw [hg] at hv
    split at hv
    · cases hv; cases hw
    · exact h.waits j v y k hv hw
  · intro j v k hv ho
    rw [hg] at hv
    split at hv
    · cases hv; exact h.made i t k hi ((hown k).1 ho).2
    · exact h.made j v k hv ho
  · intro k
    show upd s.locked m false k = true ↔ _
    by_cases hk : k = m
    · subst hk
      simp only [upd, if_true, Bool.false_eq_true, false_iff]
      rintro ⟨j, v, hv, ho⟩
      rw [hg] at hv
      split at hv
      · cases hv; exact ((hown k).1 ho).1 rfl
      · rename_i hj; exact hj (h.owner j i v t k hv hi ho (.inl hp))
    · simp only [upd, if_neg hk]
      rw [h.locked k]
      constructor
      · rintro ⟨j, v, hv, ho⟩
        by_cases hj : j = i
        · subst hj; rw [hi] at hv; cases hv
          exact ⟨j, _, by rw [hg, if_pos rfl], (hown k).2 ⟨hk, ho⟩⟩
        · exact ⟨j, v, by rw [hg, if_neg hj]; exact hv, ho⟩
      · rintro ⟨j, v, hv, ho⟩
        rw [hg] at hv
        split at hv
        · cases hv; exact ⟨i, t, hi, ((hown k).1 ho).2⟩
        · exact ⟨j, v, hv, ho⟩
  · intro j l v w k hv hw ho ho'
    rw [hg] at hv hw
    by_cases hj : j = i <;> by_cases hl : l = i
    · rw [hj, hl]
    · rw [if_pos hj] at hv; rw [if_neg hl] at hw; cases hv
      rw [hj]; exact h.owner i l t w k hi hw ((hown k).1 ho).2 ho'
    · rw [if_neg hj] at hv; rw [if_pos hl] at hw; cases hw
      rw [hl]; exact h.owner j i v t k hv hi ho ((hown k).1 ho').2
    · rw [if_neg hj] at hv; rw [if_neg hl] at hw
      exact h.owner j l v w k hv hw ho ho'
  · intro j v k y l hv hw hy
    rw [hg] at hv
    split at hv
    · cases hv; cases hw
    · exact h.apart j v k y l hv hw hy
  · intro j v y hv hy
    rw [hg] at hv
    split at hv
    · cases hv
      refine h.todo i t y hi (.inl ?_)
      rcases hy with hy | hy
      · exact hy
      · cases hy
    · exact h.todo j v y hv hy
  · show (s.fatal || !s.locked m) = false
    rw [h.fatal, hlm]; rfl

/-- a goroutine gives a lock back -/
theorem Inv.release (h : Inv rank s) (hi : s.threads[i]? = some t) (hp : t.phase = .ready) {x : Nat} {todo : List Act}
    (ht : t.todo = .release x :: todo) :
    ∃ m, (releaseMutex s x).2 = some m ∧ Inv rank (setThread (releaseMutex s x).1 i ⟨todo, t.held.erase x, .unlocking m⟩) := by
  have hrefs : t.refs = t.held := by unfold Thread.refs; rw [hp]
  have hfine := h.fine i t hi
  have hsh := hfine.shape
  rw [ht, hrefs] at hsh
  obtain ⟨hhead, hni, hsh'⟩ := hsh
  have hxh : x ∈ t.held := List.mem_of_head? hhead
  obtain ⟨m, n, hx⟩ := h.some_of_mem hi (held_refs hxh)
  have herase : t.held.erase x = t.held.tail := by
    cases hh : t.held with
    | nil => rw [hh] at hxh; cases hxh
    | cons y l => rw [hh] at hhead; simp only [List.head?_cons, Option.some.injEq] at hhead; subst hhead; simp
  have hsorted := hfine.sorted
  rw [hrefs] at hsorted
  have hnx : x ∉ t.held.tail := by
    cases hh : t.held with
    | nil => rw [hh] at hxh; cases hxh
    | cons y l =>
      rw [hh] at hhead hsorted
      simp only [List.head?_cons, Option.some.injEq] at hhead; subst hhead
      intro hy
      have := (List.pairwise_cons.1 hsorted).1 y hy
      omega
  have hmem : ∀ y, y ∈ t.held.tail ↔ y ∈ t.held ∧ y ≠ x := by
    intro y
    cases hh : t.held with
    | nil => rw [hh] at hxh; cases hxh
    | cons z l =>
      rw [hh] at hhead hnx
      simp only [List.head?_cons, Option.some.injEq] at hhead; subst hhead
      simp only [List.tail_cons] at hnx ⊢
      simp only [List.mem_cons]
      constructor
      · intro hy; exact ⟨.inr hy, fun e => hnx (e ▸ hy)⟩
      · rintro ⟨rfl | hy, hne⟩
        · exact absurd rfl hne
        · exact hy
  obtain ⟨hn, hpos⟩ := h.cnt x m n hx
  -- what the lock manager does
  obtain ⟨hm, hlocks, hcase, hnext, hlocked, hrows, hthreads, hfatal⟩ :
      (releaseMutex s x).2 = some m ∧ (∀ y, y ≠ x → (releaseMutex s x).1.locks y = s.locks y) ∧
        ((n = 1 ∧ (releaseMutex s x).1.locks x = none ∧ (releaseMutex s x).1.pool = m :: s.pool) ∨
         (1 < n ∧ (releaseMutex s x).1.locks x = some (m, n - 1) ∧ (releaseMutex s x).1.pool = s.pool)) ∧
        (releaseMutex s x).1.next = s.next ∧ (releaseMutex s x).1.locked = s.locked ∧ (releaseMutex s x).1.rows = s.rows ∧
        (releaseMutex s x).1.threads = s.threads ∧ (releaseMutex s x).1.fatal = s.fatal := by
    unfold releaseMutex
    simp only [hx]
    by_cases h1 : n - 1 = 0
    · rw [if_pos h1]
      exact ⟨rfl, fun y hy => by simp [upd, hy], .inl ⟨by omega, by simp [upd], rfl⟩, rfl, rfl, rfl, rfl, rfl⟩
    · rw [if_neg h1]
      exact ⟨rfl, fun y hy => by simp [upd, hy], .inr ⟨by omega, by simp [upd], rfl⟩, rfl, rfl, rfl, rfl, rfl⟩
  refine ⟨m, hm, ?_⟩
  rw [herase]
  generalize (releaseMutex s x).1 = a at *
  have hi' : a.threads[i]? = some t := by rw [hthreads]; exact hi
  have hg := get_set (s := a) hi' ⟨todo, t.held.tail, .unlocking m⟩
  have hc := refCount_set (s := a) hi' ⟨todo, t.held.tail, .unlocking m⟩
  have hca : ∀ y, refCount a y = refCount s y := fun y => by unfold refCount; rw [hthreads]
  have hurefs : Thread.refs ⟨todo, t.held.tail, .unlocking m⟩ = t.held.tail := rfl
  have hcx : refCount (setThread a i ⟨todo, t.held.tail, .unlocking m⟩) x + 1 = refCount s x := by
    have := hc x
    rw [hca, hrefs, hurefs, if_pos hxh, if_neg hnx] at this
    exact this
  have hcy : ∀ y, y ≠ x → refCount (setThread a i ⟨todo, t.held.tail, .unlocking m⟩) y = refCount s y := by
    intro y hy
    have := hc y
    rw [hca, hrefs, hurefs] at this
    simp only [hmem, hy, ne_eq, not_false_eq_true, and_true] at this
    omega
  have hsome : ∀ y k l, a.locks y = some (k, l) → ∃ l', s.locks y = some (k, l') := by
    intro y k l hy
    by_cases e : y = x
    · subst e
      rcases hcase with ⟨-, h1, -⟩ | ⟨-, h1, -⟩
      · rw [h1] at hy; cases hy
      · rw [h1] at hy; cases hy; exact ⟨n, hx⟩
    · exact ⟨l, by rw [← hlocks y e]; exact hy⟩
  have htown : Owns s t m := .inr ⟨x, n, hxh, hx⟩
  have hnohold : ∀ (j : Nat) v, j ≠ i → s.threads[j]? = some v → x ∉ v.held := by
    intro j v hj hv hxv
    exact hj (h.owner j i v t m hv hi (.inr ⟨x, n, hxv, hx⟩) htown)
  have hown : ∀ (j : Nat) v k, j ≠ i → s.threads[j]? = some v → (Owns a v k ↔ Owns s v k) := by
    intro j v k hj hv
    unfold Owns
    have hh : ∀ y, y ∈ v.held → a.locks y = s.locks y := fun y hy => hlocks y fun e => hnohold j v hj hv (e ▸ hy)
    constructor
    · rintro (e | ⟨y, l, hy, e⟩)
      · exact .inl e
      · exact .inr ⟨y, l, hy, by rw [← hh y hy]; exact e⟩
    · rintro (e | ⟨y, l, hy, e⟩)
      · exact .inl e
      · exact .inr ⟨y, l, hy, by rw [hh y hy]; exact e⟩
  have hownu : ∀ k, Owns a ⟨todo, t.held.tail, .unlocking m⟩ k ↔ Owns s t k := by
    intro k
    unfold Owns
    simp only [hp, reduceCtorEq, false_or, Phase.unlocking.injEq, hmem]
    constructor
    · rintro (rfl | ⟨y, l, ⟨hy, hne⟩, e⟩)
      · exact ⟨x, n, hxh, hx⟩
      · exact ⟨y, l, hy, by rw [← hlocks y hne]; exact e⟩
    · rintro ⟨y, l, hy, e⟩
      by_cases hne : y = x
      · subst hne; rw [hx] at e; cases e; exact .inl rfl
      · exact .inr ⟨y, l, ⟨hy, hne⟩, by rw [hlocks y hne]; exact e⟩
  refine ⟨?_, ?_, ?_, ?_, ?_, ?_, ?_, ?_, ?_, ?_, ?_, ?_, ?_, ?_⟩
  · intro j v hv
    rw [hg] at hv
    split at hv
    · cases hv
      refine ⟨hsh', ?_, ?_, ?_⟩
      · rw [hurefs]; exact hsorted.tail
      · intro y k e; cases e
      · intro y e; cases e
    · rw [hthreads] at hv; exact h.fine j v hv
  · intro y k l hy
    have hy' : a.locks y = some (k, l) := hy
    by_cases e : y = x
    · subst e
      rcases hcase with ⟨-, h1, -⟩ | ⟨h0, h1, -⟩
      · rw [h1] at hy'; cases hy'
      · rw [h1] at hy'; cases hy'; omega
    · rw [hcy y e]; rw [hlocks y e] at hy'; exact h.cnt y k l hy'
  · intro y hy
    have hy' : a.locks y = none := hy
    by_cases e : y = x
    · subst e
      rcases hcase with ⟨h0, h1, -⟩ | ⟨h0, h1, -⟩
      · omega
      · rw [h1] at hy'; cases hy'
    · rw [hcy y e]; rw [hlocks y e] at hy'; exact h.zero y hy'
  · intro y z k n1 n2 hy hz
    obtain ⟨l1, h1⟩ := hsome y k n1 hy
    obtain ⟨l2, h2⟩ := hsome z k n2 hz
    exact h.inj y z k l1 l2 h1 h2
  · intro y k l hy
    have hy' : a.locks y = some (k, l) := hy
    show k ∉ a.pool ∧ k < a.next
    obtain ⟨l', hl'⟩ := hsome y k l hy'
    have hf := h.free y k l' hl'
    rw [hnext]
    refine ⟨?_, hf.2⟩
    rcases hcase with ⟨h0, h1, h2⟩ | ⟨h0, h1, h2⟩
    · rw [h2]
      intro hk
      rcases List.mem_cons.1 hk with rfl | hk
      · have := h.inj y x k l' n hl' hx
        subst this; rw [h1] at hy'; cases hy'
      · exact hf.1 hk
    · rw [h2]; exact hf.1
  · show a.pool.Nodup ∧ ∀ m ∈ a.pool, m < a.next
    rw [hnext]
    rcases hcase with ⟨h0, h1, h2⟩ | ⟨h0, h1, h2⟩
    · rw [h2]
      refine ⟨List.nodup_cons.2 ⟨(h.free x m n hx).1, h.pool.1⟩, ?_⟩
      intro k hk
      rcases List.mem_cons.1 hk with rfl | hk
      · exact (h.free x k n hx).2
      · exact h.pool.2 k hk
    · rw [h2]; exact h.pool
  · intro j v y k hv hw
    rw [hg] at hv
    split at hv
    · cases hv; cases hw
    · rename_i hj
      rw [hthreads] at hv
      obtain ⟨l, hl⟩ := h.waits j v y k hv hw
      show ∃ l, a.locks y = some (k, l)
      by_cases e : y = x
      · subst e
        rw [hx] at hl; cases hl
        rcases hcase with ⟨h0, -, -⟩ | ⟨h0, h1, -⟩
        · -- two goroutines refer to the lock
          exfalso
          have h2 : 0 < refCount (setThread a i ⟨todo, t.held.tail, .unlocking m⟩) y := by
            refine List.countP_pos_iff.2 ⟨v, List.mem_of_getElem? (i := j) ?_, ?_⟩
            · rw [hg, if_neg hj, hthreads]; exact hv
            · unfold Thread.refs; rw [hw]; simp
          omega
        · exact ⟨_, h1⟩
      · exact ⟨l, by rw [hlocks y e]; exact hl⟩
  · intro j v k hv ho
    rw [hg] at hv
    show k < a.next
    rw [hnext]
    split at hv
    · cases hv; exact h.made i t k hi ((hownu k).1 ho)
    · rename_i hj
      rw [hthreads] at hv; exact h.made j v k hv ((hown j v k hj hv).1 ho)
  · intro k
    show a.locked k = true ↔ _
    rw [hlocked, h.locked k]
    constructor
    · rintro ⟨j, v, hv, ho⟩
      by_cases hj : j = i
      · subst hj; rw [hi] at hv; cases hv
        exact ⟨j, _, by rw [hg, if_pos rfl], (hownu k).2 ho⟩
      · exact ⟨j, v, by rw [hg, if_neg hj, hthreads]; exact hv, (hown j v k hj hv).2 ho⟩
    · rintro ⟨j, v, hv, ho⟩
      rw [hg] at hv
      split at hv
      · cases hv; exact ⟨i, t, hi, (hownu k).1 ho⟩
      · rename_i hj
        rw [hthreads] at hv; exact ⟨j, v, hv, (hown j v k hj hv).1 ho⟩
  · intro j l v w k hv hw ho ho'
    rw [hg] at hv hw
    by_cases hj : j = i <;> by_cases hl : l = i
    · rw [hj, hl]
    · rw [if_pos hj] at hv; rw [if_neg hl, hthreads] at hw; cases hv
      rw [hj]; exact h.owner i l t w k hi hw ((hownu k).1 ho) ((hown l w k hl hw).1 ho')
    · rw [if_neg hj, hthreads] at hv; rw [if_pos hl] at hw; cases hw
      rw [hl]; exact h.owner j i v t k hv hi ((hown j v k hj hv).1 ho) ((hownu k).1 ho')
    · rw [if_neg hj, hthreads] at hv; rw [if_neg hl, hthreads] at hw
      exact h.owner j l v w k hv hw ((hown j v k hj hv).1 ho) ((hown l w k hl hw).1 ho')
  · intro j v k y l hv hw hy hl
    have hl' : a.locks y = some (k, l) := hl
    rw [hg] at hv
    split at hv
    · cases hv
      simp only [Phase.unlocking.injEq] at hw
      subst hw
      have hy' := (hmem y).1 hy
      rw [hlocks y hy'.2] at hl'
      exact hy'.2 (h.inj y x m l n hl' hx)
    · rw [hthreads] at hv
      obtain ⟨l', hl''⟩ := hsome y k l hl'
      exact h.apart j v k y l' hv hw hy hl''
  · show a.rows.Nodup; rw [hrows]; exact h.rows
  · intro j v y hv hy
    show y ∉ a.rows
    rw [hrows]
    rw [hg] at hv
    split at hv
    · cases hv
      refine h.todo i t y hi (.inl ?_)
      rcases hy with hy | hy
      · rw [ht]; exact List.mem_cons_of_mem _ hy
      · cases hy
    · rw [hthreads] at hv; exact h.todo j v y hv hy
  · show a.fatal = false; rw [hfatal]; exact h.fatal

end Verif.EncoderLocks
