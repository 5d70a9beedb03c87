import Verif.Spec.SQLQueries

/-! # The invariant of the queue of statements -/

namespace Verif.SQLQueries

theorem run_append (A B : List Label) (s : St) : run s (A ++ B) = (run s A).bind (run · B) := by
  induction A generalizing s with
  | nil => simp [run]
  | cons a A ih =>
    simp only [List.cons_append, run]
    cases step s a with
    | none => simp
    | some s' => simpa using ih s'

theorem calls_append (A B : List Label) : calls (A ++ B) = calls A ++ calls B := by
  induction A with
  | nil => simp [calls]
  | cons a A ih => cases a <;> simp [calls, ih]

/-! ### registration -/

theorem register_reg (w : Nat → Bool) (b : Bool) (n : Nat) (ts : List String) (reg : String → List Nat) (pv : List Nat) (t : String) :
    (register w b n ts reg pv).1 t = reg t ++ List.replicate (ts.count t) n := by
  induction ts generalizing reg pv with
  | nil => simp [register]
  | cons u ts ih =>
    simp only [register, ih]
    by_cases h : t = u
    · subst h; simp [List.replicate_succ]
    · simp [h, List.count_cons, Ne.symm h]

theorem register_prev (w : Nat → Bool) (b : Bool) (n : Nat) (ts : List String) (reg : String → List Nat) (pv : List Nat) (p : Nat) :
    p ∈ pv → p ∈ (register w b n ts reg pv).2 := by
  induction ts generalizing reg pv with
  | nil => simp [register]
  | cons u ts ih => intro h; exact ih _ _ (by simp [h])

/-- the statement to wait for because of a table, as it was before the registration -/
theorem register_has (w : Nat → Bool) (b : Bool) (n : Nat) (ts : List String) (reg : String → List Nat) (pv : List Nat) (t : String) (ht : t ∈ ts) :
    ∀ p ∈ previous w b (reg t), p ∈ (register w b n ts reg pv).2 := by
  induction ts generalizing reg pv with
  | nil => simp at ht
  | cons u ts ih =>
    intro p hp
    by_cases h : t = u
    · subst h; simp only [register]; exact register_prev _ _ _ _ _ _ _ (List.mem_append.mpr (Or.inr hp))
    · refine ih _ _ (by simpa [h] using ht) p ?_
      simp only [h, if_false]
      exact hp

/-- only statements registered, or the statement itself if it has a table twice, are waited for -/
theorem register_only (w : Nat → Bool) (b : Bool) (n : Nat) (ts : List String) (reg : String → List Nat) (pv : List Nat) :
    ∀ p ∈ (register w b n ts reg pv).2, p ∈ pv ∨ p = n ∨ ∃ t ∈ ts, p ∈ reg t := by
  induction ts generalizing reg pv with
  | nil => intro p hp; exact Or.inl hp
  | cons u ts ih =>
    intro p hp
    rcases ih _ _ p hp with h | h | ⟨t, ht, h⟩
    · rw [List.mem_append] at h
      rcases h with h | h
      · exact Or.inl h
      · refine Or.inr (Or.inr ⟨u, by simp, ?_⟩)
        simp only [previous] at h
        split at h
        · exact List.mem_of_getLast? (by simpa using h)
        · have := List.mem_of_find?_eq_some (by simpa using h : List.find? w (reg u).reverse = some p)
          simpa using this
    · exact Or.inr (Or.inl h)
    · split at h
      · rename_i e; subst e
        rw [List.mem_append] at h
        rcases h with h | h
        · exact Or.inr (Or.inr ⟨t, by simp, h⟩)
        · exact Or.inr (Or.inl (by simpa using h))
      · exact Or.inr (Or.inr ⟨t, by simp [ht], h⟩)

/-- without a table twice, the statement does not wait for itself -/
theorem register_self (w : Nat → Bool) (b : Bool) (n : Nat) (ts : List String) (reg : String → List Nat) (pv : List Nat) (hn : ts.Nodup)
    (hr : ∀ t ∈ ts, n ∉ reg t) (hp : n ∉ pv) : n ∉ (register w b n ts reg pv).2 := by
  induction ts generalizing reg pv with
  | nil => simpa [register]
  | cons u ts ih =>
    rw [List.nodup_cons] at hn
    refine ih _ _ hn.2 (fun t ht => ?_) ?_
    · have : t ≠ u := fun e => hn.1 (e ▸ ht)
      simp only [this, if_false]
      exact hr t (by simp [ht])
    · rw [List.mem_append]
      rintro (h | h)
      · exact hp h
      · apply hr u (by simp)
        simp only [previous] at h
        split at h
        · exact List.mem_of_getLast? (by simpa using h)
        · have := List.mem_of_find?_eq_some (by simpa using h : List.find? w (reg u).reverse = some n)
          simpa using this

theorem unregister_reg (n : Nat) (ts : List String) (reg : String → List Nat) (t : String) (i : Nat) :
    (unregister n ts reg t).count i = (reg t).count i - (if i = n then ts.count t else 0) := by
  induction ts generalizing reg with
  | nil => simp [unregister]
  | cons u ts ih =>
    simp only [unregister, ih]
    by_cases h : t = u
    · subst h
      simp only [if_true, List.count_cons_self]
      by_cases hi : i = n
      · subst hi; simp only [if_true, List.count_erase_self]; omega
      · simp [hi, List.count_erase_of_ne hi]
    · simp [h, List.count_cons, Ne.symm h]

theorem unregister_sublist (n : Nat) (ts : List String) (reg : String → List Nat) (t : String) :
    (unregister n ts reg t).Sublist (reg t) := by
  induction ts generalizing reg with
  | nil => simp [unregister]
  | cons u ts ih =>
    refine (ih _).trans ?_
    by_cases h : t = u
    · subst h; simpa using List.erase_sublist
    · simp [h]

/-! ### what the text of a statement says -/

theorem parse_true : ∀ (ps : List Parsed) (k : Kind), parse true ps k = ⟨true, []⟩
  | [], _ => rfl
  | p :: ps, k => by cases p <;> simp [parse, parse_true ps]

theorem parse_unknown : ∀ (b : Bool) (ps : List Parsed) (k : Kind), .unknown ∈ ps → parse b ps k = ⟨true, []⟩
  | b, p :: ps, k, h => by
    cases p <;> simp only [parse] <;> exact parse_unknown b ps _ (by simpa using h)

theorem parse_tables : ∀ (ps : List Parsed) (k : Kind), .unknown ∉ ps →
    (parse false ps k).tables = k.tables ++ ps.flatMap touches
  | [], k, _ => by simp [parse]
  | p :: ps, k, h => by
    have h2 : Parsed.unknown ∉ ps := fun e => h (by simp [e])
    cases p <;> first | (exact absurd List.mem_cons_self h) | (simp only [parse, parse_tables ps _ h2]; simp [touches])

theorem parse_sub : ∀ (b : Bool) (ps : List Parsed) (k : Kind) (t : String), t ∈ (parse b ps k).tables → t ∈ k.tables ∨ ∃ p ∈ ps, t ∈ touches p
  | b, [], k, t, h => by
    simp only [parse] at h
    split at h
    · simp at h
    · exact Or.inl h
  | b, p :: ps, k, t, h => by
    cases p <;> simp only [parse] at h <;> first
      | (rcases parse_sub b ps _ t h with h | ⟨p, hp, h⟩
         · rw [List.mem_append] at h
           rcases h with h | h
           · exact Or.inl h
           · exact Or.inr ⟨_, List.mem_cons_self, h⟩
         · exact Or.inr ⟨p, List.mem_cons_of_mem _ hp, h⟩)
      | simp at h

theorem parse_writes : ∀ (b : Bool) (ps : List Parsed) (k : Kind), (k.write = true ∨ ps ≠ []) → (∀ p ∈ ps, writes p = true) → (parse b ps k).write = true
  | b, [], k, h, _ => by
    simp only [parse]
    split
    · rfl
    · simpa using h
  | b, p :: ps, k, _, hw => by
    have h1 := hw p (by simp)
    have h2 : ∀ q ∈ ps, writes q = true := fun q hq => hw q (by simp [hq])
    cases p <;> simp only [parse] <;> first
      | exact parse_writes b ps _ (Or.inl rfl) h2
      | simp [writes] at h1
      | rfl

theorem parse_reads : ∀ (ps : List Parsed) (k : Kind), k.write = false → (∀ p ∈ ps, writes p = false) → (parse false ps k).write = false
  | [], k, h, _ => by simpa [parse] using h
  | p :: ps, k, _, hw => by
    have h1 := hw p (by simp)
    have h2 : ∀ q ∈ ps, writes q = false := fun q hq => hw q (by simp [hq])
    cases p <;> simp only [parse] <;> first
      | exact parse_reads ps _ rfl h2
      | simp [writes] at h1

theorem newQuery_write (b : Bool) (ps : List Parsed) : (newQuery b ps).write = (parse b ps ⟨false, []⟩).write := by
  simp only [newQuery]; split <;> simp_all

theorem newQuery_global (b : Bool) (ps : List Parsed) (h : (newQuery b ps).write = true) : "" ∈ (newQuery b ps).tables := by
  rw [newQuery_write] at h
  simp [newQuery, h]

theorem newQuery_sub (b : Bool) (ps : List Parsed) (t : String) (h : t ∈ (newQuery b ps).tables) :
    (t = "" ∧ (newQuery b ps).write = true) ∨ ∃ p ∈ ps, t ∈ touches p := by
  by_cases hw : (parse b ps ⟨false, []⟩).write = true
  · have hw2 : (newQuery b ps).write = true := by rw [newQuery_write]; exact hw
    simp only [newQuery, hw, if_true, List.mem_append, List.mem_singleton] at h
    rcases h with h | h
    · rcases parse_sub _ _ _ _ h with h | h
      · simp at h
      · exact Or.inr h
    · exact Or.inl ⟨h, hw2⟩
  · simp only [newQuery, hw] at h
    rcases parse_sub _ _ _ _ h with h | h
    · simp at h
    · exact Or.inr h

theorem newQuery_known (ps : List Parsed) (t : String) (hu : .unknown ∉ ps) (p : Parsed) (hp : p ∈ ps) (ht : t ∈ touches p) :
    t ∈ (newQuery false ps).tables := by
  have h1 : t ∈ (parse false ps ⟨false, []⟩).tables := by
    rw [parse_tables _ _ hu]; simp only [List.nil_append, List.mem_flatMap]; exact ⟨p, hp, ht⟩
  simp only [newQuery]
  split
  · simp [h1]
  · exact h1

theorem newQuery_nodup (b : Bool) (ps : List Parsed) (hn : (ps.flatMap touches).Nodup) (he : ∀ p ∈ ps, "" ∉ touches p) :
    (newQuery b ps).tables.Nodup := by
  by_cases hb : b = true ∨ .unknown ∈ ps
  · have : parse b ps ⟨false, []⟩ = ⟨true, []⟩ := by
      rcases hb with rfl | hb
      · exact parse_true _ _
      · exact parse_unknown _ _ _ hb
    simp [newQuery, this]
  · have hb1 : b = false := by cases b <;> simp_all
    have hb2 : Parsed.unknown ∉ ps := fun e => hb (Or.inr e)
    subst hb1
    have h1 := parse_tables ps ⟨false, []⟩ hb2
    simp only [List.nil_append] at h1
    have h2 : "" ∉ ps.flatMap touches := by
      simp only [List.mem_flatMap, not_exists, not_and]
      exact he
    simp only [newQuery]
    split
    · simp only [h1]
      rw [List.nodup_append]
      exact ⟨hn, by simp, fun a ha c hc => by simp at hc; subst hc; exact fun e => h2 (e ▸ ha)⟩
    · rw [h1]; exact hn

/-! ### the invariant -/

/-- the statement was given to the database -/
def Started (p : Phase) : Prop := p = .running ∨ p = .done ∨ p = .failed

structure Inv (s : St) (ls : List Label) : Prop where
  len : s.queries.length = (calls ls).length
  kind : ∀ (i : Nat) (q : Query) (p : Option Nat) (b : Bool) (ps : List Parsed), s.queries[i]? = some q → (calls ls)[i]? = some (p, b, ps) →
    q.write = (newQuery b ps).write ∧ q.tables = (newQuery b ps).tables ∧ q.parent = p
  reg : ∀ (t : String) (i : Nat), (s.reg t).count i =
    match s.queries[i]? with
    | some q => if q.phase = .done then 0 else q.tables.count t
    | none => 0
  sorted : ∀ (t : String), (s.reg t).Pairwise (· ≤ ·)
  waits : ∀ (i : Nat) (q : Query), s.queries[i]? = some q → ∀ (t : String), t ∈ q.tables → ∀ (j : Nat) (r : Query), j < i →
    s.queries[j]? = some r → t ∈ r.tables → (q.write = true ∨ r.write = true) →
    r.phase = .done ∨ ∃ p ∈ q.prev, j ≤ p ∧ ∃ (u : Query), s.queries[p]? = some u ∧ t ∈ u.tables ∧ (q.write = true ∨ u.write = true) ∧ p < i
  started : ∀ (i : Nat) (q : Query), s.queries[i]? = some q → Started q.phase → ∀ p ∈ q.prev, phaseOf s p = some .done
  low : ∀ (i : Nat) (q : Query), s.queries[i]? = some q → ∀ p ∈ q.prev, p < i ∨ (p = i ∧ ¬ q.tables.Nodup)
  finished : ∀ (i : Nat), phaseOf s i = some .done → .finish i true ∈ ls
  began : ∀ (i : Nat), .start i ∈ ls → ∃ p, phaseOf s i = some p ∧ Started p
  failed : ∀ (i : Nat), .finish i false ∈ ls → phaseOf s i = some .failed
  refused : ∀ (i : Nat), .refuse i ∈ ls → phaseOf s i = some .refused
  startedL : ∀ (i : Nat) (p : Phase), phaseOf s i = some p → Started p → .start i ∈ ls
  ended : ∀ (i : Nat), .finish i true ∈ ls → phaseOf s i = some .done
  failedL : ∀ (i : Nat), phaseOf s i = some .failed → .finish i false ∈ ls
  refusedL : ∀ (i : Nat), phaseOf s i = some .refused → .refuse i ∈ ls
  why : ∀ (i : Nat) (q : Query), s.queries[i]? = some q → q.phase = .refused → ∃ p ∈ q.prev, phaseOf s p = some .failed ∨ phaseOf s p = some .refused

theorem inv_init : Inv init [] where
  len := rfl
  kind := by simp [init]
  reg := by simp [init]
  sorted := by simp [init]
  waits := by simp [init]
  started := by simp [init]
  low := by simp [init]
  finished := by simp [init, phaseOf]
  began := by simp
  failed := by simp
  refused := by simp
  startedL := by simp [init, phaseOf]
  ended := by simp
  failedL := by simp [init, phaseOf]
  refusedL := by simp [init, phaseOf]
  why := by simp [init]

theorem last_ge (l : List Nat) (hs : l.Pairwise (· ≤ ·)) (j : Nat) (hj : j ∈ l) : ∃ p, l.getLast? = some p ∧ p ∈ l ∧ j ≤ p := by
  induction l with
  | nil => simp at hj
  | cons a l ih =>
    rw [List.pairwise_cons] at hs
    cases l with
    | nil => exact ⟨a, by simp, by simp, by simp at hj; omega⟩
    | cons b l =>
      by_cases h : j ∈ b :: l
      · obtain ⟨p, h1, h2, h3⟩ := ih hs.2 h
        exact ⟨p, by rw [List.getLast?_cons_cons]; exact h1, by simp [h2], h3⟩
      · have hja : j = a := by simpa [h] using hj
        subst hja
        have h1 := List.getLast?_eq_some_getLast (List.cons_ne_nil b l)
        have h2 := List.getLast_mem (List.cons_ne_nil b l)
        exact ⟨_, by rw [List.getLast?_cons_cons]; exact h1, List.mem_cons_of_mem _ h2, hs.1 _ h2⟩

theorem find_ge (w : Nat → Bool) (l : List Nat) (hs : l.Pairwise (· ≤ ·)) (j : Nat) (hj : j ∈ l) (hw : w j = true) :
    ∃ p, l.reverse.find? w = some p ∧ p ∈ l ∧ j ≤ p ∧ w p = true := by
  induction l with
  | nil => simp at hj
  | cons a l ih =>
    rw [List.pairwise_cons] at hs
    simp only [List.reverse_cons, List.find?_append]
    by_cases h : ∃ k ∈ l, w k = true ∧ j ≤ k
    · obtain ⟨k, hk, hkw, hjk⟩ := h
      cases hf : l.reverse.find? w with
      | none =>
        rw [List.find?_eq_none] at hf
        exact absurd hkw (hf k (by simpa using hk))
      | some p =>
        have hpl : p ∈ l := by simpa using List.mem_of_find?_eq_some hf
        have hpw : w p = true := List.find?_some hf
        by_cases hj2 : j ∈ l
        · obtain ⟨p', h1, h2, h3, h4⟩ := ih hs.2 hj2
          rw [hf] at h1
          cases h1
          exact ⟨p, by simp, by simp [h2], h3, h4⟩
        · have hja : j = a := by simpa [hj2] using hj
          exact ⟨p, by simp, by simp [hpl], by have := hs.1 p hpl; omega, hpw⟩
    · have hj2 : j ∉ l := fun e => h ⟨j, e, hw, Nat.le_refl _⟩
      have hja : j = a := by simpa [hj2] using hj
      subst hja
      cases hf : l.reverse.find? w with
      | none => exact ⟨j, by simp [hw], by simp, Nat.le_refl _, hw⟩
      | some p =>
        have hpl : p ∈ l := by simpa using List.mem_of_find?_eq_some hf
        exact ⟨p, by simp, by simp [hpl], hs.1 p hpl, List.find?_some hf⟩

theorem setPhase_get (s : St) (i : Nat) (p : Phase) (q : Query) (hq : s.queries[i]? = some q) (k : Nat) :
    (setPhase s i p)[k]? = if k = i then some { q with phase := p } else s.queries[k]? := by
  have hi : i < s.queries.length := (List.getElem?_eq_some_iff.mp hq).1
  simp only [setPhase, hq, List.getElem?_set]
  by_cases h : k = i
  · subst h; simp [hi]
  · simp [h, Ne.symm h]

/-- only phases change, forward -/
structure Moves (s s' : St) : Prop where
  len : s'.queries.length = s.queries.length
  same : ∀ (k : Nat) (q : Query), s'.queries[k]? = some q → ∃ (q0 : Query), s.queries[k]? = some q0 ∧
    q.write = q0.write ∧ q.tables = q0.tables ∧ q.prev = q0.prev ∧ q.parent = q0.parent

theorem moves_setPhase (s : St) (i : Nat) (p : Phase) (q : Query) (hq : s.queries[i]? = some q) (reg : String → List Nat) :
    Moves s ⟨setPhase s i p, reg⟩ where
  len := by simp [setPhase, hq]
  same := by
    intro k q' h
    simp only [setPhase_get s i p q hq] at h
    split at h
    · rename_i e; subst e; cases h; exact ⟨q, hq, rfl, rfl, rfl, rfl⟩
    · exact ⟨q', h, rfl, rfl, rfl, rfl⟩

theorem phaseOf_set (s : St) (i : Nat) (p : Phase) (q : Query) (hq : s.queries[i]? = some q) (reg : String → List Nat) (k : Nat) :
    phaseOf ⟨setPhase s i p, reg⟩ k = if k = i then some p else phaseOf s k := by
  simp only [phaseOf, setPhase_get s i p q hq]
  split <;> simp

/-- a step that changes a phase -/
theorem inv_phase {s : St} {ls : List Label} (hi : Inv s ls) (i : Nat) (q : Query) (hq : s.queries[i]? = some q) (p : Phase) (l : Label)
    (hl : Internal l) (reg : String → List Nat)
    (hreg : ∀ (t : String) (k : Nat), (reg t).count k = (s.reg t).count k - (if k = i ∧ p = .done then q.tables.count t else 0))
    (hsub : ∀ (t : String), (reg t).Sublist (s.reg t))
    (hnd : q.phase ≠ .done) (hst : Started p → ∀ x ∈ q.prev, phaseOf s x = some .done)
    (hfin : p = .done → l = .finish i true)
    (hwhy : p = .refused → ∃ x ∈ q.prev, phaseOf s x = some .failed ∨ phaseOf s x = some .refused)
    (hlab : (l = .start i ∧ q.phase = .waiting ∧ p = .running) ∨ (∃ ok, l = .finish i ok ∧ q.phase = .running ∧ p = if ok then .done else .failed) ∨
      (l = .refuse i ∧ q.phase = .waiting ∧ p = .refused)) :
    Inv ⟨setPhase s i p, reg⟩ (ls ++ [l]) := by
  have hm := moves_setPhase s i p q hq reg
  have hcalls : calls (ls ++ [l]) = calls ls := by
    rw [calls_append]
    cases l <;> simp [calls, Internal] at hl ⊢
  have hph := phaseOf_set s i p q hq reg
  have hpi : phaseOf s i = some q.phase := by simp [phaseOf, hq]
  have hdone : ∀ k, phaseOf s k = some .done → phaseOf ⟨setPhase s i p, reg⟩ k = some .done := by
    intro k hk
    rw [hph]
    split
    · rename_i e; subst e; rw [hpi] at hk; simp at hk; exact absurd hk hnd
    · exact hk
  refine ⟨?_, ?_, ?_, ?_, ?_, ?_, ?_, ?_, ?_, ?_, ?_, ?_, ?_, ?_, ?_, ?_⟩
  · rw [hm.len, hcalls]; exact hi.len
  · intro k q' p' b ps h1 h2
    obtain ⟨q0, h3, h4, h5, h6, h7⟩ := hm.same k q' h1
    rw [hcalls] at h2
    rw [h4, h5, h7]
    exact hi.kind k q0 p' b ps h3 h2
  · intro t k
    rw [hreg, hi.reg]
    simp only [setPhase_get s i p q hq]
    by_cases hk : k = i
    · subst hk
      simp only [hq, hnd, if_true, if_false, true_and]
      by_cases hp : p = .done
      · simp [hp]
      · simp [hp]
    · simp [hk]
  · intro t
    exact (hi.sorted t).sublist (hsub t)
  · intro k q' h1 t ht j r hjk h2 hr hw
    obtain ⟨q0, h3, h4, h5, h6, -⟩ := hm.same k q' h1
    obtain ⟨r0, h3', h4', h5', h6', -⟩ := hm.same j r h2
    have hrp : r0.phase = .done → r.phase = .done := by
      intro hd
      have := hdone j (by simp [phaseOf, h3', hd])
      simpa [phaseOf, h2] using this
    rcases hi.waits k q0 h3 t (h5 ▸ ht) j r0 hjk h3' (h5' ▸ hr) (by rw [← h4, ← h4']; exact hw) with hd | ⟨x, hx, hjx, u, hu, htu, hwu, hxk⟩
    · exact Or.inl (hrp hd)
    · right
      rw [h6]
      refine ⟨x, hx, hjx, ?_⟩
      simp only [setPhase_get s i p q hq]
      split
      · rename_i e; subst e
        rw [hq] at hu; cases hu
        exact ⟨_, rfl, htu, by rw [h4]; exact hwu, hxk⟩
      · exact ⟨u, hu, htu, by rw [h4]; exact hwu, hxk⟩
  · intro k q' h1 hs x hx
    apply hdone
    simp only [setPhase_get s i p q hq] at h1
    split at h1
    · cases h1; exact hst hs x hx
    · exact hi.started k q' h1 hs x hx
  · intro k q' h1 x hx
    obtain ⟨q0, h3, h4, h5, h6, -⟩ := hm.same k q' h1
    rw [h6] at hx
    rw [h5]
    exact hi.low k q0 h3 x hx
  · intro k hk
    rw [hph] at hk
    split at hk
    · rename_i e; subst e
      simp at hk
      simp [hfin hk]
    · simp [hi.finished k hk]
  · intro k hk
    rw [List.mem_append] at hk
    rw [hph]
    rcases hk with hk | hk
    · obtain ⟨x, hx, hs⟩ := hi.began k hk
      by_cases e : k = i
      · subst e
        rw [hpi] at hx; simp at hx; subst hx
        refine ⟨p, by simp, ?_⟩
        rcases hlab with ⟨-, hw, -⟩ | ⟨ok, -, -, rfl⟩ | ⟨-, hw, -⟩
        · rw [hw] at hs; simp [Started] at hs
        · cases ok <;> simp [Started]
        · rw [hw] at hs; simp [Started] at hs
      · exact ⟨x, by simp [e, hx], hs⟩
    · simp at hk; subst hk
      rcases hlab with ⟨h1, -, h3⟩ | ⟨ok, h1, -, h3⟩ | ⟨h1, -, h3⟩
      · cases h1; exact ⟨p, by simp, by simp [h3, Started]⟩
      · cases h1
      · cases h1
  · intro k hk
    rw [List.mem_append] at hk
    rw [hph]
    rcases hk with hk | hk
    · have hx := hi.failed k hk
      by_cases e : k = i
      · subst e
        rw [hpi] at hx; simp at hx
        rcases hlab with ⟨-, hw, -⟩ | ⟨ok, -, hw, -⟩ | ⟨-, hw, -⟩ <;> rw [hw] at hx <;> simp at hx
      · simp [e, hx]
    · simp at hk; subst hk
      rcases hlab with ⟨h1, -, h3⟩ | ⟨ok, h1, -, h3⟩ | ⟨h1, -, h3⟩
      · cases h1
      · cases h1; simp [h3]
      · cases h1
  · intro k hk
    rw [List.mem_append] at hk
    rw [hph]
    rcases hk with hk | hk
    · have hx := hi.refused k hk
      by_cases e : k = i
      · subst e
        rw [hpi] at hx; simp at hx
        rcases hlab with ⟨-, hw, -⟩ | ⟨ok, -, hw, -⟩ | ⟨-, hw, -⟩ <;> rw [hw] at hx <;> simp at hx
      · simp [e, hx]
    · simp at hk; subst hk
      rcases hlab with ⟨h1, -, h3⟩ | ⟨ok, h1, -, h3⟩ | ⟨h1, -, h3⟩
      · cases h1
      · cases h1
      · cases h1; simp [h3]
  · intro k x hk hs
    rw [hph] at hk
    split at hk
    · rename_i e; subst e
      simp at hk; subst hk
      rcases hlab with ⟨h1, -, rfl⟩ | ⟨ok, -, hw, -⟩ | ⟨-, -, rfl⟩
      · simp [h1]
      · simp [hi.startedL k q.phase hpi (by simp [hw, Started])]
      · simp [Started] at hs
    · simp [hi.startedL k x hk hs]
  · intro k hk
    rw [List.mem_append] at hk
    rcases hk with hk | hk
    · exact hdone k (hi.ended k hk)
    · simp at hk; subst hk
      rw [hph]
      rcases hlab with ⟨h1, -, h3⟩ | ⟨ok, h1, -, h3⟩ | ⟨h1, -, h3⟩
      · cases h1
      · cases h1; simp [h3]
      · cases h1
  · intro k hk
    rw [hph] at hk
    split at hk
    · rename_i e; subst e
      rcases hlab with ⟨h1, -, rfl⟩ | ⟨ok, h1, -, rfl⟩ | ⟨h1, -, rfl⟩
      · simp at hk
      · cases ok <;> simp at hk; simp [h1]
      · simp at hk
    · simp [hi.failedL k hk]
  · intro k hk
    rw [hph] at hk
    split at hk
    · rename_i e; subst e
      rcases hlab with ⟨h1, -, rfl⟩ | ⟨ok, h1, -, rfl⟩ | ⟨h1, -, rfl⟩
      · simp at hk
      · cases ok <;> simp at hk
      · simp [h1]
    · simp [hi.refusedL k hk]
  · have hst2 : ∀ x, phaseOf s x = some .failed ∨ phaseOf s x = some .refused →
        phaseOf ⟨setPhase s i p, reg⟩ x = some .failed ∨ phaseOf ⟨setPhase s i p, reg⟩ x = some .refused := by
      intro x hx
      rw [hph]
      split
      · rename_i e; subst e
        rw [hpi] at hx
        rcases hlab with ⟨-, hw, -⟩ | ⟨ok, -, hw, -⟩ | ⟨-, hw, -⟩ <;> rw [hw] at hx <;> simp at hx
      · exact hx
    intro k q' h1 hr
    simp only [setPhase_get s i p q hq] at h1
    split at h1
    · cases h1
      obtain ⟨x, hx, hx2⟩ := hwhy hr
      exact ⟨x, hx, hst2 x hx2⟩
    · obtain ⟨x, hx, hx2⟩ := hi.why k q' h1 hr
      exact ⟨x, hx, hst2 x hx2⟩

theorem mem_reg {s : St} {ls : List Label} (hi : Inv s ls) (t : String) (i : Nat) :
    i ∈ s.reg t ↔ ∃ q, s.queries[i]? = some q ∧ q.phase ≠ .done ∧ t ∈ q.tables := by
  rw [← List.count_pos_iff, hi.reg]
  cases h : s.queries[i]? with
  | none => simp
  | some q =>
    by_cases hd : q.phase = .done
    · simp [hd]
    · simp [hd, List.count_pos_iff]

theorem inv_call {s : St} {ls : List Label} (hi : Inv s ls) (parent : Option Nat) (bad : Bool) (ps : List Parsed) (s' : St)
    (h : step s (.call parent bad ps) = some s') : Inv s' (ls ++ [.call parent bad ps]) := by
  simp only [step] at h
  split at h
  case isFalse => simp at h
  case isTrue hpar =>
  have hcalls : calls (ls ++ [.call parent bad ps]) = calls ls ++ [(parent, bad, ps)] := by simp [calls_append, calls]
  generalize hw : (fun i => if i = s.queries.length then (newQuery bad ps).write else isWrite s i) = w at h
  have h1 := register_reg w (newQuery bad ps).write s.queries.length (newQuery bad ps).tables s.reg []
  have h2 := register_has w (newQuery bad ps).write s.queries.length (newQuery bad ps).tables s.reg []
  have h3 := register_only w (newQuery bad ps).write s.queries.length (newQuery bad ps).tables s.reg []
  have h4 := register_self w (newQuery bad ps).write s.queries.length (newQuery bad ps).tables s.reg []
  generalize register w (newQuery bad ps).write s.queries.length (newQuery bad ps).tables s.reg [] = rp at h h1 h2 h3 h4
  obtain ⟨reg, prev⟩ := rp
  simp only at h1 h2 h3 h4
  simp only [Option.some.injEq] at h
  subst h
  have hget : ∀ (k : Nat) (q : Query), (s.queries ++ [⟨(newQuery bad ps).write, (newQuery bad ps).tables, prev, parent, .waiting⟩])[k]? = some q →
      s.queries[k]? = some q ∨ (k = s.queries.length ∧ q = ⟨(newQuery bad ps).write, (newQuery bad ps).tables, prev, parent, .waiting⟩) := by
    intro k q hk
    rw [List.getElem?_append] at hk
    split at hk
    · exact Or.inl hk
    · rename_i hlt
      right
      rw [List.getElem?_eq_some_iff] at hk
      obtain ⟨hlt2, hk⟩ := hk
      simp at hlt2
      have : k = s.queries.length := by omega
      subst this
      simp at hk
      exact ⟨rfl, hk.symm⟩
  have hold : ∀ (k : Nat) (q : Query), s.queries[k]? = some q →
      (s.queries ++ [⟨(newQuery bad ps).write, (newQuery bad ps).tables, prev, parent, .waiting⟩])[k]? = some q := by
    intro k q hk
    have := (List.getElem?_eq_some_iff.mp hk).1
    rw [List.getElem?_append_left this]; exact hk
  have hph : ∀ (k : Nat) (x : Phase), phaseOf s k = some x →
      phaseOf ⟨s.queries ++ [⟨(newQuery bad ps).write, (newQuery bad ps).tables, prev, parent, .waiting⟩], reg⟩ k = some x := by
    intro k x hk
    simp only [phaseOf, Option.map_eq_some_iff] at hk ⊢
    obtain ⟨q, hq, rfl⟩ := hk
    exact ⟨q, hold k q hq, rfl⟩
  have hlow : ∀ (t : String) (k : Nat), k ∈ s.reg t → k < s.queries.length := by
    intro t k hk
    obtain ⟨q, hq, -⟩ := (mem_reg hi t k).mp hk
    exact (List.getElem?_eq_some_iff.mp hq).1
  refine ⟨?_, ?_, ?_, ?_, ?_, ?_, ?_, ?_, ?_, ?_, ?_, ?_, ?_, ?_, ?_, ?_⟩
  · simp [hcalls, hi.len]
  · intro k q p' b' ps' hk hc
    rw [hcalls] at hc
    rcases hget k q hk with hk | ⟨rfl, rfl⟩
    · have := (List.getElem?_eq_some_iff.mp hk).1
      rw [List.getElem?_append_left (by rw [← hi.len]; exact this)] at hc
      exact hi.kind k q p' b' ps' hk hc
    · rw [hi.len, List.getElem?_append_right (Nat.le_refl _)] at hc
      simp at hc
      obtain ⟨rfl, rfl, rfl⟩ := hc
      exact ⟨rfl, rfl, rfl⟩
  · intro t k
    simp only [h1, List.count_append, List.count_replicate]
    by_cases hk : k = s.queries.length
    · subst hk
      have h0 : (s.reg t).count s.queries.length = 0 := by
        rw [List.count_eq_zero]; intro hm; have := hlow t _ hm; omega
      simp [h0]
    · have : (s.queries.length == k) = false := by simp [Ne.symm hk]
      simp only [this, hi.reg t k]
      by_cases hlt : k < s.queries.length
      · rw [List.getElem?_append_left hlt]; simp
      · rw [List.getElem?_append_right (by omega)]
        have h0 : s.queries[k]? = none := by simp; omega
        have h00 : k - s.queries.length ≠ 0 := by omega
        simp only [h0]
        cases hx : k - s.queries.length with
        | zero => exact absurd hx h00
        | succ n => simp
  · intro t
    simp only [h1]
    rw [List.pairwise_append]
    refine ⟨hi.sorted t, ?_, ?_⟩
    · rw [List.pairwise_replicate]; exact Or.inr (Nat.le_refl _)
    · intro a ha b hb
      have := hlow t a ha
      simp at hb; omega
  · intro k q hk t ht j r hjk hj hr hwr
    rcases hget j r hj with hj' | ⟨rfl, rfl⟩
    · rcases hget k q hk with hk' | ⟨rfl, rfl⟩
      · rcases hi.waits k q hk' t ht j r hjk hj' hr hwr with hd | ⟨x, hx, hjx, u, hu, htu, hwu, hxk⟩
        · exact Or.inl hd
        · exact Or.inr ⟨x, hx, hjx, u, hold x u hu, htu, hwu, hxk⟩
      · by_cases hd : r.phase = .done
        · exact Or.inl hd
        · right
          have hm : j ∈ s.reg t := (mem_reg hi t j).mpr ⟨r, hj', hd, hr⟩
          simp only at ht hwr ⊢
          by_cases hww : (newQuery bad ps).write = true
          · obtain ⟨p, hp1, hp2, hp3⟩ := last_ge _ (hi.sorted t) j hm
            obtain ⟨u, hu, -, htu⟩ := (mem_reg hi t p).mp hp2
            exact ⟨p, h2 t ht p (by simp [previous, hww, hp1]), hp3, u, hold p u hu, htu, Or.inl hww, hlow t p hp2⟩
          · have hrw : r.write = true := by simpa [hww] using hwr
            have hwj : w j = true := by
              rw [← hw]; simp only [isWrite, hj']
              have := (List.getElem?_eq_some_iff.mp hj').1
              simp [show j ≠ s.queries.length by omega, hrw]
            obtain ⟨p, hp1, hp2, hp3, hp4⟩ := find_ge w _ (hi.sorted t) j hm hwj
            obtain ⟨u, hu, -, htu⟩ := (mem_reg hi t p).mp hp2
            have huw : u.write = true := by
              rw [← hw] at hp4
              have := hlow t p hp2
              simpa [isWrite, hu, show p ≠ s.queries.length by omega] using hp4
            exact ⟨p, h2 t ht p (by simp [previous, hww, hp1]), hp3, u, hold p u hu, htu, Or.inr huw, hlow t p hp2⟩
    · have := (List.getElem?_eq_some_iff.mp hk).1
      simp at this
      omega
  · intro k q hk hs x hx
    rcases hget k q hk with hk | ⟨rfl, rfl⟩
    · exact hph _ _ (hi.started k q hk hs x hx)
    · simp [Started] at hs
  · intro k q hk x hx
    rcases hget k q hk with hk | ⟨rfl, rfl⟩
    · exact hi.low k q hk x hx
    · simp only at hx ⊢
      rcases h3 x hx with h | h | ⟨t, -, h⟩
      · simp at h
      · subst h
        right
        refine ⟨rfl, fun hn => h4 hn (fun t _ hm => ?_) (by simp) hx⟩
        have := hlow t _ hm; omega
      · exact Or.inl (hlow t x h)
  · intro k hk
    simp only [phaseOf, Option.map_eq_some_iff] at hk
    obtain ⟨q, hq, hd⟩ := hk
    rcases hget k q hq with hq | ⟨rfl, rfl⟩
    · simp [hi.finished k (by simp [phaseOf, hq, hd])]
    · simp at hd
  · intro k hk
    obtain ⟨x, hx, hs⟩ := hi.began k (by simpa using hk)
    exact ⟨x, hph k x hx, hs⟩
  · intro k hk
    exact hph k _ (hi.failed k (by simpa using hk))
  · intro k hk
    exact hph k _ (hi.refused k (by simpa using hk))
  · intro k x hk hs
    simp only [phaseOf, Option.map_eq_some_iff] at hk
    obtain ⟨q, hq, rfl⟩ := hk
    rcases hget k q hq with hq | ⟨rfl, rfl⟩
    · simp [hi.startedL k q.phase (by simp [phaseOf, hq]) hs]
    · simp [Started] at hs
  · intro k hk
    exact hph k _ (hi.ended k (by simpa using hk))
  · intro k hk
    simp only [phaseOf, Option.map_eq_some_iff] at hk
    obtain ⟨q, hq, hd⟩ := hk
    rcases hget k q hq with hq | ⟨rfl, rfl⟩
    · simp [hi.failedL k (by simp [phaseOf, hq, hd])]
    · simp at hd
  · intro k hk
    simp only [phaseOf, Option.map_eq_some_iff] at hk
    obtain ⟨q, hq, hd⟩ := hk
    rcases hget k q hq with hq | ⟨rfl, rfl⟩
    · simp [hi.refusedL k (by simp [phaseOf, hq, hd])]
    · simp at hd
  · intro k q hk hr
    rcases hget k q hk with hk | ⟨rfl, rfl⟩
    · obtain ⟨x, hx, hx2⟩ := hi.why k q hk hr
      exact ⟨x, hx, hx2.imp (hph _ _) (hph _ _)⟩
    · simp at hr

theorem inv_step {s : St} {ls : List Label} (hi : Inv s ls) (l : Label) (s' : St) (h : step s l = some s') : Inv s' (ls ++ [l]) := by
  cases l with
  | call parent bad ps => exact inv_call hi parent bad ps s' h
  | start i =>
    simp only [step] at h
    split at h
    case h_2 => simp at h
    case h_1 q hq =>
    split at h
    case isFalse => simp at h
    case isTrue hc =>
    simp only [Option.some.injEq] at h; subst h
    refine inv_phase hi i q hq .running (.start i) trivial s.reg (by simp) (fun t => List.Sublist.refl _) (by simp [hc.1]) (fun _ => hc.2) (by simp) (by simp)
      (Or.inl ⟨rfl, hc.1, rfl⟩)
  | finish i ok =>
    simp only [step] at h
    split at h
    case h_2 => simp at h
    case h_1 q hq =>
    split at h
    case isFalse => simp at h
    case isTrue hc =>
    have hst := hi.started i q hq (Or.inl hc.1)
    split at h
    case isTrue hok =>
      simp only [Option.some.injEq] at h; subst h; subst hok
      refine inv_phase hi i q hq .done (.finish i true) trivial _ (fun t k => ?_) (fun t => unregister_sublist _ _ _ _) (by simp [hc.1]) (fun _ => hst) (by simp) (by simp)
        (Or.inr (Or.inl ⟨true, rfl, hc.1, by simp⟩))
      rw [unregister_reg]; simp
    case isFalse hok =>
      simp only [Option.some.injEq] at h; subst h
      have hok : ok = false := by simpa using hok
      subst hok
      refine inv_phase hi i q hq .failed (.finish i false) trivial s.reg (by simp) (fun t => List.Sublist.refl _) (by simp [hc.1]) (fun _ => hst) (by simp) (by simp)
        (Or.inr (Or.inl ⟨false, rfl, hc.1, by simp⟩))
  | refuse i =>
    simp only [step] at h
    split at h
    case h_2 => simp at h
    case h_1 q hq =>
    split at h
    case isFalse => simp at h
    case isTrue hc =>
    simp only [Option.some.injEq] at h; subst h
    refine inv_phase hi i q hq .refused (.refuse i) trivial s.reg (by simp) (fun t => List.Sublist.refl _) (by simp [hc.1]) (by simp [Started]) (by simp) (fun _ => hc.2)
      (Or.inr (Or.inr ⟨rfl, hc.1, rfl⟩))

theorem inv_run {ls : List Label} {s : St} (h : run init ls = some s) : Inv s ls := by
  suffices ∀ (B A : List Label) (s : St), run init A = some s → Inv s A → ∀ s', run s B = some s' → Inv s' (A ++ B) by
    simpa using this ls [] init rfl inv_init s h
  intro B
  induction B with
  | nil => intro A s _ hi s' h; simp [run] at h; subst h; simpa using hi
  | cons l B ih =>
    intro A s hA hi s' h
    simp only [run, Option.bind_eq_some_iff] at h
    obtain ⟨s1, h1, h2⟩ := h
    have := ih (A ++ [l]) s1 (by rw [run_append, hA]; simp [run, h1]) (inv_step hi l s1 h1) s' h2
    simpa using this

end Verif.SQLQueries
