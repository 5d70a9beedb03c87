import Verif.Proofs.SQLTextSchema

/-!
# Which names can be read, and which names are different
-/

namespace Verif.SQLText

open Spec

/-! ## Names that are read as themselves -/

/-- the length of the name a state has read -/
def pend : State → Nat
  | .word t | .quoted t | .quoteEnd t => t.length
  | _ => 0

theorem first_pend (c : Char) : pend (first c).1 ≤ 1 ∧ ∀ x, Tok.id x ∉ (first c).2 := by
  unfold first
  repeat' split
  all_goals simp [pend]

theorem first_start {c : Char} (h : idStart c = false) : pend (first c).1 = 0 := by
  unfold first
  rw [h]
  repeat' split
  all_goals simp_all [pend]

theorem word_id {t x : Text} (h : Spec.word t = .id x) : x = t := by
  unfold Spec.word at h
  split at h
  · cases h
  · cases h; rfl

theorem feed_pend (s : State) (c : Char) : pend (feed s c).1 ≤ pend s + 1 ∧ ∀ x, Tok.id x ∈ (feed s c).2 → x.length ≤ pend s := by
  have hf := first_pend c
  cases s with
  | start => exact ⟨by simpa [feed, pend] using hf.1, fun x hx => absurd hx (hf.2 x)⟩
  | word t =>
    simp only [feed]
    split
    · simp [pend]
    · refine ⟨by simp only [out]; omega, ?_⟩
      intro x hx
      simp only [out, List.mem_cons] at hx
      rcases hx with hx | hx
      · rw [word_id hx.symm]; exact Nat.le_refl _
      · exact absurd hx (hf.2 x)
  | quoted t => simp only [feed]; split <;> simp [pend]
  | quoteEnd t =>
    simp only [feed]
    split
    · simp [pend]
    · refine ⟨by simp only [out]; omega, ?_⟩
      intro x hx
      simp only [out, List.mem_cons, Tok.id.injEq] at hx
      rcases hx with rfl | hx
      · exact Nat.le_refl _
      · exact absurd hx (hf.2 x)
  | number t =>
    simp only [feed]
    repeat' split
    · simp [pend]
    · simp [pend]
    · refine ⟨by simp only [out]; omega, ?_⟩
      intro x hx
      simp only [out, List.mem_cons, reduceCtorEq, false_or] at hx
      exact absurd hx (hf.2 x)
  | param =>
    simp only [feed]
    split
    · simp [pend]
    · refine ⟨by simp only [out]; omega, ?_⟩
      intro x hx
      simp only [out, List.mem_cons, reduceCtorEq, false_or] at hx
      exact absurd hx (hf.2 x)
  | dash =>
    simp only [feed]
    split
    · simp [pend]
    · refine ⟨by simp only [out]; omega, ?_⟩
      intro x hx
      simp only [out, List.mem_cons, reduceCtorEq, false_or] at hx
      exact absurd hx (hf.2 x)
  | comment => simp only [feed]; split <;> simp [pend]
  | bad => simp [feed, pend]

/-- the tokens from a state on -/
def lexFrom (s : State) (t : Text) : Option (List Tok) := (finish (feedAll s t).1).map ((feedAll s t).2 ++ ·)

theorem lexFrom_cons (s : State) (c : Char) (t : Text) : lexFrom s (c :: t) = (lexFrom (feed s c).1 t).map ((feed s c).2 ++ ·) := by
  unfold lexFrom
  simp only [feedAll]
  cases finish (feedAll (feed s c).1 t).1 <;> simp

theorem lexFrom_pend (t : Text) : ∀ (s : State) (l : List Tok), lexFrom s t = some l → ∀ x, Tok.id x ∈ l → x.length ≤ pend s + t.length := by
  induction t with
  | nil =>
    intro s l h x hx
    cases s <;> simp [lexFrom, feedAll, finish] at h <;> subst h <;> simp [pend] at hx ⊢
    · rw [word_id hx.symm]; exact Nat.le_refl _
    · subst hx; exact Nat.le_refl _
  | cons c t ih =>
    intro s l h x hx
    rw [lexFrom_cons] at h
    obtain ⟨l', h1, rfl⟩ := Option.map_eq_some_iff.1 h
    have hp := feed_pend s c
    rw [List.length_cons]
    rcases List.mem_append.1 hx with hx | hx
    · have := hp.2 x hx; omega
    · have := ih _ _ h1 x hx
      omega

theorem lexFrom_word (t : Text) : ∀ w : Text, lexFrom (.word w) t = some [.id (w ++ t)] → t.all idChar = true := by
  induction t with
  | nil => intro w _; rfl
  | cons c t ih =>
    intro w h
    rw [lexFrom_cons] at h
    by_cases hc : idChar c = true
    · simp only [feed, hc, if_true, List.nil_append, Option.map_id'] at h
      have := ih (w ++ [c]) (by simpa using h)
      simp [hc, this]
    · simp only [feed, hc, out] at h
      obtain ⟨l', _, h2⟩ := Option.map_eq_some_iff.1 h
      simp only [Bool.false_eq_true, if_false, List.cons_append, List.cons.injEq] at h2
      have := congrArg List.length (word_id h2.1)
      simp at this

/-- a text that is read as the name it is -/
theorem lex_plain {n : Text} (h : lex n = some [.id n]) : Plain n = true := by
  have h' : lexFrom .start n = some [.id n] := h
  cases n with
  | nil => simp [lexFrom, feedAll, finish] at h'
  | cons c t =>
    rw [lexFrom_cons] at h'
    by_cases hc : idStart c = true
    · have hf : first c = (.word [c], []) := by simp [first, idStart_not_space hc, hc]
      simp only [feed, hf, List.nil_append, Option.map_id'] at h'
      simp only [Plain, hc, Bool.true_and]
      exact lexFrom_word t [c] h'
    · rw [Bool.not_eq_true] at hc
      obtain ⟨l', h1, h2⟩ := Option.map_eq_some_iff.1 h'
      have hm : Tok.id (c :: t) ∈ (feed .start c).2 ++ l' := by rw [h2]; exact List.mem_cons_self ..
      rcases List.mem_append.1 hm with hm | hm
      · exact absurd hm ((first_pend c).2 _)
      · have := lexFrom_pend t _ _ h1 _ hm
        rw [show pend (feed .start c).1 = 0 from first_start hc, List.length_cons] at this
        omega

theorem lexFrom_quoted : ∀ (n : Nat) (s : Text), s.length ≤ n → ∀ (w x : Text), lexFrom (.quoted w) s = some [.id x] →
    x.length + 1 ≤ w.length + s.length ∧ (x.length + 1 = w.length + s.length → '"' ∉ s.dropLast) := by
  intro n
  induction n with
  | zero =>
    intro s hs w x h
    have : s = [] := List.length_eq_zero_iff.1 (by omega)
    subst this
    simp [lexFrom, feedAll, finish] at h
  | succ n ih =>
    intro s hs w x h
    cases s with
    | nil => simp [lexFrom, feedAll, finish] at h
    | cons c s =>
      rw [List.length_cons] at hs
      rw [lexFrom_cons] at h
      by_cases hc : c = '"'
      · subst hc
        simp only [feed, if_true, List.nil_append, Option.map_id'] at h
        cases s with
        | nil =>
          simp [lexFrom, feedAll, finish] at h
          subst h
          simp
        | cons d s =>
          rw [lexFrom_cons] at h
          rw [List.length_cons] at hs
          by_cases hd : d = '"'
          · subst hd
            simp only [feed, if_true, List.nil_append, Option.map_id'] at h
            have := (ih s (by omega) _ _ h).1
            simp only [List.length_append, List.length_cons, List.length_nil] at this ⊢
            exact ⟨by omega, by omega⟩
          · simp only [feed, hd, if_false, out] at h
            obtain ⟨l', _, h2⟩ := Option.map_eq_some_iff.1 h
            simp only [List.cons_append, List.cons.injEq, Tok.id.injEq] at h2
            rw [← h2.1]
            simp only [List.length_cons]
            exact ⟨by omega, by omega⟩
      · simp only [feed, if_neg hc, List.nil_append, Option.map_id'] at h
        have hh := ih s (by omega) _ _ h
        simp only [List.length_append, List.length_cons, List.length_nil] at hh ⊢
        refine ⟨by omega, ?_⟩
        intro he
        have := hh.2 (by omega)
        cases s with
        | nil => simp
        | cons d s =>
          rw [List.dropLast_cons_of_ne_nil (by simp), List.mem_cons, not_or]
          exact ⟨Ne.symm hc, this⟩

/-- keywords consist of letters -/
theorem keyword_plain {up : Char → Char} (hup : CaseOk up) {n : Text} (h : isKeyWord up n = true) : Plain n = true := by
  have hletters : ∀ k ∈ sqliteKeyWords, k ≠ [] ∧ ∀ c ∈ k, idStart c = true := by decide +kernel
  unfold isKeyWord at h
  rw [Bool.or_eq_true, decide_eq_true_eq, decide_eq_true_eq] at h
  have hall : n ≠ [] ∧ ∀ c ∈ n, idStart c = true := by
    rcases h with h | h
    · exact hletters n h
    · have := hletters _ h
      refine ⟨fun e => this.1 (by rw [e]; rfl), ?_⟩
      intro c hc
      have hu := this.2 (up c) (List.mem_map.2 ⟨c, hc, rfl⟩)
      by_cases ha : c.toNat < 128
      · rw [hup.ascii c ha] at hu
        revert hu
        have hdec : ∀ i : Fin 128, idStart (upper (Char.ofNat i.1)) = true → idStart (Char.ofNat i.1) = true := by decide +kernel
        have := hdec ⟨c.toNat, ha⟩
        simpa [Char.ofNat_toNat] using this
      · simp only [idStart, Bool.or_eq_true, decide_eq_true_eq]
        omega
  cases n with
  | nil => exact absurd rfl hall.1
  | cons c t =>
    simp only [Plain, Bool.and_eq_true, List.all_eq_true]
    exact ⟨hall.2 c (List.mem_cons_self ..), fun x hx => idChar_of_start (hall.2 x (List.mem_cons_of_mem _ hx))⟩

/-- the names that are written so that they are read as themselves -/
theorem escape_iff {up : Char → Char} (hup : CaseOk up) (n : Text) : (escape up n).bind lex = some [.id n] ↔ Good n := by
  constructor
  · intro h
    cases n with
    | nil => simp [escape] at h
    | cons c t =>
      simp only [escape] at h
      split at h
      · rename_i hq
        rw [Bool.or_eq_true, decide_eq_true_eq] at hq
        rcases hq with rfl | hq
        · right
          refine ⟨t, rfl, ?_⟩
          have h' : lexFrom .start ('"' :: ('.' :: t ++ ['"'])) = some [.id ('.' :: t)] := h
          rw [lexFrom_cons, show feed .start '"' = (.quoted [], []) from by decide] at h'
          simp only [List.nil_append, Option.map_id'] at h'
          have := (lexFrom_quoted _ _ (Nat.le_refl _) _ _ h').2 (by simp)
          rw [List.dropLast_concat] at this
          exact fun e => this (List.mem_cons_of_mem _ e)
        · exact .inl (keyword_plain hup hq)
      · exact .inl (lex_plain h)
  · intro h
    obtain ⟨a, s, h1, _, h3, h4, _⟩ := escape_seg hup.ascii h
    rw [h1]
    show lex a = _
    simp [lex, h3, h4]

/-! ## Names that are different -/

theorem split_us {a b a' b' : Text} (ha : '_' ∉ a) (ha' : '_' ∉ a') (h : a ++ '_' :: b = a' ++ '_' :: b') : a = a' ∧ b = b' := by
  induction a generalizing a' with
  | nil =>
    cases a' with
    | nil => simpa using h
    | cons c a' =>
      simp only [List.nil_append, List.cons_append, List.cons.injEq] at h
      exact absurd (h.1 ▸ List.mem_cons_self ..) ha'
  | cons c a ih =>
    cases a' with
    | nil =>
      simp only [List.nil_append, List.cons_append, List.cons.injEq] at h
      exact absurd (h.1 ▸ List.mem_cons_self ..) ha
    | cons d a' =>
      simp only [List.cons_append, List.cons.injEq] at h
      have := ih (fun e => ha (List.mem_cons_of_mem _ e)) (fun e => ha' (List.mem_cons_of_mem _ e)) h.2
      exact ⟨by rw [h.1, this.1], this.2⟩

theorem upper_us (c : Char) : upper c = '_' ↔ c = '_' := by
  constructor
  · intro e
    by_cases ha : c.toNat < 128
    · have hdec : ∀ i : Fin 128, upper (Char.ofNat i.1) = '_' → Char.ofNat i.1 = '_' := by decide +kernel
      have := hdec ⟨c.toNat, ha⟩
      simp only [Char.ofNat_toNat] at this
      exact this e
    · unfold upper at e
      rw [if_neg (by omega)] at e
      exact e
  · rintro rfl; decide

theorem fold_us {t : Text} (h : '_' ∉ t) : '_' ∉ fold t := by
  intro e
  obtain ⟨c, hc, he⟩ := List.mem_map.1 e
  rw [(upper_us c).1 he] at hc
  exact h hc

theorem fold_append (a b : Text) : fold (a ++ b) = fold a ++ fold b := List.map_append

section distinct
variable {table : Nat → Text} {m : Nat → Class} {b : Bool}

def lists (table : Nat → Text) (m : Nat → Class) (c : Nat) : List Feature := (m c).features.filter fun f => (many table f).isSome

def keyOf (table : Nat → Text) (c : Nat) : Text := table c ++ "ID".toList
def listName (table : Nat → Text) (c : Nat) (f : Feature) : Text := table c ++ "_".toList ++ f.name
def indexOfList (table : Nat → Text) (c : Nat) (f : Feature) : Text :=
  "idx_".toList ++ listName table c f ++ "_".toList ++ keyOf table c ++ "_idx".toList

/-- the names that are created for a class -/
def names (table : Nat → Text) (m : Nat → Class) (c : Nat) : List Text :=
  table c :: (lists table m c).flatMap fun f => [listName table c f, indexOfList table c f]

theorem flatMap_filterMap_many {α : Type} (l : List Feature) (g : Feature → Text × String × Option (Text × Text) → List Stmt) (h : Stmt → List α)
    (r : Feature → List α) (hr : ∀ f s, many table f = some s → (g f s).flatMap h = r f) :
    (l.filterMap fun f => (many table f).map (g f)).flatten.flatMap h = (l.filter fun f => (many table f).isSome).flatMap r := by
  induction l with
  | nil => rfl
  | cons f l ih =>
    rw [List.filterMap_cons, List.filter_cons]
    cases hf : many table f with
    | none => simpa [hf] using ih
    | some s =>
      simp only [Option.map_some, Option.isSome_some, if_true, List.flatten_cons, List.flatMap_append, List.flatMap_cons]
      rw [ih, hr f s hf]

theorem created_class (c : Nat) : (classStmts b table m c).flatten.flatMap created = names table m c := by
  unfold classStmts names
  simp only [List.flatten_cons, List.flatMap_append]
  rw [flatMap_filterMap_many (table := table) _ _ created (fun f => [listName table c f, indexOfList table c f])]
  · rfl
  · intro f s _; rfl

theorem fold_list (c : Nat) (f : Feature) : fold (listName table c f) = fold (table c) ++ '_' :: fold f.name := by
  simp only [listName, fold_append, List.append_assoc]
  rfl

theorem fold_index (c : Nat) (f : Feature) : fold (indexOfList table c f) =
    "IDX".toList ++ '_' :: (fold (table c) ++ '_' :: (fold f.name ++ '_' :: (fold (table c) ++ "ID_IDX".toList))) := by
  simp only [indexOfList, fold_append, fold_list, keyOf, List.append_assoc]
  have e1 : fold "idx_".toList = "IDX".toList ++ ['_'] := by decide
  have e2 : fold "_".toList = ['_'] := by decide
  have e3 : fold "ID".toList ++ fold "_idx".toList = "ID_IDX".toList := by decide
  rw [e1, e2, e3]
  simp [List.append_assoc]

/-- what is asked of the names of the classes -/
structure ClassesOk (table : Nat → Text) (cs : List Nat) : Prop where
  nodup : cs.Nodup
  different : ∀ c ∈ cs, ∀ d ∈ cs, c ≠ d → fold (table c) ≠ fold (table d)
  noUs : ∀ c ∈ cs, '_' ∉ table c
  noIdx : ∀ c ∈ cs, fold (table c) ≠ "IDX".toList

variable {cs : List Nat} (h : ClassesOk table cs)
include h

theorem names_apart {c d : Nat} (hc : c ∈ cs) (hd : d ∈ cs) (hcd : c ≠ d) {x y : Text} (hx : x ∈ names table m c) (hy : y ∈ names table m d) :
    fold x ≠ fold y := by
  have hidx : '_' ∉ "IDX".toList := by decide
  have uc := fold_us (h.noUs c hc)
  have ud := fold_us (h.noUs d hd)
  simp only [names, List.mem_cons, List.mem_flatMap, List.not_mem_nil, or_false] at hx hy
  rcases hx with rfl | ⟨f, hf, rfl | rfl⟩ <;> rcases hy with rfl | ⟨g, hg, rfl | rfl⟩ <;> intro e <;>
    (try rw [fold_list] at e) <;> (try rw [fold_list] at e) <;> (try rw [fold_index] at e) <;> (try rw [fold_index] at e)
  · exact h.different c hc d hd hcd e
  · exact uc (e ▸ List.mem_append_right _ (List.mem_cons_self ..))
  · exact uc (e ▸ List.mem_append_right _ (List.mem_cons_self ..))
  · exact ud (e ▸ List.mem_append_right _ (List.mem_cons_self ..))
  · exact h.different c hc d hd hcd (split_us uc ud e).1
  · exact h.noIdx c hc (split_us uc hidx e).1
  · exact ud (e ▸ List.mem_append_right _ (List.mem_cons_self ..))
  · exact h.noIdx d hd (split_us hidx ud e).1.symm
  · exact h.different c hc d hd hcd (split_us uc ud (split_us hidx hidx e).2).1

theorem names_nodup {c : Nat} (hc : c ∈ cs) (hf : ((m c).features.map fun f => fold f.name).Nodup) : ((names table m c).map fold).Nodup := by
  have hidx : '_' ∉ "IDX".toList := by decide
  have uc := fold_us (h.noUs c hc)
  rw [names, List.map_cons, List.nodup_cons]
  constructor
  · intro hm
    obtain ⟨x, hx, he⟩ := List.mem_map.1 hm
    simp only [List.mem_flatMap, List.mem_cons, List.not_mem_nil, or_false] at hx
    obtain ⟨f, _, rfl | rfl⟩ := hx
    · rw [fold_list] at he
      exact uc (he ▸ List.mem_append_right _ (List.mem_cons_self ..))
    · rw [fold_index] at he
      exact uc (he ▸ List.mem_append_right _ (List.mem_cons_self ..))
  · have hl : (lists table m c).Pairwise fun f g => fold f.name ≠ fold g.name := by
      have : (m c).features.Pairwise fun f g => fold f.name ≠ fold g.name := List.pairwise_map.1 hf
      exact this.sublist List.filter_sublist
    rw [List.Nodup, List.map_flatMap, List.pairwise_flatMap]
    constructor
    · intro f _
      simp only [List.map_cons, List.map_nil, List.pairwise_cons, List.mem_cons, List.not_mem_nil, or_false, forall_eq, false_implies, implies_true,
        List.Pairwise.nil, and_true]
      intro e
      rw [fold_list, fold_index] at e
      exact h.noIdx c hc (split_us uc hidx e).1
    · refine hl.imp ?_
      intro f g hfg x hx y hy e
      subst e
      simp only [List.map_cons, List.map_nil, List.mem_cons, List.not_mem_nil, or_false] at hx hy
      rcases hx with rfl | rfl <;> rcases hy with e | e <;> (try rw [fold_list] at e) <;> (try rw [fold_list] at e) <;> (try rw [fold_index] at e) <;>
        (try rw [fold_index] at e)
      · exact hfg (split_us uc uc e).2
      · exact h.noIdx c hc (split_us uc hidx e).1
      · exact h.noIdx c hc (split_us hidx uc e).1.symm
      · have := (split_us uc uc (split_us hidx hidx e).2).2
        exact hfg (List.append_cancel_right this)

/-- what is asked of the names of the features -/
structure FeaturesOk (table : Nat → Text) (m : Nat → Class) (c : Nat) : Prop where
  nodup : ((m c).features.map fun f => fold f.name).Nodup
  noKey : ∀ f ∈ (m c).features, fold f.name ≠ fold (table c ++ "ID".toList)
  noIdx : ∀ f ∈ (m c).features, (f.kind = .dataList ∨ ∃ r, f.kind = .objectList r) → fold f.name ≠ "IDX".toList

omit h in
theorem key_last (c : Nat) : (fold (table c ++ "ID".toList)).getLast? = some 'D' := by
  rw [fold_append, List.getLast?_append]
  rfl

omit h in
theorem columns_nodup {c : Nat} (hf : FeaturesOk table m c) {s : Stmt} (hs : s ∈ (classStmts b table m c).flatten) :
    ((columnsOf s).map fold).Nodup := by
  simp only [classStmts, List.flatten_cons, List.mem_append, List.mem_cons, List.not_mem_nil, or_false] at hs
  rcases hs with rfl | hs
  · simp only [columnsOf, List.map_cons, List.nodup_cons, List.map_filterMap, Option.map_map, Function.comp_def]
    have hsub : ((m c).features.filterMap fun f => (single table f.kind).map fun _ => fold f.name).Sublist
        ((m c).features.map fun f => fold f.name) := by
      generalize (m c).features = l
      induction l with
      | nil => exact .slnil
      | cons f l ih =>
        rw [List.filterMap_cons, List.map_cons]
        cases single table f.kind with
        | none => exact ih.cons _
        | some s => exact ih.cons₂ _
    refine ⟨?_, hsub.nodup hf.nodup⟩
    intro hm
    obtain ⟨f, h1, h2⟩ := List.mem_map.1 (hsub.subset hm)
    exact hf.noKey f h1 h2
  · obtain ⟨l, hl, hs⟩ := List.mem_flatten.1 hs
    obtain ⟨f, hfm, hl⟩ := List.mem_filterMap.1 hl
    obtain ⟨p, hp, rfl⟩ := Option.map_eq_some_iff.1 hl
    simp only [List.mem_cons, List.not_mem_nil, or_false] at hs
    rcases hs with rfl | rfl
    · have hk := key_last (table := table) c
      have k1 : fold (table c ++ "ID".toList) ≠ fold "idx".toList := by
        intro e; rw [e] at hk; revert hk; decide
      have k2 : fold (table c ++ "ID".toList) ≠ fold "uri".toList := by
        intro e; rw [e] at hk; revert hk; decide
      have k3 : (p.1 = f.name ∧ (f.kind = .dataList ∨ ∃ r, f.kind = .objectList r)) ∨ p.1 = "uri".toList := by
        unfold many at hp
        split at hp <;> cases hp <;> simp_all
      have k4 : fold (table c ++ "ID".toList) ≠ fold p.1 ∧ fold "idx".toList ≠ fold p.1 := by
        rcases k3 with ⟨k3, k5⟩ | k3 <;> rw [k3]
        · exact ⟨fun e => hf.noKey f hfm e.symm, fun e => hf.noIdx f hfm k5 (e.symm.trans (by decide))⟩
        · exact ⟨k2, by decide⟩
      simp only [columnsOf, List.map_cons, List.map_nil, List.nodup_cons, List.mem_cons, List.not_mem_nil, or_false, not_or, not_false_eq_true,
        List.nodup_nil, and_true]
      exact ⟨⟨k1, k4.1⟩, k4.2⟩
    · exact List.nodup_nil

theorem no_clash (hf : ∀ c ∈ cs, FeaturesOk table m c) : NoClash (cs.flatMap fun c => (classStmts b table m c).flatten) := by
  constructor
  · rw [List.flatMap_assoc]
    simp only [created_class]
    rw [List.Nodup, List.map_flatMap, List.pairwise_flatMap]
    refine ⟨fun c hc => names_nodup h hc (hf c hc).nodup, ?_⟩
    have hp : cs.Pairwise (fun a b => a ∈ cs ∧ b ∈ cs ∧ a ≠ b) := by
      rw [List.pairwise_iff_getElem]
      intro i j hi hj hij
      exact ⟨List.getElem_mem _, List.getElem_mem _, List.pairwise_iff_getElem.1 h.nodup i j hi hj hij⟩
    refine hp.imp ?_
    intro c d ⟨hc, hd, hcd⟩ x hx y hy
    obtain ⟨x', hx', rfl⟩ := List.mem_map.1 hx
    obtain ⟨y', hy', rfl⟩ := List.mem_map.1 hy
    exact names_apart h hc hd hcd hx' hy'
  · intro s hs
    obtain ⟨c, hc, hs⟩ := List.mem_flatMap.1 hs
    exact columns_nodup (hf c hc) hs

omit h in
/-- what is referred to is created -/
theorem references_created (hcl : ∀ c ∈ cs, ∀ f ∈ (m c).features, ∀ r, f.kind = .object r ∨ f.kind = .objectList r → r ∈ cs) {s : Stmt}
    (hs : s ∈ cs.flatMap fun c => (classStmts b table m c).flatten) {tk : Text × Text} (htk : tk ∈ references s) :
    tk = (".enums".toList, "enumID".toList) ∨ Creates (cs.flatMap fun c => (classStmts b table m c).flatten) tk.1 tk.2 := by
  have hcr : ∀ c ∈ cs, Creates (cs.flatMap fun c => (classStmts b table m c).flatten) (table c) (table c ++ "ID".toList) := by
    intro c hc
    have hm : ∀ x, x ∈ ((classStmts b table m c).flatten) → x ∈ cs.flatMap fun c => (classStmts b table m c).flatten :=
      fun x hx => List.mem_flatMap.2 ⟨c, hc, hx⟩
    simp only [classStmts, List.flatten_cons] at hm
    exact ⟨b, _, _, ⟨table c ++ "ID".toList, "INTEGER".toList, true, false⟩, hm _ (List.mem_append_left _ (List.mem_cons_self ..)),
      List.mem_cons_self .., rfl, rfl⟩
  obtain ⟨c, hc, hs⟩ := List.mem_flatMap.1 hs
  simp only [classStmts, List.flatten_cons, List.mem_append, List.mem_cons, List.not_mem_nil, or_false] at hs
  rcases hs with rfl | hs
  · simp only [references, List.mem_map, List.mem_filterMap] at htk
    obtain ⟨_, ⟨f, hfm, he⟩, rfl⟩ := htk
    obtain ⟨p, hp, he⟩ := Option.bind_eq_some_iff.1 he
    obtain ⟨r, hr, rfl⟩ := Option.map_eq_some_iff.1 he
    cases hk : f.kind <;> rw [hk] at hp <;> simp only [single, Option.some.injEq, reduceCtorEq] at hp <;> subst hp <;>
      simp only [Option.some.injEq, reduceCtorEq] at hr <;> subst hr
    · exact .inr (hcr _ (hcl c hc f hfm _ (.inl hk)))
    · exact .inl rfl
  · obtain ⟨l, hl, hs⟩ := List.mem_flatten.1 hs
    obtain ⟨f, hfm, hl⟩ := List.mem_filterMap.1 hl
    obtain ⟨p, hp, rfl⟩ := Option.map_eq_some_iff.1 hl
    simp only [List.mem_cons, List.not_mem_nil, or_false] at hs
    rcases hs with rfl | rfl
    · simp only [references, List.map_cons, List.mem_cons] at htk
      rcases htk with rfl | htk
      · exact .inr (hcr c hc)
      · obtain ⟨q, hq, rfl⟩ := List.mem_map.1 htk
        rw [Option.mem_toList] at hq
        obtain ⟨r, hr, rfl⟩ := Option.map_eq_some_iff.1 hq
        cases hk : f.kind <;> simp only [many, hk, Option.some.injEq, reduceCtorEq] at hp <;> subst hp <;>
          simp only [Option.some.injEq, reduceCtorEq] at hr <;> subst hr
        exact .inr (hcr _ (hcl c hc f hfm _ (.inr hk)))
    · cases htk

end distinct

end Verif.SQLText
