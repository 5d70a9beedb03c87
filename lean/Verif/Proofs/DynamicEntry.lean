import Verif.Spec.DynamicEntry

namespace Verif.DynamicEntry

theorem byName_named (c d : Cls) (h : named c = named d) : byName c "key" = byName d "key" ∧ byName c "value" = byName d "value" := by
  simp only [named, Prod.mk.injEq] at h
  simp only [byName, h.1, h.2, and_self]

/-- the features in the fields are those the class finds by name -/
def Fresh (s : State) : Prop :=
  ∀ (i : Nat) (e : Entry), s.entries[i]? = some e → e.key = byName (s.classes e.cls) "key" ∧ e.value = byName (s.classes e.cls) "value"

theorem eSet_fresh (s : State) (i : Nat) (f x : Option Nat) (h : Fresh s) : Fresh (eSet s i f x).1 ∧ (eSet s i f x).1.classes = s.classes := by
  simp only [eSet]
  split
  · next e f he =>
    split
    · split
      · refine ⟨fun j e' hj => ?_, rfl⟩
        simp only [List.getElem?_set] at hj
        split at hj
        · next hij =>
          split at hj
          · simp only [Option.some.injEq] at hj; subst hj; exact h i e he
          · cases hj
        · exact h j e' hj
      · exact ⟨h, rfl⟩
    · exact ⟨h, rfl⟩
  · exact ⟨h, rfl⟩

theorem step_classes (s : State) (op : Op) (h : ∀ c k, op ≠ .change c k) : (step s op).1.classes = s.classes := by
  cases op <;> simp only [step, eSet]
  case change c k => exact absurd rfl (h c k)
  all_goals (repeat' split) <;> rfl

theorem step_fresh (s : State) (op : Op) (h : Fresh s) (hop : ∀ c k, op = .change c k → named k = named (s.classes c)) : Fresh (step s op).1 := by
  cases op with
  | change c k =>
    intro i e he
    have := h i e he
    simp only [step]
    split
    · next hc =>
      obtain ⟨h1, h2⟩ := byName_named k (s.classes c) (hop c k rfl)
      rw [h1, h2, ← hc]; exact this
    · exact this
  | make c =>
    simp only [step]
    split
    · intro i e he
      simp only [List.getElem?_append] at he
      split at he
      · exact h i e he
      · cases hk : i - s.entries.length with
        | zero => rw [hk] at he; simp only [List.getElem?_cons_zero, Option.some.injEq] at he; subst he; exact ⟨rfl, rfl⟩
        | succ n => rw [hk] at he; simp at he
    · exact h
  | setClass i c =>
    simp only [step]
    split
    · next e he =>
      intro j e' hj
      simp only [List.getElem?_set] at hj
      split at hj
      · split at hj
        · simp only [Option.some.injEq] at hj; subst hj; exact ⟨rfl, rfl⟩
        · cases hj
      · exact h j e' hj
    · exact h
  | setKey i x => exact (eSet_fresh s i _ x h).1
  | setValue i x => exact (eSet_fresh s i _ x h).1
  | getKey i => exact h
  | getValue i => exact h
  | set i n x => exact (eSet_fresh s i _ x h).1
  | get i n => exact h

theorem run_fresh (ops : List Op) (s : State) (h : Fresh s) (hs : SameNames s.classes ops) : Fresh (run s ops) := by
  induction ops generalizing s with
  | nil => exact h
  | cons op ops ih =>
    simp only [run]
    by_cases hc : ∃ c k, op = .change c k
    · obtain ⟨c, k, rfl⟩ := hc
      simp only [SameNames] at hs
      exact ih _ (step_fresh s _ h (fun c' k' e => by cases e; exact hs.1)) hs.2
    · have hn : ∀ c k, op ≠ .change c k := fun c k e => hc ⟨c, k, e⟩
      refine ih _ (step_fresh s _ h (fun c k e => absurd e (hn c k))) ?_
      rw [step_classes s op hn]
      cases op <;> first | exact absurd rfl (hn _ _) | exact hs

theorem fresh_same (s : State) (h : Fresh s) (e : Nat) :
    ((s.entries[e]?).bind (·.key)) = ((s.entries[e]?).bind fun o => byName (s.classes o.cls) "key") ∧
      ((s.entries[e]?).bind (·.value)) = ((s.entries[e]?).bind fun o => byName (s.classes o.cls) "value") := by
  cases he : s.entries[e]? with
  | none => exact ⟨rfl, rfl⟩
  | some o => exact h e o he

/-! ### entries are pairs -/

theorem byName_mem (c : Cls) (n : String) (h : ∃ f ∈ c.feats, f.name = n) : ∃ f ∈ c.feats, f.name = n ∧ byName c n = some f.id := by
  obtain ⟨f, hf, hn⟩ := h
  have hm : f ∈ c.feats.filter (fun f => f.name = n) := by simp [hf, hn]
  cases hl : (c.feats.filter fun f => f.name = n).getLast? with
  | none => rw [List.getLast?_eq_none_iff] at hl; rw [hl] at hm; cases hm
  | some g =>
    have := List.mem_of_getLast? hl
    simp only [List.mem_filter, decide_eq_true_eq] at this
    exact ⟨g, this.1, this.2, by simp only [byName, hl, Option.map_some]⟩

theorem featureID_mem (c : Cls) (f : Feature) (hf : f ∈ c.feats) : ∃ i, featureID c f.id = some i ∧ i < c.feats.length ∧
    ∃ g, c.feats[i]? = some g ∧ g.id = f.id := by
  cases hi : featureID c f.id with
  | none =>
    simp only [featureID, List.findIdx?_eq_none_iff] at hi
    have := hi f hf
    simp at this
  | some i =>
    simp only [featureID] at hi
    rw [List.findIdx?_eq_some_iff_getElem] at hi
    obtain ⟨h1, h2, _⟩ := hi
    exact ⟨i, rfl, h1, c.feats[i], by simp [h1], by simpa using h2⟩

theorem same_id (l : List Feature) (hn : (l.map (·.id)).Nodup) (f g : Feature) (hf : f ∈ l) (hg : g ∈ l) (h : f.id = g.id) : f = g := by
  induction l with
  | nil => cases hf
  | cons a l ih =>
    simp only [List.map_cons, List.nodup_cons] at hn
    rcases List.mem_cons.1 hf with rfl | hf' <;> rcases List.mem_cons.1 hg with rfl | hg'
    · rfl
    · exact absurd (List.mem_map.2 ⟨g, hg', h.symm⟩) hn.1
    · exact absurd (List.mem_map.2 ⟨f, hf', h⟩) hn.1
    · exact ih hn.2 hf' hg'

/-- an entry stands for a pair -/
def Stands (classes : Nat → Cls) (e : Entry) (p : Pair) : Prop :=
  ∃ k v i j, e.key = some k ∧ e.value = some v ∧ featureID (classes e.cls) k = some i ∧ featureID (classes e.cls) v = some j ∧ i ≠ j ∧
    e.props[i]? = some p.key ∧ e.props[j]? = some p.value

def Sim (s : State) (l : List Pair) : Prop :=
  s.entries.length = l.length ∧ ∀ (i : Nat) (e : Entry) (p : Pair), s.entries[i]? = some e → l[i]? = some p → Stands s.classes e p

theorem stands_new (classes : Nat → Cls) (c : Nat) (h : EntryClass (classes c)) :
    isMapEntry (classes c) = true ∧
      Stands classes ⟨c, byName (classes c) "key", byName (classes c) "value", resize (classes c).feats.length []⟩ {} := by
  obtain ⟨ht, hk, hv, hn⟩ := h
  obtain ⟨f, hf, hfn, hfb⟩ := byName_mem _ _ hk
  obtain ⟨g, hg, hgn, hgb⟩ := byName_mem _ _ hv
  obtain ⟨i, hi, hil, f', hf', hfi⟩ := featureID_mem _ f hf
  obtain ⟨j, hj, hjl, g', hg', hgj⟩ := featureID_mem _ g hg
  refine ⟨by simp only [isMapEntry, hfb, hgb, Option.isSome_some, Bool.and_true, Bool.or_eq_true, decide_eq_true_eq, or_assoc]; exact ht, ?_⟩
  refine ⟨f.id, g.id, i, j, hfb, hgb, hi, hj, ?_, ?_, ?_⟩
  · intro e
    subst e
    rw [hf'] at hg'
    simp only [Option.some.injEq] at hg'
    subst hg'
    have := same_id _ hn f g hf hg (hfi.symm.trans hgj)
    subst this
    rw [hfn] at hgn
    exact absurd hgn (by decide)
  · simp [resize, hil]
  · simp [resize, hjl]

theorem featureID_append (a b : Cls) (f i : Nat) (more : List Feature) (h : b.feats = a.feats ++ more) (hi : featureID a f = some i) : featureID b f = some i := by
  simp only [featureID] at *
  rw [h, List.findIdx?_append, hi]
  rfl

theorem eSet_key (s : State) (i : Nat) (e : Entry) (x : Option Nat) (p : Pair) (he : s.entries[i]? = some e) (h : Stands s.classes e p) :
    ∃ e', eSet s i ((s.entries[i]?).bind (·.key)) x = ({ s with entries := s.entries.set i e' }, .done) ∧ Stands s.classes e' { p with key := x } := by
  obtain ⟨k, v, a, b, h1, h2, h3, h4, h5, h6, h7⟩ := h
  have ha : a < e.props.length := by
    rcases Nat.lt_or_ge a e.props.length with h | h
    · exact h
    · rw [List.getElem?_eq_none h] at h6; cases h6
  refine ⟨{ e with props := e.props.set a x }, by simp only [eSet, he, Option.bind_some, h1, h3, ha, if_true], ?_⟩
  exact ⟨k, v, a, b, h1, h2, h3, h4, h5, by simp [ha], by simp [List.getElem?_set, h5, h7]⟩

theorem eSet_value (s : State) (i : Nat) (e : Entry) (x : Option Nat) (p : Pair) (he : s.entries[i]? = some e) (h : Stands s.classes e p) :
    ∃ e', eSet s i ((s.entries[i]?).bind (·.value)) x = ({ s with entries := s.entries.set i e' }, .done) ∧ Stands s.classes e' { p with value := x } := by
  obtain ⟨k, v, a, b, h1, h2, h3, h4, h5, h6, h7⟩ := h
  have hb : b < e.props.length := by
    rcases Nat.lt_or_ge b e.props.length with h | h
    · exact h
    · rw [List.getElem?_eq_none h] at h7; cases h7
  refine ⟨{ e with props := e.props.set b x }, by simp only [eSet, he, Option.bind_some, h2, h4, hb, if_true], ?_⟩
  exact ⟨k, v, a, b, h1, h2, h3, h4, h5, by rw [List.getElem?_set_ne (fun e => h5 e.symm)]; exact h6, by simp [hb]⟩

theorem eGet_pair (s : State) (i : Nat) (e : Entry) (p : Pair) (he : s.entries[i]? = some e) (h : Stands s.classes e p) :
    eGet s i ((s.entries[i]?).bind (·.key)) = .val p.key ∧ eGet s i ((s.entries[i]?).bind (·.value)) = .val p.value := by
  obtain ⟨k, v, a, b, h1, h2, h3, h4, h5, h6, h7⟩ := h
  simp only [eGet, he, Option.bind_some, h1, h2, h3, h4, h6, h7, and_self]

theorem sim_set (s : State) (l : List Pair) (h : Sim s l) (i : Nat) (e' : Entry) (p' : Pair) (hs : Stands s.classes e' p') :
    Sim { s with entries := s.entries.set i e' } (l.set i p') := by
  refine ⟨by simp [h.1], fun j e p hj hp => ?_⟩
  simp only [List.getElem?_set] at hj hp
  split at hj
  · next hij =>
    rw [if_pos hij] at hp
    split at hj
    · split at hp
      · simp only [Option.some.injEq] at hj hp; subst hj; subst hp; exact hs
      · cases hp
    · cases hj
  · next hij => rw [if_neg hij] at hp; exact h.2 j e p hj hp

theorem sim_get (s : State) (l : List Pair) (h : Sim s l) (i : Nat) :
    (s.entries[i]? = none ∧ l[i]? = none) ∨ ∃ e p, s.entries[i]? = some e ∧ l[i]? = some p ∧ Stands s.classes e p := by
  rcases Nat.lt_or_ge i l.length with hi | hi
  · have hi' : i < s.entries.length := h.1 ▸ hi
    refine .inr ⟨s.entries[i], l[i], by simp [hi'], by simp [hi], h.2 i _ _ (by simp [hi']) (by simp [hi])⟩
  · exact .inl ⟨List.getElem?_eq_none (h.1 ▸ hi), List.getElem?_eq_none hi⟩

theorem pairs_sim (ops : List Op) (s : State) (l : List Pair) (h : Sim s l) (hp : Pairs s.classes ops) : answers s ops = pairAnswers l ops := by
  induction ops generalizing s l with
  | nil => rfl
  | cons op ops ih =>
    simp only [answers, pairAnswers]
    cases op with
    | change c k =>
      simp only [Pairs] at hp
      obtain ⟨⟨more, hk, _⟩, _, hp⟩ := hp
      have hs : Sim (step s (.change c k)).1 l := by
        refine ⟨h.1, fun i e p he hpp => ?_⟩
        obtain ⟨k', v, a, b, h1, h2, h3, h4, h5⟩ := h.2 i e p he hpp
        have hf : ∀ f i, featureID (s.classes e.cls) f = some i → featureID ((step s (.change c k)).1.classes e.cls) f = some i := by
          intro f i hi
          simp only [step]
          split
          · next hc => rw [hc] at hi; exact featureID_append _ _ f i more hk hi
          · exact hi
        exact ⟨k', v, a, b, h1, h2, hf _ _ h3, hf _ _ h4, h5⟩
      rw [ih _ l hs hp]
      rfl
    | make c =>
      simp only [Pairs] at hp
      obtain ⟨h1, h2⟩ := stands_new s.classes c hp.1
      simp only [step, h1, if_true, pairStep, h.1]
      refine congrArg _ (ih _ _ ?_ hp.2)
      refine ⟨by simp [h.1], fun i e p he hpp => ?_⟩
      simp only [List.getElem?_append] at he hpp
      split at he
      · next hi =>
        rw [if_pos (h.1 ▸ hi)] at hpp
        exact h.2 i e p he hpp
      · next hi =>
        rw [if_neg (h.1 ▸ hi)] at hpp
        rw [h.1] at he
        cases hk : i - l.length with
        | zero =>
          rw [hk] at he hpp
          simp only [List.getElem?_cons_zero, Option.some.injEq] at he hpp
          subst he; subst hpp
          exact h2
        | succ n => rw [hk] at he; simp at he
    | setClass e c => exact absurd hp (by simp [Pairs])
    | set e n x => exact absurd hp (by simp [Pairs])
    | get e n => exact absurd hp (by simp [Pairs])
    | setKey i x =>
      simp only [Pairs] at hp
      simp only [step, pairStep]
      rcases sim_get s l h i with ⟨h1, h2⟩ | ⟨e, p, h1, h2, h3⟩
      · simp only [h2]
        rw [show eSet s i ((s.entries[i]?).bind (·.key)) x = (s, .panic) by simp only [eSet, h1]]
        rw [ih s l h hp]
      · obtain ⟨e', he', hs'⟩ := eSet_key s i e x p h1 h3
        rw [he']
        simp only [h2]
        rw [ih _ _ (sim_set s l h i e' _ hs') hp]
    | setValue i x =>
      simp only [Pairs] at hp
      simp only [step, pairStep]
      rcases sim_get s l h i with ⟨h1, h2⟩ | ⟨e, p, h1, h2, h3⟩
      · simp only [h2]
        rw [show eSet s i ((s.entries[i]?).bind (·.value)) x = (s, .panic) by simp only [eSet, h1]]
        rw [ih s l h hp]
      · obtain ⟨e', he', hs'⟩ := eSet_value s i e x p h1 h3
        rw [he']
        simp only [h2]
        rw [ih _ _ (sim_set s l h i e' _ hs') hp]
    | getKey i =>
      simp only [Pairs] at hp
      simp only [step, pairStep]
      rw [ih s l h hp]
      rcases sim_get s l h i with ⟨h1, h2⟩ | ⟨e, p, h1, h2, h3⟩
      · simp only [h2, eGet, h1]
      · simp only [(eGet_pair s i e p h1 h3).1, h2]
    | getValue i =>
      simp only [Pairs] at hp
      simp only [step, pairStep]
      rw [ih s l h hp]
      rcases sim_get s l h i with ⟨h1, h2⟩ | ⟨e, p, h1, h2, h3⟩
      · simp only [h2, eGet, h1]
      · simp only [(eGet_pair s i e p h1 h3).2, h2]

end Verif.DynamicEntry
