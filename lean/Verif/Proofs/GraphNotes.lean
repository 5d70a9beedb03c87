import Verif.Spec.GraphNotes
import Verif.Proofs.Graph

/-! # Proofs about the notifications of object graphs -/

namespace Verif.GraphNotes
open Verif.Graph Verif.Notify

/-! ### Chains -/

/-- the notifications of a chain about one feature -/
def mine (c : List (Notif Nat)) (x : Nat) (i : Int) : List (Notif Nat) := c.filter fun n => n.notifier = some x ∧ n.featureID = i

theorem follow_eq (x : Nat) (i : Int) (s : List Nat) (c : List (Notif Nat)) : follow x i s c = (mine c x i).foldlM effect s := rfl

def IsSet (r : Notif Nat) : Prop := (r.event = .set ∨ r.event = .unset) ∧ r.position = -1

def IsRem (r : Notif Nat) : Prop :=
  (r.event = .remove ∧ ∃ x, r.old = .elem x ∧ r.new = .nil) ∨ (r.event = .removeMany ∧ ∃ l ps, r.old = .elems l ∧ r.new = .ints ps)

theorem merge_other {r n : Notif Nat} (h : ¬ sameFeature r n) : merge r n = none := by
  simp only [merge, h, ↓reduceIte]
  split <;> (try split) <;> rfl

theorem merge_add {r n : Notif Nat} (h : n.event = .add) : merge r n = none := by
  simp only [merge, h]
  split <;> rfl

theorem mergeInto_none {c : List (Notif Nat)} {n : Notif Nat} (h : ∀ r ∈ c, merge r n = none) : mergeInto c n = some (c, false) := by
  induction c with
  | nil => rfl
  | cons r c ih => simp [mergeInto, h r (by simp), ih fun x hx => h x (by simp [hx])]

theorem sameFeature_iff {r n : Notif Nat} {x : Nat} {i : Int} (hx : n.notifier = some x) (hi : n.featureID = i) :
    sameFeature r n ↔ r.notifier = some x ∧ r.featureID = i := by
  simp [sameFeature, hx, hi]

theorem mergeInto_one {n r r' : Notif Nat} {x : Nat} {i : Int} (hx : n.notifier = some x) (hi : n.featureID = i)
    (hm : merge r n = some (some r')) (hx' : r'.notifier = some x) (hi' : r'.featureID = i) :
    ∀ c : List (Notif Nat), mine c x i = [r] → ∃ c', mergeInto c n = some (c', true) ∧ mine c' x i = [r'] ∧
      ∀ y j, ¬ (y = x ∧ j = i) → mine c' y j = mine c y j := by
  intro c
  induction c with
  | nil => intro h; simp [mine] at h
  | cons q c ih =>
    intro h
    by_cases hq : q.notifier = some x ∧ q.featureID = i
    · simp only [mine, List.filter_cons, hq, and_self, decide_true, ↓reduceIte, List.cons.injEq] at h
      obtain ⟨rfl, hc⟩ := h
      refine ⟨r' :: c, by simp [mergeInto, hm], by simp only [mine, List.filter_cons, hx', hi', and_self, decide_true, ↓reduceIte, hc], ?_⟩
      intro y j hy
      have h1 : ¬ (r'.notifier = some y ∧ r'.featureID = j) := by rw [hx', hi']; rintro ⟨h1, h2⟩; simp at h1; exact hy ⟨h1.symm, h2.symm⟩
      have h2 : ¬ (q.notifier = some y ∧ q.featureID = j) := by rw [hq.1, hq.2]; rintro ⟨h1, h2⟩; simp at h1; exact hy ⟨h1.symm, h2.symm⟩
      simp [mine, List.filter_cons, h1, h2]
    · simp only [mine, List.filter_cons, hq, decide_false, Bool.false_eq_true, ↓reduceIte] at h
      obtain ⟨c', c1, c2, c3⟩ := ih h
      refine ⟨q :: c', ?_, ?_, ?_⟩
      · simp [mergeInto, merge_other (fun hs => hq ((sameFeature_iff hx hi).1 hs)), c1]
      · simp only [mine, List.filter_cons, hq, decide_false, Bool.false_eq_true, ↓reduceIte]
        exact c2
      · intro y j hy
        have := c3 y j hy
        simp only [mine] at this
        simp only [mine, List.filter_cons, this]

theorem mine_append (c d : List (Notif Nat)) (x : Nat) (i : Int) : mine (c ++ d) x i = mine c x i ++ mine d x i := by
  simp [mine]

theorem chainAdd_append {c : List (Notif Nat)} {n : Notif Nat} {x : Nat} {i : Int} (hx : n.notifier = some x) (hi : n.featureID = i)
    (h : mine c x i = [] ∨ n.event = .add) : ∃ b, chainAdd c (some n) = some (c ++ [n], b) ∧ mine (c ++ [n]) x i = mine c x i ++ [n] ∧
      ∀ y j, ¬ (y = x ∧ j = i) → mine (c ++ [n]) y j = mine c y j := by
  have h1 : mergeInto c n = some (c, false) := by
    apply mergeInto_none
    intro r hr
    rcases h with h | h
    · apply merge_other
      rw [sameFeature_iff hx hi]
      intro hk
      have : r ∈ mine c x i := by simp [mine, hr, hk]
      rw [h] at this
      simp at this
    · exact merge_add h
  refine ⟨true, by simp [chainAdd, h1], by simp [mine_append, mine, hx, hi], ?_⟩
  intro y j hy
  have : ¬ (n.notifier = some y ∧ n.featureID = j) := by rw [hx, hi]; rintro ⟨h1, h2⟩; simp at h1; exact hy ⟨h1.symm, h2.symm⟩
  rw [mine_append]
  simp [mine, this]

theorem effect_set {s : List Nat} {n : Notif Nat} (h : IsSet n) : effect s n = if objects n.old = some s then objects n.new else none := by
  simp only [effect]
  simp only [IsSet] at h
  rw [if_pos h]

/-- a SET or UNSET of a single valued feature -/
theorem chainAdd_set {c : List (Notif Nat)} {n : Notif Nat} {x : Nat} {i : Int} (hx : n.notifier = some x) (hi : n.featureID = i) (hn : IsSet n)
    (hc : mine c x i = [] ∨ ∃ r, mine c x i = [r] ∧ IsSet r) :
    ∃ c' b, chainAdd c (some n) = some (c', b) ∧ (∃ r, mine c' x i = [r] ∧ IsSet r) ∧ (∀ y j, ¬ (y = x ∧ j = i) → mine c' y j = mine c y j) ∧
      ∀ s t, follow x i s c = some t → objects n.old = some t → follow x i s c' = objects n.new := by
  rcases hc with hc | ⟨r, hc, hr⟩
  · obtain ⟨b, h1, h2, h3⟩ := chainAdd_append hx hi (Or.inl hc)
    refine ⟨_, b, h1, ⟨n, by simp [h2, hc], hn⟩, h3, ?_⟩
    intro s t hs ho
    simp only [follow_eq, hc, List.foldlM_nil, pure, Option.some.injEq] at hs
    subst hs
    simp [follow_eq, h2, hc, effect_set hn, ho]
  · have hk : r.notifier = some x ∧ r.featureID = i := by
      have : r ∈ mine c x i := by simp [hc]
      simpa [mine] using (List.mem_filter.1 this).2
    have hm : merge r n = some (some { r with new := n.new, event := if n.event = .set then .set else r.event }) := by
      have hs : sameFeature r n := (sameFeature_iff hx hi).2 hk
      rcases hr.1 with h1 | h1 <;> rcases hn.1 with h2 | h2 <;> simp [merge, h1, h2, hs]
    obtain ⟨c', c1, c2, c3⟩ := mergeInto_one hx hi hm hk.1 hk.2 c hc
    refine ⟨c', false, by simp [chainAdd, c1], ⟨_, c2, ?_, hr.2⟩, c3, ?_⟩
    · rcases hr.1 with h1 | h1 <;> rcases hn.1 with h2 | h2 <;> simp [h1, h2]
    · intro s t hs ho
      simp only [follow_eq, hc, List.foldlM_cons, List.foldlM_nil, effect_set hr] at hs
      split at hs
      · rename_i hro
        rw [follow_eq, c2]
        simp only [List.foldlM_cons, List.foldlM_nil]
        rw [effect_set (n := { r with new := n.new, event := if n.event = .set then .set else r.event })
          ⟨by rcases hr.1 with h1 | h1 <;> rcases hn.1 with h2 | h2 <;> simp [h1, h2], hr.2⟩]
        simp [hro]
      · simp at hs

theorem erase_filter {t : List Nat} (h : t.Nodup) (e : Nat) : t.erase e = t.filter (· ≠ e) := by
  rw [h.erase_eq_filter]
  apply List.filter_congr
  intro x _
  by_cases h : x = e <;> simp [h]

theorem eraseIdx_filter {t : List Nat} (h : t.Nodup) {q : Nat} {a : Nat} (hq : t[q]? = some a) : t.eraseIdx q = t.filter (· ≠ a) := by
  rw [← erase_filter h]
  obtain ⟨hl, he⟩ := List.getElem?_eq_some_iff.1 hq
  subst he
  rw [List.erase_eq_eraseIdx_of_idxOf]
  exact h.idxOf_getElem q hl

/-- a REMOVE of a list -/
theorem chainAdd_rem {c : List (Notif Nat)} {x : Nat} {i : Int} {e : Nat} {s t : List Nat} (hs : s.Nodup)
    (hc : mine c x i = [] ∨ ∃ r, mine c x i = [r] ∧ IsRem r) (hf : follow x i s c = some t) (he : e ∈ t) :
    ∃ c' b, chainAdd c (some ⟨some x, i, .remove, .elem e, .nil, t.idxOf e⟩) = some (c', b) ∧ (∃ r, mine c' x i = [r] ∧ IsRem r) ∧
      (∀ y j, ¬ (y = x ∧ j = i) → mine c' y j = mine c y j) ∧ follow x i s c' = some (t.erase e) := by
  rcases hc with hc | ⟨r, hc, hr⟩
  · obtain ⟨b, h1, h2, h3⟩ := chainAdd_append (c := c) (n := ⟨some x, i, .remove, .elem e, .nil, t.idxOf e⟩) rfl rfl (Or.inl hc)
    refine ⟨_, b, h1, ⟨_, by simp [h2, hc]; rfl, Or.inl ⟨rfl, e, rfl, rfl⟩⟩, h3, ?_⟩
    simp only [follow_eq, hc, List.foldlM_nil, pure, Option.some.injEq] at hf
    subst hf
    have hi : s[s.idxOf e]? = some e := by rw [List.getElem?_eq_some_iff]; exact ⟨List.idxOf_lt_length_of_mem he, List.getElem_idxOf _⟩
    simp [follow_eq, h2, hc, effect, Spec.Replay.apply, hi, eraseIdx_filter hs hi, erase_filter hs]
  · have hk : r.notifier = some x ∧ r.featureID = i := by
      have : r ∈ mine c x i := by simp [hc]
      simpa [mine] using (List.mem_filter.1 this).2
    have hsf : sameFeature r ⟨some x, i, .remove, .elem e, .nil, t.idxOf e⟩ := (sameFeature_iff rfl rfl).2 hk
    simp only [follow_eq, hc, List.foldlM_cons, List.foldlM_nil, bind_pure] at hf
    -- the merged notification announces the objects of both
    have key : ∃ r' l, merge r ⟨some x, i, .remove, .elem e, .nil, t.idxOf e⟩ = some (some r') ∧ r'.notifier = some x ∧ r'.featureID = i ∧
        r'.event = .removeMany ∧ r'.old = .elems l ∧ (∃ ps, r'.new = .ints ps) ∧ (∀ q ∈ l, q ∈ s) ∧ t.erase e = s.filter (· ∉ l) := by
      rcases hr with ⟨h1, a, h2, h3⟩ | ⟨h1, l, ps, h2, h3⟩
      · simp only [effect, h1, reduceCtorEq, or_self, false_and, ↓reduceIte, h2, Spec.Replay.apply, h3] at hf
        split at hf
        · rename_i hp
          simp only [Option.some.injEq] at hf
          rw [eraseIdx_filter hs hp.2] at hf
          have ha : a ∈ s := List.mem_of_getElem? hp.2
          have hes : e ∈ s := by rw [← hf] at he; exact (List.mem_filter.1 he).1
          have ht : t.Nodup := by rw [← hf]; exact hs.filter _
          have hfin : ∀ l : List Nat, (∀ q, q ∈ l ↔ q = a ∨ q = e) → t.erase e = s.filter (· ∉ l) := by
            intro l hl
            rw [erase_filter ht, ← hf, List.filter_filter]
            apply List.filter_congr
            intro q _
            by_cases h1 : q = a <;> by_cases h2 : q = e <;> simp [hl, h1, h2]
          by_cases hle : r.position ≤ (t.idxOf e : Int)
          · refine ⟨{ r with event := .removeMany, old := pairOf r.old (.elem e), new := .ints [r.position, (t.idxOf e : Int) + 1] }, [a, e], by simp [merge, h1, hsf, hle], hk.1, hk.2, rfl, by simp [h2, pairOf], ⟨_, rfl⟩, by simp [ha, hes], hfin _ (by simp)⟩
          · refine ⟨{ r with event := .removeMany, old := pairOf (.elem e) r.old, position := t.idxOf e, new := .ints [(t.idxOf e : Int), r.position] }, [e, a], by simp [merge, h1, hsf, hle], hk.1, hk.2, rfl, by simp [h2, pairOf], ⟨_, rfl⟩, by simp [ha, hes], hfin _ (by simp [or_comm])⟩
        · simp at hf
      · simp only [effect, h1, reduceCtorEq, or_self, false_and, ↓reduceIte, h2] at hf
        split at hf
        · rename_i hp
          simp only [Option.some.injEq] at hf
          have hes : e ∈ s := by rw [← hf] at he; exact (List.mem_filter.1 he).1
          have ht : t.Nodup := by rw [← hf]; exact hs.filter _
          have hmem : ∀ k q, q ∈ l.take k ++ e :: l.drop k ↔ q ∈ l ∨ q = e := by
            intro k q
            conv => rhs; rw [← List.take_append_drop k l]
            simp only [List.mem_append, List.mem_cons]
            grind
          refine ⟨{ r with
            old := .elems (l.take (shiftLoop ps 0 (t.idxOf e)).1 ++ e :: l.drop (shiftLoop ps 0 (t.idxOf e)).1)
            new := .ints (ps.take (shiftLoop ps 0 (t.idxOf e)).1 ++ (shiftLoop ps 0 (t.idxOf e)).2 :: tailLoop ps ((shiftLoop ps 0 (t.idxOf e)).1 + 1)) },
            l.take (shiftLoop ps 0 (t.idxOf e)).1 ++ e :: l.drop (shiftLoop ps 0 (t.idxOf e)).1, by simp [merge, h1, hsf, h2, h3],
            hk.1, hk.2, h1, rfl, ⟨_, rfl⟩, ?_, ?_⟩
          · intro q hq
            rcases (hmem _ q).1 hq with hq | rfl
            · exact hp q hq
            · exact hes
          · rw [erase_filter ht, ← hf, List.filter_filter]
            apply List.filter_congr
            intro q _
            simp only [hmem]
            by_cases h1 : q ∈ l <;> by_cases h2 : q = e <;> simp [h1, h2]
        · simp at hf
    obtain ⟨r', l, k1, k2, k3, k4, k5, ⟨ps, k6⟩, k7, k8⟩ := key
    obtain ⟨c', c1, c2, c3⟩ := mergeInto_one rfl rfl k1 k2 k3 c hc
    refine ⟨c', false, by simp [chainAdd, c1], ⟨r', c2, Or.inr ⟨k4, l, ps, k5, k6⟩⟩, c3, ?_⟩
    simp only [follow_eq, c2, List.foldlM_cons, List.foldlM_nil, bind_pure, effect, k4, reduceCtorEq, or_self, false_and, ↓reduceIte, k5]
    rw [if_pos k7, k8]

/-! ### The chain tells the values -/

variable {E : Env} {cls : Nat → Nat} {q : Bool} {P : Nat → Nat → Prop} {G0 G : Nat → Nat → List Nat} {c : List (Notif Nat)} {w : World}
  {K : Nat → Nat → Nat → Prop}

/-- The chain tells how the values changed from `G0` to `G`, but for those of `P`, about which it tells nothing.
`q`: nothing was added to a list. -/
structure Ok (E : Env) (cls : Nat → Nat) (q : Bool) (P : Nat → Nat → Prop) (G0 G : Nat → Nat → List Nat) (c : List (Notif Nat)) : Prop where
  rel : ∀ x s, E.listening x = true → s ∈ E.M.features (cls x) → ¬ P x s → follow x (E.M.refs s).declId (G0 x s) c = some (G x s)
  off : ∀ x s, s ∈ E.M.features (cls x) → P x s → mine c x (E.M.refs s).declId = []
  single : ∀ x s, s ∈ E.M.features (cls x) → (E.M.refs s).many = false →
    mine c x (E.M.refs s).declId = [] ∨ ∃ r, mine c x (E.M.refs s).declId = [r] ∧ IsSet r
  many : q = true → ∀ x s, s ∈ E.M.features (cls x) → (E.M.refs s).many = true →
    mine c x (E.M.refs s).declId = [] ∨ ∃ r, mine c x (E.M.refs s).declId = [r] ∧ IsRem r
  nodup : ∀ x s, s ∈ E.M.features (cls x) → (E.M.refs s).many = true → (G0 x s).Nodup

def upd (G : Nat → Nat → List Nat) (x s : Nat) (v : List Nat) : Nat → Nat → List Nat := fun y t => if y = x ∧ t = s then v else G y t

theorem Ok.weaken (h : Ok E cls q P G0 G c) : Ok E cls false P G0 G c := ⟨h.rel, h.off, h.single, by simp, h.nodup⟩

theorem Ok.congr (h : Ok E cls q P G0 G c) {G' : Nat → Nat → List Nat}
    (hg : ∀ x s, s ∈ E.M.features (cls x) → ¬ P x s → G' x s = G x s) : Ok E cls q P G0 G' c :=
  ⟨fun x s hl hs hp => by rw [hg x s hs hp]; exact h.rel x s hl hs hp, h.off, h.single, h.many, h.nodup⟩

/-- a new notification about one feature -/
theorem Ok.replace (wf : WellFormed E.M) {q' : Bool} (h : Ok E cls q P G0 G c) {x s : Nat} (hs : s ∈ E.M.features (cls x)) (hP : ¬ P x s) {v : List Nat}
    {c' : List (Notif Nat)} (hc : ∀ y j, ¬ (y = x ∧ j = ((E.M.refs s).declId : Int)) → mine c' y j = mine c y j) (hq : q' = true → q = true)
    (hv : E.listening x = true → follow x (E.M.refs s).declId (G0 x s) c' = some v)
    (h1 : (E.M.refs s).many = false → mine c' x (E.M.refs s).declId = [] ∨ ∃ r, mine c' x (E.M.refs s).declId = [r] ∧ IsSet r)
    (h2 : q' = true → (E.M.refs s).many = true → mine c' x (E.M.refs s).declId = [] ∨ ∃ r, mine c' x (E.M.refs s).declId = [r] ∧ IsRem r) :
    Ok E cls q' P G0 (upd G x s v) c' := by
  have hk : ∀ y t, t ∈ E.M.features (cls y) → ¬ (y = x ∧ t = s) → ¬ (y = x ∧ ((E.M.refs t).declId : Int) = ((E.M.refs s).declId : Int)) := by
    rintro y t ht hne ⟨rfl, he⟩
    exact hne ⟨rfl, wf.inj ht hs (by omega)⟩
  refine ⟨?_, ?_, ?_, ?_, h.nodup⟩
  · intro y t hl ht hp
    by_cases hyt : y = x ∧ t = s
    · obtain ⟨rfl, rfl⟩ := hyt
      simpa [upd] using hv hl
    · simp only [upd, hyt, ↓reduceIte]
      rw [follow_eq, hc y _ (hk y t ht hyt)]
      exact h.rel y t hl ht hp
  · intro y t ht hp
    have hyt : ¬ (y = x ∧ t = s) := by rintro ⟨rfl, rfl⟩; exact hP hp
    rw [hc y _ (hk y t ht hyt)]
    exact h.off y t ht hp
  · intro y t ht hm
    by_cases hyt : y = x ∧ t = s
    · obtain ⟨rfl, rfl⟩ := hyt
      exact h1 hm
    · rw [hc y _ (hk y t ht hyt)]
      exact h.single y t ht hm
  · intro hq' y t ht hm
    by_cases hyt : y = x ∧ t = s
    · obtain ⟨rfl, rfl⟩ := hyt
      exact h2 hq' hm
    · rw [hc y _ (hk y t ht hyt)]
      exact h.many (hq hq') y t ht hm

/-- nobody listens -/
theorem Ok.deaf (wf : WellFormed E.M) (h : Ok E cls q P G0 G c) {x s : Nat} (hs : s ∈ E.M.features (cls x)) (hP : ¬ P x s) (hl : E.listening x = false)
    (v : List Nat) : Ok E cls q P G0 (upd G x s v) c :=
  h.replace wf hs hP (fun _ _ _ => rfl) id (by simp [hl]) (fun hm => h.single x s hs hm) (fun hq hm => h.many hq x s hs hm)

theorem Ok.set (wf : WellFormed E.M) (h : Ok E cls q P G0 G c) {x s : Nat} (hs : s ∈ E.M.features (cls x)) (hm : (E.M.refs s).many = false)
    (hP : ¬ P x s) {ev : Event} (he : ev = .set ∨ ev = .unset) {old new : Payload Nat} {v : List Nat} (ho : objects old = some (G x s))
    (hv : objects new = some v) (w : World) :
    ∃ c', note E (w, c) x (E.M.refs s).declId ev old new (-1) = some (w, c') ∧ Ok E cls q P G0 (upd G x s v) c' := by
  by_cases hl : E.listening x = true
  · obtain ⟨c', b, c1, c2, c3, c4⟩ := chainAdd_set (c := c) (n := ⟨some x, (E.M.refs s).declId, ev, old, new, -1⟩) rfl rfl ⟨he, rfl⟩ (h.single x s hs hm)
    refine ⟨c', by simp [note, hl, c1], h.replace wf hs hP c3 id ?_ (fun _ => Or.inr c2) (fun _ hm' => by simp [hm] at hm')⟩
    intro _
    rw [c4 _ _ (h.rel x s hl hs hP) ho, hv]
  · have hl : E.listening x = false := by simpa using hl
    exact ⟨c, by simp [note, hl], h.deaf wf hs hP hl v⟩

theorem Ok.add (wf : WellFormed E.M) (h : Ok E cls q P G0 G c) {x s : Nat} (hs : s ∈ E.M.features (cls x)) (hm : (E.M.refs s).many = true)
    (hP : ¬ P x s) (e : Nat) (w : World) (k : Int) (hk : k = (G x s).length) :
    ∃ c', note E (w, c) x (E.M.refs s).declId .add .nil (.elem e) k = some (w, c') ∧ Ok E cls false P G0 (upd G x s (G x s ++ [e])) c' := by
  subst hk
  by_cases hl : E.listening x = true
  · obtain ⟨b, c1, c2, c3⟩ := chainAdd_append (c := c) (n := ⟨some x, (E.M.refs s).declId, .add, .nil, .elem e, (G x s).length⟩) rfl rfl (Or.inr rfl)
    refine ⟨_, by simp [note, hl, c1], h.replace wf hs hP c3 (by simp) ?_ (fun hm' => by simp [hm] at hm') (by simp)⟩
    intro _
    have := h.rel x s hl hs hP
    rw [follow_eq] at this ⊢
    rw [c2, List.foldlM_append, this]
    simp [effect, Spec.Replay.apply]
  · have hl : E.listening x = false := by simpa using hl
    exact ⟨c, by simp [note, hl], (h.deaf wf hs hP hl _).weaken⟩

theorem Ok.rem (wf : WellFormed E.M) (h : Ok E cls true P G0 G c) {x s : Nat} (hs : s ∈ E.M.features (cls x)) (hm : (E.M.refs s).many = true)
    (hP : ¬ P x s) {e : Nat} (he : e ∈ G x s) (w : World) :
    ∃ c', note E (w, c) x (E.M.refs s).declId .remove (.elem e) .nil ((G x s).idxOf e) = some (w, c') ∧
      Ok E cls true P G0 (upd G x s ((G x s).erase e)) c' := by
  by_cases hl : E.listening x = true
  · obtain ⟨c', b, c1, c2, c3, c4⟩ := chainAdd_rem (h.nodup x s hs hm) (h.many rfl x s hs hm) (h.rel x s hl hs hP) he
    exact ⟨c', by simp [note, hl, c1], h.replace wf hs hP c3 id (fun _ => c4) (fun hm' => by simp [hm] at hm') (fun _ _ => Or.inr c2)⟩
  · have hl : E.listening x = false := by simpa using hl
    exact ⟨c, by simp [note, hl], h.deaf wf hs hP hl _⟩

/-! ### Values after a change -/

theorem eGet_eq (wf : WellFormed E.M) (hc : ∀ x, (w x).cls = cls x) {a r : Nat} (hr : r ∈ E.M.features (cls a)) :
    eGet E.M w a r = if E.M.isContainer r then (if (w a).cfid = (E.M.refs r).declId then (w a).container.toList else [])
      else ((w a).slots (E.M.refs r).declId).vals := by
  simp only [eGet, hc a, wf.featureID hr, Int.toNat_natCast]
  split
  · rfl
  · cases (w a).slots (E.M.refs r).declId <;> rfl

theorem eGet_setSlot (wf : WellFormed E.M) (hc : ∀ x, (w x).cls = cls x) {x s : Nat} (hs : s ∈ E.M.features (cls x)) (hn : E.M.isContainer s = false) (v : Slot)
    {y t : Nat} (ht : t ∈ E.M.features (cls y)) :
    eGet E.M (setSlot w x (E.M.refs s).declId v) y t = upd (eGet E.M w) x s v.vals y t := by
  rw [eGet_eq wf (cls := cls) (by simp [hc]) ht]
  simp only [upd, setSlot_cfid, setSlot_container, setSlot_slots]
  by_cases hyt : y = x ∧ t = s
  · obtain ⟨rfl, rfl⟩ := hyt
    simp [hn]
  · rw [if_neg hyt, eGet_eq wf hc ht]
    have : ¬ (y = x ∧ (E.M.refs t).declId = (E.M.refs s).declId) := by
      rintro ⟨rfl, he⟩
      exact hyt ⟨rfl, wf.inj ht hs he⟩
    rw [if_neg this]

theorem container_single {M : Meta} (wf : WellFormed M) {g : Nat} (h : M.isContainer g = true) : (M.refs g).many = false := by
  simp only [Meta.isContainer] at h
  cases ho : (M.refs g).opposite with
  | none => simp [ho] at h
  | some r =>
    rw [ho] at h
    exact (wf.cont r g h (wf.opp g r ho).1).2

/-- classes, and containers through container features -/
structure Cf (M : Meta) (cls : Nat → Nat) (w : World) : Prop where
  cls_eq : ∀ x, (w x).cls = cls x
  cf : ∀ x, (w x).container ≠ none → 0 ≤ (w x).cfid → ∃ g ∈ M.features (cls x), M.isContainer g = true ∧ (w x).cfid = (M.refs g).declId

theorem Inv.cf (wf : WellFormed E.M) (h : Inv E.M cls w K) : Cf E.M cls w := by
  refine ⟨h.cls_eq, ?_⟩
  intro x hx h0
  cases hc : (w x).container with
  | none => exact absurd hc hx
  | some y =>
    obtain ⟨s, hp⟩ := h.code x y hc
    rw [hp.cfid] at h0 ⊢
    simp only [code] at h0 ⊢
    cases ho : (E.M.refs s).opposite with
    | none => rw [ho] at h0; simp only at h0; omega
    | some s' =>
      refine ⟨s', hp.fits s' ho, ?_, rfl⟩
      rw [isContainer_opp (wf.opp s s' ho).1]
      exact hp.cont

theorem Cf.setSlot (h : Cf E.M cls w) (x i : Nat) (v : Slot) : Cf E.M cls (setSlot w x i v) :=
  ⟨by simp [h.cls_eq], by simpa using h.cf⟩

/-- the ID of a container feature, or none -/
def IdOk (M : Meta) (cls : Nat → Nat) (x : Nat) (id : Int) : Prop :=
  id < 0 ∨ ∃ g ∈ M.features (cls x), M.isContainer g = true ∧ id = (M.refs g).declId

theorem Cf.setContainer (h : Cf E.M cls w) {x : Nat} {id : Int} (hid : IdOk E.M cls x id) (v : Option Nat) : Cf E.M cls (setContainer w x v id) := by
  refine ⟨by simp [h.cls_eq], ?_⟩
  intro y
  simp only [setContainer_container, setContainer_cfid]
  split
  · rename_i hy
    subst hy
    intro _ h0
    rcases hid with hid | hid
    · omega
    · exact hid
  · exact h.cf y

theorem objects_ofObj (v : Option Nat) : objects (ofObj v) = some v.toList := by cases v <;> rfl

theorem setContainerN_ok (wf : WellFormed E.M) (hP : ∀ x s, P x s → E.M.isContainer s = false) (h : Ok E cls q P G0 (eGet E.M w) c) (hcf : Cf E.M cls w)
    {x : Nat} {id : Int} (hid : IdOk E.M cls x id) (v : Option Nat) :
    ∃ c', setContainerN E (w, c) x v id = some (setContainer w x v id, c') ∧ Ok E cls q P G0 (eGet E.M (setContainer w x v id)) c' := by
  have hP' : ∀ g, E.M.isContainer g = true → ¬ P x g := by
    intro g hg hp
    simp [hP x g hp] at hg
  -- the old container
  obtain ⟨c1, G1, a1, a2, a3⟩ : ∃ c1 G1, (if (w x).container ≠ none ∧ (w x).cfid ≥ 0 ∧ (w x).cfid ≠ id then
        note E (setContainer w x v id, c) x (w x).cfid .set (ofObj (w x).container) .nil (-1) else some (setContainer w x v id, c)) =
        some (setContainer w x v id, c1) ∧ Ok E cls q P G0 G1 c1 ∧
      ∀ y t, t ∈ E.M.features (cls y) → G1 y t =
        if y = x ∧ E.M.isContainer t = true ∧ (w x).cfid ≠ id then [] else eGet E.M w y t := by
    split
    · rename_i hh
      obtain ⟨g, hg, hgc, hge⟩ := hcf.cf x hh.1 hh.2.1
      rw [hge]
      obtain ⟨c1, b1, b2⟩ := h.set wf hg (container_single wf hgc) (hP' g hgc) (Or.inl rfl) (old := ofObj (w x).container) (new := .nil) (v := [])
        (by rw [eGet_eq wf hcf.cls_eq hg, objects_ofObj]; simp [hgc, hge]) rfl (setContainer w x v id)
      refine ⟨c1, _, b1, b2, ?_⟩
      intro y t ht
      simp only [upd]
      by_cases hy : y = x
      · subst hy
        by_cases htg : t = g
        · subst htg
          have := hh.2.2
          rw [hge] at this
          simp [hgc, this]
        · by_cases htc : E.M.isContainer t = true
          · have hne : (E.M.refs g).declId ≠ (E.M.refs t).declId := fun he => htg (wf.inj ht hg he.symm)
            have := hh.2.2
            rw [hge] at this
            rw [if_neg (by simp [htg]), if_pos ⟨rfl, htc, this⟩, eGet_eq wf hcf.cls_eq ht, if_pos htc, hge, if_neg (by omega)]
          · simp [htg, htc]
      · simp [hy]
    · rename_i hh
      refine ⟨c, _, rfl, h, ?_⟩
      intro y t ht
      split
      · rename_i hy
        obtain ⟨rfl, htc, hne⟩ := hy
        rw [eGet_eq wf hcf.cls_eq ht, if_pos htc]
        split
        · rename_i hcfid
          by_cases hcn : (w y).container = none
          · simp [hcn]
          · exact absurd ⟨hcn, by omega, hne⟩ hh
        · rfl
      · rfl
  -- the new container
  have hset : setContainerN E (w, c) x v id = if id ≥ 0 then
      note E (setContainer w x v id, c1) x id .set (if (w x).cfid = id then ofObj (w x).container else .nil) (ofObj v) (-1)
      else some (setContainer w x v id, c1) := by
    simp only [setContainerN]
    rw [a1]
    rfl
  have hfin : ∀ y t, t ∈ E.M.features (cls y) → eGet E.M (setContainer w x v id) y t =
      if y = x ∧ E.M.isContainer t = true then (if id = (E.M.refs t).declId then v.toList else []) else eGet E.M w y t := by
    intro y t ht
    rw [eGet_eq wf (cls := cls) (by simp [hcf.cls_eq]) ht, eGet_eq wf hcf.cls_eq ht]
    simp only [setContainer_cfid, setContainer_container, setContainer_slots]
    by_cases hy : y = x <;> by_cases htc : E.M.isContainer t = true <;> simp [hy, htc]
  rw [hset]
  rcases hid with hid | ⟨g, hg, hgc, hge⟩
  · refine ⟨c1, by rw [if_neg (by omega)], a2.congr ?_⟩
    intro y t ht _
    rw [hfin y t ht, a3 y t ht]
    by_cases hy : y = x
    · by_cases htc : E.M.isContainer t = true
      · subst hy
        simp only [htc, and_self, ↓reduceIte, true_and]
        rw [if_neg (by omega)]
        split
        · rfl
        · rename_i hh
          have : (w y).cfid = id := by simpa using hh
          rw [eGet_eq wf hcf.cls_eq ht, if_pos htc, if_neg (by omega)]
      · simp [htc]
    · simp [hy]
  · rw [if_pos (by omega), hge]
    obtain ⟨c2, b1, b2⟩ := a2.set wf hg (container_single wf hgc) (hP' g hgc) (Or.inl rfl)
      (old := if (w x).cfid = ((E.M.refs g).declId : Int) then ofObj (w x).container else .nil) (new := ofObj v) (v := v.toList) (by
        rw [a3 x g hg]
        by_cases hx : (w x).cfid = (E.M.refs g).declId
        · simp [hx, hge, objects_ofObj, eGet_eq wf hcf.cls_eq hg, hgc]
        · simp [hx, hge, hgc, objects]) (objects_ofObj v) (setContainer w x v id)
    rw [hge] at b1
    refine ⟨c2, b1, b2.congr ?_⟩
    intro y t ht _
    rw [hge] at hfin
    rw [hfin y t ht]
    simp only [upd]
    by_cases hy : y = x
    · subst hy
      by_cases htg : t = g
      · subst htg; simp [hgc]
      · have hne : (E.M.refs g).declId ≠ (E.M.refs t).declId := fun he => htg (wf.inj ht hg he.symm)
        by_cases htc : E.M.isContainer t = true
        · rw [if_pos ⟨rfl, htc⟩, if_neg (by omega), if_neg (by simp [htg]), a3 y t ht]
          split
          · rfl
          · rename_i hh
            have : (w y).cfid = id := by simpa [htc] using hh
            rw [eGet_eq wf hcf.cls_eq ht, if_pos htc, if_neg (by omega)]
        · simp [htg, htc, a3 y t ht]
    · simp [hy, a3 y t ht]

theorem objects_ofSlot {M : Meta} {s : Nat} (hm : (M.refs s).many = false) {v : Slot} (hv : Shape M s v) : objects (ofSlot v) = some v.vals := by
  simp only [Shape, hm, Bool.false_eq_true, ↓reduceIte] at hv
  rcases hv with rfl | ⟨o, rfl⟩ <;> rfl

/-! ### The other ends -/

theorem inverseRemoveN_neg (wf : WellFormed E.M) (hP : ∀ x s, P x s → E.M.isContainer s = false) (h : Ok E cls q P G0 (eGet E.M w) c) (hcf : Cf E.M cls w)
    (x e : Nat) {id : Int} (hid : id < 0) :
    ∃ w' c', inverseRemove E.M w x e id = some w' ∧ inverseRemoveN E (w, c) x e id = some (w', c') ∧ Ok E cls q P G0 (eGet E.M w') c' ∧ Cf E.M cls w' := by
  obtain ⟨c', a1, a2⟩ := setContainerN_ok wf hP h hcf (x := x) (id := id) (Or.inl hid) none
  exact ⟨_, c', by simp only [inverseRemove]; rw [if_neg (by omega)], by simp only [inverseRemoveN]; rw [if_neg (by omega)]; exact a1, a2,
    hcf.setContainer (Or.inl hid) none⟩

theorem inverseRemoveN_ok (wf : WellFormed E.M) (hP : ∀ x s, P x s → E.M.isContainer s = false) (h : Ok E cls q P G0 (eGet E.M w) c) (hcf : Cf E.M cls w)
    {x s : Nat} (e : Nat) (hs : s ∈ E.M.features (cls x)) (hPx : ¬ P x s) (hq : (E.M.refs s).many = true → q = true)
    (hsh : E.M.isContainer s = false → Shape E.M s ((w x).slots (E.M.refs s).declId)) :
    ∃ w' c', inverseRemove E.M w x e (E.M.refs s).declId = some w' ∧ inverseRemoveN E (w, c) x e (E.M.refs s).declId = some (w', c') ∧
      Ok E cls q P G0 (eGet E.M w') c' ∧ Cf E.M cls w' := by
  have h0 : ((E.M.refs s).declId : Int) ≥ 0 := by omega
  simp only [inverseRemove, inverseRemoveN, hcf.cls_eq x, wf.feature hs, wf.featureID hs, Int.toNat_natCast, h0, ↓reduceIte]
  by_cases hm : (E.M.refs s).many = true
  · have hn : E.M.isContainer s = false := by
      cases hn : E.M.isContainer s with
      | false => rfl
      | true => have := container_single wf hn; simp [hm] at this
    have hg := eGet_eq (E := E) wf hcf.cls_eq hs
    have hsh := hsh hn
    simp only [Shape, hm, ↓reduceIte, hn, Bool.false_eq_true] at hsh hg ⊢
    rcases hsh with he | ⟨l, hl, he⟩
    · rw [he]
      exact ⟨w, c, rfl, rfl, h, hcf⟩
    · rw [he] at hg ⊢
      simp only [Slot.vals] at hg
      simp only
      split
      · rename_i hel
        have hq := hq hm
        subst hq
        obtain ⟨c', a1, a2⟩ := h.rem wf hs hm hPx (e := e) (by rw [hg]; exact hel) (setSlot w x (E.M.refs s).declId (.list (l.erase e)))
        rw [hg] at a1 a2
        refine ⟨_, c', rfl, a1, a2.congr ?_, hcf.setSlot _ _ _⟩
        intro y t ht _
        rw [eGet_setSlot wf hcf.cls_eq hs hn _ ht]
        rfl
      · rename_i hel
        rw [List.erase_of_not_mem hel]
        refine ⟨_, c, rfl, rfl, h.congr ?_, hcf.setSlot _ _ _⟩
        intro y t ht _
        rw [eGet_setSlot wf hcf.cls_eq hs hn _ ht]
        simp only [upd, Slot.vals]
        split
        · rename_i hyt
          obtain ⟨rfl, rfl⟩ := hyt
          exact hg.symm
        · rfl
  · have hm : (E.M.refs s).many = false := by simpa using hm
    simp only [hm, Bool.false_eq_true, ↓reduceIte]
    by_cases hn : E.M.isContainer s = true
    · simp only [hn, ↓reduceIte]
      have hid : IdOk E.M cls x (E.M.refs s).declId := Or.inr ⟨s, hs, hn, rfl⟩
      obtain ⟨c', a1, a2⟩ := setContainerN_ok wf hP h hcf hid none
      exact ⟨_, c', rfl, a1, a2, hcf.setContainer hid none⟩
    · have hn : E.M.isContainer s = false := by simpa using hn
      simp only [hn, Bool.false_eq_true, ↓reduceIte]
      obtain ⟨c', a1, a2⟩ := h.set wf hs hm hPx (Or.inl rfl) (old := ofSlot ((w x).slots (E.M.refs s).declId)) (new := .nil) (v := [])
        (by rw [objects_ofSlot hm (hsh hn), eGet_eq wf hcf.cls_eq hs, hn]; rfl) rfl (setSlot w x (E.M.refs s).declId .none)
      refine ⟨_, c', rfl, a1, a2.congr ?_, hcf.setSlot _ _ _⟩
      intro y t ht _
      rw [eGet_setSlot wf hcf.cls_eq hs hn _ ht]
      rfl

theorem removeFromContainerN_ok (wf : WellFormed E.M) (hP : ∀ x s, P x s → E.M.isContainer s = false) (h : Ok E cls true P G0 (eGet E.M w) c)
    (hi : Inv E.M cls w K) (o : Nat) (hPo : ∀ x s, Points E.M cls w o x s → ¬ P x s) :
    ∃ w' c', removeFromContainer E.M w o = some w' ∧ removeFromContainerN E (w, c) o = some (w', c') ∧ Ok E cls true P G0 (eGet E.M w') c' ∧
      Cf E.M cls w' := by
  have hcf := Inv.cf wf hi
  cases hc : (w o).container with
  | none =>
    refine ⟨w, c, ?_, ?_, h, hcf⟩ <;> simp only [removeFromContainer, removeFromContainerN, hc] <;> split <;> (try split) <;> rfl
  | some y =>
    obtain ⟨s, hp⟩ := hi.code o y hc
    have hn := wf.contNot hp.cont
    obtain ⟨w', c', a1, a2, a3, a4⟩ := inverseRemoveN_ok wf hP h hcf o hp.mem (hPo y s hp) (fun _ => rfl) (fun _ => hi.shape y s hp.mem hn)
    refine ⟨w', c', ?_, ?_, a3, a4⟩
    · simp only [removeFromContainer, hc, hp.cfid, hi.cls_eq o, code]
      cases ho : (E.M.refs s).opposite with
      | none =>
        simp only
        rw [if_neg (by omega), show (-1 - (-1 - ((E.M.refs s).declId : Int))) = (E.M.refs s).declId by omega]
        exact a1
      | some s' =>
        simp only
        rw [if_pos (by omega), wf.feature (hp.fits s' ho)]
        simp only [(wf.opp s s' ho).1]
        exact a1
    · simp only [removeFromContainerN, hc, hp.cfid, hi.cls_eq o, code]
      cases ho : (E.M.refs s).opposite with
      | none =>
        simp only
        rw [if_neg (by omega), show (-1 - (-1 - ((E.M.refs s).declId : Int))) = (E.M.refs s).declId by omega]
        exact a2
      | some s' =>
        simp only
        rw [if_pos (by omega), wf.feature (hp.fits s' ho)]
        simp only [(wf.opp s s' ho).1]
        exact a2

theorem removeFromContainerN_if (E : Env) (s : State) (o : Nat) :
    (if (s.1 o).container ≠ none then removeFromContainerN E s o else some s) = removeFromContainerN E s o := by
  split
  · rfl
  · rename_i h
    have h : (s.1 o).container = none := by simpa using h
    simp only [removeFromContainerN, h]
    split
    · split <;> rfl
    · rfl

/-- the opposite is a list -/
def oppMany (M : Meta) (r : Nat) : Bool :=
  match (M.refs r).opposite with
  | some r' => (M.refs r').many
  | none => false

/-- `e.EInverseRemove(a, …)` for a value `e` of the reference `r` of `a` -/
theorem inverseRemoveN_link (wf : WellFormed E.M) {a r e : Nat} (hP : ∀ x s, P x s → x = a ∧ s = r) (hr : r ∈ E.M.features (cls a))
    (hn : E.M.isContainer r = false) (hl : (E.M.refs r).containment = true ∨ (E.M.refs r).opposite ≠ none) (hi : Inv E.M cls w K) (hK : K a r e)
    (h : Ok E cls true P G0 (eGet E.M w) c) :
    ∃ w' c', inverseRemove E.M w e a (code E.M r) = some w' ∧ inverseRemoveN E (w, c) e a (code E.M r) = some (w', c') ∧
      Ok E cls true P G0 (eGet E.M w') c' := by
  have hPc : ∀ x s, P x s → E.M.isContainer s = false := by
    intro x s hp
    obtain ⟨rfl, rfl⟩ := hP x s hp
    exact hn
  have hcf := Inv.cf wf hi
  simp only [code]
  cases ho : (E.M.refs r).opposite with
  | none =>
    obtain ⟨w', c', a1, a2, a3, -⟩ := inverseRemoveN_neg wf hPc h hcf e a (id := -1 - (E.M.refs r).declId) (by omega)
    exact ⟨w', c', a1, a2, a3⟩
  | some r' =>
    have hr' : r' ∈ E.M.features (cls e) := hi.fitsK hr hn hK r' ho
    have hne := (wf.opp r r' ho).2
    obtain ⟨w', c', a1, a2, a3, -⟩ := inverseRemoveN_ok wf hPc h hcf (x := e) (s := r') a hr' (fun hp => hne (hP _ _ hp).2) (fun _ => rfl)
      (fun hn' => hi.shape e r' hr' hn')
    exact ⟨w', c', a1, a2, a3⟩

/-- `e.EInverseAdd(a, …)` when `e` becomes a value of the reference `r` of `a` -/
theorem inverseAddN_link (wf : WellFormed E.M) {a r e : Nat} (hP : ∀ x s, P x s → x = a ∧ s = r) (hr : r ∈ E.M.features (cls a))
    (hn : E.M.isContainer r = false) (hl : (E.M.refs r).containment = true ∨ (E.M.refs r).opposite ≠ none) (hf : Fits E.M cls r e)
    (hi : Inv E.M cls w K) (off : Off E.M cls w K fun x s => x = a ∧ s = r) (hK : ¬ K a r e)
    (h : Ok E cls q P G0 (eGet E.M w) c) (hq : oppMany E.M r = false → q = true) :
    ∃ w' c', inverseAdd E.M w e a (code E.M r) = some w' ∧ inverseAddN E (w, c) e a (code E.M r) = some (w', c') ∧
      Ok E cls (!oppMany E.M r) P G0 (eGet E.M w') c' := by
  have hPc : ∀ x s, P x s → E.M.isContainer s = false := by
    intro x s hp
    obtain ⟨rfl, rfl⟩ := hP x s hp
    exact hn
  have hcf := Inv.cf wf hi
  by_cases hc : (E.M.refs r).containment = true
  · have hPo : ∀ x s, Points E.M cls w e x s → ¬ P x s := by
      intro x s hp hpp
      obtain ⟨rfl, rfl⟩ := hP x s hpp
      exact hK ((hi.own x s e hr hc).2 hp)
    have hom : oppMany E.M r = false := by
      simp only [oppMany]
      cases ho : (E.M.refs r).opposite with
      | none => rfl
      | some r' => exact (wf.cont r r' hc ho).2
    have hq := hq hom
    subst hq
    rw [hom]
    obtain ⟨w1, c1, a1, a2, a3, a4⟩ := removeFromContainerN_ok wf hPc h hi e hPo
    have hid : IdOk E.M cls e (code E.M r) := by
      simp only [code]
      cases ho : (E.M.refs r).opposite with
      | none => exact Or.inl (by simp only; omega)
      | some r' => exact Or.inr ⟨r', hf r' ho, by rw [isContainer_opp (wf.opp r r' ho).1]; exact hc, rfl⟩
    obtain ⟨c2, b1, b2⟩ := setContainerN_ok wf hPc a3 a4 hid (some a)
    refine ⟨setContainer w1 e (some a) (code E.M r), c2, ?_, ?_, b2⟩
    · simp only [inverseAdd]
      cases ho : (E.M.refs r).opposite with
      | none =>
        have hneg : ¬ code E.M r ≥ 0 := by simp only [code, ho]; omega
        rw [if_neg hneg, a1]
        rfl
      | some r' =>
        have hcode : code E.M r = (E.M.refs r').declId := by simp [code, ho]
        have hr' := hf r' ho
        have hcr' : E.M.isContainer r' = true := by rw [isContainer_opp (wf.opp r r' ho).1]; exact hc
        rw [hcode, if_pos (by omega), hi.cls_eq e, wf.feature hr']
        simp only [(wf.cont r r' hc ho).2, Bool.false_eq_true, ↓reduceIte, hcr', wf.featureID hr', removeFromContainer_if]
        rw [a1]
        rfl
    · simp only [inverseAddN]
      cases ho : (E.M.refs r).opposite with
      | none =>
        have hneg : ¬ code E.M r ≥ 0 := by simp only [code, ho]; omega
        rw [if_neg hneg, a2]
        exact b1
      | some r' =>
        have hcode : code E.M r = (E.M.refs r').declId := by simp [code, ho]
        have hr' := hf r' ho
        have hcr' : E.M.isContainer r' = true := by rw [isContainer_opp (wf.opp r r' ho).1]; exact hc
        rw [hcode] at b1 ⊢
        rw [if_pos (by omega), hi.cls_eq e, wf.feature hr']
        have := removeFromContainerN_if E (w, c) e
        simp only at this
        simp only [(wf.cont r r' hc ho).2, Bool.false_eq_true, ↓reduceIte, hcr', wf.featureID hr', this]
        rw [a2]
        exact b1
  · have hc : (E.M.refs r).containment = false := by simpa using hc
    cases ho : (E.M.refs r).opposite with
    | none => simp [hc, ho] at hl
    | some r' =>
      have hr' := hf r' ho
      obtain ⟨ho', hne⟩ := wf.opp r r' ho
      have hn' : E.M.isContainer r' = false := by rw [isContainer_opp ho']; exact hc
      have hc' : (E.M.refs r').containment = false := by rw [← isContainer_opp ho]; exact hn
      have hcode : code E.M r = (E.M.refs r').declId := by simp [code, ho]
      have hPe : ¬ P e r' := fun hp => hne (hP _ _ hp).2
      have hg := eGet_eq (E := E) wf hcf.cls_eq hr'
      have hsh := hi.shape e r' hr' hn'
      simp only [hn', Bool.false_eq_true, ↓reduceIte] at hg
      have hom : oppMany E.M r = (E.M.refs r').many := by simp [oppMany, ho]
      rw [hom] at hq ⊢
      have h0 : ((E.M.refs r').declId : Int) ≥ 0 := by omega
      simp only [inverseAdd, inverseAddN, hcode, hi.cls_eq e, wf.feature hr', wf.featureID hr', Int.toNat_natCast, h0, ↓reduceIte]
      by_cases hm : (E.M.refs r').many = true
      · simp only [Shape, hm, ↓reduceIte] at hsh ⊢
        rcases hsh with he | ⟨l, hl, he⟩
        · rw [he] at hg ⊢
          obtain ⟨c', b1, b2⟩ := h.add wf hr' hm hPe a (setSlot w e (E.M.refs r').declId (.list [a])) 0 (by rw [hg]; rfl)
          refine ⟨_, c', rfl, b1, b2.congr ?_⟩
          intro y t ht _
          rw [eGet_setSlot wf hcf.cls_eq hr' hn' _ ht, hg]
          rfl
        · rw [he] at hg ⊢
          obtain ⟨c', b1, b2⟩ := h.add wf hr' hm hPe a (setSlot w e (E.M.refs r').declId (.list (l ++ [a]))) l.length (by rw [hg]; rfl)
          refine ⟨_, c', rfl, b1, b2.congr ?_⟩
          intro y t ht _
          rw [eGet_setSlot wf hcf.cls_eq hr' hn' _ ht, hg]
          rfl
      · have hm : (E.M.refs r').many = false := by simpa using hm
        have hq := hq hm
        subst hq
        simp only [hm, Bool.false_eq_true, ↓reduceIte, hn', hc', Bool.not_false]
        have fin : ∀ (w1 : World) (c1 : List (Notif Nat)), Ok E cls true P G0 (eGet E.M w1) c1 → Cf E.M cls w1 → eGet E.M w1 e r' = eGet E.M w e r' →
            ∃ w' c', some (setSlot w1 e (E.M.refs r').declId (.obj a)) = some w' ∧
              note E (setSlot w1 e (E.M.refs r').declId (.obj a), c1) e (E.M.refs r').declId .set (ofSlot ((w e).slots (E.M.refs r').declId)) (.elem a) (-1) =
                some (w', c') ∧ Ok E cls true P G0 (eGet E.M w') c' := by
          intro w1 c1 a3 a4 a5
          obtain ⟨c', b1, b2⟩ := a3.set wf hr' hm hPe (Or.inl rfl) (old := ofSlot ((w e).slots (E.M.refs r').declId)) (new := .elem a) (v := [a])
            (by rw [objects_ofSlot hm hsh, a5, hg]) rfl (setSlot w1 e (E.M.refs r').declId (.obj a))
          refine ⟨_, c', rfl, b1, b2.congr ?_⟩
          intro y t ht _
          rw [eGet_setSlot wf a4.cls_eq hr' hn' _ ht]
          rfl
        have hsh' := hsh
        simp only [Shape, hm, Bool.false_eq_true, ↓reduceIte] at hsh'
        rcases hsh' with he | ⟨x, he⟩
        · rw [he] at fin ⊢
          exact fin w c h hcf rfl
        · have hKe : K e r' x := (off e r' x hr' hn' (fun hh => hne hh.2)).2 (by simp [Holds, he, Slot.vals])
          have hrx : r ∈ E.M.features (cls x) := hi.fits e r' x r hr' ho' hn' hc' hKe
          have hxa : x ≠ a := by
            rintro rfl
            exact hK ((hi.bi x r e r' hr hr' ho hn hc).2 hKe)
          obtain ⟨w1, c1, b1, b2, b3, b4⟩ := inverseRemoveN_ok wf hPc h hcf (x := x) (s := r) e hrx (fun hp => hxa (hP _ _ hp).1) (fun _ => rfl)
            (fun hn' => hi.shape x r hrx hn')
          have hsl : (w1 e).slots (E.M.refs r').declId = (w e).slots (E.M.refs r').declId := by
            have hKx : Holds E.M w x r e := by
              rw [← off x r e hrx hn (fun hh => hxa hh.1)]
              exact (hi.bi x r e r' hrx hr' ho hn hc).2 hKe
            have hb := inverseRemove_slot wf hi hrx hn hKx
            rw [b1] at hb
            simp only [Option.some.injEq] at hb
            rw [hb, setSlot_slots]
            split
            · rename_i hh
              obtain ⟨rfl, hid⟩ := hh
              exact absurd (wf.inj hr' hrx hid) hne
            · rfl
          have hget : eGet E.M w1 e r' = eGet E.M w e r' := by
            rw [eGet_eq wf b4.cls_eq hr', eGet_eq wf hcf.cls_eq hr', hn', hsl]
            rfl
          have := fin w1 c1 b3 b4 hget
          rw [he] at this ⊢
          simp only [ho', hi.cls_eq x, wf.featureID hrx, b1, b2, Option.map_some, Option.bind_some]
          exact this

/-! ### Calls -/

theorem Ok.start (wf : WellFormed E.M) (h : Good E.M cls w) (P : Nat → Nat → Prop) : Ok E cls true P (eGet E.M w) (eGet E.M w) [] := by
  refine ⟨fun _ _ _ _ _ => rfl, fun _ _ _ _ => rfl, fun _ _ _ _ => Or.inl rfl, fun _ _ _ _ _ => Or.inl rfl, ?_⟩
  intro x s hs hm
  have hn : E.M.isContainer s = false := by
    cases hn : E.M.isContainer s with
    | false => rfl
    | true => have := container_single wf hn; simp [hm] at this
  rw [h.eGet_data wf hs hm hn]
  exact (h.data hs hm hn).1

/-- what a call tells -/
def Told (E : Env) (cls : Nat → Nat) (w w' : World) (c : List (Notif Nat)) : Prop := Ok E cls false (fun _ _ => False) (eGet E.M w) (eGet E.M w') c

theorem singleN (wf : WellFormed E.M) (h : Good E.M cls w) {o f : Nat} (hf : f ∈ E.M.features (cls o)) (hm : (E.M.refs f).many = false)
    (hn : E.M.isContainer f = false) (hl : (E.M.refs f).containment = true ∨ (E.M.refs f).opposite ≠ none) (v : Option Nat)
    (hv : ∀ x, v = some x → Fits E.M cls f x) :
    ∃ w1 c1 w2 c2, removeOld E.M w o f ((w o).slots (E.M.refs f).declId).object = some w1 ∧
      removeOldN E (w, []) o f ((w o).slots (E.M.refs f).declId).object = some (w1, c1) ∧ addNew E.M w1 o f v = some w2 ∧
      addNewN E (w1, c1) o f v = some (w2, c2) ∧ Told E cls w w2 c2 ∧ (∀ x, (w2 x).cls = cls x) ∧
      (w2 o).slots (E.M.refs f).declId = (w o).slots (E.M.refs f).declId := by
  have hsh := h.shape o f hf hn
  simp only [Shape, hm, Bool.false_eq_true, ↓reduceIte] at hsh
  have hP : ∀ x s, False → x = o ∧ s = f := fun _ _ h => h.elim
  obtain ⟨w1, c1, K1, a1, a1', a2, a3, a4, a5, a6⟩ : ∃ w1 c1 K1, removeOld E.M w o f ((w o).slots (E.M.refs f).declId).object = some w1 ∧
      removeOldN E (w, []) o f ((w o).slots (E.M.refs f).declId).object = some (w1, c1) ∧ Inv E.M cls w1 K1 ∧
      Off E.M cls w1 K1 (fun x s => x = o ∧ s = f) ∧ (∀ q, ¬ K1 o f q) ∧ (w1 o).slots (E.M.refs f).declId = (w o).slots (E.M.refs f).declId ∧
      Ok E cls true (fun _ _ => False) (eGet E.M w) (eGet E.M w1) c1 := by
    rcases hsh with he | ⟨p, he⟩
    · refine ⟨w, [], Holds E.M w, by rw [he]; rfl, by rw [he]; rfl, h, Good.off _, ?_, rfl, Ok.start wf h _⟩
      intro q; simp [Holds, he, Slot.vals]
    · have hK : Holds E.M w o f p := by simp [Holds, he, Slot.vals]
      obtain ⟨w1, K1, b1, b2, b3, b4, b5⟩ := inverseRemove_link wf hf hn hl h (Good.off _) hK
      obtain ⟨w1', c1, d1, d2, d3⟩ := inverseRemoveN_link wf hP hf hn hl h hK (Ok.start wf h _)
      rw [b1] at d1
      simp only [Option.some.injEq] at d1
      subst d1
      refine ⟨w1, c1, K1, ?_, ?_, b2, b3, ?_, b4, d3⟩
      · rw [← b1, he]
        simp only [Slot.object, removeOld, code]
        cases ho : (E.M.refs f).opposite with
        | none => simp only [h.cls_eq o, wf.featureID hf]
        | some f' => simp only [h.cls_eq p, wf.featureID (h.fitsK hf hn hK f' ho)]
      · rw [← d2, he]
        simp only [Slot.object, removeOldN, code]
        cases ho : (E.M.refs f).opposite with
        | none => simp only [h.cls_eq o, wf.featureID hf]
        | some f' => simp only [h.cls_eq p, wf.featureID (h.fitsK hf hn hK f' ho)]
      · intro q
        rw [b5]
        simp [Holds, he, Slot.vals]
  cases v with
  | none => exact ⟨w1, c1, w1, c1, a1, a1', rfl, rfl, a6.weaken, a2.cls_eq, a5⟩
  | some x =>
    have hfx := hv x rfl
    obtain ⟨w2, K2, b1, b2, b3, b4, -⟩ := inverseAdd_link wf hf hn hl hfx a2 a3 (a4 x)
    obtain ⟨w2', c2, d1, d2, d3⟩ := inverseAddN_link wf hP hf hn hl hfx a2 a3 (a4 x) a6 (fun _ => rfl)
    rw [b1] at d1
    simp only [Option.some.injEq] at d1
    subst d1
    refine ⟨w1, c1, w2, c2, a1, a1', ?_, ?_, d3.weaken, b2.cls_eq, b4.trans a5⟩
    · rw [← b1]
      simp only [addNew, code]
      cases ho : (E.M.refs f).opposite with
      | none => simp only [a2.cls_eq o, wf.featureID hf]
      | some f' => simp only [a2.cls_eq x, wf.featureID (hfx f' ho)]
    · rw [← d2]
      simp only [addNewN, code]
      cases ho : (E.M.refs f).opposite with
      | none => simp only [a2.cls_eq o, wf.featureID hf]
      | some f' => simp only [a2.cls_eq x, wf.featureID (hfx f' ho)]

/-- the new container -/
theorem inverseAddN_cont (wf : WellFormed E.M) (h : Ok E cls true (fun _ _ => False) G0 (eGet E.M w) c) (hcf : Cf E.M cls w) {x s : Nat} (o : Nat)
    (hs : s ∈ E.M.features (cls x)) (hc : (E.M.refs s).containment = true) (hsh : Shape E.M s ((w x).slots (E.M.refs s).declId)) :
    ∃ w' c', inverseAdd E.M w x o (E.M.refs s).declId = some w' ∧ inverseAddN E (w, c) x o (E.M.refs s).declId = some (w', c') ∧
      Ok E cls false (fun _ _ => False) G0 (eGet E.M w') c' ∧ Cf E.M cls w' := by
  have hn := wf.contNot hc
  have hg := eGet_eq (E := E) wf hcf.cls_eq hs
  simp only [hn, Bool.false_eq_true, ↓reduceIte] at hg
  have h0 : ((E.M.refs s).declId : Int) ≥ 0 := by omega
  simp only [inverseAdd, inverseAddN, hcf.cls_eq x, wf.feature hs, wf.featureID hs, Int.toNat_natCast, h0, ↓reduceIte]
  by_cases hm : (E.M.refs s).many = true
  · simp only [Shape, hm, ↓reduceIte] at hsh ⊢
    rcases hsh with he | ⟨l, hl, he⟩
    · rw [he] at hg ⊢
      obtain ⟨c', b1, b2⟩ := h.add wf hs hm id o (setSlot w x (E.M.refs s).declId (.list [o])) 0 (by rw [hg]; rfl)
      refine ⟨_, c', rfl, b1, b2.congr ?_, hcf.setSlot _ _ _⟩
      intro y t ht _
      rw [eGet_setSlot wf hcf.cls_eq hs hn _ ht, hg]
      rfl
    · rw [he] at hg ⊢
      obtain ⟨c', b1, b2⟩ := h.add wf hs hm id o (setSlot w x (E.M.refs s).declId (.list (l ++ [o]))) l.length (by rw [hg]; rfl)
      refine ⟨_, c', rfl, b1, b2.congr ?_, hcf.setSlot _ _ _⟩
      intro y t ht _
      rw [eGet_setSlot wf hcf.cls_eq hs hn _ ht, hg]
      rfl
  · have hm : (E.M.refs s).many = false := by simpa using hm
    simp only [hm, Bool.false_eq_true, ↓reduceIte, hn, hc]
    have fin : ∀ (w1 : World) (c1 : List (Notif Nat)), Ok E cls true (fun _ _ => False) G0 (eGet E.M w1) c1 → Cf E.M cls w1 →
        eGet E.M w1 x s = eGet E.M w x s →
        ∃ w' c', some (setSlot w1 x (E.M.refs s).declId (.obj o)) = some w' ∧
          note E (setSlot w1 x (E.M.refs s).declId (.obj o), c1) x (E.M.refs s).declId .set (ofSlot ((w x).slots (E.M.refs s).declId)) (.elem o) (-1) =
            some (w', c') ∧ Ok E cls false (fun _ _ => False) G0 (eGet E.M w') c' ∧ Cf E.M cls w' := by
      intro w1 c1 a3 a4 a5
      obtain ⟨c', b1, b2⟩ := a3.set wf hs hm id (Or.inl rfl) (old := ofSlot ((w x).slots (E.M.refs s).declId)) (new := .elem o) (v := [o])
        (by rw [objects_ofSlot hm hsh, a5, hg]) rfl (setSlot w1 x (E.M.refs s).declId (.obj o))
      refine ⟨_, c', rfl, b1, b2.weaken.congr ?_, a4.setSlot _ _ _⟩
      intro y t ht _
      rw [eGet_setSlot wf a4.cls_eq hs hn _ ht]
      rfl
    have hsh' := hsh
    simp only [Shape, hm, Bool.false_eq_true, ↓reduceIte] at hsh'
    rcases hsh' with he | ⟨y, he⟩
    · rw [he] at fin ⊢
      exact fin w c h hcf rfl
    · obtain ⟨w1, c1, b1, b2, b3, b4⟩ := inverseRemoveN_neg wf (fun _ _ h => h.elim) h hcf y x (id := -1 - (E.M.refs s).declId) (by omega)
      have hget : eGet E.M w1 x s = eGet E.M w x s := by
        rw [eGet_eq wf b4.cls_eq hs, eGet_eq wf hcf.cls_eq hs, hn]
        simp only [inverseRemove] at b1
        rw [if_neg (by omega)] at b1
        simp only [Option.some.injEq] at b1
        rw [← b1]
        simp
      have := fin w1 c1 b3 b4 hget
      rw [he] at this ⊢
      simp only [b1, b2, Option.map_some, Option.bind_some]
      exact this

theorem Told.refl (wf : WellFormed E.M) (h : Good E.M cls w) : Told E cls w w [] := (Ok.start wf h _).weaken

theorem eSetN_ok (wf : WellFormed E.M) (h : Good E.M cls w) {o f : Nat} (hf : f ∈ E.M.features (cls o)) (hm : (E.M.refs f).many = false) (v : Option Nat)
    (hv : ∀ x, v = some x → Fits E.M cls f x) :
    ∃ w' c', eSet E.M w o f v = some w' ∧ eSetN E w o f v = some (w', c') ∧ Told E cls w w' c' := by
  have hni := removeFromContainerN_if E (w, []) o
  simp only at hni
  simp only [eSet, eSetN, h.cls_eq o, wf.featureID hf, Int.toNat_natCast, hni, removeFromContainer_if]
  have h0 : ¬ ((E.M.refs f).declId : Int) < 0 := by omega
  simp only [h0, ↓reduceIte]
  by_cases hn : E.M.isContainer f = true
  · simp only [hn, ↓reduceIte]
    split
    · rename_i hcond
      obtain ⟨f', ho⟩ : ∃ f', (E.M.refs f).opposite = some f' := by
        cases ho : (E.M.refs f).opposite with
        | none => simp [Meta.isContainer, ho] at hn
        | some f' => exact ⟨f', rfl⟩
      have hc : (E.M.refs f').containment = true := by rw [← isContainer_opp ho]; exact hn
      obtain ⟨w1, c1, a1, a2, a3, a4⟩ := removeFromContainerN_ok wf (P := fun _ _ => False) (fun _ _ h => h.elim) (Ok.start wf h _) h o (fun _ _ _ => id)
      obtain ⟨w1', r1, -, r3, -⟩ := removeFromContainer_spec wf h (Good.off fun _ _ => False) o (fun _ _ _ hh => hh)
      rw [a1] at r1
      simp only [Option.some.injEq] at r1
      subst r1
      have hrw : (if (w o).container ≠ none then removeFromContainer E.M w o else some w) = some w1 := (removeFromContainer_if E.M w o).trans a1
      have hid : IdOk E.M cls o (E.M.refs f).declId := Or.inr ⟨f, hf, hn, rfl⟩
      have hsplit : ∀ k : World → Option World, (if (w o).container ≠ none then (removeFromContainer E.M w o).bind k else k w) = k w1 := by
        intro k
        by_cases hcn : (w o).container ≠ none
        · rw [if_pos hcn, a1]; rfl
        · rw [if_neg hcn] at hrw ⊢
          simp only [Option.some.injEq] at hrw
          rw [hrw]
      cases v with
      | none =>
        obtain ⟨c2, b1, b2⟩ := setContainerN_ok wf (fun _ _ h => h.elim) a3 a4 hid none
        refine ⟨setContainer w1 o none (E.M.refs f).declId, c2, ?_, ?_, b2.weaken⟩
        · exact hsplit fun w1 => some (setContainer w1 o none (E.M.refs f).declId)
        · rw [a2]
          exact b1
      | some x =>
        have hfx := hv x rfl f' ho
        obtain ⟨w2, c2, d1, d2, d3, d4⟩ := inverseAddN_cont wf a3 a4 (x := x) (s := f') o hfx hc (r3 x f' hfx (wf.contNot hc))
        obtain ⟨c3, b1, b2⟩ := setContainerN_ok wf (fun _ _ h => h.elim) d3 d4 hid (some x)
        refine ⟨setContainer w2 o (some x) (E.M.refs f).declId, c3, ?_, ?_, b2⟩
        · simp only [ho]
          refine (hsplit fun w1 => (inverseAdd E.M w1 x o (E.M.featureID (w1 x).cls f')).bind fun w2 => some (setContainer w2 o (some x) (E.M.refs f).declId)).trans ?_
          simp only [a4.cls_eq x, wf.featureID hfx, d1, Option.bind_some]
        · rw [a2]
          simp only [ho, Option.bind_some, a4.cls_eq x, wf.featureID hfx, d2]
          exact b1
    · rename_i hcond
      have hcond : v = (w o).container ∧ (v = none ∨ (w o).cfid = (E.M.refs f).declId) := by
        simp only [not_or, not_and, Decidable.not_not] at hcond
        refine ⟨hcond.1, ?_⟩
        by_cases hvn : v = none
        · exact Or.inl hvn
        · exact Or.inr (hcond.2 hvn)
      have hg : eGet E.M w o f = v.toList := by
        rw [eGet_eq wf h.cls_eq hf, if_pos hn, hcond.1]
        rcases hcond.2 with hh | hh
        · rw [← hcond.1, hh]; simp
        · rw [if_pos hh]
      obtain ⟨c', b1, b2⟩ := (Ok.start wf h (fun _ _ => False)).set wf hf hm id (Or.inl rfl) (old := ofObj v) (new := ofObj v) (v := v.toList)
        (by rw [objects_ofObj, hg]) (objects_ofObj v) w
      refine ⟨w, c', rfl, b1, b2.weaken.congr ?_⟩
      intro y t ht _
      simp only [upd]
      split
      · rename_i hh
        obtain ⟨rfl, rfl⟩ := hh
        exact hg
      · rfl
  · have hn : E.M.isContainer f = false := by simpa using hn
    simp only [hn, Bool.false_eq_true, ↓reduceIte]
    have hold : objects (ofSlot ((w o).slots (E.M.refs f).declId)) = some (eGet E.M w o f) := by
      rw [objects_ofSlot hm (h.shape o f hf hn), eGet_eq wf h.cls_eq hf, hn]
      rfl
    have hval : (Slot.of v).vals = v.toList := by cases v <;> rfl
    by_cases hl : (E.M.refs f).opposite ≠ none ∨ (E.M.refs f).containment = true
    · rw [if_pos hl, if_pos hl]
      split
      · obtain ⟨w1, c1, w2, c2, a1, a2, a3, a4, a5, a6, a7⟩ := singleN wf h hf hm hn hl.symm v hv
        obtain ⟨c', b1, b2⟩ := a5.set wf hf hm id (Or.inl rfl) (old := ofSlot ((w o).slots (E.M.refs f).declId)) (new := ofObj v) (v := v.toList)
          (by rw [hold, eGet_eq wf h.cls_eq hf, eGet_eq wf a6 hf, hn, a7]; rfl) (objects_ofObj v) (setSlot w2 o (E.M.refs f).declId (.of v))
        refine ⟨setSlot w2 o (E.M.refs f).declId (.of v), c', ?_, ?_, b2.congr ?_⟩
        · rw [a1]
          simp only [Option.bind_eq_bind, Option.bind_some, a3]
        · rw [a2]
          simp only [Option.bind_eq_bind, Option.bind_some, a4]
          exact b1
        · intro y t ht _
          rw [eGet_setSlot wf a6 hf hn _ ht, hval]
      · exact ⟨w, [], rfl, rfl, Told.refl wf h⟩
    · rw [if_neg hl, if_neg hl]
      obtain ⟨c', b1, b2⟩ := (Ok.start wf h (fun _ _ => False)).set wf hf hm id (Or.inl rfl) (new := ofObj v) hold (objects_ofObj v)
        (setSlot w o (E.M.refs f).declId (.of v))
      refine ⟨_, c', rfl, b1, b2.weaken.congr ?_⟩
      intro y t ht _
      rw [eGet_setSlot wf h.cls_eq hf hn _ ht, hval]

theorem eUnsetN_ok (wf : WellFormed E.M) (h : Good E.M cls w) {o f : Nat} (hf : f ∈ E.M.features (cls o)) (hm : (E.M.refs f).many = false) :
    ∃ w' c', eUnset E.M w o f = some w' ∧ eUnsetN E w o f = some (w', c') ∧ Told E cls w w' c' := by
  simp only [eUnset, eUnsetN, h.cls_eq o, wf.featureID hf, Int.toNat_natCast]
  have h0 : ¬ ((E.M.refs f).declId : Int) < 0 := by omega
  simp only [h0, ↓reduceIte]
  by_cases hn : E.M.isContainer f = true
  · simp only [hn, ↓reduceIte]
    split
    · obtain ⟨w1, c1, a1, a2, a3, a4⟩ := removeFromContainerN_ok wf (P := fun _ _ => False) (fun _ _ h => h.elim) (Ok.start wf h _) h o (fun _ _ _ => id)
      obtain ⟨c2, b1, b2⟩ := setContainerN_ok wf (fun _ _ h => h.elim) a3 a4 (x := o) (id := (E.M.refs f).declId) (Or.inr ⟨f, hf, hn, rfl⟩) none
      refine ⟨setContainer w1 o none (E.M.refs f).declId, c2, by rw [a1]; rfl, ?_, b2.weaken⟩
      rw [a2]
      exact b1
    · rename_i hcn
      have hg : eGet E.M w o f = [] := by
        rw [eGet_eq wf h.cls_eq hf, if_pos hn]
        simp only [ne_eq, Decidable.not_not] at hcn
        simp [hcn]
      obtain ⟨c', b1, b2⟩ := (Ok.start wf h (fun _ _ => False)).set wf hf hm id (Or.inl rfl) (old := .nil) (new := .nil) (v := [])
        (by rw [hg]; rfl) rfl w
      refine ⟨w, c', rfl, b1, b2.weaken.congr ?_⟩
      intro y t ht _
      simp only [upd]
      split
      · rename_i hh
        obtain ⟨rfl, rfl⟩ := hh
        exact hg
      · rfl
  · have hn : E.M.isContainer f = false := by simpa using hn
    simp only [hn, Bool.false_eq_true, ↓reduceIte]
    have hold : objects (ofSlot ((w o).slots (E.M.refs f).declId)) = some (eGet E.M w o f) := by
      rw [objects_ofSlot hm (h.shape o f hf hn), eGet_eq wf h.cls_eq hf, hn]
      rfl
    by_cases hl : (E.M.refs f).opposite ≠ none ∨ (E.M.refs f).containment = true
    · rw [if_pos hl, if_pos hl]
      split
      · obtain ⟨w1, c1, w2, c2, a1, a2, a3, a4, a5, a6, a7⟩ := singleN wf h hf hm hn hl.symm none (by simp)
        simp only [addNew, addNewN, Option.some.injEq, Prod.mk.injEq] at a3 a4
        subst a3
        obtain ⟨-, rfl⟩ := a4
        obtain ⟨c', b1, b2⟩ := a5.set wf hf hm id (ev := if E.unsettable f then .unset else .set) (by split <;> simp)
          (old := ofSlot ((w o).slots (E.M.refs f).declId)) (new := .nil) (v := [])
          (by rw [hold, eGet_eq wf h.cls_eq hf, eGet_eq wf a6 hf, hn, a7]; rfl) rfl (setSlot w1 o (E.M.refs f).declId .none)
        refine ⟨_, c', by rw [a1]; rfl, ?_, b2.congr ?_⟩
        · rw [a2]
          exact b1
        · intro y t ht _
          rw [eGet_setSlot wf a6 hf hn _ ht]
          rfl
      · exact ⟨w, [], rfl, rfl, Told.refl wf h⟩
    · rw [if_neg hl, if_neg hl]
      obtain ⟨c', b1, b2⟩ := (Ok.start wf h (fun _ _ => False)).set wf hf hm id (ev := .unset) (Or.inr rfl) (new := .nil) hold rfl
        (setSlot w o (E.M.refs f).declId .none)
      refine ⟨_, c', rfl, b1, b2.weaken.congr ?_⟩
      intro y t ht _
      rw [eGet_setSlot wf h.cls_eq hf hn _ ht]
      rfl

/-! ### Lists -/

theorem listInverseAddsN_ok (wf : WellFormed E.M) {a r : Nat} (hr : r ∈ E.M.features (cls a)) (hn : E.M.isContainer r = false) (es : List Nat) :
    ∀ (w : World) (K : Nat → Nat → Nat → Prop) (q : Bool) (c : List (Notif Nat)), (∀ e ∈ es, Fits E.M cls r e) → Inv E.M cls w K →
      Off E.M cls w K (fun x s => x = a ∧ s = r) → es.Nodup → (∀ e ∈ es, ¬ K a r e) →
      Ok E cls q (fun x s => x = a ∧ s = r) G0 (eGet E.M w) c → (oppMany E.M r = false → q = true) →
    ∃ w' c' q', listInverseAdds E.M a r w es = some w' ∧ listInverseAddsN E a r (w, c) es = some (w', c') ∧
      Ok E cls q' (fun x s => x = a ∧ s = r) G0 (eGet E.M w') c' := by
  induction es with
  | nil => intro w K q c _ _ _ _ _ h _; exact ⟨w, c, q, rfl, rfl, h⟩
  | cons e es ih =>
    intro w K q c hf hi off hnd hk h hq
    obtain ⟨w1, K1, a1, a2, a3, -, a5⟩ := listInverseAdd_spec wf hr hn (hf e (by simp)) hi off (hk e (by simp))
    rw [List.nodup_cons] at hnd
    obtain ⟨c1, q1, b1, b2, b3⟩ : ∃ c1 q1, listInverseAddN E (w, c) a r e = some (w1, c1) ∧
        Ok E cls q1 (fun x s => x = a ∧ s = r) G0 (eGet E.M w1) c1 ∧ (oppMany E.M r = false → q1 = true) := by
      by_cases hl : (E.M.refs r).containment = true ∨ (E.M.refs r).opposite ≠ none
      · obtain ⟨w1', c1, d1, d2, d3⟩ := inverseAddN_link wf (fun _ _ h => h) hr hn hl (hf e (by simp)) hi off (hk e (by simp)) h hq
        have e1 : listInverseAdd E.M w a r e = some w1' := by
          rw [← d1]
          simp only [listInverseAdd, code]
          cases ho : (E.M.refs r).opposite with
          | none => simp only []; rw [if_pos (by simpa [ho] using hl)]
          | some r' => rfl
        rw [a1] at e1
        simp only [Option.some.injEq] at e1
        subst e1
        refine ⟨c1, _, ?_, d3, fun hh => by rw [hh]; rfl⟩
        rw [← d2]
        simp only [listInverseAddN, code]
        cases ho : (E.M.refs r).opposite with
        | none => simp only []; rw [if_pos (by simpa [ho] using hl)]
        | some r' => rfl
      · simp only [not_or, Bool.not_eq_true, ne_eq, Decidable.not_not] at hl
        have e1 : listInverseAdd E.M w a r e = some w := by simp [listInverseAdd, hl.1, hl.2]
        rw [a1] at e1
        simp only [Option.some.injEq] at e1
        subst e1
        exact ⟨c, q, by simp [listInverseAddN, hl.1, hl.2], h, hq⟩
    obtain ⟨w2, c2, q2, d1, d2, d3⟩ := ih w1 K1 q1 c1 (fun x hx => hf x (by simp [hx])) a2 a3 hnd.2 (by
      intro x hx hk1
      rcases (a5 x).1 hk1 with hh | rfl
      · exact hk x (by simp [hx]) hh
      · exact hnd.1 hx) b2 b3
    exact ⟨w2, c2, q2, by simp [listInverseAdds, a1, d1], by simp [listInverseAddsN, b1, d2], d3⟩

theorem listInverseRemovesN_ok (wf : WellFormed E.M) {a r : Nat} (hr : r ∈ E.M.features (cls a)) (hn : E.M.isContainer r = false) (es : List Nat) :
    ∀ (w : World) (K : Nat → Nat → Nat → Prop) (c : List (Notif Nat)), Inv E.M cls w K →
      Off E.M cls w K (fun x s => x = a ∧ s = r) → es.Nodup → (∀ e ∈ es, K a r e) →
      Ok E cls true (fun x s => x = a ∧ s = r) G0 (eGet E.M w) c →
    ∃ w' c', listInverseRemoves E.M a r w es = some w' ∧ listInverseRemovesN E a r (w, c) es = some (w', c') ∧
      Ok E cls true (fun x s => x = a ∧ s = r) G0 (eGet E.M w') c' := by
  induction es with
  | nil => intro w K c _ _ _ _ h; exact ⟨w, c, rfl, rfl, h⟩
  | cons e es ih =>
    intro w K c hi off hnd hk h
    obtain ⟨w1, K1, a1, a2, a3, -, a5⟩ := listInverseRemove_spec wf hr hn hi off (hk e (by simp))
    rw [List.nodup_cons] at hnd
    obtain ⟨c1, b1, b2⟩ : ∃ c1, listInverseRemoveN E (w, c) a r e = some (w1, c1) ∧
        Ok E cls true (fun x s => x = a ∧ s = r) G0 (eGet E.M w1) c1 := by
      by_cases hl : (E.M.refs r).containment = true ∨ (E.M.refs r).opposite ≠ none
      · obtain ⟨w1', c1, d1, d2, d3⟩ := inverseRemoveN_link wf (fun _ _ h => h) hr hn hl hi (hk e (by simp)) h
        have e1 : listInverseRemove E.M w a r e = some w1' := by
          rw [← d1]
          simp only [listInverseRemove, code]
          cases ho : (E.M.refs r).opposite with
          | none => simp only []; rw [if_pos (by simpa [ho] using hl)]
          | some r' => rfl
        rw [a1] at e1
        simp only [Option.some.injEq] at e1
        subst e1
        refine ⟨c1, ?_, d3⟩
        rw [← d2]
        simp only [listInverseRemoveN, code]
        cases ho : (E.M.refs r).opposite with
        | none => simp only []; rw [if_pos (by simpa [ho] using hl)]
        | some r' => rfl
      · simp only [not_or, Bool.not_eq_true, ne_eq, Decidable.not_not] at hl
        have e1 : listInverseRemove E.M w a r e = some w := by simp [listInverseRemove, hl.1, hl.2]
        rw [a1] at e1
        simp only [Option.some.injEq] at e1
        subst e1
        exact ⟨c, by simp [listInverseRemoveN, hl.1, hl.2], h⟩
    obtain ⟨w2, c2, d1, d2, d3⟩ := ih w1 K1 c1 a2 a3 hnd.2 (by
      intro x hx
      rw [a5]
      exact ⟨hk x (by simp [hx]), by rintro rfl; exact hnd.1 hx⟩) b2
    exact ⟨w2, c2, by simp [listInverseRemoves, a1, d1], by simp [listInverseRemovesN, b1, d2], d3⟩

/-- the last notification, about the list itself -/
def top (E : Env) (a r : Nat) (data : List Nat) (s : State) : LOp → Option State
  | .add e => if e ∈ data then some s else noteAdded E s a r data.length [e]
  | .addAll c => noteAdded E s a r data.length (EList.getNonDuplicates .snapshot data c)
  | .insert i e => if e ∈ data then some s else noteAdded E s a r i [e]
  | .insertAll i c => noteAdded E s a r i (EList.getNonDuplicates .snapshot data c)
  | .set i e =>
    match data[i]? with
    | none => none
    | some old => if e = old then some s else note E s a (E.M.refs r).declId .set (.elem old) (.elem e) i
  | .removeAt i =>
    match data[i]? with
    | none => none
    | some old => noteRemoved E s a r [old] [(i : Int)]
  | .remove e => if e ∈ data then noteRemoved E s a r [e] [(data.idxOf e : Int)] else some s
  | .removeRange i j => noteRemoved E s a r ((data.take j).drop i) ((List.range' i ((data.take j).drop i).length).map Int.ofNat)
  | .removeAll c => noteRemoved E s a r (data.filter (· ∈ c)) (positions c 0 data)
  | .clear =>
    match data with
    | [e] => note E s a (E.M.refs r).declId .remove (.elem e) .nil 0
    | es => note E s a (E.M.refs r).declId .removeMany (.elems es) .nil (-1)
  | .move i j =>
    match data[i]? with
    | none => none
    | some e => note E s a (E.M.refs r).declId .move (.int i) (.elem e) j

theorem listOpN_plan (wf : WellFormed E.M) (h : ∀ x, (w x).cls = cls x) {a r : Nat} (hr : r ∈ E.M.features (cls a)) (op : LOp) :
    listOpN E w a r op = (plan (dataOf E.M w a r) op).bind fun p =>
      (listInverseRemovesN E a r (setSlot w a (E.M.refs r).declId (.list p.1), []) p.2.1).bind fun s =>
        (listInverseAddsN E a r s p.2.2).bind fun s => top E a r (dataOf E.M w a r) s op := by
  simp only [listOpN, h a, wf.featureID hr, Int.toNat_natCast]
  rw [if_neg (by omega)]
  rw [show ((w a).slots (E.M.refs r).declId).data = dataOf E.M w a r from rfl]
  generalize dataOf E.M w a r = data
  cases op <;> simp only [plan, top] <;> (repeat' split) <;>
    simp_all [listInverseAddsN, listInverseRemovesN, Option.bind_assoc]

theorem Ok.skip (h : Ok E cls q (fun x s => x = a ∧ s = r) G0 G c) (hr : r ∈ E.M.features (cls a)) (hm : (E.M.refs r).many = true) {l : List Nat}
    (hl : G0 a r = l) (hg : G a r = l) : Ok E cls false (fun _ _ => False) G0 G c := by
  refine ⟨?_, fun _ _ _ h => h.elim, h.single, by simp, h.nodup⟩
  intro x s hx hs _
  by_cases hxs : x = a ∧ s = r
  · obtain ⟨rfl, rfl⟩ := hxs
    rw [follow_eq, h.off x s hs ⟨rfl, rfl⟩, hg, hl]
    rfl
  · exact h.rel x s hx hs hxs

theorem Ok.finish (wf : WellFormed E.M) {a r : Nat} (h : Ok E cls q (fun x s => x = a ∧ s = r) G0 G c) (hr : r ∈ E.M.features (cls a))
    (hm : (E.M.refs r).many = true) {l : List Nat} (hg : G a r = l) {ev : Event} {old new : Payload Nat} {k : Int}
    (he : effect (G0 a r) ⟨some a, (E.M.refs r).declId, ev, old, new, k⟩ = some l) (w : World) :
    ∃ c', note E (w, c) a (E.M.refs r).declId ev old new k = some (w, c') ∧ Ok E cls false (fun _ _ => False) G0 G c' := by
  have hoff := h.off a r hr ⟨rfl, rfl⟩
  have hk : ∀ y t, t ∈ E.M.features (cls y) → ¬ (y = a ∧ t = r) → ¬ (y = a ∧ ((E.M.refs t).declId : Int) = ((E.M.refs r).declId : Int)) := by
    rintro y t ht hne ⟨rfl, he⟩
    exact hne ⟨rfl, wf.inj ht hr (by omega)⟩
  by_cases hl : E.listening a = true
  · obtain ⟨b, c1, c2, c3⟩ := chainAdd_append (c := c) (n := ⟨some a, (E.M.refs r).declId, ev, old, new, k⟩) rfl rfl (Or.inl hoff)
    refine ⟨_, by simp only [note, hl, ↓reduceIte, c1]; rfl, ⟨?_, fun _ _ _ h => h.elim, ?_, by simp, h.nodup⟩⟩
    · intro x s hx hs _
      by_cases hxs : x = a ∧ s = r
      · obtain ⟨rfl, rfl⟩ := hxs
        rw [follow_eq, c2, hoff, hg]
        simp [he]
      · rw [follow_eq, c3 x _ (hk x s hs hxs)]
        exact h.rel x s hx hs hxs
    · intro x s hs hms
      have hxs : ¬ (x = a ∧ s = r) := by rintro ⟨rfl, rfl⟩; simp [hm] at hms
      rw [c3 x _ (hk x s hs hxs)]
      exact h.single x s hs hms
  · refine ⟨c, by simp [note, hl], ⟨?_, fun _ _ _ h => h.elim, h.single, by simp, h.nodup⟩⟩
    intro x s hx hs _
    exact h.rel x s hx hs (by rintro ⟨rfl, -⟩; exact hl hx)

theorem effect_list {s : List Nat} {n : Notif Nat} (h : ¬ ((n.event = .set ∨ n.event = .unset) ∧ n.position = -1)) (h2 : n.event ≠ .removeMany) :
    effect s n = Spec.Replay.apply s n := by
  simp only [effect]
  rw [if_neg h]
  split
  · rename_i he _; exact absurd he h2
  · rfl

theorem effect_many {s l : List Nat} {n : Notif Nat} (h : n.event = .removeMany) (ho : n.old = .elems l) (hl : ∀ x ∈ l, x ∈ s) :
    effect s n = some (s.filter (· ∉ l)) := by
  simp only [effect, h, reduceCtorEq, or_self, false_and, ↓reduceIte, ho]
  rw [if_pos hl]

theorem positions_length (c : List Nat) (l : List Nat) : ∀ k, (positions c k l).length = (l.filter (· ∈ c)).length := by
  induction l with
  | nil => intro k; rfl
  | cons x l ih => intro k; simp only [positions, List.filter_cons]; by_cases h : x ∈ c <;> simp [h, ih]

theorem positions_one (c : List Nat) (e : Nat) (l : List Nat) : ∀ k, l.filter (· ∈ c) = [e] → ∃ p : Nat, positions c k l = [((k + p : Nat) : Int)] ∧ l[p]? = some e := by
  induction l with
  | nil => intro k h; simp at h
  | cons x l ih =>
    intro k h
    simp only [positions]
    by_cases hx : x ∈ c
    · simp only [List.filter_cons, hx, decide_true, ↓reduceIte, List.cons.injEq] at h
      obtain ⟨rfl, h2⟩ := h
      have := positions_length c l (k + 1)
      rw [h2] at this
      refine ⟨0, ?_, by simp⟩
      rw [if_pos hx, List.length_eq_zero_iff.1 this]
      simp
    · simp only [List.filter_cons, hx, decide_false, Bool.false_eq_true, ↓reduceIte] at h
      obtain ⟨p, h1, h2⟩ := ih (k + 1) h
      exact ⟨p + 1, by rw [if_neg hx, h1]; congr 2; omega, by simpa using h2⟩

theorem filter_range {data : List Nat} (h : data.Nodup) {i j : Nat} (hij : i ≤ j) :
    data.filter (· ∉ (data.take j).drop i) = data.take i ++ data.drop j := by
  have hd : data = data.take i ++ ((data.take j).drop i ++ data.drop j) := by
    have h1 : data.take i = (data.take j).take i := by rw [List.take_take, Nat.min_eq_left hij]
    rw [← List.append_assoc, h1, List.take_append_drop, List.take_append_drop]
  generalize (data.take j).drop i = mid at hd ⊢
  generalize data.take i = pre at hd ⊢
  generalize data.drop j = post at hd ⊢
  subst hd
  rw [List.nodup_append] at h
  obtain ⟨-, h2, h3⟩ := h
  rw [List.nodup_append] at h2
  rw [List.filter_append, List.filter_append]
  have e1 : pre.filter (· ∉ mid) = pre := by
    rw [List.filter_eq_self]
    intro x hx
    simp only [decide_eq_true_eq]
    intro hm
    exact h3 x hx x (by simp [hm]) rfl
  have e2 : mid.filter (· ∉ mid) = [] := by
    rw [List.filter_eq_nil_iff]
    intro x hx
    simp [hx]
  have e3 : post.filter (· ∉ mid) = post := by
    rw [List.filter_eq_self]
    intro x hx
    simp only [decide_eq_true_eq]
    intro hm
    exact h2.2.2 x hm x hx rfl
  rw [e1, e2, e3]
  simp

theorem effect_remove {data : List Nat} {a : Nat} {id : Int} {i e : Nat} (h : data[i]? = some e) :
    effect data ⟨some a, id, .remove, .elem e, .nil, i⟩ = some (data.eraseIdx i) := by
  rw [effect_list (by simp) (by simp)]
  simp [Spec.Replay.apply, h]

theorem insertIdx_take (l : List Nat) (e : Nat) {i : Nat} (h : i ≤ l.length) : l.insertIdx i e = l.take i ++ [e] ++ l.drop i := by
  apply List.ext_getElem?
  intro n
  rw [List.getElem?_insertIdx]
  grind

theorem noteAdded_ok (wf : WellFormed E.M) {a r : Nat} (h : Ok E cls q (fun x s => x = a ∧ s = r) G0 G c) (hr : r ∈ E.M.features (cls a))
    (hm : (E.M.refs r).many = true) (es : List Nat) {i : Nat} (hi : i ≤ (G0 a r).length) (hg : G a r = (G0 a r).take i ++ es ++ (G0 a r).drop i)
    (w : World) : ∃ c', noteAdded E (w, c) a r i es = some (w, c') ∧ Ok E cls false (fun _ _ => False) G0 G c' := by
  match es, hg with
  | [], hg => exact ⟨c, rfl, h.skip hr hm rfl (by simpa using hg)⟩
  | [e], hg =>
    refine h.finish wf hr hm hg ?_ w
    rw [effect_list (by simp) (by simp)]
    simp only [Spec.Replay.apply, Int.toNat_natCast]
    rw [if_pos (by omega)]
    rw [insertIdx_take _ _ hi]
  | e :: e' :: es, hg =>
    refine h.finish wf hr hm hg ?_ w
    rw [effect_list (by simp) (by simp)]
    simp only [Spec.Replay.apply, Int.toNat_natCast]
    rw [if_pos (by omega)]
    rfl

theorem noteRemoved_ok (wf : WellFormed E.M) {a r : Nat} (h : Ok E cls q (fun x s => x = a ∧ s = r) G0 G c) (hr : r ∈ E.M.features (cls a))
    (hm : (E.M.refs r).many = true) (hnd : (G0 a r).Nodup) (es : List Nat) (ps : List Int) (hlen : es.length = ps.length)
    (h1 : ∀ e, es = [e] → ∃ p : Nat, ps = [(p : Int)] ∧ (G0 a r)[p]? = some e) (hes : ∀ e ∈ es, e ∈ G0 a r)
    (hg : G a r = (G0 a r).filter (· ∉ es)) (w : World) :
    ∃ c', noteRemoved E (w, c) a r es ps = some (w, c') ∧ Ok E cls false (fun _ _ => False) G0 G c' := by
  match es, ps, hlen, h1, hes, hg with
  | [], [], _, _, _, hg => exact ⟨c, rfl, h.skip hr hm rfl (by rw [hg, List.filter_eq_self]; simp)⟩
  | [e], [p], _, h1, _, hg =>
    obtain ⟨p', hp, hp'⟩ := h1 e rfl
    simp only [List.cons.injEq, and_true] at hp
    subst hp
    refine h.finish wf hr hm hg ?_ w
    rw [effect_remove hp', eraseIdx_filter hnd hp']
    simp
  | e :: e' :: es, p :: p' :: ps, _, _, hes, hg => exact h.finish wf hr hm hg (effect_many rfl rfl hes) w

theorem top_ok (wf : WellFormed E.M) {a r : Nat} (h : Ok E cls q (fun x s => x = a ∧ s = r) G0 G c) (hr : r ∈ E.M.features (cls a))
    (hm : (E.M.refs r).many = true) (hnd : (G0 a r).Nodup) (op : LOp) {l old new : List Nat} (hp : plan (G0 a r) op = some (l, old, new)) (hg : G a r = l)
    (w : World) : ∃ c', top E a r (G0 a r) (w, c) op = some (w, c') ∧ Ok E cls false (fun _ _ => False) G0 G c' := by
  generalize hdata : G0 a r = data at *
  have added := @noteAdded_ok E cls q G0 G c wf a r h hr hm
  have removed := @noteRemoved_ok E cls q G0 G c wf a r h hr hm (by rw [hdata]; exact hnd)
  have skip : l = data → ∃ c', (some (w, c) : Option State) = some (w, c') ∧ Ok E cls false (fun _ _ => False) G0 G c' :=
    fun hl => ⟨c, rfl, h.skip hr hm hdata (hg.trans hl)⟩
  rw [hdata] at added removed
  cases op with
  | add e =>
    simp only [plan, Option.some.injEq] at hp
    simp only [top]
    split at hp <;> (rename_i he; simp only [Prod.mk.injEq] at hp; simp only [he, ↓reduceIte])
    · exact skip hp.1.symm
    · exact added [e] (by omega) (by rw [hg, ← hp.1]; simp) w
  | addAll c' =>
    simp only [plan, Option.some.injEq, Prod.mk.injEq] at hp
    exact added _ (by omega) (by rw [hg, ← hp.1]; simp) w
  | insert i e =>
    simp only [plan] at hp
    split at hp
    · simp at hp
    · simp only [Option.some.injEq] at hp
      simp only [top]
      split at hp <;> (rename_i he; simp only [Prod.mk.injEq] at hp; simp only [he, ↓reduceIte])
      · exact skip hp.1.symm
      · exact added [e] (by omega) (by rw [hg, ← hp.1]) w
  | insertAll i c' =>
    simp only [plan] at hp
    split at hp
    · simp at hp
    · simp only [Option.some.injEq, Prod.mk.injEq] at hp
      exact added _ (by omega) (by rw [hg, ← hp.1]) w
  | set i e =>
    simp only [plan] at hp
    simp only [top]
    cases hi : data[i]? with
    | none => simp [hi] at hp
    | some o =>
      simp only [hi] at hp ⊢
      split at hp
      · simp at hp
      · simp only [Option.some.injEq] at hp
        split at hp <;> (rename_i he; simp only [Prod.mk.injEq] at hp; simp only [he, ↓reduceIte])
        · exact skip hp.1.symm
        · refine h.finish wf hr hm hg ?_ w
          rw [hdata, effect_list (by simp) (by simp)]
          simp [Spec.Replay.apply, hi, hp.1]
  | removeAt i =>
    simp only [plan] at hp
    simp only [top]
    cases hi : data[i]? with
    | none => simp [hi] at hp
    | some o =>
      simp only [hi, Option.some.injEq, Prod.mk.injEq] at hp ⊢
      refine removed [o] [(i : Int)] rfl (fun e he => ⟨i, rfl, by simp at he; rw [hi, he]⟩) (by simp; exact List.mem_of_getElem? hi) ?_ w
      rw [hg, ← hp.1, eraseIdx_filter hnd hi]
      simp
  | remove e =>
    simp only [plan, Option.some.injEq] at hp
    simp only [top]
    split at hp <;> (rename_i he; simp only [Prod.mk.injEq] at hp; simp only [he, ↓reduceIte])
    · refine removed [e] [(data.idxOf e : Int)] rfl (fun e' he' => ⟨_, rfl, ?_⟩) (by simpa using he) ?_ w
      · simp only [List.cons.injEq, and_true] at he'
        subst he'
        rw [List.getElem?_eq_some_iff]
        exact ⟨List.idxOf_lt_length_of_mem he, List.getElem_idxOf _⟩
      · rw [hg, ← hp.1, erase_filter hnd]
        simp
    · exact skip hp.1.symm
  | removeRange i j =>
    simp only [plan] at hp
    split at hp
    · simp at hp
    · rename_i hb
      simp only [Option.some.injEq, Prod.mk.injEq] at hp
      refine removed _ _ (by simp) ?_ ?_ ?_ w
      · intro e he
        refine ⟨i, by rw [he]; simp, ?_⟩
        have : ((data.take j).drop i)[0]? = some e := by rw [he]; rfl
        simp only [List.getElem?_drop, List.getElem?_take] at this
        split at this
        · simpa using this
        · simp at this
      · intro e he
        exact List.mem_of_mem_take (List.mem_of_mem_drop he)
      · rw [hg, ← hp.1, filter_range hnd (by omega)]
  | removeAll c' =>
    simp only [plan, Option.some.injEq, Prod.mk.injEq] at hp
    refine removed _ _ (positions_length c' data 0).symm ?_ ?_ ?_ w
    · intro e he
      obtain ⟨p, h1, h2⟩ := positions_one c' e data 0 he
      exact ⟨p, by simpa using h1, h2⟩
    · intro e he; exact (List.mem_filter.1 he).1
    · rw [hg, ← hp.1]
      apply List.filter_congr
      intro x hx
      simp [hx]
  | clear =>
    simp only [plan, Option.some.injEq, Prod.mk.injEq] at hp
    simp only [top]
    split
    · refine h.finish wf hr hm hg ?_ w
      rw [hdata]
      have := @effect_remove [‹Nat›] a (E.M.refs r).declId 0 ‹Nat› rfl
      rw [← hp.1]
      simpa using this
    · refine h.finish wf hr hm hg ?_ w
      rw [hdata, effect_many rfl rfl (fun x hx => hx), ← hp.1]
      congr 1
      rw [List.filter_eq_nil_iff]
      intro x hx
      simp [hx]
  | move i j =>
    simp only [plan] at hp
    simp only [top]
    cases hi : data[i]? with
    | none => simp [hi] at hp
    | some o =>
      simp only [hi] at hp ⊢
      split at hp
      · rename_i hj
        simp only [Option.some.injEq, Prod.mk.injEq] at hp
        refine h.finish wf hr hm hg ?_ w
        rw [hdata, effect_list (by simp) (by simp)]
        simp only [Spec.Replay.apply, Int.toNat_natCast]
        rw [if_pos ⟨by omega, hi, by omega, by omega⟩, ← hp.1]
        rfl
      · simp at hp

theorem listOpN_ok (wf : WellFormed E.M) (h : Good E.M cls w) {a r : Nat} (hr : r ∈ E.M.features (cls a)) (hm : (E.M.refs r).many = true)
    (hn : E.M.isContainer r = false) (op : LOp) (hf : ∀ e ∈ op.added, Fits E.M cls r e) {w' : World} (hs : listOp E.M w a r op = some w') :
    ∃ c', listOpN E w a r op = some (w', c') ∧ Told E cls w w' c' := by
  obtain ⟨hnd, hd⟩ := h.data hr hm hn
  have hdata := h.eGet_data wf hr hm hn
  rw [listOp_plan wf h.cls_eq hr] at hs
  rw [listOpN_plan wf h.cls_eq hr]
  cases hp : plan (dataOf E.M w a r) op with
  | none => simp [hp] at hs
  | some p =>
    obtain ⟨l, old, new⟩ := p
    obtain ⟨ok, ha⟩ := plan_ok hnd op hp
    simp only [hp, Option.bind_some] at hs ⊢
    obtain ⟨p1, p2⟩ := Inv.put wf h hr (Good.off _) (v := .list l) (by simp [Shape, hm, ok.nodup])
    have s1 : Ok E cls true (fun x s => x = a ∧ s = r) (eGet E.M w) (eGet E.M (setSlot w a (E.M.refs r).declId (.list l))) [] := by
      refine (Ok.start wf h _).congr ?_
      intro x s hsx hps
      rw [eGet_setSlot wf h.cls_eq hr hn _ hsx]
      simp only [upd]
      rw [if_neg hps]
    obtain ⟨w1, K1, a1, a2, a3, a4, a5⟩ := listInverseRemoves_spec wf hr hn old _ _ p1 p2 ok.old_nodup (fun e he => (hd e).1 (ok.old_mem e he))
    obtain ⟨w1', c1, b1, b2, b3⟩ := listInverseRemovesN_ok wf hr hn old _ _ [] p1 p2 ok.old_nodup (fun e he => (hd e).1 (ok.old_mem e he)) s1
    rw [a1] at b1
    simp only [Option.some.injEq] at b1
    subst b1
    have hnew : ∀ e ∈ new, ¬ K1 a r e := by
      intro e he hk
      exact ok.new_mem e he ((hd e).2 ((a5 e).1 hk).1)
    obtain ⟨w2, K2, d1, d2, d3, d4, d5⟩ := listInverseAdds_spec wf hr hn new w1 K1 (fun e he => hf e (ha e he)) a2 a3 ok.new_nodup hnew
    obtain ⟨w2', c2, q2, e1, e2, e3⟩ := listInverseAddsN_ok wf hr hn new w1 K1 true c1 (fun e he => hf e (ha e he)) a2 a3 ok.new_nodup hnew b3 (fun _ => rfl)
    rw [d1] at e1
    simp only [Option.some.injEq] at e1
    subst e1
    rw [a1] at hs
    simp only [Option.bind_some, d1, Option.some.injEq] at hs
    subst hs
    have hg : eGet E.M w2 a r = l := by
      rw [eGet_eq wf d2.cls_eq hr, hn, d4, a4]
      simp [setSlot_slots, Slot.vals]
    rw [← hdata] at hp hnd ⊢
    obtain ⟨c3, f1, f2⟩ := top_ok wf e3 hr hm hnd op hp hg w2
    refine ⟨c3, ?_, f2⟩
    rw [b2]
    simp only [Option.bind_some, e2]
    exact f1

/-! ### Calls -/

theorem effect_none {s : List Nat} {n : Notif Nat} (h : n.event = .none) : effect s n = none := by
  rw [effect_list (by simp [h]) (by simp [h])]
  simp [Spec.Replay.apply, h]

theorem follow_append (o : Nat) (id : Int) (s : List Nat) (c d : List (Notif Nat)) :
    follow o id s (c ++ d) = (follow o id s c).bind (follow o id · d) := by
  simp [follow, List.filter_append]

theorem follow_cons (o : Nat) (id : Int) (s : List Nat) (n : Notif Nat) (c : List (Notif Nat)) :
    follow o id s (n :: c) = if n.notifier = some o ∧ n.featureID = id then (effect s n).bind (follow o id · c) else follow o id s c := by
  simp only [follow, List.filter_cons]
  by_cases h : n.notifier = some o ∧ n.featureID = id <;> simp [h]

/-- all that is followed is delivered -/
theorem follow_dispatch (o : Nat) (id : Int) (c : List (Notif Nat)) : ∀ s l, follow o id s c = some l → follow o id s (chainDispatch c) = some l := by
  induction c with
  | nil => intro s l h; exact h
  | cons n c ih =>
    intro s l h
    rw [follow_cons] at h
    simp only [chainDispatch, List.filter_cons]
    by_cases hk : n.notifier = some o ∧ n.featureID = id
    · rw [if_pos hk] at h
      cases he : effect s n with
      | none => simp [he] at h
      | some s' =>
        simp only [he, Option.bind_some] at h
        have hv : (n.notifier.isSome && n.event != .none) = true := by
          simp only [hk.1, Option.isSome_some, Bool.true_and, bne_iff_ne, ne_eq]
          intro hh
          rw [effect_none hh] at he
          simp at he
        rw [if_pos hv, follow_cons, if_pos hk, he]
        exact ih s' l h
    · rw [if_neg hk] at h
      split
      · rw [follow_cons, if_neg hk]; exact ih s l h
      · exact ih s l h

theorem stepN_ok (wf : WellFormed E.M) (h : Good E.M cls w) (op : Op) (ht : Typed E.M cls op) {w' : World} (hs : step E.M w op = some w') :
    ∃ c, stepN E w op = some (w', chainDispatch c) ∧ Told E cls w w' c := by
  cases op with
  | set o f v =>
    obtain ⟨w1, c, h1, h2, h3⟩ := eSetN_ok wf h ht.1 ht.2.1 v ht.2.2
    simp only [step, h1, Option.some.injEq] at hs
    subst hs
    exact ⟨c, by simp [stepN, h2], h3⟩
  | unset o f =>
    obtain ⟨w1, c, h1, h2, h3⟩ := eUnsetN_ok wf h ht.1 ht.2
    simp only [step, h1, Option.some.injEq] at hs
    subst hs
    exact ⟨c, by simp [stepN, h2], h3⟩
  | list o f op =>
    obtain ⟨c, h2, h3⟩ := listOpN_ok wf h ht.1 ht.2.1 ht.2.2.1 op ht.2.2.2 hs
    exact ⟨c, by simp [stepN, h2], h3⟩

theorem runN_ok (wf : WellFormed E.M) (ops : List Op) : ∀ w : World, Good E.M cls w → (∀ op ∈ ops, Typed E.M cls op) → ∀ w', run E.M w ops = some w' →
    ∃ ns, runN E w ops = some (w', ns) ∧ ∀ o f, E.listening o = true → f ∈ E.M.features (cls o) →
      follow o (E.M.refs f).declId (eGet E.M w o f) ns = some (eGet E.M w' o f) := by
  induction ops with
  | nil =>
    intro w _ _ w' hr
    simp only [run, Option.some.injEq] at hr
    subst hr
    exact ⟨[], rfl, fun o f _ _ => rfl⟩
  | cons op ops ih =>
    intro w h ht w' hr
    simp only [run, Option.bind_eq_some_iff] at hr
    obtain ⟨w1, h1, h2⟩ := hr
    obtain ⟨c, a1, a2⟩ := stepN_ok (E := E) wf h op (ht op (by simp)) h1
    obtain ⟨ns, b1, b2⟩ := ih w1 (good_step wf h op (ht op (by simp)) h1) (fun x hx => ht x (by simp [hx])) w' h2
    refine ⟨chainDispatch c ++ ns, by simp [runN, a1, b1], fun o f ho hf => ?_⟩
    rw [follow_append, follow_dispatch _ _ _ _ _ (a2.rel o f ho hf (fun h => h))]
    exact b2 o f ho hf

end Verif.GraphNotes
