import Verif.Proofs.AttachTree

/-! `Attached`, `Detached`, `EBasicSetContainer` and `ESetResource`, for C79. -/

namespace Verif.Attach
section
variable {ID G : Type} [DecidableEq ID]

/-- the manager holds valid IDs only -/
structure MOK (c : IDManager.Cfg ID G) (good : G → Prop) (m : IDManager.St ID G) : Prop where
  gen : good m.gen
  det : ∀ p id, m.det p = some id → c.isValidID id = true

theorem mok_init {c : IDManager.Cfg ID G} {good : G → Prop} {g : G} (h : good g) : MOK c good (IDManager.init g) :=
  ⟨h, by simp [IDManager.init]⟩

/-- the manager knows the objects of `S`, whose IDs are valid -/
structure Knows (c : IDManager.Cfg ID G) (good : G → Prop) (m : IDManager.St ID G) (S : Nat → Prop) : Prop where
  ok : MOK c good m
  valid : ∀ o id, m.o2i o = some id → c.isValidID id = true
  ids : ∀ x, (m.o2i x).isSome = true ↔ S x

theorem Knows.iff {c : IDManager.Cfg ID G} {good : G → Prop} {m : IDManager.St ID G} {S S' : Nat → Prop} (h : Knows c good m S)
    (e : ∀ x, S' x ↔ S x) : Knows c good m S' := ⟨h.ok, h.valid, fun x => (h.ids x).trans (e x).symm⟩

theorem knows_register {c : IDManager.Cfg ID G} {good : G → Prop} (hw : Works c good) {m : IDManager.St ID G} {S : Nat → Prop}
    (h : Knows c good m S) {o : Nat} (ho : ¬ S o) : Knows c good (IDManager.register c m o) (fun x => S x ∨ x = o) := by
  have hn : m.o2i o = none := by
    cases e : m.o2i o with
    | none => rfl
    | some i => exact absurd ((h.ids o).1 (by simp [e])) ho
  have key : ∀ (m' : IDManager.St ID G) (id : ID), m'.o2i = m.o2i → MOK c good m' → c.isValidID id = true →
      Knows c good (IDManager.setObjectID c m' o id) (fun x => S x ∨ x = o) := by
    intro m' id e hm hv
    unfold IDManager.setObjectID
    simp only [e, hn, hv, if_true]
    refine ⟨⟨hw.set _ _ hm.gen hv, hm.det⟩, ?_, ?_⟩
    · intro x i hx
      simp only [IDManager.upd] at hx
      split at hx
      · injection hx with hx; subst hx; exact hv
      · exact h.valid x i hx
    · intro x
      simp only [IDManager.upd]
      split
      · next e => simp [e]
      · next ne => rw [h.ids x]; simp [ne]
  unfold IDManager.register
  rw [hn]; dsimp only
  split
  · next id hid =>
    refine key _ id rfl ⟨h.ok.gen, ?_⟩ (h.ok.det _ _ hid)
    intro p i hp
    simp only [IDManager.upd] at hp
    split at hp
    · simp at hp
    · exact h.ok.det p i hp
  · exact key _ _ rfl ⟨(hw.new _ h.ok.gen).2, h.ok.det⟩ (hw.new _ h.ok.gen).1

theorem knows_unRegister {c : IDManager.Cfg ID G} {good : G → Prop} {m : IDManager.St ID G} {S : Nat → Prop}
    (h : Knows c good m S) {o : Nat} (ho : S o) : Knows c good (IDManager.unRegister c m o) (fun x => S x ∧ x ≠ o) := by
  have hs := (h.ids o).2 ho
  unfold IDManager.unRegister
  cases e : m.o2i o with
  | none => simp [e] at hs
  | some id =>
    dsimp only
    refine ⟨⟨h.ok.gen, ?_⟩, ?_, ?_⟩
    · intro p i hp
      simp only [IDManager.upd] at hp
      split at hp
      · injection hp with hp; subst hp; exact h.valid o _ e
      · exact h.ok.det p i hp
    · intro x i hx
      simp only [IDManager.upd] at hx
      split at hx
      · simp at hx
      · exact h.valid x i hx
    · intro x
      simp only [IDManager.upd]
      split
      · next e => simp [e]
      · next ne => rw [h.ids x]; simp [ne]

theorem told_append (x : Nat) (es : List (Nat × Bool)) (y : Nat) (b' : Bool) (b : Option Bool) :
    told x (es ++ [(y, b')]) b = if y = x then (if told x es b = some (!b') then some b' else none) else told x es b := by
  induction es generalizing b with
  | nil => rfl
  | cons e es ih => exact ih _

/-- managers and listeners agree with `S` -/
structure Has (c : IDManager.Cfg ID G) (good : G → Prop) (w : World ID G) (S : Nat → Nat → Prop) : Prop where
  ids : ∀ r m, w.mgr r = some m → Knows c good m (S r)
  heard : ∀ r l, w.heard r = some l → ∀ x, ∃ b, told x l (some false) = some b ∧ (b = true ↔ S r x)

theorem Has.iff {c : IDManager.Cfg ID G} {good : G → Prop} {w w' : World ID G} {S S' : Nat → Nat → Prop} (h : Has c good w S)
    (hm : w'.mgr = w.mgr) (hh : w'.heard = w.heard) (e : ∀ r x, S' r x ↔ S r x) : Has c good w' S' := by
  refine ⟨fun r m hr => (h.ids r m (hm ▸ hr)).iff (e r), fun r l hr x => ?_⟩
  obtain ⟨b, h1, h2⟩ := h.heard r l (hh ▸ hr) x
  exact ⟨b, h1, h2.trans (e r x).symm⟩

theorem has_doAttached {c : IDManager.Cfg ID G} {good : G → Prop} (hw : Works c good) {w : World ID G} {S : Nat → Nat → Prop}
    (h : Has c good w S) {r o : Nat} (ho : ¬ S r o) :
    Has c good (doAttached c r w o) (fun r' x => S r' x ∨ (r' = r ∧ x = o)) := by
  refine ⟨fun r' m hm => ?_, fun r' l hl x => ?_⟩
  · simp only [doAttached, put] at hm
    split at hm
    · next e =>
      subst e
      cases em : w.mgr r' with
      | none => simp [em] at hm
      | some m0 =>
        simp [em] at hm; subst hm
        exact (knows_register hw (h.ids r' m0 em) ho).iff (by simp)
    · next ne => exact (h.ids r' m hm).iff (by simp [ne])
  · simp only [doAttached, put] at hl
    split at hl
    · next e =>
      subst e
      cases em : w.heard r' with
      | none => simp [em] at hl
      | some l0 =>
        simp [em] at hl; subst hl
        obtain ⟨b, h1, h2⟩ := h.heard r' l0 em x
        rw [told_append]
        by_cases e : o = x
        · subst e
          have hb : b = false := by cases b with
            | false => rfl
            | true => exact absurd (h2.1 rfl) ho
          subst hb
          exact ⟨true, by simp [h1], by simp⟩
        · refine ⟨b, by simp [e, h1], h2.trans ?_⟩
          constructor
          · exact .inl
          · rintro (h | ⟨_, h⟩)
            · exact h
            · exact absurd h.symm e
    · next ne =>
      obtain ⟨b, h1, h2⟩ := h.heard r' l hl x
      exact ⟨b, h1, h2.trans (by simp [ne])⟩

theorem has_doDetached {c : IDManager.Cfg ID G} {good : G → Prop} {w : World ID G} {S : Nat → Nat → Prop}
    (h : Has c good w S) {r o : Nat} (ho : S r o) :
    Has c good (doDetached c r w o) (fun r' x => S r' x ∧ ¬ (r' = r ∧ x = o)) := by
  refine ⟨fun r' m hm => ?_, fun r' l hl x => ?_⟩
  · simp only [doDetached, put] at hm
    split at hm
    · next e =>
      subst e
      cases em : w.mgr r' with
      | none => simp [em] at hm
      | some m0 =>
        simp [em] at hm; subst hm
        exact (knows_unRegister (h.ids r' m0 em) ho).iff (by simp)
    · next ne => exact (h.ids r' m hm).iff (by simp [ne])
  · simp only [doDetached, put] at hl
    split at hl
    · next e =>
      subst e
      cases em : w.heard r' with
      | none => simp [em] at hl
      | some l0 =>
        simp [em] at hl; subst hl
        obtain ⟨b, h1, h2⟩ := h.heard r' l0 em x
        rw [told_append]
        by_cases e : o = x
        · subst e
          have hb : b = true := h2.2 ho
          subst hb
          exact ⟨false, by simp [h1], by simp⟩
        · refine ⟨b, by simp [e, h1], h2.trans ?_⟩
          constructor
          · exact fun h => ⟨h, fun hc => e hc.2.symm⟩
          · exact fun h => h.1
    · next ne =>
      obtain ⟨b, h1, h2⟩ := h.heard r' l hl x
      exact ⟨b, h1, h2.trans (by simp [ne])⟩

theorem has_attachAll {c : IDManager.Cfg ID G} {good : G → Prop} (hw : Works c good) {r : Nat} : ∀ (l : List Nat) (w : World ID G)
    (S : Nat → Nat → Prop), Has c good w S → (∀ x ∈ l, ¬ S r x) → l.Nodup →
    Has c good (l.foldl (doAttached c r) w) (fun r' x => S r' x ∨ (r' = r ∧ x ∈ l)) ∧ (l.foldl (doAttached c r) w).tree = w.tree := by
  intro l
  induction l with
  | nil => intro w S h _ _; exact ⟨h.iff rfl rfl (by simp), rfl⟩
  | cons o l ih =>
    intro w S h hn hd
    obtain ⟨hd1, hd2⟩ := List.nodup_cons.1 hd
    have h1 := has_doAttached hw h (hn o (by simp))
    have h2 := ih _ _ h1 (fun x hx => by
      rintro (h | ⟨_, h⟩)
      · exact hn x (by simp [hx]) h
      · subst h; exact hd1 hx) hd2
    refine ⟨h2.1.iff rfl rfl fun r' x => ?_, h2.2⟩
    simp only [List.mem_cons]; grind

theorem has_detachAll {c : IDManager.Cfg ID G} {good : G → Prop} {r : Nat} : ∀ (l : List Nat) (w : World ID G)
    (S : Nat → Nat → Prop), Has c good w S → (∀ x ∈ l, S r x) → l.Nodup →
    Has c good (l.foldl (doDetached c r) w) (fun r' x => S r' x ∧ ¬ (r' = r ∧ x ∈ l)) ∧ (l.foldl (doDetached c r) w).tree = w.tree := by
  intro l
  induction l with
  | nil => intro w S h _ _; exact ⟨h.iff rfl rfl (by simp), rfl⟩
  | cons o l ih =>
    intro w S h hn hd
    obtain ⟨hd1, hd2⟩ := List.nodup_cons.1 hd
    have h1 := has_doDetached (c := c) h (hn o (by simp))
    have h2 := ih _ _ h1 (fun x hx => ⟨hn x (by simp [hx]), fun hc => by
      have := hc.2; subst this; exact hd1 hx⟩) hd2
    refine ⟨h2.1.iff rfl rfl fun r' x => ?_, h2.2⟩
    simp only [List.mem_cons]; grind

/-- what the walk from `o` gives, in a tree like `t` -/
def Walk (M : List Ref) (t : Tree) (o : Nat) : Prop :=
  ∀ n l, below M t n o = some l → (∀ x, x ∈ l ↔ Inside t.box o x) ∧ l.Nodup

theorem attached_has {c : IDManager.Cfg ID G} {good : G → Prop} (hw : Works c good) {M : List Ref} {n : Nat} {w w' : World ID G}
    {r o : Nat} (h : attached c M n w r o = some w') (hb : Walk M w.tree o) {S S' : Nat → Nat → Prop} (hS : Has c good w S)
    (hn : ∀ x, Inside w.tree.box o x → ¬ S r x) (hS' : ∀ r' x, S' r' x ↔ S r' x ∨ (r' = r ∧ Inside w.tree.box o x)) :
    w'.tree = w.tree ∧ Has c good w' S' := by
  unfold attached at h
  split at h
  · cases hl : below M w.tree n o with
    | none => simp [hl] at h
    | some l =>
      simp [hl] at h; subst h
      obtain ⟨h1, h2⟩ := hb n l hl
      have := has_attachAll hw l w S hS (fun x hx => hn x ((h1 x).1 hx)) h2
      exact ⟨this.2, this.1.iff rfl rfl fun r' x => by rw [hS' r' x, h1 x]⟩
  · next hr =>
    injection h with h; subst h
    simp [required] at hr
    refine ⟨rfl, ⟨fun r' m hm => ?_, fun r' l hl x => ?_⟩⟩
    · have : r' ≠ r := by rintro rfl; rw [hr.1] at hm; simp at hm
      exact (hS.ids r' m hm).iff fun x => by rw [hS' r' x]; simp [this]
    · have : r' ≠ r := by rintro rfl; rw [hr.2] at hl; simp at hl
      obtain ⟨b, h1, h2⟩ := hS.heard r' l hl x
      exact ⟨b, h1, h2.trans (by rw [hS' r' x]; simp [this])⟩

theorem detached_has {c : IDManager.Cfg ID G} {good : G → Prop} {M : List Ref} {n : Nat} {w w' : World ID G}
    {r o : Nat} (h : detached c M n w r o = some w') (hb : Walk M w.tree o) {S S' : Nat → Nat → Prop} (hS : Has c good w S)
    (hn : ∀ x, Inside w.tree.box o x → S r x) (hS' : ∀ r' x, S' r' x ↔ S r' x ∧ ¬ (r' = r ∧ Inside w.tree.box o x)) :
    w'.tree = w.tree ∧ Has c good w' S' := by
  unfold detached at h
  split at h
  · cases hl : below M w.tree n o with
    | none => simp [hl] at h
    | some l =>
      simp [hl] at h; subst h
      obtain ⟨h1, h2⟩ := hb n l hl
      have := has_detachAll (c := c) l w S hS (fun x hx => hn x ((h1 x).1 hx)) h2
      exact ⟨this.2, this.1.iff rfl rfl fun r' x => by rw [hS' r' x, h1 x]⟩
  · next hr =>
    injection h with h; subst h
    simp [required] at hr
    refine ⟨rfl, ⟨fun r' m hm => ?_, fun r' l hl x => ?_⟩⟩
    · have : r' ≠ r := by rintro rfl; rw [hr.1] at hm; simp at hm
      exact (hS.ids r' m hm).iff fun x => by rw [hS' r' x]; simp [this]
    · have : r' ≠ r := by rintro rfl; rw [hr.2] at hl; simp at hl
      obtain ⟨b, h1, h2⟩ := hS.heard r' l hl x
      exact ⟨b, h1, h2.trans (by rw [hS' r' x]; simp [this])⟩

/-! ### The calls on one object -/

/-- what is always true of a tree -/
structure Core (M : List Ref) (t : Tree) : Prop where
  knodup : ∀ o k, (t.kids o k).Nodup
  rnodup : ∀ r, (t.roots r).Nodup
  sep : ∀ x, t.own x = none ∨ t.box x = none
  rank : Ranked t.box
  lt : ∀ x c k, t.box x = some (c, k) → k < M.length
  one : ∀ o k f, M[k]? = some f → f.many = false → (t.kids o k).length ≤ 1

/-- the objects in `o` are those of the lists of its references -/
def Sound (t : Tree) (o : Nat) : Prop := ∀ y, Inside t.box o y → ∀ k x, x ∈ t.kids y k ↔ t.box x = some (y, k)

theorem Core.walk {M : List Ref} {t : Tree} (h : Core M t) {o : Nat} (hs : Sound t o) : Walk M t o := fun n l hl =>
  below_spec h.rank h.knodup h.lt n o l hl hs

theorem Walk.congr {M : List Ref} {t t' : Tree} {o : Nat} (h : Walk M t o) (hk : t'.kids = t.kids)
    (hb : ∀ y, y ≠ o → t'.box y = t.box y) : Walk M t' o := by
  intro n l hl
  rw [below_congr hk] at hl
  obtain ⟨h1, h2⟩ := h n l hl
  exact ⟨fun x => (h1 x).trans (Inside.same_iff hb).symm, h2⟩

/-- the tree after `EBasicSetContainer` -/
def moved (t : Tree) (o : Nat) (b : Option (Nat × Nat)) : Tree :=
  match t.own o, b with
  | some r, some _ => ((t.setRoots r ((t.roots r).erase o)).setOwn o none).setBox o b
  | _, _ => t.setBox o b

theorem resourceOf_spec {t : Tree} (hr : Ranked t.box) {n : Nat} {b : Option (Nat × Nat)} {res : Option Nat}
    (h : resourceOf t n b = some res) (r : Nat) : (∃ p k, b = some (p, k) ∧ In t r p) ↔ res = some r := by
  unfold resourceOf at h
  split at h
  · injection h with h; subst h; simp
  · next p k =>
    rw [← eResource_spec hr n p res h r]
    constructor
    · rintro ⟨p', k', e, hi⟩; injection e with e; injection e with e _; subst e; exact hi
    · intro hi; exact ⟨p, k, rfl, hi⟩

/-- the middle of `EBasicSetContainer` -/
theorem switch_has {c : IDManager.Cfg ID G} {good : G → Prop} (hw : Works c good) {M : List Ref} {n : Nat} {w1 w2 w' : World ID G}
    {t t' : Tree} {o : Nat} {b : Option (Nat × Nat)} {old new : Option Nat} (hb : Walk M w1.tree o)
    (hbox : ∀ x, Inside w1.tree.box o x ↔ Inside t.box o x) (ht' : w1.tree.setBox o b = t')
    (hA : ∀ r x, Inside t.box o x → (In t r x ↔ old = some r))
    (hB : ∀ r x, Inside t.box o x → (In t' r x ↔ new = some r))
    (hout : ∀ r x, ¬ Inside t.box o x → (In t' r x ↔ In t r x))
    (hS : Has c good w1 (In t))
    (h1 : leave c M n w1 o old new = some w2)
    (h2 : enter c M n { w2 with tree := w2.tree.setBox o b } o old new = some w') :
    w'.tree = t' ∧ Has c good w' (In t') := by
  classical
  unfold leave at h1; unfold enter at h2
  let S2 : Nat → Nat → Prop := fun r x => In t r x ∧ ¬ (Inside t.box o x ∧ old = some r ∧ old ≠ new)
  have k1 : w2.tree = w1.tree ∧ Has c good w2 S2 := by
    cases old with
    | none =>
      injection h1 with h1; subst h1
      exact ⟨rfl, hS.iff rfl rfl (by simp [S2])⟩
    | some r0 =>
      dsimp only at h1
      split at h1
      · next ne =>
        refine detached_has h1 hb hS (fun x hx => (hA r0 x ((hbox x).1 hx)).2 rfl) (fun r' x => ?_)
        rw [hbox x]
        simp only [S2]
        have : (some r0 : Option Nat) = some r' ↔ r' = r0 := by constructor <;> (intro h; simp_all)
        rw [this]; grind
      · next e =>
        injection h1 with h1; subst h1
        refine ⟨rfl, hS.iff rfl rfl fun r x => ?_⟩
        simp only [ne_eq, Decidable.not_not] at e
        simp [S2, e]
  obtain ⟨e2, hS2⟩ := k1
  have hnone : ∀ x, Inside t.box o x → ∀ r, old ≠ new → ¬ S2 r x := by
    intro x hx r hne h
    exact h.2 ⟨hx, (hA r x hx).1 h.1, hne⟩
  have htree : w2.tree.setBox o b = t' := by rw [e2]; exact ht'
  have hwalk : Walk M (w2.tree.setBox o b) o := by
    rw [e2]; exact hb.congr rfl fun y hy => by simp [Tree.setBox, put, hy]
  have hbox' : ∀ x, Inside (w2.tree.setBox o b).box o x ↔ Inside t.box o x := by
    intro x
    rw [e2]
    exact (Inside.same_iff fun y hy => by simp [Tree.setBox, put, hy]).trans (hbox x)
  have hS3 : Has c good { w2 with tree := w2.tree.setBox o b } S2 := hS2.iff rfl rfl fun _ _ => Iff.rfl
  -- after the second call
  have final : (∀ r x, S2 r x ∧ ¬ Inside t.box o x ↔ In t r x ∧ ¬ Inside t.box o x) := by
    intro r x; simp only [S2]; grind
  cases new with
  | none =>
    injection h2 with h2; subst h2
    refine ⟨htree, hS3.iff rfl rfl fun r x => ?_⟩
    by_cases hx : Inside t.box o x
    · rw [hB r x hx]
      simp only [S2, hA r x hx]
      simp [hx]
      intro e; simp [e]
    · rw [hout r x hx]; simp [S2, hx]
  | some r1 =>
    dsimp only at h2
    split at h2
    · next ne =>
      have hne : old ≠ some r1 := fun e => ne e.symm
      have := attached_has hw h2 hwalk hS3 (fun x hx => hnone x ((hbox' x).1 hx) r1 hne) (S' := In t') (fun r' x => by
        rw [hbox' x]
        by_cases hx : Inside t.box o x
        · rw [hB r' x hx]
          have := hnone x hx r' hne
          simp [this, hx]
          exact eq_comm
        · rw [hout r' x hx]; simp [S2, hx])
      exact ⟨this.1.trans htree, this.2⟩
    · next e =>
      simp only [ne_eq, Decidable.not_not] at e
      injection h2 with h2; subst h2
      refine ⟨htree, hS3.iff rfl rfl fun r x => ?_⟩
      by_cases hx : Inside t.box o x
      · rw [hB r x hx]; simp only [S2, hA r x hx]; simp [← e]
      · rw [hout r x hx]; simp [S2, hx]

theorem basicSetContainer_has {c : IDManager.Cfg ID G} {good : G → Prop} (hw : Works c good) {M : List Ref} {n : Nat}
    {w w' : World ID G} {o : Nat} {b : Option (Nat × Nat)} (h : basicSetContainer c M n w o b = some w') (hc : Core M w.tree)
    (hs : Sound w.tree o) (hS : Has c good w (In w.tree))
    (hb : ∀ p k, b = some (p, k) → ¬ Inside w.tree.box o p ∧ (w.tree.own o ≠ none → flag M k = false)) :
    w'.tree = moved w.tree o b ∧ Has c good w' (In w'.tree) := by
  have hwalk := hc.walk hs
  unfold basicSetContainer at h
  cases hown : w.tree.own o with
  | some r =>
    have hbox : w.tree.box o = none := (hc.sep o).resolve_left (by simp [hown])
    cases b with
    | none =>
      simp only [hown] at h
      simp [leave, enter] at h
      subst h
      refine ⟨by simp [moved], hS.iff rfl rfl fun r x => ?_⟩
      have : w.tree.setBox o none = w.tree := by
        simp only [Tree.setBox]
        have : put w.tree.box o none = w.tree.box := by
          funext y; simp only [put]; split
          · next e => rw [e, hbox]
          · rfl
        rw [this]
      simp only [this]
    | some pk =>
      obtain ⟨p, k⟩ := pk
      obtain ⟨hp, hf⟩ := hb p k rfl
      have hf := hf (by simp [hown])
      simp only [hown, hf, if_true] at h
      rw [Option.bind_eq_bind] at h
      cases hnew : eResource ((w.tree.setRoots r ((w.tree.roots r).erase o)).setOwn o none) n p with
      | none => simp [hnew] at h
      | some new =>
        simp only [hnew] at h
        simp only [Option.bind_eq_bind, Option.bind_some] at h
        obtain ⟨w2, h1, h2⟩ := Option.bind_eq_some_iff.1 h
        have hbx : ∀ y, y ≠ o → (moved w.tree o (some (p, k))).box y = w.tree.box y := by
          intro y hy; simp [moved, hown, Tree.setBox, put, hy, Tree.setOwn, Tree.setRoots]
        have hox : ∀ y, y ≠ o → (moved w.tree o (some (p, k))).own y = w.tree.own y := by
          intro y hy; simp [moved, hown, Tree.setBox, put, hy, Tree.setOwn, Tree.setRoots]
        have hno : (moved w.tree o (some (p, k))).own o = none := by
          simp [moved, hown, Tree.setBox, put, Tree.setOwn, Tree.setRoots]
        have hnb : (moved w.tree o (some (p, k))).box o = some (p, k) := by
          simp [moved, hown, Tree.setBox, put]
        have hsep' : ∀ x, (moved w.tree o (some (p, k))).own x = none ∨ (moved w.tree o (some (p, k))).box x = none := by
          intro x
          by_cases e : x = o
          · subst e; exact .inl hno
          · rw [hbx x e, hox x e]; exact hc.sep x
        have hpn : ∀ r', In (moved w.tree o (some (p, k))) r' p ↔ new = some r' := by
          intro r'
          rw [In.other_iff hbx hox hp,
            ← eResource_spec (t := (w.tree.setRoots r ((w.tree.roots r).erase o)).setOwn o none) hc.rank n p new hnew r']
          exact (In.other_iff (t := w.tree) (t' := (w.tree.setRoots r ((w.tree.roots r).erase o)).setOwn o none)
            (fun y _ => rfl) (fun y hy => by simp [Tree.setOwn, Tree.setRoots, put, hy]) hp).symm
        have := switch_has hw (t := w.tree) (t' := moved w.tree o (some (p, k))) (w1 := { w with
            tree := (w.tree.setRoots r ((w.tree.roots r).erase o)).setOwn o none }) (n := n) (M := M) (old := some r) (new := new) (o := o)
          (b := some (p, k)) (hwalk.congr rfl fun y _ => rfl) (fun x => Iff.rfl) (by simp [moved, hown])
          (fun r' x hx => by rw [In.inside hc.sep hx, In.of_own hown]; simp [eq_comm])
          (fun r' x hx => by
            rw [In.inside hsep' ((Inside.same_iff hbx).2 hx), In.of_box hno hnb, hpn])
          (fun r' x hx => In.other_iff hbx hox hx) (hS.iff rfl rfl fun _ _ => Iff.rfl) h1 h2
        exact ⟨this.1, this.1 ▸ this.2⟩
  | none =>
    simp only [hown] at h
    rw [Option.bind_eq_bind] at h
    cases hold : resourceOf w.tree n (w.tree.box o) with
    | none => simp [hold] at h
    | some old =>
      cases hnew : resourceOf w.tree n b with
      | none => simp [hold, hnew] at h
      | some new =>
        simp only [hold, hnew] at h
        simp only [Option.bind_eq_bind, Option.bind_some] at h
        obtain ⟨w2, h1, h2⟩ := Option.bind_eq_some_iff.1 h
        have hm : moved w.tree o b = w.tree.setBox o b := by unfold moved; rw [hown]
        have hbx : ∀ y, y ≠ o → (w.tree.setBox o b).box y = w.tree.box y := by
          intro y hy; simp [Tree.setBox, put, hy]
        have hnb : (w.tree.setBox o b).box o = b := by simp [Tree.setBox, put]
        have hsep' : ∀ x, (w.tree.setBox o b).own x = none ∨ (w.tree.setBox o b).box x = none := by
          intro x
          by_cases e : x = o
          · subst e; exact .inl hown
          · rw [hbx x e]; exact hc.sep x
        have := switch_has hw (t := w.tree) (t' := w.tree.setBox o b) (w1 := w) (n := n) (M := M) (old := old) (new := new) (o := o)
          (b := b) hwalk (fun x => Iff.rfl) rfl
          (fun r' x hx => by
            rw [In.inside hc.sep hx, ← resourceOf_spec hc.rank hold r']
            constructor
            · intro hi
              cases hi with
              | own g => simp [hown] at g
              | box _ g g' => exact ⟨_, _, g, g'⟩
            · rintro ⟨p, k, g, g'⟩; exact .box hown g g')
          (fun r' x hx => by
            rw [In.inside hsep' ((Inside.same_iff hbx).2 hx), ← resourceOf_spec hc.rank hnew r']
            cases b with
            | none => simp [In.of_none (t := w.tree.setBox o none) hown hnb]
            | some pk =>
              obtain ⟨p, k⟩ := pk
              rw [In.of_box (t := w.tree.setBox o (some (p, k))) hown hnb, In.other_iff hbx (fun y _ => rfl) (hb p k rfl).1]
              simp)
          (fun r' x hx => In.other_iff hbx (fun y _ => rfl) hx) hS h1 h2
        rw [hm]
        exact ⟨this.1, this.1 ▸ this.2⟩

theorem moved_core {M : List Ref} {t : Tree} (h : Core M t) {o : Nat} {b : Option (Nat × Nat)}
    (hb : ∀ p k, b = some (p, k) → ¬ Inside t.box o p ∧ k < M.length) : Core M (moved t o b) := by
  have hbox : (moved t o b).box = put t.box o b := by
    unfold moved; split <;> rfl
  have hkids : (moved t o b).kids = t.kids := by
    unfold moved; split <;> rfl
  refine ⟨by rw [hkids]; exact h.knodup, ?_, ?_, ?_, ?_, by rw [hkids]; exact h.one⟩
  · intro r
    unfold moved
    split
    · next r' _ _ _ =>
      simp only [Tree.setBox, Tree.setOwn, Tree.setRoots, put]
      split
      · exact (h.rnodup _).erase _
      · exact h.rnodup r
    · exact h.rnodup r
  · intro x
    by_cases e : x = o
    · subst e
      cases hown : t.own x with
      | none => exact .inl (by unfold moved; rw [hown]; exact hown)
      | some r =>
        cases b with
        | none => exact .inr (by rw [hbox]; simp [put])
        | some pk => exact .inl (by unfold moved; rw [hown]; simp [Tree.setBox, Tree.setOwn, put])
    · have h1 : (moved t o b).own x = t.own x := by
        unfold moved; split
        · simp [Tree.setBox, Tree.setOwn, Tree.setRoots, put, e]
        · rfl
      rw [h1, hbox]; simp [put, e]; exact h.sep x
  · rw [hbox]
    cases b with
    | none => exact h.rank.put_none o
    | some pk => exact h.rank.put_some (hb pk.1 pk.2 rfl).1
  · intro x c k hx
    rw [hbox] at hx
    simp only [put] at hx
    split at hx
    · exact (hb c k hx).2
    · exact h.lt x c k hx

end
end Verif.Attach
