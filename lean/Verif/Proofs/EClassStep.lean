import Verif.Proofs.EClassInv
set_option autoImplicit false
namespace Verif.EClass
open Verif.EList Verif.Notify Verif.Spec

/-- A feature (an operation) is in one class only, once. -/
structure Excl (w : W) : Prop where
  fn : ∀ c, (w.feats c).Nodup
  f1 : ∀ c d f, f ∈ w.feats c → f ∈ w.feats d → c = d
  on : ∀ c, (w.opers c).Nodup
  o1 : ∀ c d f, f ∈ w.opers c → f ∈ w.opers d → c = d

/-- What is stored besides the lists is right as long as the list it goes with is cached. -/
structure Extra (w : W) : Prop where
  ids : ∀ c l i f, w.cache .feats c = some l → (w.feats c)[i]? = some f → w.featureID f = ((l.length - (w.feats c).length + i : Nat) : Int)
  oids : ∀ c l i f, w.cache .ops c = some l → (w.opers c)[i]? = some f → w.operationID f = ((l.length - (w.opers c).length + i : Nat) : Int)
  attrs : ∀ c l, w.cache .attrs c = some l → w.ownAttrs c = (w.feats c).filter (fun f => (w.kind f).isAttr) ∧
    w.idAttr c = l.find? (fun f => (w.kind f).isID)
  refs : ∀ c l, w.cache .refs c = some l → w.ownRefs c = (w.feats c).filter (fun f => (w.kind f).isRef)
  subset : ∀ c l x, w.cache .feats c = some l → w.subset c = some x →
    x = ((w.feats c).filter (fun f => (w.kind f).isContainment && !(w.kind f).isDerived),
        (w.feats c).filter (fun f => (w.kind f).isCross && !(w.kind f).isDerived))
  names : ∀ c l m, w.cache .feats c = some l → w.nameMap c = some m → m = (l.map fun f => (w.name f, f)).reverse

/-- The auxiliary invariant during the computation of the list of features of `c`. -/
def Aux (k : Derived) (c : Nat) (w : W) : Prop := k = .feats → w.subset c = none ∧ w.nameMap c = none

theorem number_notin (ids : Nat → Int) (i : Int) (fs : List Nat) (f : Nat) (h : f ∉ fs) : number ids i fs f = ids f := by
  induction fs generalizing ids i with
  | nil => rfl
  | cons x fs ih =>
    simp only [List.mem_cons, not_or] at h
    rw [number, ih _ _ h.2]
    simp [upd, h.1]

theorem number_get (ids : Nat → Int) (i : Int) (fs : List Nat) (hn : fs.Nodup) (j f : Nat) (h : fs[j]? = some f) :
    number ids i fs f = i + j := by
  induction fs generalizing ids i j with
  | nil => simp at h
  | cons x fs ih =>
    have hn' := List.nodup_cons.1 hn
    cases j with
    | zero =>
      simp only [List.getElem?_cons_zero, Option.some.injEq] at h
      subst h
      rw [number, number_notin _ _ _ _ hn'.1]
      simp [upd]
    | succ j =>
      rw [List.getElem?_cons_succ] at h
      rw [number, ih _ _ hn'.2 j h]
      omega

theorem keeps (k : Derived) : Keeps (kOf k) (fun w => Extra w ∧ Excl w) (Aux k) := by
  refine ⟨?_, ?_, ?_, ?_⟩
  · intro w c hi hcn
    cases k <;> simp only [kOf, kSupers, kFeats, kAttrs, kRefs, kOps] at hcn ⊢ <;>
      refine ⟨⟨?_, ?_⟩, ?_⟩ <;>
      first
        | exact hi.1
        | exact ⟨hi.2.fn, hi.2.f1, hi.2.on, hi.2.o1⟩
        | (intro h; cases h; done)
        | (intro _; simp [upd]; done)
        | skip
    · refine ⟨hi.1.ids, hi.1.oids, hi.1.attrs, hi.1.refs, ?_, ?_⟩
      · intro d l x hd hx
        by_cases hdc : d = c
        · simp [upd, hdc] at hx
        · simp only [upd, hdc, if_false] at hx
          exact hi.1.subset d l x hd hx
      · intro d l x hd hx
        by_cases hdc : d = c
        · simp [upd, hdc] at hx
        · simp only [upd, hdc, if_false] at hx
          exact hi.1.names d l x hd hx
    · exact ⟨hi.1.ids, hi.1.oids, hi.1.attrs, hi.1.refs, hi.1.subset, hi.1.names⟩
  · intro w c d hdc hj
    cases k <;> simp only [kOf, kSupers, kFeats, kAttrs, kRefs, kOps, Aux] at hj ⊢ <;> first | exact hj | skip
    intro _
    simp [upd, hdc, hj trivial]
  · intro w c d inh hdc hj
    cases k <;> simp only [kOf, kSupers, kFeats, kAttrs, kRefs, kOps, Aux, setCache] at hj ⊢ <;> exact hj
  · intro w c inh hi hj hcn
    cases k <;> simp only [kOf, kSupers, kFeats, kAttrs, kRefs, kOps] at hcn ⊢ <;>
      refine ⟨?_, ⟨hi.2.fn, hi.2.f1, hi.2.on, hi.2.o1⟩⟩
    · -- supers
      refine ⟨?_, ?_, ?_, ?_, ?_, ?_⟩ <;> simp only [setCache, reduceCtorEq, false_and, if_false]
      · exact hi.1.ids
      · exact hi.1.oids
      · exact hi.1.attrs
      · exact hi.1.refs
      · exact hi.1.subset
      · exact hi.1.names
    · -- feats
      refine ⟨?_, ?_, ?_, ?_, ?_, ?_⟩ <;> simp only [setCache, reduceCtorEq, false_and, if_false, true_and]
      · intro d l i f hd hf
        by_cases hdc : d = c
        · subst hdc
          simp only [if_true, Option.some.injEq] at hd
          subst hd
          rw [number_get _ _ _ (hi.2.fn d) i f hf, List.length_append]
          have : inh.length + (w.feats d).length - (w.feats d).length = inh.length := by omega
          rw [this]; simp
        · simp only [hdc, if_false] at hd
          rw [number_notin _ _ _ _ (fun hm => hdc (hi.2.f1 d c f (List.mem_of_getElem? hf) hm))]
          exact hi.1.ids d l i f hd hf
      · exact hi.1.oids
      · exact hi.1.attrs
      · exact hi.1.refs
      · intro d l x hd hx
        by_cases hdc : d = c
        · subst hdc; rw [(hj rfl).1] at hx; cases hx
        · simp only [hdc, if_false] at hd
          exact hi.1.subset d l x hd hx
      · intro d l x hd hx
        by_cases hdc : d = c
        · subst hdc; rw [(hj rfl).2] at hx; cases hx
        · simp only [hdc, if_false] at hd
          exact hi.1.names d l x hd hx
    · -- attrs
      refine ⟨?_, ?_, ?_, ?_, ?_, ?_⟩ <;> simp only [setCache, reduceCtorEq, false_and, if_false, true_and]
      · exact hi.1.ids
      · exact hi.1.oids
      · intro d l hd
        by_cases hdc : d = c
        · subst hdc
          simp only [if_true, Option.some.injEq] at hd
          subst hd
          simp [upd]
        · simp only [hdc, if_false] at hd
          simp only [upd, hdc, if_false]
          exact hi.1.attrs d l hd
      · exact hi.1.refs
      · exact hi.1.subset
      · exact hi.1.names
    · -- refs
      refine ⟨?_, ?_, ?_, ?_, ?_, ?_⟩ <;> simp only [setCache, reduceCtorEq, false_and, if_false, true_and]
      · exact hi.1.ids
      · exact hi.1.oids
      · exact hi.1.attrs
      · intro d l hd
        by_cases hdc : d = c
        · subst hdc; simp [upd]
        · simp only [hdc, if_false] at hd
          simp only [upd, hdc, if_false]
          exact hi.1.refs d l hd
      · exact hi.1.subset
      · exact hi.1.names
    · -- ops
      refine ⟨?_, ?_, ?_, ?_, ?_, ?_⟩ <;> simp only [setCache, reduceCtorEq, false_and, if_false, true_and]
      · exact hi.1.ids
      · intro d l i f hd hf
        by_cases hdc : d = c
        · subst hdc
          simp only [if_true, Option.some.injEq] at hd
          subst hd
          rw [number_get _ _ _ (hi.2.on d) i f hf, List.length_append]
          have : inh.length + (w.opers d).length - (w.opers d).length = inh.length := by omega
          rw [this]; simp
        · simp only [hdc, if_false] at hd
          rw [number_notin _ _ _ _ (fun hm => hdc (hi.2.o1 d c f (List.mem_of_getElem? hf) hm))]
          exact hi.1.oids d l i f hd hf
      · exact hi.1.attrs
      · exact hi.1.refs
      · exact hi.1.subset
      · exact hi.1.names

/-- The invariant of all histories. -/
structure Inv (w : W) : Prop where
  subs : SubsOk w
  cache : ∀ k all, Solves (kOf k) w all → CacheOk (kOf k) all w
  conts : ∀ all, Solves kRefs w all → ∀ c l, w.cache .conts c = some l → l = (all c).filter (fun f => (w.kind f).isContainment)
  extra : Extra w

def NoProxy (w : W) : Prop := ∀ c s, s ∈ w.supers c → w.proxy s = none

theorem solves_of_sb (k : Derived) {w w' : W} {all : Nat → List Nat} (hs : Solves (kOf k) w' all) (h : SB w' w) : Solves (kOf k) w all := by
  intro c
  rw [hs c, h.supers, (law k).own w' w c h]

theorem kname_inj (k k' : Derived) (h : (kOf k).name = (kOf k').name) : k = k' := by
  cases k <;> cases k' <;> first | rfl | (simp [kOf, kSupers, kFeats, kAttrs, kRefs, kOps] at h; done)

theorem read_held (k : Derived) (n : Nat) (held : List Nat) (w : W) (c : Nat) (rank : Nat → Nat) (hr : RankOf rank w) (hb : rank c < n)
    (hh : ∀ h ∈ held, rank c < rank h) (hx : Excl w) (hp : NoProxy w) (hi : Inv w)
    (all : Nat → List Nat) (hs : Solves (kOf k) w all) :
    ∃ w', compute (kOf k) n held w c = some (w', all c) ∧ SB w' w ∧ Inv w' ∧ w'.cache (kOf k).name c = some (all c) ∧
      (∀ k' d, k' ≠ (kOf k).name → w'.cache k' d = w.cache k' d) ∧
      (∀ d l, w.cache (kOf k).name d = some l → w'.cache (kOf k).name d = some l) := by
  obtain ⟨w', h1, h2, h3, h4, h5⟩ := compute_ok (kOf k) (law k) _ _ (keeps k) rank all n held w c hb hh hr hp hs (hi.cache k all hs) ⟨hi.extra, hx⟩
  refine ⟨w', h1, h2.base, ⟨?_, ?_, ?_, h4.1⟩, h5, h2.others, h2.mono⟩
  · intro a c; rw [h2.base.subs, h2.base.supers]; exact hi.subs a c
  · intro k' all' hs'
    by_cases hk : k' = k
    · subst hk
      rw [solves_unique _ _ _ _ rank hr (solves_of_sb k' hs' h2.base) hs]
      exact h3
    · have hne : (kOf k').name ≠ (kOf k).name := fun h => hk (kname_inj _ _ h)
      have := hi.cache k' all' (solves_of_sb k' hs' h2.base)
      refine ⟨fun d l hd => this.right d l (by rw [← h2.others _ d hne]; exact hd), fun d l hd s hsd => ?_⟩
      rw [h2.others _ s hne]
      rw [h2.base.supers] at hsd
      exact this.up d l (by rw [← h2.others _ d hne]; exact hd) s hsd
  · intro all' hs' d l hd
    have hne : Cache.conts ≠ (kOf k).name := by cases k <;> simp [kOf, kSupers, kFeats, kAttrs, kRefs, kOps]
    rw [h2.others _ d hne] at hd
    rw [h2.base.kind]
    exact hi.conts all' (solves_of_sb .refs hs' h2.base) d l hd

theorem read_ok (k : Derived) (n : Nat) (w : W) (c : Nat) (ha : Hier.Acyclic w.supers n) (hx : Excl w) (hp : NoProxy w) (hi : Inv w)
    (all : Nat → List Nat) (hs : Solves (kOf k) w all) :
    ∃ w', compute (kOf k) n [] w c = some (w', all c) ∧ SB w' w ∧ Inv w' ∧ w'.cache (kOf k).name c = some (all c) ∧
      (∀ k' d, k' ≠ (kOf k).name → w'.cache k' d = w.cache k' d) ∧
      (∀ d l, w.cache (kOf k).name d = some l → w'.cache (kOf k).name d = some l) := by
  obtain ⟨rank, hr, hb⟩ := ha
  exact read_held k n [] w c rank hr (hb c) (by simp) hx hp hi all hs

/-- Assignments outside of the recursive lists and of the containments keep the invariant. -/
theorem inv_setCache_cross (w : W) (hi : Inv w) (c : Nat) (l : List Nat) : Inv (setCache w .cross c l) := by
  refine ⟨hi.subs, ?_, ?_, ?_⟩
  · intro k all hs
    have hne : (kOf k).name ≠ Cache.cross := by cases k <;> simp [kOf, kSupers, kFeats, kAttrs, kRefs, kOps]
    have := hi.cache k all (solves_of_sb k hs ⟨rfl, rfl, rfl, rfl, rfl, rfl, rfl⟩)
    refine ⟨?_, ?_⟩ <;> simp only [setCache, hne, false_and, if_false]
    · exact this.right
    · exact this.up
  · intro all hs d l' hd
    simp only [setCache, reduceCtorEq, false_and, if_false] at hd
    exact hi.conts all (solves_of_sb .refs hs ⟨rfl, rfl, rfl, rfl, rfl, rfl, rfl⟩) d l' hd
  · refine ⟨?_, ?_, ?_, ?_, ?_, ?_⟩ <;> simp only [setCache, reduceCtorEq, false_and, if_false]
    · exact hi.extra.ids
    · exact hi.extra.oids
    · exact hi.extra.attrs
    · exact hi.extra.refs
    · exact hi.extra.subset
    · exact hi.extra.names

theorem inv_setCache_conts (w : W) (hi : Inv w) (c : Nat) (l : List Nat)
    (hl : ∀ all, Solves kRefs w all → l = (all c).filter (fun f => (w.kind f).isContainment)) : Inv (setCache w .conts c l) := by
  refine ⟨hi.subs, ?_, ?_, ?_⟩
  · intro k all hs
    have hne : (kOf k).name ≠ Cache.conts := by cases k <;> simp [kOf, kSupers, kFeats, kAttrs, kRefs, kOps]
    have := hi.cache k all (solves_of_sb k hs ⟨rfl, rfl, rfl, rfl, rfl, rfl, rfl⟩)
    refine ⟨?_, ?_⟩ <;> simp only [setCache, hne, false_and, if_false]
    · exact this.right
    · exact this.up
  · intro all hs d l' hd
    have hs' := solves_of_sb .refs (w := w) hs ⟨rfl, rfl, rfl, rfl, rfl, rfl, rfl⟩
    simp only [setCache, true_and] at hd
    by_cases hdc : d = c
    · subst hdc
      simp only [if_true, Option.some.injEq] at hd
      rw [← hd, hl all hs']; rfl
    · simp only [hdc, if_false] at hd
      exact hi.conts all hs' d l' hd
  · refine ⟨?_, ?_, ?_, ?_, ?_, ?_⟩ <;> simp only [setCache, reduceCtorEq, false_and, if_false]
    · exact hi.extra.ids
    · exact hi.extra.oids
    · exact hi.extra.attrs
    · exact hi.extra.refs
    · exact hi.extra.subset
    · exact hi.extra.names

/-- A modification of the lists of `c` only, followed by the invalidation. -/
theorem inv_modify (m : Mod) (n : Nat) (w w1 : W) (c : Nat) (hi : Inv w) (ha : Hier.Acyclic w.supers n) (ha1 : Hier.Acyclic w1.supers n)
    (hsub : SubsOk w1) (hsup : ∀ d, d ≠ c → w1.supers d = w.supers d)
    (hown : ∀ k d, d ≠ c → (kOf k).own w1 d = (kOf k).own w d)
    (hsame : ∀ k, resets m (kOf k).name = true ∨ (w1.supers = w.supers ∧ ∀ d, (kOf k).own w1 d = (kOf k).own w d))
    (hf : ∀ d, d ≠ c ∨ m = .opers → w1.feats d = w.feats d) (ho : ∀ d, d ≠ c ∨ m = .feats → w1.opers d = w.opers d)
    (hkind : w1.kind = w.kind) (hname : w1.name = w.name)
    (hcache : w1.cache = w.cache) (h1 : w1.featureID = w.featureID) (h2 : w1.operationID = w.operationID) (h3 : w1.ownAttrs = w.ownAttrs)
    (h4 : w1.ownRefs = w.ownRefs) (h5 : w1.idAttr = w.idAttr) (h6 : w1.subset = w.subset) (h7 : w1.nameMap = w.nameMap) :
    ∃ w2, setModified m n [] w1 c = some w2 ∧ Inv w2 ∧ SB w2 w1 := by
  obtain ⟨rank1, hr1, hb1⟩ := ha1
  obtain ⟨rank, hr, _⟩ := ha
  obtain ⟨ca, e, rs, un⟩ := setModified_ok m rank1 n hb1 n [] w1 c (by omega) (by simp) hr1 hsub
  rw [hcache] at un
  refine ⟨_, e, ?_, ⟨rfl, rfl, rfl, rfl, rfl, rfl, rfl⟩⟩
  -- a kept entry
  have keep : ∀ k d l, ca k d = some l → w.cache k d = some l ∧ (resets m k = true → d ≠ c ∧ ¬ Hier.Reaches w1.supers d c) := by
    intro k d l hd
    cases hres : resets m k with
    | false => rw [un k d (.inr hres)] at hd; exact ⟨hd, by simp⟩
    | true =>
      by_cases hre : Hier.Reaches w1.supers d c
      · rw [rs k d hre hres] at hd; cases hd
      · rw [un k d (.inl hre)] at hd
        exact ⟨hd, fun _ => ⟨fun h => hre (h ▸ .refl _), hre⟩⟩
  have agree : ∀ k all all', Solves (kOf k) w1 all' → Solves (kOf k) w all → ∀ d, ¬ Hier.Reaches w1.supers d c → all' d = all d := by
    intro k all all' hs' hs d hd
    exact solves_agree (kOf k) w1 w all' all rank1 hr1 c hs' hs (fun d h => (hsup d h).symm) (fun d h => (hown k d h).symm) d hd
  refine ⟨hsub, ?_, ?_, ?_⟩
  · intro k all' hs'
    have hs1 : Solves (kOf k) w1 all' := solves_of_sb k hs' ⟨rfl, rfl, rfl, rfl, rfl, rfl, rfl⟩
    rcases hsame k with hres | ⟨hss, hoo⟩
    · obtain ⟨all, hs⟩ := solves_exists (kOf k) w rank hr
      have ck := hi.cache k all hs
      refine ⟨?_, ?_⟩
      · intro d l hd
        obtain ⟨g1, g2⟩ := keep _ d l hd
        rw [ck.right d l g1, agree k all all' hs1 hs d (g2 hres).2]
      · intro d l hd s hsd
        change s ∈ w1.supers d at hsd
        obtain ⟨g1, g2⟩ := keep _ d l hd
        have hns : ¬ Hier.Reaches w1.supers s c := fun h => (g2 hres).2 (.up hsd h)
        change (ca (kOf k).name s).isSome
        rw [un _ s (.inl hns)]
        rw [hsup d (g2 hres).1] at hsd
        exact ck.up d l g1 s hsd
    · have hs : Solves (kOf k) w all' := by
        intro d
        rw [hs1 d, hss, hoo]
      have ck := hi.cache k all' hs
      cases hres : resets m (kOf k).name with
      | false =>
        have hc : ∀ d, ca (kOf k).name d = w.cache (kOf k).name d := fun d => un _ d (.inr hres)
        refine ⟨?_, ?_⟩
        · intro d l hd; exact ck.right d l (by rw [← hc]; exact hd)
        · intro d l hd s hsd
          change (ca (kOf k).name s).isSome
          change s ∈ w1.supers d at hsd
          rw [hc]; rw [hss] at hsd
          exact ck.up d l (by rw [← hc]; exact hd) s hsd
      | true =>
        refine ⟨?_, ?_⟩
        · intro d l hd
          obtain ⟨g1, g2⟩ := keep _ d l hd
          exact ck.right d l g1
        · intro d l hd s hsd
          change s ∈ w1.supers d at hsd
          obtain ⟨g1, g2⟩ := keep _ d l hd
          have hns : ¬ Hier.Reaches w1.supers s c := fun h => (g2 hres).2 (.up hsd h)
          change (ca (kOf k).name s).isSome
          rw [un _ s (.inl hns)]
          rw [hss] at hsd
          exact ck.up d l g1 s hsd
  · intro all' hs' d l hd
    have hs1 : Solves kRefs w1 all' := solves_of_sb .refs hs' ⟨rfl, rfl, rfl, rfl, rfl, rfl, rfl⟩
    obtain ⟨all, hs⟩ := solves_exists kRefs w rank hr
    obtain ⟨g1, g2⟩ := keep _ d l hd
    have hres : resets m .conts = true := by cases m <;> rfl
    rw [hi.conts all hs d l g1]
    change _ = (all' d).filter (fun f => (w1.kind f).isContainment)
    rw [hkind, agree .refs all all' hs1 hs d (g2 hres).2]
  · have hx := hi.extra
    have hfe : ∀ k d l, ca k d = some l → (k = .feats ∨ k = .attrs ∨ k = .refs) → w1.feats d = w.feats d := by
      intro k d l hd hk
      obtain ⟨_, g2⟩ := keep _ d l hd
      apply hf
      cases m with
      | opers => exact .inr rfl
      | feats => left; rcases hk with rfl | rfl | rfl <;> exact (g2 rfl).1
      | supers => left; rcases hk with rfl | rfl | rfl <;> exact (g2 rfl).1
    have hop : ∀ d l, ca .ops d = some l → w1.opers d = w.opers d := by
      intro d l hd
      obtain ⟨_, g2⟩ := keep _ d l hd
      apply ho
      cases m with
      | feats => exact .inr rfl
      | opers => left; exact (g2 rfl).1
      | supers => left; exact (g2 rfl).1
    refine ⟨?_, ?_, ?_, ?_, ?_, ?_⟩
    · intro d l i f hd hfi
      change (w1.feats d)[i]? = some f at hfi
      change w1.featureID f = ((l.length - (w1.feats d).length + i : Nat) : Int)
      rw [hfe _ d l hd (.inl rfl)] at hfi ⊢
      rw [h1]
      exact hx.ids d l i f (keep _ d l hd).1 hfi
    · intro d l i f hd hfi
      change (w1.opers d)[i]? = some f at hfi
      change w1.operationID f = ((l.length - (w1.opers d).length + i : Nat) : Int)
      rw [hop d l hd] at hfi ⊢
      rw [h2]
      exact hx.oids d l i f (keep _ d l hd).1 hfi
    · intro d l hd
      change w1.ownAttrs d = (w1.feats d).filter (fun f => (w1.kind f).isAttr) ∧ w1.idAttr d = l.find? (fun f => (w1.kind f).isID)
      rw [hfe _ d l hd (.inr (.inl rfl)), h3, h5, hkind]
      exact hx.attrs d l (keep _ d l hd).1
    · intro d l hd
      change w1.ownRefs d = (w1.feats d).filter (fun f => (w1.kind f).isRef)
      rw [hfe _ d l hd (.inr (.inr rfl)), h4, hkind]
      exact hx.refs d l (keep _ d l hd).1
    · intro d l x hd hxx
      change w1.subset d = some x at hxx
      change x = ((w1.feats d).filter (fun f => (w1.kind f).isContainment && !(w1.kind f).isDerived),
        (w1.feats d).filter (fun f => (w1.kind f).isCross && !(w1.kind f).isDerived))
      rw [hfe _ d l hd (.inl rfl), hkind]
      rw [h6] at hxx
      exact hx.subset d l x (keep _ d l hd).1 hxx
    · intro d l x hd hxx
      change w1.nameMap d = some x at hxx
      change x = (l.map fun f => (w1.name f, f)).reverse
      rw [hname]
      rw [h7] at hxx
      exact hx.names d l x (keep _ d l hd).1 hxx

end Verif.EClass
