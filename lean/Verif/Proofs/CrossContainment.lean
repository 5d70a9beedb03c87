import Verif.Spec.CrossContainment
namespace Verif.CrossContainment
open Verif.Spec.CrossContainment

variable {tgt : Nat → Option Nat}

theorem stand_eq (o : Nat) : stand tgt o = standsFor tgt o := by
  unfold stand standsFor; cases tgt o <;> rfl

theorem stand_stand (ht : Loaded tgt) (o : Nat) : stand tgt (stand tgt o) = stand tgt o := by
  unfold stand
  cases h : tgt o with
  | none => simp [h]
  | some t => simp [ht o t h]

@[simp] theorem upd_same {β : Type} (f : Nat → β) (i : Nat) (b : β) : upd f i b i = b := by simp [upd]

theorem upd_ne {β : Type} (f : Nat → β) {i j : Nat} (b : β) (h : j ≠ i) : upd f i b j = f j := by simp [upd, h]

theorem upd_upd {β : Type} (f : Nat → β) (i : Nat) (b c : β) : upd (upd f i b) i c = upd f i c := by
  funext j; unfold upd; split <;> rfl

theorem upd_comm {β : Type} (f : Nat → β) {i j : Nat} (b c : β) (h : i ≠ j) : upd (upd f i b) j c = upd (upd f j c) i b := by
  funext k; unfold upd; grind

/-- the container of every object but those excepted holds it -/
def H (E : Nat → Prop) (s : St) : Prop := ∀ v a r, ¬E v → s.cont v = some (a, r) → Holds s a r v

/-- what is held has its holder as container -/
def J (s : St) : Prop := ∀ v a r, Holds s a r v → s.cont v = some (a, r)

/-! ### Reading a list -/

/-- what does not change when the list of `a` is read -/
structure Same (s s' : St) (a : Nat) : Prop where
  kids : ∀ b, b ≠ a → s'.kids b = s.kids b
  one : s'.one = s.one
  res : s'.res = s.res
  roots : s'.roots = s.roots
  len : (s'.kids a).length = (s.kids a).length

theorem Same.refl (s : St) (a : Nat) : Same s s a := ⟨fun _ _ => rfl, rfl, rfl, rfl, rfl⟩

theorem Same.trans {s t u : St} {a : Nat} (h : Same s t a) (k : Same t u a) : Same s u a :=
  ⟨fun b hb => (k.kids b hb).trans (h.kids b hb), k.one.trans h.one, k.res.trans h.res, k.roots.trans h.roots, k.len.trans h.len⟩

theorem resolveAt_same (s : St) (a i : Nat) : Same s (resolveAt tgt s a i) a := by
  unfold resolveAt setCont
  split
  · exact Same.refl s a
  · dsimp only
    split
    · exact Same.refl s a
    · split <;> exact ⟨fun b hb => by simp [upd, hb], rfl, rfl, rfl, by simp⟩

theorem resolveAt_kids (s : St) (a i p : Nat) (h : (s.kids a)[i]? = some p) :
    (resolveAt tgt s a i).kids a = (s.kids a).set i (stand tgt p) := by
  unfold resolveAt setCont
  rw [h]
  dsimp only
  split
  next e => rw [e]; apply List.ext_getElem?; intro j; simp only [List.getElem?_set]; split <;> grind
  next => split <;> simp

theorem resolveAt_cont (s : St) (a i p : Nat) (h : (s.kids a)[i]? = some p) (e : stand tgt p ≠ p) :
    (resolveAt tgt s a i).cont = if s.cont (stand tgt p) = none then upd (upd s.cont p none) (stand tgt p) (some (a, .list))
      else upd s.cont p none := by
  have hu : upd s.cont p none (stand tgt p) = s.cont (stand tgt p) := upd_ne _ _ e
  unfold resolveAt setCont
  rw [h]
  dsimp only
  rw [if_neg e]
  by_cases hc : s.cont (stand tgt p) = none
  · rw [if_pos (by rw [hu]; exact hc), if_pos hc]
  · rw [if_neg (by rw [hu]; exact hc), if_neg hc]

theorem resolveAt_shown (ht : Loaded tgt) (s : St) (a i : Nat) :
    ((resolveAt tgt s a i).kids a).map (stand tgt) = (s.kids a).map (stand tgt) := by
  cases h : (s.kids a)[i]? with
  | none => unfold resolveAt; rw [h]
  | some p =>
    rw [resolveAt_kids s a i p h]
    apply List.ext_getElem?
    intro j
    simp only [List.getElem?_map, List.getElem?_set]
    split
    next e => subst e; rw [h]; simp [stand_stand ht]; grind
    next => rfl

theorem resolveAt_H {E : Nat → Prop} {s : St} (h : H E s) (a i : Nat) : H E (resolveAt tgt s a i) := by
  cases hp : (s.kids a)[i]? with
  | none => unfold resolveAt; rw [hp]; exact h
  | some p =>
    intro v b r hv hc
    have hs := resolveAt_same (tgt := tgt) s a i
    have hk := resolveAt_kids (tgt := tgt) s a i p hp
    have hold : s.cont v = some (b, r) → v ≠ p → Holds (resolveAt tgt s a i) b r v := by
      intro hc hvp
      have := h v b r hv hc
      cases r with
      | one => show (resolveAt tgt s a i).one b = some v; rw [hs.one]; exact this
      | list =>
        show v ∈ (resolveAt tgt s a i).kids b
        by_cases hb : b = a
        · subst hb
          rw [hk]
          obtain ⟨j, hj⟩ := List.mem_iff_getElem?.mp (show v ∈ s.kids b from this)
          apply List.mem_iff_getElem?.mpr
          refine ⟨j, ?_⟩
          rw [List.getElem?_set]
          split
          next e => subst e; rw [hp] at hj; exact absurd (by simpa using hj.symm) hvp
          next => exact hj
        · rw [hs.kids b hb]; exact this
    by_cases e : stand tgt p = p
    · have : resolveAt tgt s a i = s := by unfold resolveAt; rw [hp]; dsimp only; rw [if_pos e]
      rw [this] at hc ⊢
      exact h v b r hv hc
    · rw [resolveAt_cont s a i p hp e] at hc
      split at hc
      · by_cases hvt : v = stand tgt p
        · subst hvt
          simp only [upd_same, Option.some.injEq, Prod.mk.injEq] at hc
          obtain ⟨rfl, rfl⟩ := hc
          show _ ∈ (resolveAt tgt s a i).kids a
          rw [hk]
          have : i < (s.kids a).length := (List.getElem?_eq_some_iff.mp hp).1
          exact List.mem_set this _
        · rw [upd_ne _ _ hvt] at hc
          by_cases hvp : v = p
          · subst hvp; simp at hc
          · rw [upd_ne _ _ hvp] at hc; exact hold hc hvp
      · by_cases hvp : v = p
        · subst hvp; simp at hc
        · rw [upd_ne _ _ hvp] at hc; exact hold hc hvp

/-! ### Distinct entries -/

theorem distinct_of_shown (ht : Loaded tgt) {s s' : St} {a : Nat} (hd : Distinct tgt s) (hs : Same s s' a)
    (hm : (s'.kids a).map (stand tgt) = (s.kids a).map (stand tgt)) : Distinct tgt s' := by
  have e : standsFor tgt = stand tgt := by funext o; exact (stand_eq o).symm
  obtain ⟨h1, h2⟩ := hd
  rw [e] at h1
  constructor
  · intro b
    rw [e]
    by_cases hb : b = a
    · subst hb; rw [hm]; exact h1 b
    · rw [hs.kids b hb]; exact h1 b
  · have back : ∀ b q w, Holds s' b q w → ∃ w', Holds s b q w' ∧ standsFor tgt w' = standsFor tgt w := by
      intro b q w hw
      cases q with
      | one => exact ⟨w, by show s.one b = some w; rw [← hs.one]; exact hw, rfl⟩
      | list =>
        by_cases hb : b = a
        · subst hb
          have : stand tgt w ∈ (s'.kids b).map (stand tgt) := List.mem_map_of_mem hw
          rw [hm] at this
          obtain ⟨w', hw', e'⟩ := List.mem_map.mp this
          exact ⟨w', hw', by rw [← stand_eq, ← stand_eq, e']⟩
        · exact ⟨w, by show w ∈ s.kids b; rw [← hs.kids b hb]; exact hw, rfl⟩
    intro b r v c q w hv hw hvw
    obtain ⟨v', hv', ev⟩ := back b r v hv
    obtain ⟨w', hw', ew⟩ := back c q w hw
    exact h2 b r v' c q w' hv' hw' (by rw [ev, ew, hvw])

/-- in a list with distinct entries the index is determined by what stands there -/
theorem nodup_index {l : List Nat} (h : (l.map (stand tgt)).Nodup) {i j : Nat} {v w : Nat} (hi : l[i]? = some v) (hj : l[j]? = some w)
    (e : stand tgt v = stand tgt w) : i = j := by
  have hil : i < (l.map (stand tgt)).length := by simpa using (List.getElem?_eq_some_iff.mp hi).1
  have h1 : (l.map (stand tgt))[i]? = (l.map (stand tgt))[j]? := by simp [hi, hj, e]
  exact (List.getElem?_inj hil h).mp h1

theorem distinct_nodup (hd : Distinct tgt s) (a : Nat) : ((s.kids a).map (stand tgt)).Nodup := by
  have e : standsFor tgt = stand tgt := by funext o; exact (stand_eq o).symm
  have := hd.1 a
  rwa [e] at this

theorem distinct_ne (hd : Distinct tgt s) {a b v w : Nat} {r q : Ref} (hv : Holds s a r v) (hw : Holds s b q w)
    (e : stand tgt v = stand tgt w) : a = b ∧ r = q := hd.2 a r v b q w hv hw (by rw [← stand_eq, ← stand_eq, e])

/-- all is as it should be -/
structure Good (tgt : Nat → Option Nat) (s : St) : Prop where
  h : H (fun _ => False) s
  j : J s
  d : Distinct tgt s

theorem resolveAt_J (ht : Loaded tgt) {s : St} (g : Good tgt s) (a i : Nat) : J (resolveAt tgt s a i) := by
  cases hp : (s.kids a)[i]? with
  | none => unfold resolveAt; rw [hp]; exact g.j
  | some p =>
    by_cases e : stand tgt p = p
    · have : resolveAt tgt s a i = s := by unfold resolveAt; rw [hp]; dsimp only; rw [if_pos e]
      rw [this]; exact g.j
    · have hpa : Holds s a .list p := List.mem_of_getElem? hp
      have htt : stand tgt (stand tgt p) = stand tgt p := stand_stand ht p
      -- the object found is nowhere
      have hfree : s.cont (stand tgt p) = none := by
        cases hc : s.cont (stand tgt p) with
        | none => rfl
        | some k =>
          obtain ⟨b, r⟩ := k
          have hh := g.h _ b r (fun f => f) hc
          obtain ⟨rfl, rfl⟩ := distinct_ne g.d hpa hh htt.symm
          obtain ⟨j, hj⟩ := List.mem_iff_getElem?.mp (show stand tgt p ∈ s.kids a from hh)
          have := nodup_index (distinct_nodup g.d a) hp hj htt.symm
          subst this
          rw [hp] at hj
          exact absurd (by simpa using hj.symm) e
      have hs := resolveAt_same (tgt := tgt) s a i
      have hk := resolveAt_kids (tgt := tgt) s a i p hp
      have hcont : (resolveAt tgt s a i).cont = upd (upd s.cont p none) (stand tgt p) (some (a, .list)) := by
        rw [resolveAt_cont s a i p hp e, if_pos hfree]
      -- what is held afterwards
      intro v b r hv
      have key : Holds s b r v ∧ v ≠ p ∨ (v = stand tgt p ∧ b = a ∧ r = .list) := by
        cases r with
        | one =>
          have hv' : s.one b = some v := by rw [← hs.one]; exact hv
          refine Or.inl ⟨hv', ?_⟩
          rintro rfl
          have := (distinct_ne g.d (show Holds s b .one v from hv') hpa rfl).2
          cases this
        | list =>
          by_cases hb : b = a
          · subst hb
            have hv' : v ∈ (resolveAt tgt s b i).kids b := hv
            rw [hk] at hv'
            obtain ⟨j, hj⟩ := List.mem_iff_getElem?.mp hv'
            rw [List.getElem?_set] at hj
            split at hj
            · split at hj
              · exact Or.inr ⟨by simpa using hj.symm, rfl, rfl⟩
              · cases hj
            next hij =>
              refine Or.inl ⟨List.mem_of_getElem? hj, ?_⟩
              rintro rfl
              exact hij (nodup_index (distinct_nodup g.d b) hp hj rfl)
          · have hv' : v ∈ s.kids b := by rw [← hs.kids b hb]; exact hv
            refine Or.inl ⟨hv', ?_⟩
            rintro rfl
            exact hb (distinct_ne g.d (show Holds s b .list v from hv') hpa rfl).1
      rw [hcont]
      rcases key with ⟨hh, hvp⟩ | ⟨rfl, rfl, rfl⟩
      · have hc := g.j v b r hh
        have hvt : v ≠ stand tgt p := by rintro rfl; rw [hfree] at hc; cases hc
        rw [upd_ne _ _ hvt, upd_ne _ _ hvp]; exact hc
      · simp

theorem resolveAt_good (ht : Loaded tgt) {s : St} (g : Good tgt s) (a i : Nat) : Good tgt (resolveAt tgt s a i) :=
  ⟨resolveAt_H g.h a i, resolveAt_J ht g a i, distinct_of_shown ht g.d (resolveAt_same s a i) (resolveAt_shown ht s a i)⟩

/-! ### IndexOf, ToArray -/

/-- whatever `resolveAt` keeps is kept by `scan` -/
theorem scan_keeps {P : St → Prop} (a x : Nat) (hP : ∀ s i, P s → P (resolveAt tgt s a i)) :
    ∀ n i s, P s → P (scan tgt a x n i s).1
  | 0, _, _, h => h
  | n + 1, i, s, h => by
    unfold scan
    split
    · exact h
    · split
      · exact h
      · split
        · exact hP s i h
        · exact scan_keeps a x hP n (i + 1) _ (hP s i h)

theorem indexOf_keeps {P : St → Prop} (s : St) (a x : Nat) (hP : ∀ s i, P s → P (resolveAt tgt s a i)) (h : P s) :
    P (indexOf tgt s a x).1 := scan_keeps a x hP _ _ s h

theorem indexOf_same (s : St) (a x : Nat) : Same s (indexOf tgt s a x).1 a :=
  indexOf_keeps (P := fun t => Same s t a) s a x (fun t i h => h.trans (resolveAt_same t a i)) (Same.refl s a)

theorem indexOf_H {E : Nat → Prop} {s : St} (h : H E s) (a x : Nat) : H E (indexOf tgt s a x).1 :=
  indexOf_keeps (P := H E) s a x (fun _ i h => resolveAt_H h a i) h

theorem indexOf_good (ht : Loaded tgt) {s : St} (g : Good tgt s) (a x : Nat) : Good tgt (indexOf tgt s a x).1 :=
  indexOf_keeps (P := Good tgt) s a x (fun _ i h => resolveAt_good ht h a i) g

theorem indexOf_shown (ht : Loaded tgt) (s : St) (a x : Nat) :
    ((indexOf tgt s a x).1.kids a).map (stand tgt) = (s.kids a).map (stand tgt) :=
  indexOf_keeps (P := fun t => (t.kids a).map (stand tgt) = (s.kids a).map (stand tgt)) s a x
    (fun t i h => (resolveAt_shown ht t a i).trans h) rfl

theorem toArray_keeps {P : St → Prop} (a : Nat) (hP : ∀ s i, P s → P (resolveAt tgt s a i)) :
    ∀ n s, P s → P (toArray tgt s a n)
  | 0, _, h => h
  | n + 1, s, h => by unfold toArray; exact toArray_keeps a hP n _ (hP s n h)

/-- the element is where it is found -/
theorem scan_some (a x : Nat) : ∀ n i s j, (scan tgt a x n i s).2 = some j → ((scan tgt a x n i s).1.kids a)[j]? = some x
  | 0, _, _, _, h => by simp [scan] at h
  | n + 1, i, s, j, h => by
    revert h
    unfold scan
    split
    · intro h; cases h
    next v hv =>
      split
      next e => intro h; simp only [Option.some.injEq] at h; subst h; subst e; exact hv
      next =>
        split
        next e =>
          intro h; simp only [Option.some.injEq] at h; subst h
          simp only
          rw [resolveAt_kids s a i v hv, e]
          have : i < (s.kids a).length := (List.getElem?_eq_some_iff.mp hv).1
          simp [this]
        next => exact scan_some a x n (i + 1) _ j

theorem indexOf_some {s : St} {a x j : Nat} (h : (indexOf tgt s a x).2 = some j) : ((indexOf tgt s a x).1.kids a)[j]? = some x :=
  scan_some a x _ _ s j h

/-- an element that is not found is not there -/
theorem scan_none (a x : Nat) : ∀ n i s, (scan tgt a x n i s).2 = none → ∀ j, i ≤ j → j < i + n → (s.kids a)[j]? ≠ some x ∧
    ((scan tgt a x n i s).1.kids a)[j]? ≠ some x
  | 0, _, _, _, j, h1, h2 => by omega
  | n + 1, i, s, h, j, h1, h2 => by
    revert h
    unfold scan
    split
    next hv =>
      intro _
      have : (s.kids a)[j]? = none := by
        rw [List.getElem?_eq_none_iff] at hv ⊢; omega
      simp [this]
    next v hv =>
      split
      next => intro h; cases h
      next e1 =>
        split
        next => intro h; cases h
        next e2 =>
          intro h
          have ih := scan_none a x n (i + 1) (resolveAt tgt s a i) h
          by_cases hij : j = i
          · subst hij
            refine ⟨by rw [hv]; simpa using e1, ?_⟩
            -- later steps do not touch the index
            have hlow : ∀ n i s, j < i → ((scan tgt a x n i s).1.kids a)[j]? = (s.kids a)[j]? := by
              intro n
              induction n with
              | zero => intro i s _; rfl
              | succ n ihn =>
                intro i s hi
                have hres : ((resolveAt tgt s a i).kids a)[j]? = (s.kids a)[j]? := by
                  cases hp : (s.kids a)[i]? with
                  | none => unfold resolveAt; rw [hp]
                  | some p => rw [resolveAt_kids s a i p hp, List.getElem?_set_ne (by omega)]
                unfold scan
                split
                · rfl
                · split
                  · rfl
                  · split
                    · exact hres
                    · rw [ihn (i + 1) _ (by omega), hres]
            rw [hlow n (j + 1) _ (by omega), resolveAt_kids s a j v hv]
            have : j < (s.kids a).length := (List.getElem?_eq_some_iff.mp hv).1
            simp [this, e2]
          · have := ih j (by omega) (by omega)
            refine ⟨?_, this.2⟩
            have h3 := this.1
            rw [resolveAt_kids s a i v hv, List.getElem?_set_ne (by omega)] at h3
            exact h3

theorem indexOf_none {s : St} {a x : Nat} (h : (indexOf tgt s a x).2 = none) : x ∉ (indexOf tgt s a x).1.kids a := by
  intro hx
  obtain ⟨j, hj⟩ := List.mem_iff_getElem?.mp hx
  have hlt : j < (s.kids a).length := by
    rw [← (indexOf_same (tgt := tgt) s a x).len]; exact (List.getElem?_eq_some_iff.mp hj).1
  exact (scan_none a x _ 0 s h j (by omega) (by omega)).2 hj

/-! ### Leaving a container does not touch other lists -/

/-- a list replaced -/
def withKids (s : St) (a : Nat) (l : List Nat) : St := { s with kids := upd s.kids a l }

/-- a single reference replaced -/
def withOne (s : St) (a : Nat) (v : Option Nat) : St := { s with one := upd s.one a v }

theorem St.ext' {s t : St} (h1 : s.kids = t.kids) (h2 : s.one = t.one) (h3 : s.cont = t.cont) (h4 : s.res = t.res) (h5 : s.roots = t.roots) :
    s = t := by cases s; cases t; simp only at h1 h2 h3 h4 h5; subst h1 h2 h3 h4 h5; rfl

theorem resolveAt_withKids (s : St) {a b : Nat} (hb : b ≠ a) (l : List Nat) (i : Nat) :
    resolveAt tgt (withKids s a l) b i = withKids (resolveAt tgt s b i) a l := by
  have hk : (withKids s a l).kids b = s.kids b := upd_ne _ _ hb
  have hc : (withKids s a l).cont = s.cont := rfl
  cases hp : (s.kids b)[i]? with
  | none => unfold resolveAt; rw [hk, hp]
  | some p =>
    by_cases e : stand tgt p = p
    · have h1 : resolveAt tgt s b i = s := by unfold resolveAt; rw [hp]; dsimp only; rw [if_pos e]
      have h2 : resolveAt tgt (withKids s a l) b i = withKids s a l := by unfold resolveAt; rw [hk, hp]; dsimp only; rw [if_pos e]
      rw [h1, h2]
    · have hp' : ((withKids s a l).kids b)[i]? = some p := by rw [hk]; exact hp
      have s1 := resolveAt_same (tgt := tgt) s b i
      have s2 := resolveAt_same (tgt := tgt) (withKids s a l) b i
      apply St.ext'
      · funext c
        by_cases hcb : c = b
        · subst hcb
          rw [resolveAt_kids _ c i p hp', hk]
          show _ = upd (resolveAt tgt s c i).kids a l c
          rw [upd_ne _ _ hb, resolveAt_kids s c i p hp]
        · rw [s2.kids c hcb]
          show upd s.kids a l c = upd (resolveAt tgt s b i).kids a l c
          unfold upd
          split
          · rfl
          · exact (s1.kids c hcb).symm
      · exact s2.one.trans s1.one.symm
      · show _ = (resolveAt tgt s b i).cont
        rw [resolveAt_cont _ b i p hp' e, resolveAt_cont s b i p hp e, hc]
      · exact s2.res.trans s1.res.symm
      · exact s2.roots.trans s1.roots.symm

theorem resolveAt_withOne (s : St) (a b : Nat) (v : Option Nat) (i : Nat) :
    resolveAt tgt (withOne s a v) b i = withOne (resolveAt tgt s b i) a v := by
  have hk : (withOne s a v).kids = s.kids := rfl
  unfold resolveAt setCont
  rw [hk]
  split
  · rfl
  · dsimp only
    split
    · rfl
    · split
      next h => rw [if_pos (show upd s.cont _ none _ = none from h)]; rfl
      next h => rw [if_neg (show ¬upd s.cont _ none _ = none from h)]; rfl

theorem scan_withKids {a b : Nat} (hb : b ≠ a) (l : List Nat) (x : Nat) : ∀ n i s,
    scan tgt b x n i (withKids s a l) = (withKids (scan tgt b x n i s).1 a l, (scan tgt b x n i s).2)
  | 0, _, _ => rfl
  | n + 1, i, s => by
    have hk : (withKids s a l).kids b = s.kids b := upd_ne _ _ hb
    unfold scan
    rw [hk]
    split
    · rfl
    · split
      · rfl
      · split
        · rw [resolveAt_withKids s hb]
        · rw [resolveAt_withKids s hb, scan_withKids hb l x n (i + 1)]

theorem scan_withOne (a b : Nat) (v : Option Nat) (x : Nat) : ∀ n i s,
    scan tgt b x n i (withOne s a v) = (withOne (scan tgt b x n i s).1 a v, (scan tgt b x n i s).2)
  | 0, _, _ => rfl
  | n + 1, i, s => by
    have hk : (withOne s a v).kids b = s.kids b := rfl
    unfold scan
    rw [hk]
    split
    · rfl
    · split
      · rfl
      · split
        · rw [resolveAt_withOne s]
        · rw [resolveAt_withOne s, scan_withOne a b v x n (i + 1)]

theorem leave_withKids (s : St) {a x : Nat} (l : List Nat) (h : s.cont x ≠ some (a, .list)) :
    leave tgt (withKids s a l) x = withKids (leave tgt s x) a l := by
  have hc : (withKids s a l).cont = s.cont := rfl
  unfold leave
  rw [hc]
  split
  next b hb =>
    have hba : b ≠ a := by rintro rfl; exact h hb
    have hk : (withKids s a l).kids b = s.kids b := upd_ne _ _ hba
    unfold indexOf
    rw [hk, scan_withKids hba]
    cases h2 : (scan tgt b x (s.kids b).length 0 s).2 with
    | none =>
      have e : scan tgt b x (s.kids b).length 0 s = ((scan tgt b x (s.kids b).length 0 s).1, none) := Prod.ext rfl h2
      rw [e]
    | some j =>
      have e : scan tgt b x (s.kids b).length 0 s = ((scan tgt b x (s.kids b).length 0 s).1, some j) := Prod.ext rfl h2
      rw [e]
      simp only [withKids]
      rw [upd_ne _ _ hba, upd_comm _ _ _ (fun e => hba e.symm)]
  next => rfl
  next => rfl

theorem leave_withOne (s : St) {a x : Nat} (v : Option Nat) (h : s.cont x ≠ some (a, .one)) :
    leave tgt (withOne s a v) x = withOne (leave tgt s x) a v := by
  have hc : (withOne s a v).cont = s.cont := rfl
  unfold leave
  rw [hc]
  split
  next b hb =>
    have hk : (withOne s a v).kids b = s.kids b := rfl
    unfold indexOf
    rw [hk, scan_withOne]
    cases h2 : (scan tgt b x (s.kids b).length 0 s).2 with
    | none =>
      have e : scan tgt b x (s.kids b).length 0 s = ((scan tgt b x (s.kids b).length 0 s).1, none) := Prod.ext rfl h2
      rw [e]
    | some j =>
      have e : scan tgt b x (s.kids b).length 0 s = ((scan tgt b x (s.kids b).length 0 s).1, some j) := Prod.ext rfl h2
      rw [e]
      rfl
  next b hb =>
    have hba : a ≠ b := by rintro rfl; exact h hb
    simp only [withOne]
    rw [upd_comm _ _ _ hba]
  next => rfl

/-! ### Leaving -/

/-- the object to move is excepted -/
def Ex (x : Nat) : Nat → Prop := fun v => v = x

theorem H.mono {E F : Nat → Prop} {s : St} (h : H E s) (hef : ∀ v, E v → F v) : H F s :=
  fun v a r hv hc => h v a r (fun e => hv (hef v e)) hc

theorem mem_eraseIdx_ne {l : List Nat} {j x v : Nat} (hj : l[j]? = some x) (hv : v ∈ l) (hne : v ≠ x) : v ∈ l.eraseIdx j := by
  obtain ⟨k, hk⟩ := List.mem_iff_getElem?.mp hv
  have hkj : k ≠ j := by rintro rfl; rw [hj] at hk; exact hne (by simpa using hk.symm)
  apply List.mem_iff_getElem?.mpr
  by_cases h : k < j
  · exact ⟨k, by rw [List.getElem?_eraseIdx, if_pos h]; exact hk⟩
  · refine ⟨k - 1, ?_⟩
    rw [List.getElem?_eraseIdx, if_neg (by omega)]
    rw [show k - 1 + 1 = k by omega]; exact hk

theorem leave_H {s : St} (h : H (fun _ => False) s) (x : Nat) : H (Ex x) (leave tgt s x) := by
  unfold leave
  split
  next b hb =>
    have hi := indexOf_H (tgt := tgt) h b x
    have hsome := @indexOf_some tgt s b x
    revert hi hsome
    generalize indexOf tgt s b x = q
    obtain ⟨t, r⟩ := q
    intro hi hsome
    cases r with
    | none => exact hi.mono (fun _ f => f.elim)
    | some j =>
      have hj := hsome rfl
      simp only at hi hj
      intro v a r hv hc
      have := hi v a r (fun f => f) hc
      cases r with
      | one => exact this
      | list =>
        show v ∈ upd t.kids b ((t.kids b).eraseIdx j) a
        by_cases hab : a = b
        · subst hab; rw [upd_same]; exact mem_eraseIdx_ne hj this hv
        · rw [upd_ne _ _ hab]; exact this
  next b hb =>
    intro v a r hv hc
    have := h v a r (fun f => f) hc
    cases r with
    | list => exact this
    | one =>
      show upd s.one b none a = some v
      by_cases hab : a = b
      · subst hab
        have hx := h x a .one (fun f => f) hb
        have e : some v = some x := (show s.one a = some v from this).symm.trans hx
        exact absurd (show v = x by simpa using e) hv
      · rw [upd_ne _ _ hab]; exact this
  next => exact h.mono (fun _ f => f.elim)

/-- the part of the state the object leaves is only that of its container -/
theorem leave_kids (s : St) (x a : Nat) (h : s.cont x ≠ some (a, .list)) : (leave tgt s x).kids a = s.kids a := by
  unfold leave
  split
  next b hb =>
    have hba : a ≠ b := by rintro rfl; exact h hb
    have hs := indexOf_same (tgt := tgt) s b x
    revert hs
    generalize indexOf tgt s b x = q
    obtain ⟨t, r⟩ := q
    intro hs
    cases r with
    | none => exact hs.kids a hba
    | some j => show upd t.kids b _ a = _; rw [upd_ne _ _ hba]; exact hs.kids a hba
  next => rfl
  next => rfl

theorem leave_one (s : St) (x a : Nat) (h : s.cont x ≠ some (a, .one)) : (leave tgt s x).one a = s.one a := by
  unfold leave
  split
  next b hb =>
    have hs := indexOf_same (tgt := tgt) s b x
    revert hs
    generalize indexOf tgt s b x = q
    obtain ⟨t, r⟩ := q
    intro hs
    cases r with
    | none => exact congrFun hs.one a
    | some j => exact congrFun hs.one a
  next b hb =>
    have hba : a ≠ b := by rintro rfl; exact h hb
    exact upd_ne _ _ hba
  next => rfl

theorem leave_res (s : St) (x : Nat) : (leave tgt s x).res = s.res ∧ (leave tgt s x).roots = s.roots := by
  unfold leave
  split
  next b hb =>
    have hs := indexOf_same (tgt := tgt) s b x
    revert hs
    generalize indexOf tgt s b x = q
    obtain ⟨t, r⟩ := q
    intro hs
    cases r with
    | none => exact ⟨hs.res, hs.roots⟩
    | some j => exact ⟨hs.res, hs.roots⟩
  next => exact ⟨rfl, rfl⟩
  next => exact ⟨rfl, rfl⟩

theorem not_mem_eraseIdx {l : List Nat} (h : (l.map (stand tgt)).Nodup) {j x : Nat} (hj : l[j]? = some x) : x ∉ l.eraseIdx j := by
  intro hx
  obtain ⟨k, hk⟩ := List.mem_iff_getElem?.mp hx
  rw [List.getElem?_eraseIdx] at hk
  split at hk
  · have := nodup_index h hk hj rfl; omega
  · have := nodup_index h hk hj rfl; omega

theorem leave_J (ht : Loaded tgt) {s : St} (g : Good tgt s) (x : Nat) :
    J (leave tgt s x) ∧ ∀ a r, ¬Holds (leave tgt s x) a r x := by
  unfold leave
  split
  next b hb =>
    have hg := indexOf_good ht g b x
    have hsome := @indexOf_some tgt s b x
    have hnone := @indexOf_none tgt s b x
    have hs := indexOf_same (tgt := tgt) s b x
    have hx0 : x ∈ s.kids b := g.h x b .list (fun f => f) hb
    have hfirst := scan_none (tgt := tgt) b x (s.kids b).length 0 s
    change (indexOf tgt s b x).2 = none → _ at hfirst
    revert hg hsome hnone hs hfirst
    generalize hq : indexOf tgt s b x = q
    obtain ⟨t, r⟩ := q
    intro hg hsome hnone hs hfirst
    cases r with
    | none =>
      exfalso
      obtain ⟨j, hj⟩ := List.mem_iff_getElem?.mp hx0
      exact (hfirst rfl j (by omega) (by have := (List.getElem?_eq_some_iff.mp hj).1; omega)).1 hj
    | some j =>
      have hj : (t.kids b)[j]? = some x := hsome rfl
      simp only at hg
      have hcx : t.cont x = some (b, .list) := hg.j x b .list (List.mem_of_getElem? hj)
      have back : ∀ v a r, Holds { t with kids := upd t.kids b ((t.kids b).eraseIdx j) } a r v → Holds t a r v ∧ v ≠ x := by
        intro v a r hv
        have h1 : Holds t a r v := by
          cases r with
          | one => exact hv
          | list =>
            have hv' : v ∈ upd t.kids b ((t.kids b).eraseIdx j) a := hv
            by_cases hab : a = b
            · subst hab; rw [upd_same] at hv'; exact List.mem_of_mem_eraseIdx hv'
            · rw [upd_ne _ _ hab] at hv'; exact hv'
        refine ⟨h1, ?_⟩
        rintro rfl
        have := hg.j v a r h1
        rw [hcx] at this
        simp only [Option.some.injEq, Prod.mk.injEq] at this
        obtain ⟨rfl, rfl⟩ := this
        have hv' : v ∈ upd t.kids b ((t.kids b).eraseIdx j) b := hv
        rw [upd_same] at hv'
        exact not_mem_eraseIdx (distinct_nodup hg.d b) hj hv'
      exact ⟨fun v a r hv => hg.j v a r (back v a r hv).1, fun a r hv => (back x a r hv).2 rfl⟩
  next b hb =>
    have hx : s.one b = some x := g.h x b .one (fun f => f) hb
    have back : ∀ v a r, Holds { s with one := upd s.one b none } a r v → Holds s a r v ∧ v ≠ x := by
      intro v a r hv
      have h1 : Holds s a r v := by
        cases r with
        | list => exact hv
        | one =>
          have hv' : upd s.one b none a = some v := hv
          by_cases hab : a = b
          · subst hab; simp at hv'
          · rw [upd_ne _ _ hab] at hv'; exact hv'
      refine ⟨h1, ?_⟩
      rintro rfl
      have := g.j v a r h1
      rw [hb] at this
      simp only [Option.some.injEq, Prod.mk.injEq] at this
      obtain ⟨rfl, rfl⟩ := this
      have hv' : upd s.one b none b = some v := hv
      simp at hv'
    exact ⟨fun v a r hv => g.j v a r (back v a r hv).1, fun a r hv => (back x a r hv).2 rfl⟩
  next hb =>
    refine ⟨g.j, fun a r hv => ?_⟩
    have := g.j x a r hv
    rw [hb] at this
    cases this

/-! ### Entering -/

/-- an object that left enters a list -/
theorem enterList_H {s : St} (h : H (fun _ => False) s) (a x : Nat) (l : List Nat) (hx : s.cont x ≠ some (a, .list))
    (hl : ∀ v ∈ s.kids a, v ≠ x → v ∈ l) (hxl : x ∈ l) : H (fun _ => False) (enter tgt (withKids s a l) x a .list) := by
  unfold enter
  rw [leave_withKids s l hx]
  have hH := leave_H (tgt := tgt) h x
  have hka := leave_kids (tgt := tgt) s x a hx
  intro v b r _ hc
  by_cases hv : v = x
  · subst hv
    have : some (a, Ref.list) = some (b, r) := by simpa [setCont] using hc
    simp only [Option.some.injEq, Prod.mk.injEq] at this
    obtain ⟨rfl, rfl⟩ := this
    show v ∈ upd (leave tgt s v).kids a l a
    rw [upd_same]; exact hxl
  · have hc' : (leave tgt s x).cont v = some (b, r) := by
      have : upd (leave tgt s x).cont x (some (a, Ref.list)) v = some (b, r) := hc
      rwa [upd_ne _ _ hv] at this
    have := hH v b r hv hc'
    cases r with
    | one => exact this
    | list =>
      show v ∈ upd (leave tgt s x).kids a l b
      by_cases hb : b = a
      · subst hb
        rw [upd_same]
        have h2 : v ∈ (leave tgt s x).kids b := this
        rw [hka] at h2
        exact hl v h2 hv
      · rw [upd_ne _ _ hb]; exact this

theorem enterList_J (ht : Loaded tgt) {s : St} (g : Good tgt s) (a x : Nat) (l : List Nat) (hx : s.cont x ≠ some (a, .list))
    (hl : ∀ v ∈ l, v = x ∨ v ∈ s.kids a) : J (enter tgt (withKids s a l) x a .list) := by
  unfold enter
  rw [leave_withKids s l hx]
  obtain ⟨hJ, hn⟩ := leave_J ht g x
  have hka := leave_kids (tgt := tgt) s x a hx
  intro v b r hv
  show upd (leave tgt s x).cont x (some (a, Ref.list)) v = some (b, r)
  have key : (v = x ∧ b = a ∧ r = .list) ∨ Holds (leave tgt s x) b r v := by
    cases r with
    | one => exact Or.inr hv
    | list =>
      have hv' : v ∈ upd (leave tgt s x).kids a l b := hv
      by_cases hb : b = a
      · subst hb
        rw [upd_same] at hv'
        rcases hl v hv' with e | e
        · exact Or.inl ⟨e, rfl, rfl⟩
        · exact Or.inr (by show v ∈ (leave tgt s x).kids b; rw [hka]; exact e)
      · rw [upd_ne _ _ hb] at hv'; exact Or.inr hv'
  rcases key with ⟨rfl, rfl, rfl⟩ | hh
  · simp
  · have hvx : v ≠ x := by rintro rfl; exact hn b r hh
    rw [upd_ne _ _ hvx]; exact hJ v b r hh

theorem enterOne_H {s : St} (h : H (fun _ => False) s) (a x : Nat) (hx : s.cont x ≠ some (a, .one)) (ho : s.one a = none) :
    H (fun _ => False) (enter tgt (withOne s a (some x)) x a .one) := by
  unfold enter
  rw [leave_withOne s (some x) hx]
  have hH := leave_H (tgt := tgt) h x
  have hka := leave_one (tgt := tgt) s x a hx
  intro v b r _ hc
  by_cases hv : v = x
  · subst hv
    have : some (a, Ref.one) = some (b, r) := by simpa [setCont] using hc
    simp only [Option.some.injEq, Prod.mk.injEq] at this
    obtain ⟨rfl, rfl⟩ := this
    show upd (leave tgt s v).one a (some v) a = some v
    rw [upd_same]
  · have hc' : (leave tgt s x).cont v = some (b, r) := by
      have : upd (leave tgt s x).cont x (some (a, Ref.one)) v = some (b, r) := hc
      rwa [upd_ne _ _ hv] at this
    have := hH v b r hv hc'
    cases r with
    | list => exact this
    | one =>
      show upd (leave tgt s x).one a (some x) b = some v
      by_cases hb : b = a
      · subst hb
        have h2 : (leave tgt s x).one b = some v := this
        rw [hka, ho] at h2; cases h2
      · rw [upd_ne _ _ hb]; exact this

theorem enterOne_J (ht : Loaded tgt) {s : St} (g : Good tgt s) (a x : Nat) (hx : s.cont x ≠ some (a, .one)) :
    J (enter tgt (withOne s a (some x)) x a .one) := by
  unfold enter
  rw [leave_withOne s (some x) hx]
  obtain ⟨hJ, hn⟩ := leave_J ht g x
  intro v b r hv
  show upd (leave tgt s x).cont x (some (a, Ref.one)) v = some (b, r)
  have key : (v = x ∧ b = a ∧ r = .one) ∨ Holds (leave tgt s x) b r v := by
    cases r with
    | list => exact Or.inr hv
    | one =>
      have hv' : upd (leave tgt s x).one a (some x) b = some v := hv
      by_cases hb : b = a
      · subst hb
        rw [upd_same] at hv'
        exact Or.inl ⟨by simpa using hv'.symm, rfl, rfl⟩
      · rw [upd_ne _ _ hb] at hv'; exact Or.inr hv'
  rcases key with ⟨rfl, rfl, rfl⟩ | hh
  · simp
  · have hvx : v ≠ x := by rintro rfl; exact hn b r hh
    rw [upd_ne _ _ hvx]; exact hJ v b r hh

/-! ### Taking out -/

/-- an entry of a list taken out by its index, its container nil -/
theorem removeAt_H {s : St} (h : H (fun _ => False) s) (a i : Nat) : H (fun _ => False) (removeAt s a i) := by
  unfold removeAt
  split
  · exact h
  next x hx =>
    intro v b r _ hc
    have hc' : upd s.cont x none v = some (b, r) := hc
    have hv : v ≠ x := by rintro rfl; simp at hc'
    rw [upd_ne _ _ hv] at hc'
    have := h v b r (fun f => f) hc'
    cases r with
    | one => exact this
    | list =>
      show v ∈ upd s.kids a ((s.kids a).eraseIdx i) b
      by_cases hb : b = a
      · subst hb; rw [upd_same]; exact mem_eraseIdx_ne hx this hv
      · rw [upd_ne _ _ hb]; exact this

theorem distinct_sub {s s' : St} (hd : Distinct tgt s) (hk : ∀ a, (s'.kids a).Sublist (s.kids a)) (ho : ∀ a v, s'.one a = some v → s.one a = some v) :
    Distinct tgt s' := by
  obtain ⟨h1, h2⟩ := hd
  refine ⟨fun a => (h1 a).sublist ((hk a).map _), ?_⟩
  have hh : ∀ a r v, Holds s' a r v → Holds s a r v := by
    intro a r v hv
    cases r with
    | list => exact (hk a).subset hv
    | one => exact ho a v hv
  intro a r v b q w hv hw e
  exact h2 a r v b q w (hh a r v hv) (hh b q w hw) e

theorem removeAt_good {s : St} (g : Good tgt s) (a i : Nat) : Good tgt (removeAt s a i) := by
  refine ⟨removeAt_H g.h a i, ?_, ?_⟩
  · unfold removeAt
    split
    · exact g.j
    next x hx =>
      intro v b r hv
      have hcx : s.cont x = some (a, .list) := g.j x a .list (List.mem_of_getElem? hx)
      have h1 : Holds s b r v := by
        cases r with
        | one => exact hv
        | list =>
          have hv' : v ∈ upd s.kids a ((s.kids a).eraseIdx i) b := hv
          by_cases hab : b = a
          · subst hab; rw [upd_same] at hv'; exact List.mem_of_mem_eraseIdx hv'
          · rw [upd_ne _ _ hab] at hv'; exact hv'
      have hvx : v ≠ x := by
        rintro rfl
        have := g.j v b r h1
        rw [hcx] at this
        simp only [Option.some.injEq, Prod.mk.injEq] at this
        obtain ⟨rfl, rfl⟩ := this
        have hv' : v ∈ upd s.kids a ((s.kids a).eraseIdx i) a := hv
        rw [upd_same] at hv'
        exact not_mem_eraseIdx (distinct_nodup g.d a) hx hv'
      show upd s.cont x none v = _
      rw [upd_ne _ _ hvx]; exact g.j v b r h1
  · apply distinct_sub g.d
    · intro b
      unfold removeAt
      split
      · exact List.Sublist.refl _
      · show (upd s.kids a ((s.kids a).eraseIdx i) b).Sublist _
        by_cases hab : b = a
        · subst hab; rw [upd_same]; exact List.eraseIdx_sublist ..
        · rw [upd_ne _ _ hab]; exact List.Sublist.refl _
    · intro b v hv
      unfold removeAt at hv
      split at hv <;> exact hv

/-- the value of a single reference taken out -/
def outOne (s : St) (a : Nat) : St := withOne (drop s (s.one a)) a none

theorem outOne_H {s : St} (h : H (fun _ => False) s) (a : Nat) : H (fun _ => False) (outOne s a) := by
  unfold outOne
  intro v b r _ hc
  cases ho : s.one a with
  | none =>
    rw [ho] at hc
    have := h v b r (fun f => f) hc
    cases r with
    | list => exact this
    | one =>
      show upd s.one a none b = some v
      have h2 : s.one b = some v := this
      by_cases hb : b = a
      · subst hb; rw [ho] at h2; cases h2
      · rw [upd_ne _ _ hb]; exact h2
  | some x =>
    rw [ho] at hc
    have hc' : upd s.cont x none v = some (b, r) := hc
    have hv : v ≠ x := by rintro rfl; simp at hc'
    rw [upd_ne _ _ hv] at hc'
    have := h v b r (fun f => f) hc'
    cases r with
    | list => exact this
    | one =>
      show upd s.one a none b = some v
      have h2 : s.one b = some v := this
      by_cases hb : b = a
      · subst hb; rw [ho] at h2; exact absurd (by simpa using h2.symm) hv
      · rw [upd_ne _ _ hb]; exact h2

theorem outOne_good {s : St} (g : Good tgt s) (a : Nat) : Good tgt (outOne s a) := by
  have hone : (outOne s a).one = upd s.one a none := by unfold outOne drop; split <;> rfl
  have hkids : (outOne s a).kids = s.kids := by unfold outOne drop; split <;> rfl
  refine ⟨outOne_H g.h a, ?_, ?_⟩
  · intro v b r hv
    have h1 : Holds s b r v ∧ ¬(b = a ∧ r = .one) := by
      cases r with
      | list => exact ⟨by show v ∈ s.kids b; rw [← hkids]; exact hv, by simp⟩
      | one =>
        have hv' : (outOne s a).one b = some v := hv
        rw [hone] at hv'
        by_cases hb : b = a
        · subst hb; simp at hv'
        · rw [upd_ne _ _ hb] at hv'; exact ⟨hv', by simp [hb]⟩
    have hc := g.j v b r h1.1
    cases ho : s.one a with
    | none => unfold outOne; rw [ho]; exact hc
    | some x =>
      unfold outOne; rw [ho]
      show upd s.cont x none v = _
      have hvx : v ≠ x := by
        rintro rfl
        have := g.j v a .one ho
        rw [this] at hc
        simp only [Option.some.injEq, Prod.mk.injEq] at hc
        exact h1.2 ⟨hc.1.symm, hc.2.symm⟩
      rw [upd_ne _ _ hvx]; exact hc
  · apply distinct_sub g.d
    · intro b; rw [hkids]; exact List.Sublist.refl _
    · intro b v hv
      rw [hone] at hv
      by_cases hb : b = a
      · subst hb; simp at hv
      · rwa [upd_ne _ _ hb] at hv

/-! ### The calls -/

theorem mem_set_of_eraseIdx {l : List Nat} {i v x : Nat} (h : v ∈ l.eraseIdx i) : v ∈ l.set i x := by
  obtain ⟨k, hk⟩ := List.mem_iff_getElem?.mp h
  rw [List.getElem?_eraseIdx] at hk
  apply List.mem_iff_getElem?.mpr
  split at hk
  · exact ⟨k, by rw [List.getElem?_set_ne (by omega)]; exact hk⟩
  · exact ⟨k + 1, by rw [List.getElem?_set_ne (by omega)]; exact hk⟩

theorem eraseIdx_of_mem_set {l : List Nat} {i v x : Nat} (h : v ∈ l.set i x) : v = x ∨ v ∈ l.eraseIdx i := by
  obtain ⟨k, hk⟩ := List.mem_iff_getElem?.mp h
  rw [List.getElem?_set] at hk
  split at hk
  · split at hk
    · exact Or.inl (by simpa using hk.symm)
    · cases hk
  next hne =>
    right
    apply List.mem_iff_getElem?.mpr
    by_cases hki : k < i
    · exact ⟨k, by rw [List.getElem?_eraseIdx, if_pos hki]; exact hk⟩
    · exact ⟨k - 1, by rw [List.getElem?_eraseIdx, if_neg (by omega), show k - 1 + 1 = k by omega]; exact hk⟩

theorem not_list {s : St} (h : H (fun _ => False) s) {a x : Nat} (hx : x ∉ s.kids a) : s.cont x ≠ some (a, .list) :=
  fun hc => hx (h x a .list (fun f => f) hc)

theorem add_eq (s : St) (a x : Nat) : add tgt s a x = if (indexOf tgt s a x).2.isSome then (indexOf tgt s a x).1
    else enter tgt (withKids (indexOf tgt s a x).1 a ((indexOf tgt s a x).1.kids a ++ [x])) x a .list := by
  unfold add
  generalize indexOf tgt s a x = q
  obtain ⟨t, r⟩ := q
  cases r <;> rfl

theorem insert_eq (s : St) (a i x : Nat) : insert tgt s a i x = if (s.kids a).length < i then s
    else if (indexOf tgt s a x).2.isSome then (indexOf tgt s a x).1
    else enter tgt (withKids (indexOf tgt s a x).1 a (((indexOf tgt s a x).1.kids a).insertIdx i x)) x a .list := by
  unfold insert
  split
  · rfl
  · generalize indexOf tgt s a x = q
    obtain ⟨t, r⟩ := q
    cases r <;> rfl

theorem remove_eq (s : St) (a x : Nat) : remove tgt s a x = match (indexOf tgt s a x).2 with
    | some i => removeAt (indexOf tgt s a x).1 a i
    | none => (indexOf tgt s a x).1 := by
  unfold remove
  generalize indexOf tgt s a x = q
  obtain ⟨t, r⟩ := q
  cases r <;> rfl

/-- what `Set` does: nothing but reading, or an entry is taken out and another one enters at its place -/
theorem set_cases (s : St) (a i x : Nat) : set tgt s a i x = s ∨ set tgt s a i x = (indexOf tgt s a x).1 ∨
    ((indexOf tgt s a x).2 = none ∧ i < ((indexOf tgt s a x).1.kids a).length ∧ set tgt s a i x =
      enter tgt (withKids (removeAt (indexOf tgt s a x).1 a i) a (((indexOf tgt s a x).1.kids a).set i x)) x a .list) := by
  unfold set
  split
  · exact Or.inl rfl
  · have hsome := @indexOf_some tgt s a x
    revert hsome
    generalize indexOf tgt s a x = q
    obtain ⟨t, r⟩ := q
    intro hsome
    dsimp only
    split
    · exact Or.inr (Or.inl rfl)
    next hr =>
      split
      · exact Or.inr (Or.inl rfl)
      next old hold =>
        have hself : x = old → ({ t with kids := upd t.kids a ((t.kids a).set i x) } : St) = t := by
          rintro rfl
          have e1 : (t.kids a).set i x = t.kids a := by
            apply List.ext_getElem?; intro j; rw [List.getElem?_set]; split <;> grind
          have e2 : upd t.kids a (t.kids a) = t.kids := by funext j; unfold upd; split <;> simp_all
          rw [e1, e2]
        split
        next e => exact Or.inr (Or.inl (hself e))
        next e =>
          cases r with
          | some j =>
            have hji : j = i := by
              by_cases h : j = i
              · exact h
              · exact absurd ⟨rfl, by simpa using h⟩ hr
            subst hji
            have := hsome rfl
            simp only at this
            rw [hold] at this
            exact absurd (by simpa using this.symm) e
          | none =>
            refine Or.inr (Or.inr ⟨rfl, (List.getElem?_eq_some_iff.mp hold).1, ?_⟩)
            have : setCont { t with kids := upd t.kids a ((t.kids a).set i x) } old none = withKids (removeAt t a i) a ((t.kids a).set i x) := by
              unfold removeAt
              rw [hold]
              simp [withKids, setCont, upd_upd]
            rw [this]

theorem getOne_cases (s : St) (a : Nat) : getOne tgt s a = s ∨ ∃ p, s.one a = some p ∧ stand tgt p ≠ p ∧
    getOne tgt s a = enter tgt (withOne (outOne s a) a (some (stand tgt p))) (stand tgt p) a .one := by
  unfold getOne
  split
  · exact Or.inl rfl
  next p hp =>
    split
    · exact Or.inl rfl
    next e =>
      refine Or.inr ⟨p, hp, e, ?_⟩
      have : setCont { s with one := upd s.one a (some (stand tgt p)) } p none = withOne (outOne s a) a (some (stand tgt p)) := by
        unfold outOne drop
        rw [hp]
        simp [withOne, setCont, upd_upd]
      rw [this]

theorem outOne_none (s : St) (a : Nat) : (outOne s a).one a = none := by
  unfold outOne drop; split <;> simp [withOne]

theorem setOne_cases (s : St) (a : Nat) (x : Option Nat) (h : H (fun _ => False) s) : setOne tgt s a x = s ∨ setOne tgt s a x = outOne s a ∨
    ∃ y, x = some y ∧ setOne tgt s a x = enter tgt (withOne (outOne s a) a (some y)) y a .one := by
  unfold setOne
  split
  · exact Or.inl rfl
  · cases x with
    | none =>
      refine Or.inr (Or.inl ?_)
      have h2 : (drop s (s.one a)).one = s.one := by unfold drop; split <;> rfl
      unfold outOne withOne
      dsimp only
      rw [h2]
    | some y =>
      refine Or.inr (Or.inr ⟨y, rfl, ?_⟩)
      have e1 : drop s (s.one a) = withOne (outOne s a) a (s.one a) := by
        have : upd (upd s.one a none) a (s.one a) = s.one := by funext j; unfold upd; split <;> simp_all
        apply St.ext'
        · unfold outOne drop; split <;> rfl
        · have h2 : (drop s (s.one a)).one = s.one := by unfold drop; split <;> rfl
          rw [h2]
          unfold outOne withOne
          simp only
          rw [h2]
          exact this.symm
        · unfold outOne drop; split <;> rfl
        · unfold outOne drop; split <;> rfl
        · unfold outOne drop; split <;> rfl
      have hy : (outOne s a).cont y ≠ some (a, .one) := by
        intro hc
        have := outOne_H h a y a .one (fun f => f) hc
        have h2 : (outOne s a).one a = some y := this
        rw [outOne_none] at h2; cases h2
      dsimp only
      unfold enter
      rw [e1, leave_withOne _ _ hy, leave_withOne _ _ hy]
      simp [setCont, withOne, upd_upd]

theorem clear_eq (s : St) (a : Nat) : clear s a = { s with kids := upd s.kids a [], cont := fun v => if v ∈ s.kids a then none else s.cont v } := by
  have key : ∀ (l : List Nat) (t : St), l.foldl (fun s v => setCont s v none) t = { t with cont := fun v => if v ∈ l then none else t.cont v } := by
    intro l
    induction l with
    | nil => intro t; simp
    | cons y l ih =>
      intro t
      simp only [List.foldl_cons]
      rw [ih]
      simp only [setCont, List.mem_cons]
      congr 1
      funext v
      unfold upd
      by_cases h1 : v ∈ l <;> by_cases h2 : v = y <;> simp [h1, h2]
  unfold clear
  rw [key]

theorem clear_H {s : St} (h : H (fun _ => False) s) (a : Nat) : H (fun _ => False) (clear s a) := by
  rw [clear_eq]
  intro v b r _ hc
  simp only at hc
  split at hc
  · cases hc
  next hv =>
    have := h v b r (fun f => f) hc
    cases r with
    | one => exact this
    | list =>
      show v ∈ upd s.kids a [] b
      have h2 : v ∈ s.kids b := this
      by_cases hb : b = a
      · subst hb; exact absurd h2 hv
      · rw [upd_ne _ _ hb]; exact h2

theorem clear_J {s : St} (g : J s) (a : Nat) : J (clear s a) := by
  rw [clear_eq]
  intro v b r hv
  have h1 : Holds s b r v ∧ ¬(b = a ∧ r = .list) := by
    cases r with
    | one => exact ⟨hv, by simp⟩
    | list =>
      have hv' : v ∈ upd s.kids a [] b := hv
      by_cases hb : b = a
      · subst hb; simp at hv'
      · rw [upd_ne _ _ hb] at hv'; exact ⟨hv', by simp [hb]⟩
  have hc := g v b r h1.1
  simp only
  split
  next hva =>
    have := g v a .list hva
    rw [this] at hc
    simp only [Option.some.injEq, Prod.mk.injEq] at hc
    exact absurd ⟨hc.1.symm, hc.2.symm⟩ h1.2
  next => exact hc

theorem step_H {s : St} (h : H (fun _ => False) s) (op : Op) : H (fun _ => False) (step tgt s op) := by
  cases op with
  | get a i => exact resolveAt_H h a i
  | indexOf a x => exact indexOf_H h a x
  | toArray a => exact toArray_keeps (P := H _) a (fun _ i h => resolveAt_H h a i) _ s h
  | add a x =>
    show H _ (add tgt s a x)
    rw [add_eq]
    have hi := indexOf_H (tgt := tgt) h a x
    split
    · exact hi
    next hr =>
      have hx := indexOf_none (tgt := tgt) (s := s) (a := a) (x := x) (by simpa using hr)
      exact enterList_H hi a x _ (not_list hi hx) (fun v hv _ => by simp [hv]) (by simp)
  | insert a i x =>
    show H _ (insert tgt s a i x)
    rw [insert_eq]
    have hi := indexOf_H (tgt := tgt) h a x
    split
    · exact h
    next hlen =>
      split
      · exact hi
      next hr =>
        have hx := indexOf_none (tgt := tgt) (s := s) (a := a) (x := x) (by simpa using hr)
        have hl : i ≤ ((indexOf tgt s a x).1.kids a).length := by rw [(indexOf_same (tgt := tgt) s a x).len]; omega
        exact enterList_H hi a x _ (not_list hi hx) (fun v hv _ => (List.mem_insertIdx hl).mpr (Or.inr hv)) ((List.mem_insertIdx hl).mpr (Or.inl rfl))
  | removeAt a i => exact removeAt_H h a i
  | remove a x =>
    show H _ (remove tgt s a x)
    rw [remove_eq]
    have hi := indexOf_H (tgt := tgt) h a x
    split
    · exact removeAt_H hi a _
    · exact hi
  | set a i x =>
    show H _ (set tgt s a i x)
    have hi := indexOf_H (tgt := tgt) h a x
    rcases set_cases (tgt := tgt) s a i x with e | e | ⟨hn, hl, e⟩
    · rw [e]; exact h
    · rw [e]; exact hi
    · rw [e]
      have hx := indexOf_none hn
      have hr := removeAt_H hi a i
      have hk : (removeAt (indexOf tgt s a x).1 a i).kids a = ((indexOf tgt s a x).1.kids a).eraseIdx i := by
        unfold removeAt
        rw [List.getElem?_eq_getElem hl]
        simp [setCont]
      refine enterList_H hr a x _ (not_list hr ?_) ?_ (List.mem_set hl _)
      · rw [hk]; exact fun m => hx (List.mem_of_mem_eraseIdx m)
      · intro v hv _; rw [hk] at hv; exact mem_set_of_eraseIdx hv
  | clear a => exact clear_H h a
  | getOne a =>
    show H _ (getOne tgt s a)
    rcases getOne_cases (tgt := tgt) s a with e | ⟨p, _, _, e⟩
    · rw [e]; exact h
    · rw [e]
      have ho := outOne_H h a
      exact enterOne_H ho a _ (fun hc => by
        have h2 : (outOne s a).one a = _ := ho _ a .one (fun f => f) hc
        rw [outOne_none] at h2; cases h2) (outOne_none s a)
  | setOne a x =>
    show H _ (setOne tgt s a x)
    rcases setOne_cases (tgt := tgt) s a x h with e | e | ⟨y, _, e⟩
    · rw [e]; exact h
    · rw [e]; exact outOne_H h a
    · rw [e]
      have ho := outOne_H h a
      exact enterOne_H ho a _ (fun hc => by
        have h2 : (outOne s a).one a = _ := ho _ a .one (fun f => f) hc
        rw [outOne_none] at h2; cases h2) (outOne_none s a)
  | addRoot r x =>
    show H _ (addRoot s r x)
    unfold addRoot
    split
    · exact h
    · dsimp only
      split <;> exact h
  | removeRoot r x =>
    show H _ (removeRoot s r x)
    unfold removeRoot
    split <;> exact h

theorem step_J (ht : Loaded tgt) {s : St} (g : Good tgt s) (op : Op) : J (step tgt s op) := by
  have h := g.h
  cases op with
  | get a i => exact resolveAt_J ht g a i
  | indexOf a x => exact (indexOf_good ht g a x).j
  | toArray a => exact (toArray_keeps (P := Good tgt) a (fun _ i h => resolveAt_good ht h a i) _ s g).j
  | add a x =>
    show J (add tgt s a x)
    rw [add_eq]
    have hi := indexOf_good ht g a x
    split
    · exact hi.j
    next hr =>
      have hx := indexOf_none (tgt := tgt) (s := s) (a := a) (x := x) (by simpa using hr)
      exact enterList_J ht hi a x _ (not_list hi.h hx) (fun v hv => by simpa [or_comm] using hv)
  | insert a i x =>
    show J (insert tgt s a i x)
    rw [insert_eq]
    have hi := indexOf_good ht g a x
    split
    · exact g.j
    next hlen =>
      split
      · exact hi.j
      next hr =>
        have hx := indexOf_none (tgt := tgt) (s := s) (a := a) (x := x) (by simpa using hr)
        have hl : i ≤ ((indexOf tgt s a x).1.kids a).length := by rw [(indexOf_same (tgt := tgt) s a x).len]; omega
        exact enterList_J ht hi a x _ (not_list hi.h hx) (fun v hv => (List.mem_insertIdx hl).mp hv)
  | removeAt a i => exact (removeAt_good g a i).j
  | remove a x =>
    show J (remove tgt s a x)
    rw [remove_eq]
    have hi := indexOf_good ht g a x
    split
    · exact (removeAt_good hi a _).j
    · exact hi.j
  | set a i x =>
    show J (set tgt s a i x)
    have hi := indexOf_good ht g a x
    rcases set_cases (tgt := tgt) s a i x with e | e | ⟨hn, hl, e⟩
    · rw [e]; exact g.j
    · rw [e]; exact hi.j
    · rw [e]
      have hx := indexOf_none hn
      have hr := removeAt_good hi a i
      have hk : (removeAt (indexOf tgt s a x).1 a i).kids a = ((indexOf tgt s a x).1.kids a).eraseIdx i := by
        unfold removeAt
        rw [List.getElem?_eq_getElem hl]
        simp [setCont]
      refine enterList_J ht hr a x _ (not_list hr.h ?_) ?_
      · rw [hk]; exact fun m => hx (List.mem_of_mem_eraseIdx m)
      · intro v hv; rw [hk]; exact eraseIdx_of_mem_set hv
  | clear a => exact clear_J g.j a
  | getOne a =>
    show J (getOne tgt s a)
    rcases getOne_cases (tgt := tgt) s a with e | ⟨p, _, _, e⟩
    · rw [e]; exact g.j
    · rw [e]
      have ho := outOne_good g a
      exact enterOne_J ht ho a _ (fun hc => by
        have h2 : (outOne s a).one a = _ := ho.h _ a .one (fun f => f) hc
        rw [outOne_none] at h2; cases h2)
  | setOne a x =>
    show J (setOne tgt s a x)
    rcases setOne_cases (tgt := tgt) s a x h with e | e | ⟨y, _, e⟩
    · rw [e]; exact g.j
    · rw [e]; exact (outOne_good g a).j
    · rw [e]
      have ho := outOne_good g a
      exact enterOne_J ht ho a _ (fun hc => by
        have h2 : (outOne s a).one a = _ := ho.h _ a .one (fun f => f) hc
        rw [outOne_none] at h2; cases h2)
  | addRoot r x =>
    show J (addRoot s r x)
    unfold addRoot
    split
    · exact g.j
    · dsimp only
      split <;> exact g.j
  | removeRoot r x =>
    show J (removeRoot s r x)
    unfold removeRoot
    split <;> exact g.j

theorem run_snoc (s : St) (ops : List Op) (op : Op) : run tgt s (ops ++ [op]) = step tgt (run tgt s ops) op := by simp [run]

theorem snoc_ind {P : List Op → Prop} (h0 : P []) (h1 : ∀ ops op, P ops → P (ops ++ [op])) (ops : List Op) : P ops := by
  have : ∀ n (ops : List Op), ops.length = n → P ops := by
    intro n
    induction n with
    | zero => intro ops h; rw [List.length_eq_zero_iff.mp h]; exact h0
    | succ n ih =>
      intro ops h
      have hne : ops ≠ [] := by rintro rfl; simp at h
      rw [← List.dropLast_concat_getLast hne]
      exact h1 _ _ (ih _ (by simp [h]))
  exact this _ ops rfl

theorem run_H (ops : List Op) : H (fun _ => False) (run tgt init ops) := by
  induction ops using snoc_ind with
  | h0 => intro v a r _ hc; cases hc
  | h1 ops op ih => rw [run_snoc]; exact step_H ih op

theorem run_J (ht : Loaded tgt) (ops : List Op) : (∀ k, k < ops.length → Distinct tgt (run tgt init (ops.take k))) → J (run tgt init ops) := by
  induction ops using snoc_ind with
  | h0 => intro _ v a r hh; cases r <;> simp [Holds, run, init] at hh
  | h1 ops op ih =>
    intro hd
    rw [run_snoc]
    have hd' : ∀ k, k < ops.length → Distinct tgt (run tgt init (ops.take k)) := by
      intro k hk
      have := hd k (by simp; omega)
      rwa [List.take_append_of_le_length (by omega)] at this
    have hl := hd ops.length (by simp)
    rw [List.take_append_of_le_length (by omega), List.take_length] at hl
    exact step_J ht ⟨run_H ops, ih hd', hl⟩ op

/-! ### Resources -/

/-- contents and resource of an object agree -/
def R (s : St) : Prop := (∀ x r, x ∈ s.roots r ↔ s.res x = some r) ∧ ∀ r, (s.roots r).Nodup

theorem enter_res (s : St) (o a : Nat) (r : Ref) : (enter tgt s o a r).res = s.res ∧ (enter tgt s o a r).roots = s.roots := by
  have := leave_res (tgt := tgt) s o
  exact this

theorem outOne_res (s : St) (a : Nat) : (outOne s a).res = s.res ∧ (outOne s a).roots = s.roots := by
  unfold outOne drop; split <;> exact ⟨rfl, rfl⟩

theorem removeAt_res (s : St) (a i : Nat) : (removeAt s a i).res = s.res ∧ (removeAt s a i).roots = s.roots := by
  unfold removeAt; split <;> exact ⟨rfl, rfl⟩

/-- only the calls on resources change resources -/
theorem step_res (s : St) (op : Op) (h1 : ∀ r x, op ≠ .addRoot r x) (h2 : ∀ r x, op ≠ .removeRoot r x) :
    (step tgt s op).res = s.res ∧ (step tgt s op).roots = s.roots := by
  have hi : ∀ a x, (indexOf tgt s a x).1.res = s.res ∧ (indexOf tgt s a x).1.roots = s.roots :=
    fun a x => ⟨(indexOf_same s a x).res, (indexOf_same s a x).roots⟩
  cases op with
  | get a i => exact ⟨(resolveAt_same s a i).res, (resolveAt_same s a i).roots⟩
  | indexOf a x => exact hi a x
  | toArray a =>
    exact toArray_keeps (P := fun t => t.res = s.res ∧ t.roots = s.roots) a
      (fun t i h => ⟨(resolveAt_same t a i).res.trans h.1, (resolveAt_same t a i).roots.trans h.2⟩) _ s ⟨rfl, rfl⟩
  | add a x =>
    show (add tgt s a x).res = _ ∧ (add tgt s a x).roots = _
    rw [add_eq]
    split
    · exact hi a x
    · rw [(enter_res _ _ _ _).1, (enter_res _ _ _ _).2]; exact hi a x
  | insert a i x =>
    show (insert tgt s a i x).res = _ ∧ (insert tgt s a i x).roots = _
    rw [insert_eq]
    split
    · exact ⟨rfl, rfl⟩
    · split
      · exact hi a x
      · rw [(enter_res _ _ _ _).1, (enter_res _ _ _ _).2]; exact hi a x
  | removeAt a i => exact removeAt_res s a i
  | remove a x =>
    show (remove tgt s a x).res = _ ∧ (remove tgt s a x).roots = _
    rw [remove_eq]
    split
    · rw [(removeAt_res _ _ _).1, (removeAt_res _ _ _).2]; exact hi a x
    · exact hi a x
  | set a i x =>
    show (set tgt s a i x).res = _ ∧ (set tgt s a i x).roots = _
    rcases set_cases (tgt := tgt) s a i x with e | e | ⟨hn, hl, e⟩
    · rw [e]; exact ⟨rfl, rfl⟩
    · rw [e]; exact hi a x
    · rw [e, (enter_res _ _ _ _).1, (enter_res _ _ _ _).2]
      show (removeAt _ a i).res = _ ∧ (removeAt _ a i).roots = _
      rw [(removeAt_res _ _ _).1, (removeAt_res _ _ _).2]; exact hi a x
  | clear a => show (clear s a).res = _ ∧ (clear s a).roots = _; rw [clear_eq]; exact ⟨rfl, rfl⟩
  | getOne a =>
    show (getOne tgt s a).res = _ ∧ (getOne tgt s a).roots = _
    rcases getOne_cases (tgt := tgt) s a with e | ⟨p, _, _, e⟩
    · rw [e]; exact ⟨rfl, rfl⟩
    · rw [e, (enter_res _ _ _ _).1, (enter_res _ _ _ _).2]; exact outOne_res s a
  | setOne a x =>
    show (setOne tgt s a x).res = _ ∧ (setOne tgt s a x).roots = _
    unfold setOne
    split
    · exact ⟨rfl, rfl⟩
    · cases x with
      | none =>
        show (drop s (s.one a)).res = _ ∧ (drop s (s.one a)).roots = _
        unfold drop; split <;> exact ⟨rfl, rfl⟩
      | some y =>
        show (enter tgt (drop s (s.one a)) y a .one).res = _ ∧ (enter tgt (drop s (s.one a)) y a .one).roots = _
        rw [(enter_res _ _ _ _).1, (enter_res _ _ _ _).2]
        unfold drop; split <;> exact ⟨rfl, rfl⟩
  | addRoot r x => exact absurd rfl (h1 r x)
  | removeRoot r x => exact absurd rfl (h2 r x)

theorem step_R {s : St} (h : R s) (op : Op) : R (step tgt s op) := by
  have other : (∀ r x, op ≠ .addRoot r x) → (∀ r x, op ≠ .removeRoot r x) → R (step tgt s op) := by
    intro h1 h2
    obtain ⟨e1, e2⟩ := step_res (tgt := tgt) s op h1 h2
    unfold R
    rw [e1, e2]; exact h
  cases op with
  | addRoot r x =>
    show R (addRoot s r x)
    unfold addRoot
    split
    · exact h
    next hx =>
      dsimp only
      obtain ⟨h1, h2⟩ := h
      cases hr : s.res x with
      | none =>
        constructor
        · intro y q
          have := h1 y q
          have hy := h1 x q
          simp only [upd]
          grind
        · intro q
          have := h2 q
          have := h2 r
          simp only [upd]
          split
          · rename_i e; subst e; rw [List.nodup_append]; exact ⟨this, by simp, by grind⟩
          · exact h2 q
      | some q0 =>
        have hq : q0 ≠ r := by rintro rfl; exact hx ((h1 x q0).mpr hr)
        dsimp only
        rw [upd_ne _ _ hq]
        constructor
        · intro y q
          have := h1 y q
          have hxq := h1 x q
          have hn := h2 q0
          simp only [upd]
          by_cases hqq : q = q0
          · subst hqq; simp only [↓reduceIte, hn.mem_erase_iff]; grind
          · simp only [hqq, ↓reduceIte]; grind
        · intro q
          simp only [upd]
          split
          · exact (h2 q0).erase x
          · split
            · rename_i e; subst e; rw [List.nodup_append]; exact ⟨h2 q, by simp, by grind⟩
            · exact h2 q
  | removeRoot r x =>
    show R (removeRoot s r x)
    unfold removeRoot
    split
    next hx =>
      obtain ⟨h1, h2⟩ := h
      constructor
      · intro y q
        have := h1 y q
        have hxq := h1 x q
        have hxr := h1 x r
        have hn := h2 r
        simp only [upd]
        by_cases hqq : q = r
        · subst hqq; simp only [↓reduceIte, hn.mem_erase_iff]; grind
        · simp only [hqq, ↓reduceIte]; grind
      · intro q
        simp only [upd]
        split
        · exact (h2 r).erase x
        · exact h2 q
    · exact h
  | _ => exact other (fun _ _ => by simp) (fun _ _ => by simp)

theorem run_R (ops : List Op) : R (run tgt init ops) := by
  induction ops using snoc_ind with
  | h0 => exact ⟨fun x r => by simp [run, init], fun r => by simp [run, init]⟩
  | h1 ops op ih => rw [run_snoc]; exact step_R ih op

/-! ### What is shown -/

theorem standsFor_eq : standsFor tgt = stand tgt := by funext o; exact (stand_eq o).symm

theorem shown_same {s s' : St} {a : Nat} (hs : Same s s' a) (hm : (s'.kids a).map (stand tgt) = (s.kids a).map (stand tgt)) (b : Nat) :
    (s'.kids b).map (standsFor tgt) = (s.kids b).map (standsFor tgt) := by
  rw [standsFor_eq]
  by_cases hb : b = a
  · subst hb; exact hm
  · rw [hs.kids b hb]

theorem toArray_same (s : St) (a n : Nat) : Same s (toArray tgt s a n) a :=
  toArray_keeps (P := fun t => Same s t a) a (fun t i h => h.trans (resolveAt_same t a i)) n s (Same.refl s a)

theorem toArray_shown (ht : Loaded tgt) (s : St) (a n : Nat) :
    ((toArray tgt s a n).kids a).map (stand tgt) = (s.kids a).map (stand tgt) :=
  toArray_keeps (P := fun t => (t.kids a).map (stand tgt) = (s.kids a).map (stand tgt)) a
    (fun t i h => (resolveAt_shown ht t a i).trans h) n s rfl

theorem getOne_good (ht : Loaded tgt) {s : St} (g : Good tgt s) (a : Nat) :
    (getOne tgt s a).kids = s.kids ∧ ∀ b, ((getOne tgt s a).one b).map (standsFor tgt) = (s.one b).map (standsFor tgt) := by
  rcases getOne_cases (tgt := tgt) s a with e | ⟨p, hp, hne, e⟩
  · rw [e]; exact ⟨rfl, fun _ => rfl⟩
  · have hfree : s.cont (stand tgt p) = none := by
      cases hc : s.cont (stand tgt p) with
      | none => rfl
      | some k =>
        obtain ⟨b, r⟩ := k
        have hh := g.h _ b r (fun f => f) hc
        obtain ⟨rfl, rfl⟩ := distinct_ne g.d (show Holds s a .one p from hp) hh (stand_stand ht p).symm
        have h2 : s.one a = some (stand tgt p) := hh
        rw [hp] at h2
        exact absurd (by simpa using h2.symm) hne
    have hc : (withOne (outOne s a) a (some (stand tgt p))).cont (stand tgt p) = none := by
      unfold outOne drop
      rw [hp]
      show upd s.cont p none (stand tgt p) = none
      rw [upd_ne _ _ hne]; exact hfree
    rw [e]
    unfold enter leave
    rw [hc]
    dsimp only
    refine ⟨?_, ?_⟩
    · show (outOne s a).kids = s.kids
      unfold outOne drop; split <;> rfl
    · intro b
      have hone : (outOne s a).one = upd s.one a none := by unfold outOne drop; split <;> rfl
      show (upd (outOne s a).one a (some (stand tgt p)) b).map _ = _
      rw [hone, upd_upd]
      by_cases hb : b = a
      · subst hb; rw [upd_same, hp, standsFor_eq]; simp [stand_stand ht]
      · rw [upd_ne _ _ hb]

end Verif.CrossContainment
