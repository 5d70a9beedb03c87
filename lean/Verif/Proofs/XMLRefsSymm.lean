import Verif.Proofs.XMLRefs

/-!
# Loading keeps graphs consistent
-/

namespace Verif.XMLRefs

open Graph

variable {E : Env} {cls : Nat → Nat} {doc : List Elem}

theorem many_not_container (wf : WellFormed E.M) {f : Nat} (hm : (E.M.refs f).many = true) : E.M.isContainer f = false := by
  cases ho : (E.M.refs f).opposite with
  | none => simp [Meta.isContainer, ho]
  | some g =>
    cases hc : (E.M.refs g).containment with
    | false => rw [isContainer_opp ho, hc]
    | true =>
      have := (wf.cont g f hc (wf.opp f g ho).1).2
      rw [hm] at this; simp at this

theorem good_fits (wf : WellFormed E.M) {w : World} (h : Good E.M cls w) {p f y : Nat} (hf : f ∈ E.M.features (cls p)) (hy : y ∈ eGet E.M w p f) : Fits E.M cls f y := by
  rw [get_eq wf h.cls_eq hf] at hy
  split at hy
  · rename_i hc
    split at hy
    · rename_i hi
      simp only [Option.mem_toList] at hy
      obtain ⟨s, hp⟩ := h.code p y hy
      have hcode := hp.cfid
      rw [hi] at hcode
      simp only [code] at hcode
      cases ho : (E.M.refs s).opposite with
      | none => rw [ho] at hcode; simp only at hcode; omega
      | some s' =>
        rw [ho] at hcode
        simp only at hcode
        have hs' := hp.fits s' ho
        have := wf.inj hf hs' (by omega)
        subst this
        intro f' hf'
        rw [(wf.opp s f ho).1] at hf'
        injection hf' with hf'
        subst hf'
        exact hp.mem
    · simp at hy
  · rename_i hn
    exact h.fitsK hf (by simpa using hn) hy

theorem good_setValue (wf : WellFormed E.M) {w w' : World} (h : Good E.M cls w) {o f x : Nat} {pos : Option Nat} (hf : f ∈ E.M.features (cls o)) (hx : Fits E.M cls f x)
    (hs : setValue E w o f x pos = some w') : Good E.M cls w' := by
  simp only [setValue] at hs
  split at hs
  · rename_i hm
    have hl : ∀ op : LOp, (∀ e ∈ op.added, e = x) → listOp E.M w o f op = some w' → Good E.M cls w' := by
      intro op ho hs
      exact good_listOp wf h hf hm (many_not_container wf hm) op (fun e he => ho e he ▸ hx) hs
    split at hs
    · exact hl _ (by simp [LOp.added]) hs
    · split at hs
      · split at hs
        · exact hl _ (by simp [LOp.added]) hs
        · exact hl _ (by simp [LOp.added]) hs
      · split at hs
        · exact hl _ (by simp [LOp.added]) hs
        · split at hs
          · exact hl _ (by simp [LOp.added]) hs
          · simp at hs
  · rename_i hm
    obtain ⟨w1, h1, h2⟩ := good_eSet wf h hf (by simpa using hm) (some x) (by rintro y hy; injection hy with hy; exact hy ▸ hx)
    rw [hs] at h1
    injection h1 with h1
    exact h1 ▸ h2

theorem good_setIds (wf : WellFormed E.M) {o f : Nat} {known : List Nat} (hf : f ∈ E.M.features (cls o)) (xs : List Nat) :
    ∀ (w : World) (pos : Nat) (refs : List Pending) (w' : World) (refs' : List Pending), Good E.M cls w → (∀ x ∈ xs, Fits E.M cls f x) →
      (∀ p ∈ refs, p.feature ∈ E.M.features (cls p.obj) ∧ Fits E.M cls p.feature p.id) → setIds E o f known w pos refs xs = some (w', refs') →
      Good E.M cls w' ∧ ∀ p ∈ refs', p.feature ∈ E.M.features (cls p.obj) ∧ Fits E.M cls p.feature p.id := by
  induction xs with
  | nil => intro w pos refs w' refs' h _ hr he; simp only [setIds, Option.some.injEq, Prod.mk.injEq] at he; obtain ⟨rfl, rfl⟩ := he; exact ⟨h, hr⟩
  | cons x xs ih =>
    intro w pos refs w' refs' h hx hr he
    simp only [setIds] at he
    split at he
    · split at he
      · simp at he
      · rename_i w1 h1
        exact ih _ _ _ _ _ (good_setValue wf h hf (hx x (by simp)) h1) (fun y hy => hx y (by simp [hy])) hr he
    · refine ih _ _ _ _ _ h (fun y hy => hx y (by simp [hy])) ?_ he
      intro p hp
      split at hp
      · simp only [List.mem_append, List.mem_singleton] at hp
        rcases hp with hp | rfl
        · exact hr p hp
        · exact ⟨hf, hx x (by simp)⟩
      · exact hr p hp

theorem good_setAttrs (wf : WellFormed E.M) {o : Nat} {known : List Nat} (as : List (Nat × List Nat)) :
    ∀ (w : World) (refs : List Pending) (w' : World) (refs' : List Pending), Good E.M cls w → (∀ p ∈ as, p.1 ∈ E.M.features (cls o) ∧ ∀ x ∈ p.2, Fits E.M cls p.1 x) →
      (∀ p ∈ refs, p.feature ∈ E.M.features (cls p.obj) ∧ Fits E.M cls p.feature p.id) → setAttrs E o known w refs as = some (w', refs') →
      Good E.M cls w' ∧ ∀ p ∈ refs', p.feature ∈ E.M.features (cls p.obj) ∧ Fits E.M cls p.feature p.id := by
  induction as with
  | nil => intro w refs w' refs' h _ hr he; simp only [setAttrs, Option.some.injEq, Prod.mk.injEq] at he; obtain ⟨rfl, rfl⟩ := he; exact ⟨h, hr⟩
  | cons a as ih =>
    intro w refs w' refs' h hx hr he
    obtain ⟨f, xs⟩ := a
    simp only [setAttrs] at he
    split at he
    · simp at he
    · rename_i w1 new h1
      obtain ⟨hf, hxs⟩ := hx (f, xs) (by simp)
      obtain ⟨g1, g2⟩ := good_setIds wf hf xs _ _ _ _ _ h hxs (by simp) h1
      refine ih _ _ _ _ g1 (fun p hp => hx p (by simp [hp])) ?_ he
      intro p hp
      simp only [List.mem_append] at hp
      rcases hp with hp | hp
      · exact hr p hp
      · exact g2 p hp

/-- states of the decoder that are consistent -/
structure GoodState (E : Env) (cls : Nat → Nat) (s : State) : Prop where
  good : Good E.M cls s.w
  refs : ∀ p ∈ s.refs, p.feature ∈ E.M.features (cls p.obj) ∧ Fits E.M cls p.feature p.id
  same : ∀ p ∈ s.same, ∀ f ∈ E.M.features (cls p.1), f ∈ E.M.features (cls p.2)

theorem good_readElems (wf : WellFormed E.M) (es : List Elem) : ∀ s s', GoodState E cls s → TypedDocument E.M cls es → readElems E s es = some s' → GoodState E cls s' := by
  induction es with
  | nil => intro s s' h _ he; simp only [readElems, Option.some.injEq] at he; exact he ▸ h
  | cons e es ih =>
    intro s s' h ht he
    simp only [readElems] at he
    split at he
    · simp at he
    · rename_i s1 h1
      refine ih _ _ ?_ ⟨fun e he => ht.attrs e (by simp [he]), fun e he => ht.places e (by simp [he]), fun e he => ht.proxies e (by simp [he])⟩ he
      simp only [readElem] at h1
      split at h1
      · simp at h1
      · rename_i w1 refs1 h2
        obtain ⟨g1, g2⟩ := good_setAttrs wf _ _ _ _ _ h.good (ht.attrs e (by simp)) h.refs h2
        split at h1
        · simp at h1
        · rename_i w2 h3
          injection h1 with h1
          subst h1
          refine ⟨?_, g2, ?_⟩
          · cases hp : e.place with
            | none => rw [hp] at h3; simp only [putPlace, Option.some.injEq] at h3; exact h3 ▸ g1
            | some q =>
              obtain ⟨a, r⟩ := q
              rw [hp] at h3
              obtain ⟨k1, k2⟩ := ht.places e (by simp) a r hp
              exact good_setValue (pos := none) (w' := w2) wf g1 k1 k2 h3
          · intro p hp
            simp only at hp
            split at hp
            · rename_i x hx
              simp only [List.mem_append, List.mem_singleton] at hp
              rcases hp with hp | rfl
              · exact h.same p hp
              · exact ht.proxies e (by simp) x hx
            · exact h.same p hp

theorem good_replaceProxy (wf : WellFormed E.M) {w w' : World} (h : Good E.M cls w) {p x f g y : Nat} (hg : g ∈ E.M.features (cls y)) (hx : Fits E.M cls g x)
    (hs : replaceProxy E w p x f g y = some w') : Good E.M cls w' := by
  have hl : ∀ op : LOp, (E.M.refs g).many = true → (∀ e ∈ op.added, e = x) → ∀ w', listOp E.M w y g op = some w' → Good E.M cls w' := by
    intro op hm ho w' hs
    exact good_listOp wf h hg hm (many_not_container wf hm) op (fun e he => ho e he ▸ hx) hs
  simp only [replaceProxy] at hs
  split at hs
  · rename_i hm
    split at hs
    · simp only [Option.map_eq_some_iff, removeNumber, exists_eq_right] at hs
      exact hl _ hm.1 (by simp [LOp.added]) _ hs
    · simp at hs
  · split at hs
    · simp at hs
    · injection hs with hs; exact hs ▸ h
    · split at hs
      · rename_i hm
        split at hs
        · exact hl _ hm (by simp [LOp.added]) _ hs
        · simp at hs
      · rename_i hm
        obtain ⟨w1, h1, h2⟩ := good_eSet wf h hg (by simpa using hm) (some x) (by rintro y hy; injection hy with hy; exact hy ▸ hx)
        rw [hs] at h1
        injection h1 with h1
        exact h1 ▸ h2

theorem good_sameRefs (wf : WellFormed E.M) {known : List Nat} {p x : Nat} (hpx : ∀ f ∈ E.M.features (cls p), f ∈ E.M.features (cls x)) (fs : List Nat) :
    ∀ w w', (∀ f ∈ fs, f ∈ E.M.features (cls p)) → Good E.M cls w → sameRefs E known p x w fs = some w' → Good E.M cls w' := by
  induction fs with
  | nil => intro w w' _ h he; simp only [sameRefs, Option.some.injEq] at he; exact he ▸ h
  | cons f fs ih =>
    intro w w' hfs h he
    simp only [sameRefs] at he
    split at he
    · exact ih _ _ (fun f hf => hfs f (by simp [hf])) h he
    · rename_i g hg
      split at he
      · split at he
        · simp at he
        · rename_i y hy
          have hy' := List.mem_of_mem_head? hy
          have hf := hfs f (by simp)
          refine good_replaceProxy wf h (good_fits wf h hf hy' g hg) ?_ he
          intro f' hf'
          rw [(wf.opp f g hg).1] at hf'
          injection hf' with hf'
          exact hf' ▸ hpx f hf
      · exact ih _ _ (fun f hf => hfs f (by simp [hf])) h he

theorem good_sameProxies (wf : WellFormed E.M) {known : List Nat} (ps : List (Nat × Nat)) :
    ∀ w w', (∀ p ∈ ps, ∀ f ∈ E.M.features (cls p.1), f ∈ E.M.features (cls p.2)) → Good E.M cls w → sameProxies E cls known w ps = some w' → Good E.M cls w' := by
  induction ps with
  | nil => intro w w' _ h he; simp only [sameProxies, Option.some.injEq] at he; exact he ▸ h
  | cons p ps ih =>
    intro w w' hps h he
    obtain ⟨p, x⟩ := p
    simp only [sameProxies] at he
    split at he
    · simp at he
    · rename_i w1 h1
      exact ih _ _ (fun q hq => hps q (by simp [hq])) (good_sameRefs wf (hps (p, x) (by simp)) _ _ _ (fun _ h => h) h h1) he

theorem good_setPending (wf : WellFormed E.M) {known : List Nat} (ps : List Pending) :
    ∀ w n w' n', (∀ p ∈ ps, p.feature ∈ E.M.features (cls p.obj) ∧ Fits E.M cls p.feature p.id) → Good E.M cls w → setPending E known w n ps = some (w', n') → Good E.M cls w' := by
  induction ps with
  | nil => intro w n w' n' _ h he; simp only [setPending, Option.some.injEq, Prod.mk.injEq] at he; exact he.1 ▸ h
  | cons p ps ih =>
    intro w n w' n' hps h he
    simp only [setPending] at he
    split at he
    · split at he
      · simp at he
      · rename_i w1 h1
        obtain ⟨k1, k2⟩ := hps p (by simp)
        exact ih _ _ _ _ (fun q hq => hps q (by simp [hq])) (good_setValue wf h k1 k2 h1) he
    · exact ih _ _ _ _ (fun q hq => hps q (by simp [hq])) h he

theorem good_load (wf : WellFormed E.M) (ht : TypedDocument E.M cls doc) {s : State} (h : load E cls doc = some s) : Good E.M cls s.w := by
  simp only [load] at h
  split at h
  · simp at h
  · rename_i s1 h1
    have g1 := good_readElems wf doc _ _ ⟨good_init _ _, by simp, by simp⟩ ht h1
    split at h
    · simp at h
    · rename_i w1 h2
      have g2 := good_sameProxies wf _ _ _ g1.same g1.good h2
      split at h
      · simp at h
      · rename_i w2 n h3
        injection h with h
        subst h
        exact good_setPending wf _ _ _ _ _ g1.refs g2 h3

end Verif.XMLRefs
