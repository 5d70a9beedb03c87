import Verif.Spec.DynamicObject
/-
Proofs for C90: the objects are simulated by records.
-/
set_option autoImplicit false
namespace Verif.DynamicObject
open Verif.Spec.DynamicObject

def RepSlot (m : Meta) (f : Nat) (s : Slot) (one : Option Val) (many : List Val) : Prop :=
  if m.many f then (s = .empty ∧ many = []) ∨ s = .many ⟨m.fid f, m.containment f, many⟩ else s = toSlot one

def RepCont (m : Meta) (cls : Nat → Option Nat) : Option (Nat × Nat) → Option (Nat × Nat) → Prop
  | none, none => True
  | some (k, id), some (k', f) => k = k' ∧ ∃ c, cls k = some c ∧ f ∈ m.all c ∧ id = (m.all c).idxOf f
  | _, _ => False

def RepProps (m : Meta) (r : Rec) : Option (List Slot) → Prop
  | none => (r.dynamic = false ∧ r.used = false) ∧ ∀ f ∈ m.all r.cls, r.one f = none ∧ r.many f = []
  | some ps => (r.dynamic = true ∨ r.used = true) ∧ ps.length = (m.all r.cls).length ∧
      ∀ f ∈ m.all r.cls, ∃ s, ps[(m.all r.cls).idxOf f]? = some s ∧ RepSlot m f s (r.one f) (r.many f)

structure RelObj (m : Meta) (cls : Nat → Option Nat) (o : Obj) (r : Rec) : Prop where
  dyn : o.dynamic = r.dynamic
  kls : o.cls = r.cls
  fits : Fits m r.dynamic r.cls
  props : RepProps m r o.props
  out : ∀ f, f ∉ m.all r.cls → r.one f = none ∧ r.many f = []
  cont : RepCont m cls o.cont r.cont
  contents : o.contents = if r.listed then some ((m.all r.cls).filter fun f => m.containment f) else none

def clsOf (h : Heap) (k : Nat) : Option Nat := (h.recs[k]?).map (·.cls)

structure Rel (w : World) (h : Heap) : Prop where
  m : w.m = h.m
  len : w.objs.length = h.recs.length
  objs : ∀ (i : Nat) o r, w.objs[i]? = some o → h.recs[i]? = some r → RelObj h.m (clsOf h) o r

theorem Rel.get {w : World} {h : Heap} (R : Rel w h) {i : Nat} {r : Rec} (e : h.recs[i]? = some r) :
    ∃ o, w.objs[i]? = some o ∧ RelObj h.m (clsOf h) o r := by
  have hi : i < w.objs.length := by
    rw [R.len]; exact (List.getElem?_eq_some_iff.1 e).1
  exact ⟨w.objs[i], List.getElem?_eq_getElem hi, R.objs i _ r (List.getElem?_eq_getElem hi) e⟩

theorem at_get (h : Heap) (i : Nat) (g : Rec → Rec) (j : Nat) :
    (h.at i g).recs[j]? = if i = j then (h.recs[j]?).map g else h.recs[j]? := by
  simp only [Heap.at, List.getElem?_modify]
  split <;> cases h.recs[j]? <;> simp

theorem at_m (h : Heap) (i : Nat) (g : Rec → Rec) : (h.at i g).m = h.m := rfl

theorem clsOf_at (h : Heap) (i : Nat) (g : Rec → Rec) (hg : ∀ r, (g r).cls = r.cls) : clsOf (h.at i g) = clsOf h := by
  funext k
  simp only [clsOf, at_get]
  split
  · cases h.recs[k]? <;> simp [hg]
  · rfl

theorem rel_at {w : World} {h : Heap} (R : Rel w h) {i : Nat} {r : Rec} (e : h.recs[i]? = some r) (g : Rec → Rec)
    (hg : ∀ r, (g r).cls = r.cls) (o' : Obj) (ho : RelObj h.m (clsOf h) o' (g r)) :
    Rel { w with objs := w.objs.set i o' } (h.at i g) := by
  have hlt : i < w.objs.length := by rw [R.len]; exact (List.getElem?_eq_some_iff.1 e).1
  refine ⟨R.m, by simp [Heap.at, R.len], ?_⟩
  intro j o r' h1 h2
  rw [clsOf_at h i g hg, at_m]
  rw [at_get] at h2
  simp only [List.getElem?_set] at h1
  by_cases hij : i = j
  · subst hij
    rw [if_pos rfl, e] at h2
    rw [if_pos rfl, if_pos hlt] at h1
    cases h1; cases h2
    exact ho
  · rw [if_neg hij] at h1 h2
    exact R.objs j o r' h1 h2

/-! ### Positions -/

theorem idx_of_get (l : List Nat) (hn : l.Nodup) (f i : Nat) (hi : l[i]? = some f) : l.idxOf f = i := by
  obtain ⟨h1, h2⟩ := List.getElem?_eq_some_iff.1 hi
  subst h2
  exact List.Nodup.idxOf_getElem hn i h1

theorem scan_nodup (l : List Nat) (hn : l.Nodup) (f : Nat) : ∀ k i, l[i]? = some f → l.length - k = i - k + (l.length - i) → k ≤ i →
    EClass.scan l f k = (i : Int) := by
  intro k i hi _ hk
  induction h : i - k generalizing k with
  | zero =>
    have : k = i := by omega
    subst this
    obtain ⟨h1, h2⟩ := List.getElem?_eq_some_iff.1 hi
    rw [EClass.scan, dif_pos h1, if_pos h2]
  | succ d ih =>
    obtain ⟨h1, h2⟩ := List.getElem?_eq_some_iff.1 hi
    rw [EClass.scan, dif_pos (by omega), if_neg]
    · exact ih (k + 1) (by omega) (by omega) (by omega)
    · intro hc
      have h3 := idx_of_get l hn f k (by rw [List.getElem?_eq_getElem (by omega), hc])
      have h4 := idx_of_get l hn f i hi
      omega

theorem get_idx (l : List Nat) (f : Nat) (h : f ∈ l) : l[l.idxOf f]? = some f := by
  have := List.idxOf_lt_length_of_mem h
  rw [List.getElem?_eq_getElem this, List.getElem_idxOf this]

theorem class_id {m : Meta} {d : Bool} {c f : Nat} (hf : Fits m d c) (h : f ∈ m.all c) :
    classFeatureID m c f = some ((m.all c).idxOf f) := by
  obtain ⟨⟨i, h1, h2⟩, _⟩ := hf.2 f h
  have hi : i = (m.all c).idxOf f := (idx_of_get _ hf.1 f i h2).symm
  have hl := (List.getElem?_eq_some_iff.1 h2).1
  have := scan_nodup (m.all c) hf.1 f (m.fid f) i h2 (by omega) h1
  rw [classFeatureID, this]
  simp [hi]

theorem locate_ok {w : World} {h : Heap} (R : Rel w h) {i f : Nat} {r : Rec} (e : h.recs[i]? = some r) (hf : f ∈ h.m.all r.cls) :
    ∃ o, w.objs[i]? = some o ∧ RelObj h.m (clsOf h) o r ∧ locate w i f = some (o, (h.m.all r.cls).idxOf f, f) := by
  obtain ⟨o, e1, Ro⟩ := R.get e
  refine ⟨o, e1, Ro, ?_⟩
  have hid : featureID h.m o f = some ((h.m.all r.cls).idxOf f) := by
    rw [featureID, Ro.kls, Ro.dyn, if_pos hf]
    split
    · exact class_id Ro.fits hf
    · rename_i hd
      have := (Ro.fits.2 f hf).2 (Or.inl (by simpa using hd))
      rw [idx_of_get _ Ro.fits.1 f _ this]
  simp only [locate, e1, R.m, hid, Ro.kls, get_idx _ f hf]

/-! ### Access -/

theorem touch_ok {m : Meta} {cls : Nat → Option Nat} {o : Obj} {r : Rec} (Ro : RelObj m cls o r) :
    RelObj m cls (touch m o) { r with used := true } ∧ (∃ ps, (touch m o).props = some ps ∧ ps.length = (m.all r.cls).length ∧
      ∀ f ∈ m.all r.cls, ∃ s, ps[(m.all r.cls).idxOf f]? = some s ∧ RepSlot m f s (r.one f) (r.many f)) := by
  have hp := Ro.props
  have hc := Ro.kls
  cases e : o.props with
  | none =>
    rw [e] at hp
    obtain ⟨⟨h1, h2⟩, h3⟩ := hp
    have key : ∀ f ∈ m.all r.cls, ∃ s, (List.replicate (m.all r.cls).length Slot.empty)[(m.all r.cls).idxOf f]? = some s ∧
        RepSlot m f s (r.one f) (r.many f) := by
      intro f hf
      refine ⟨.empty, ?_, ?_⟩
      · rw [List.getElem?_replicate, if_pos (List.idxOf_lt_length_of_mem hf)]
      · rw [RepSlot, (h3 f hf).1, (h3 f hf).2]
        split <;> simp [toSlot]
    have ht : touch m o = { o with props := some (List.replicate (m.all r.cls).length .empty) } := by simp only [touch, e, hc]
    rw [ht]
    refine ⟨⟨Ro.dyn, Ro.kls, Ro.fits, ⟨Or.inr rfl, by simp, key⟩, Ro.out, Ro.cont, Ro.contents⟩, _, rfl, by simp, key⟩
  | some ps =>
    rw [e] at hp
    have ht : touch m o = o := by simp only [touch, e]
    rw [ht]
    refine ⟨⟨Ro.dyn, Ro.kls, Ro.fits, by rw [e]; exact ⟨Or.inr rfl, hp.2⟩, Ro.out, Ro.cont, Ro.contents⟩, ps, e, hp.2⟩

theorem access_ok {w : World} {h : Heap} (R : Rel w h) {i f : Nat} {r : Rec} (e : h.recs[i]? = some r) (hf : f ∈ h.m.all r.cls) :
    ∃ w' s, access w i ((h.m.all r.cls).idxOf f) = some (w', s) ∧ Rel w' (h.use i) ∧ RepSlot h.m f s (r.one f) (r.many f) := by
  obtain ⟨o, e1, Ro⟩ := R.get e
  obtain ⟨Rt, ps, h1, h2, h3⟩ := touch_ok Ro
  obtain ⟨s, h4, h5⟩ := h3 f hf
  refine ⟨_, s, ?_, rel_at R e (fun r => { r with used := true }) (fun _ => rfl) _ Rt, h5⟩
  simp only [access, e1, R.m, h1, Option.getD_some, h4]

theorem write_ok {w : World} {h : Heap} (R : Rel w h) {i f : Nat} {r : Rec} (e : h.recs[i]? = some r) (hf : f ∈ h.m.all r.cls) (s : Slot)
    (g : Rec → Rec) (hg : ∀ r, (g r).cls = r.cls) (hk : (g r).dynamic = r.dynamic ∧ (g r).cont = r.cont ∧ (g r).listed = r.listed ∧ (g r).used = true)
    (ho : ∀ j, j ≠ f → (g r).one j = r.one j ∧ (g r).many j = r.many j) (hs : RepSlot h.m f s ((g r).one f) ((g r).many f)) :
    ∃ w', write w i ((h.m.all r.cls).idxOf f) s = some w' ∧ Rel w' (h.at i g) := by
  obtain ⟨o, e1, Ro⟩ := R.get e
  obtain ⟨Rt, ps, h1, h2, h3⟩ := touch_ok Ro
  have hl : (h.m.all r.cls).idxOf f < ps.length := by rw [h2]; exact List.idxOf_lt_length_of_mem hf
  refine ⟨_, ?_, rel_at R e g hg { touch h.m o with props := some (ps.set ((h.m.all r.cls).idxOf f) s) } ?_⟩
  · simp only [write, e1, R.m, h1, Option.getD_some, if_pos hl]
  · obtain ⟨k1, k2, k3, k4⟩ := hk
    refine ⟨Rt.dyn.trans k1.symm, Rt.kls.trans (hg r).symm, by rw [k1, hg]; exact Ro.fits, ?_, ?_, by rw [k2]; exact Rt.cont, ?_⟩
    · refine ⟨Or.inr k4, by simp [h2, hg], ?_⟩
      rw [hg]
      intro j hj
      by_cases hjf : j = f
      · subst hjf
        exact ⟨s, by rw [List.getElem?_set_self hl], hs⟩
      · obtain ⟨t, t1, t2⟩ := h3 j hj
        refine ⟨t, ?_, ?_⟩
        · rw [List.getElem?_set_ne]
          · exact t1
          · intro hc
            have a := get_idx _ f hf
            have b := get_idx _ j hj
            rw [hc, b] at a
            exact hjf (Option.some.inj a)
        · rw [(ho j hjf).1, (ho j hjf).2]; exact t2
    · rw [hg]
      intro j hj
      have hjf : j ≠ f := fun hc => hj (hc ▸ hf)
      rw [(ho j hjf).1, (ho j hjf).2]
      exact Ro.out j hj
    · rw [k3, hg]; exact Rt.contents

/-! ### Containers -/

theorem setCont_ok {w : World} {h : Heap} (R : Rel w h) (x : Nat) (c : Option (Nat × Nat)) (c' : Option (Nat × Nat))
    (hc : RepCont h.m (clsOf h) c c') : Rel (setCont w x c) (h.at x fun r => { r with cont := c' }) := by
  cases e : h.recs[x]? with
  | none =>
    have e1 : w.objs[x]? = none := by
      rw [List.getElem?_eq_none_iff] at e ⊢; rw [R.len]; exact e
    have : (h.at x fun r => { r with cont := c' }) = h := by
      simp only [Heap.at]
      congr 1
      apply List.ext_getElem?
      intro j
      simp only [List.getElem?_modify]
      by_cases hj : x = j
      · subst hj; rw [e]; rfl
      · cases h.recs[j]? <;> simp [hj]
    rw [this]
    simp only [setCont, e1]
    exact R
  | some r =>
    obtain ⟨o, e1, Ro⟩ := R.get e
    simp only [setCont, e1]
    exact rel_at R e (fun r => { r with cont := c' }) (fun _ => rfl) { o with cont := c }
      ⟨Ro.dyn, Ro.kls, Ro.fits, Ro.props, Ro.out, hc, Ro.contents⟩

theorem use_get (h : Heap) (i : Nat) {r : Rec} (e : h.recs[i]? = some r) : (h.use i).recs[i]? = some { r with used := true } := by
  rw [Heap.use, at_get, if_pos rfl, e]; rfl

theorem at_at (h : Heap) (i : Nat) (g g' : Rec → Rec) : (h.at i g).at i g' = h.at i fun r => g' (g r) := by
  simp only [Heap.at, Heap.mk.injEq, true_and]
  apply List.ext_getElem?
  intro j
  simp only [List.getElem?_modify]
  cases h.recs[j]? <;> simp <;> split <;> simp_all

theorem at_congr (h : Heap) (i : Nat) (g g' : Rec → Rec) {r : Rec} (e : h.recs[i]? = some r) (hg : g r = g' r) : h.at i g = h.at i g' := by
  simp only [Heap.at, Heap.mk.injEq, true_and]
  apply List.ext_getElem?
  intro j
  simp only [List.getElem?_modify]
  by_cases hij : i = j
  · subst hij; rw [e]; simp [hg]
  · cases h.recs[j]? <;> simp [hij]

/-- What taking an object out of its holder is for the records. -/
def outOf (h : Heap) (k f x : Nat) : Heap :=
  h.at k fun r => if h.m.many f then { r with many := upd r.many f ((r.many f).erase (.obj x)), used := true }
    else { r with one := upd r.one f none, used := true }

theorem takeOut_ok {w : World} {h : Heap} (R : Rel w h) {k f x : Nat} {r : Rec} (e : h.recs[k]? = some r) (hf : f ∈ h.m.all r.cls) :
    ∃ w', takeOut w k ((h.m.all r.cls).idxOf f) x = some w' ∧ Rel w' (outOf h k f x) := by
  obtain ⟨o, e1, Ro⟩ := R.get e
  obtain ⟨w1, s, a1, a2, a3⟩ := access_ok R e hf
  have em : w1.m = h.m := a2.m
  simp only [takeOut, e1, R.m, Ro.kls, get_idx _ f hf, a1, em]
  have e2 := use_get h k e
  cases hm : h.m.many f with
  | true =>
    simp only [RepSlot, hm, if_true] at a3
    simp only [outOf, hm, if_true]
    rcases a3 with ⟨rfl, a4⟩ | rfl
    · refine ⟨w1, rfl, ?_⟩
      have : h.use k = h.at k fun r => { r with many := upd r.many f ((r.many f).erase (.obj x)), used := true } := by
        apply at_congr h k _ _ e
        have : upd r.many f ((r.many f).erase (.obj x)) = r.many := by
          funext j; simp only [upd]; split
          · rename_i hj; subst hj; simp [a4]
          · rfl
        rw [this]
      rw [← this]; exact a2
    · obtain ⟨w2, b1, b2⟩ := write_ok a2 e2 hf (.many ⟨h.m.fid f, h.m.containment f, (r.many f).erase (.obj x)⟩)
        (fun r => { r with many := upd r.many f ((r.many f).erase (.obj x)), used := true }) (fun _ => rfl) ⟨rfl, rfl, rfl, rfl⟩
        (by intro j hj; simp [upd, hj]) (by rw [RepSlot, at_m_use, hm]; simp [upd])
      refine ⟨w2, b1, ?_⟩
      rw [Heap.use, at_at] at b2
      exact b2
  | false =>
    simp only [outOf, hm]
    obtain ⟨w2, b1, b2⟩ := write_ok a2 e2 hf .empty
      (fun r => { r with one := upd r.one f none, used := true }) (fun _ => rfl) ⟨rfl, rfl, rfl, rfl⟩
      (by intro j hj; simp [upd, hj]) (by rw [RepSlot, at_m_use, hm]; simp [upd, toSlot])
    refine ⟨w2, b1, ?_⟩
    rw [Heap.use, at_at] at b2
    exact b2
where
  at_m_use {h : Heap} {k : Nat} : (h.use k).m = h.m := rfl

theorem outOf_cls (h : Heap) (k f x : Nat) : clsOf (outOf h k f x) = clsOf h := by
  apply clsOf_at
  intro r
  split <;> rfl

theorem putIn_ok {w : World} {h : Heap} (R : Rel w h) {x i f : Nat} {c : Nat} (hc : clsOf h i = some c) (hf : f ∈ h.m.all c) :
    ∃ w', putIn w x i ((h.m.all c).idxOf f) = some w' ∧ Rel w' (h.move x i f) := by
  cases ex : h.recs[x]? with
  | none =>
    have e1 : w.objs[x]? = none := by
      rw [List.getElem?_eq_none_iff] at ex ⊢; rw [R.len]; exact ex
    refine ⟨w, by simp only [putIn, e1], ?_⟩
    simp only [Heap.move, ex, Option.bind_none]
    have := setCont_ok R x (some (i, (h.m.all c).idxOf f)) (some (i, f)) ⟨rfl, c, hc, hf, rfl⟩
    simpa only [setCont, e1] using this
  | some rx =>
  obtain ⟨o, e1, Ro⟩ := R.get ex
  have hr := Ro.cont
  simp only [putIn, e1]
  cases e2 : o.cont with
  | none =>
    cases e3 : rx.cont with
    | none =>
      simp only [Heap.move, ex, Option.bind_some, e3]
      exact ⟨_, rfl, setCont_ok R x _ (some (i, f)) ⟨rfl, c, hc, hf, rfl⟩⟩
    | some p => rw [e2, e3] at hr; exact absurd hr (by simp [RepCont])
  | some p =>
    obtain ⟨k, id⟩ := p
    cases e3 : rx.cont with
    | none => rw [e2, e3] at hr; exact absurd hr (by simp [RepCont])
    | some q =>
      obtain ⟨k', f'⟩ := q
      rw [e2, e3] at hr
      obtain ⟨rfl, c', hk, hf', rfl⟩ := hr
      obtain ⟨rk, ek, rfl⟩ : ∃ rk, h.recs[k]? = some rk ∧ rk.cls = c' := by
        simp only [clsOf, Option.map_eq_some_iff] at hk
        exact hk
      obtain ⟨w1, a1, a2⟩ := takeOut_ok (x := x) R ek hf'
      have b2 := setCont_ok a2 x (some (i, (h.m.all c).idxOf f)) (some (i, f))
        ⟨rfl, c, by rw [outOf_cls]; exact hc, hf, rfl⟩
      refine ⟨_, by simp only [a1]; rfl, ?_⟩
      simp only [Heap.move, ex, Option.bind_some, e3]
      exact b2

theorem move_m (h : Heap) (x i f : Nat) : (h.move x i f).m = h.m := by
  simp only [Heap.move]; split <;> rfl

theorem move_cls (h : Heap) (x i f : Nat) : clsOf (h.move x i f) = clsOf h := by
  simp only [Heap.move]
  refine (clsOf_at _ x (fun r => { r with cont := some (i, f) }) (fun _ => rfl)).trans ?_
  split
  · apply clsOf_at; intro r; split <;> rfl
  · rfl

theorem clsOf_some {h : Heap} {i : Nat} {c : Nat} (hc : clsOf h i = some c) : ∃ r, h.recs[i]? = some r ∧ r.cls = c := by
  simp only [clsOf, Option.map_eq_some_iff] at hc
  exact hc

theorem free_cls (h : Heap) (x : Nat) : clsOf (h.free x) = clsOf h := clsOf_at h x (fun r => { r with cont := none }) (fun _ => rfl)

/-- Replacing the former value of a single containment feature, as records do it. -/
def freeOld (h : Heap) (v : Option Val) : Heap := match v with | some (.obj y) => h.free y | _ => h
def takeNew (h : Heap) (i f : Nat) (v : Option Val) : Heap := match v with | some (.obj x) => h.move x i f | _ => h

theorem release_ok {w : World} {h : Heap} (R : Rel w h) (v : Option Val) : Rel (release w (toSlot v)) (freeOld h v) := by
  cases v with
  | none => exact R
  | some v =>
    cases v with
    | data n => exact R
    | obj x => exact setCont_ok R x none none trivial

theorem adopt_ok {w : World} {h : Heap} (R : Rel w h) {i f c : Nat} (hc : clsOf h i = some c) (hf : f ∈ h.m.all c) (v : Option Val) :
    ∃ w', adopt w i ((h.m.all c).idxOf f) v = some w' ∧ Rel w' (takeNew h i f v) := by
  cases v with
  | none => exact ⟨w, rfl, R⟩
  | some v =>
    cases v with
    | data n => exact ⟨w, rfl, R⟩
    | obj x => exact putIn_ok R hc hf

theorem freeOld_m (h : Heap) (v : Option Val) : (freeOld h v).m = h.m := by unfold freeOld; split <;> rfl
theorem freeOld_cls (h : Heap) (v : Option Val) : clsOf (freeOld h v) = clsOf h := by
  unfold freeOld; split
  · exact free_cls _ _
  · rfl
theorem takeNew_m (h : Heap) (i f : Nat) (v : Option Val) : (takeNew h i f v).m = h.m := by
  unfold takeNew; split
  · exact move_m _ _ _ _
  · rfl
theorem takeNew_cls (h : Heap) (i f : Nat) (v : Option Val) : clsOf (takeNew h i f v) = clsOf h := by
  unfold takeNew; split
  · exact move_cls _ _ _ _
  · rfl

/-! ### The calls -/

theorem use_m (h : Heap) (i : Nat) : (h.use i).m = h.m := rfl

theorem use_cls (h : Heap) (i : Nat) : clsOf (h.use i) = clsOf h := clsOf_at h i (fun r => { r with used := true }) (fun _ => rfl)

theorem oneOf_use {h : Heap} {i : Nat} {r : Rec} (e : h.recs[i]? = some r) (f : Nat) : oneOf (h.use i) i f = r.one f := by
  rw [oneOf, use_get h i e]; rfl

theorem manyOf_use {h : Heap} {i : Nat} {r : Rec} (e : h.recs[i]? = some r) (f : Nat) : manyOf (h.use i) i f = r.many f := by
  rw [manyOf, use_get h i e]; rfl

theorem toSlot_inj {a b : Option Val} (h : toSlot a = toSlot b) : a = b := by
  cases a <;> cases b <;> simp [toSlot] at h <;> simp [h]

/-- Writing a single-valued feature. -/
theorem writeOne_ok {w : World} {h : Heap} (R : Rel w h) {i f c : Nat} (hc : clsOf h i = some c) (hf : f ∈ h.m.all c) (hm : h.m.many f = false)
    (v : Option Val) : ∃ w', write w i ((h.m.all c).idxOf f) (toSlot v) = some w' ∧
      Rel w' (h.at i fun r => { r with one := upd r.one f v, used := true }) := by
  obtain ⟨r, e, rfl⟩ := clsOf_some hc
  exact write_ok R e hf (toSlot v) (fun r => { r with one := upd r.one f v, used := true }) (fun _ => rfl) ⟨rfl, rfl, rfl, rfl⟩
    (by intro j hj; simp [upd, hj]) (by rw [RepSlot, hm]; simp [upd])

/-- Writing a many-valued feature. -/
theorem writeMany_ok {w : World} {h : Heap} (R : Rel w h) {i f c : Nat} (hc : clsOf h i = some c) (hf : f ∈ h.m.all c) (hm : h.m.many f = true)
    (u : List Val → List Val) (l : List Val) (hl : l = u (manyOf h i f)) :
    ∃ w', write w i ((h.m.all c).idxOf f) (.many ⟨h.m.fid f, h.m.containment f, l⟩) = some w' ∧
      Rel w' (h.at i fun r => { r with many := upd r.many f (u (r.many f)), used := true }) := by
  obtain ⟨r, e, rfl⟩ := clsOf_some hc
  refine write_ok R e hf _ (fun r => { r with many := upd r.many f (u (r.many f)), used := true }) (fun _ => rfl) ⟨rfl, rfl, rfl, rfl⟩
    (by intro j hj; simp [upd, hj]) ?_
  rw [RepSlot, hm]
  simp [upd, hl, manyOf, e]

theorem put_ok {w : World} {h : Heap} (R : Rel w h) {i f : Nat} {r : Rec} (e : h.recs[i]? = some r) (hf : f ∈ h.m.all r.cls)
    (hm : h.m.many f = false) (v : Option Val) : ∃ w', eSet w i f v = some w' ∧ Rel w' (h.put i f v) := by
  obtain ⟨o, e1, Ro, el⟩ := locate_ok R e hf
  obtain ⟨w1, s, a1, a2, a3⟩ := access_ok R e hf
  have em : w1.m = h.m := a2.m
  simp only [RepSlot, hm, Bool.false_eq_true, if_false] at a3
  subst a3
  simp only [eSet, el, a1, em, Ro.kls]
  have hc : clsOf (h.use i) i = some r.cls := by rw [use_cls, clsOf, e]; rfl
  simp only [Heap.put, use_m, oneOf_use e]
  cases hcn : h.m.containment f with
  | false =>
    obtain ⟨w2, b1, b2⟩ := writeOne_ok a2 hc hf hm v
    exact ⟨w2, b1, b2⟩
  | true =>
    simp only [if_true]
    by_cases hv : r.one f = v
    · rw [if_pos (by rw [hv]), if_pos hv]
      exact ⟨w1, rfl, a2⟩
    · rw [if_neg (fun hh => hv (toSlot_inj hh)), if_neg hv]
      simp only [class_id Ro.fits hf]
      have R1 := release_ok a2 (r.one f)
      have hc1 : clsOf (freeOld (h.use i) (r.one f)) i = some r.cls := by rw [freeOld_cls]; exact hc
      obtain ⟨w2, b1, b2⟩ := adopt_ok (f := f) R1 hc1 (by rw [freeOld_m]; exact hf) v
      rw [freeOld_m, use_m] at b1
      simp only [b1]
      obtain ⟨w3, d1, d2⟩ := writeOne_ok (f := f) b2 (c := r.cls) (by rw [takeNew_cls]; exact hc1)
        (by rw [takeNew_m, freeOld_m]; exact hf) (by rw [takeNew_m, freeOld_m]; exact hm) v
      rw [takeNew_m, freeOld_m, use_m] at d1
      refine ⟨w3, d1, ?_⟩
      exact d2

theorem unset_ok {w : World} {h : Heap} (R : Rel w h) {i f : Nat} {r : Rec} (e : h.recs[i]? = some r) (hf : f ∈ h.m.all r.cls)
    (hm : h.m.many f = false) : ∃ w', eUnset w i f = some w' ∧ Rel w' (h.put i f none) := by
  obtain ⟨o, e1, Ro, el⟩ := locate_ok R e hf
  obtain ⟨w1, s, a1, a2, a3⟩ := access_ok R e hf
  have em : w1.m = h.m := a2.m
  simp only [RepSlot, hm, Bool.false_eq_true, if_false] at a3
  subst a3
  simp only [eUnset, el, a1, em]
  have hc : clsOf (h.use i) i = some r.cls := by rw [use_cls, clsOf, e]; rfl
  simp only [Heap.put, use_m, oneOf_use e]
  cases hcn : h.m.containment f with
  | false =>
    obtain ⟨w2, b1, b2⟩ := writeOne_ok a2 hc hf hm none
    exact ⟨w2, b1, b2⟩
  | true =>
    simp only [if_true]
    by_cases hv : r.one f = none
    · rw [if_pos (by rw [hv]; rfl), if_pos hv]
      exact ⟨w1, rfl, a2⟩
    · have hne : ¬ toSlot (r.one f) = Slot.empty := fun hh => hv (toSlot_inj (b := none) hh)
      rw [if_neg hne, if_neg hv]
      have R1 := release_ok a2 (r.one f)
      have hc1 : clsOf (freeOld (h.use i) (r.one f)) i = some r.cls := by rw [freeOld_cls]; exact hc
      obtain ⟨w3, d1, d2⟩ := writeOne_ok (f := f) R1 hc1 (by rw [freeOld_m]; exact hf) (by rw [freeOld_m]; exact hm) none
      rw [freeOld_m, use_m] at d1
      exact ⟨w3, d1, d2⟩

theorem get_ok {w : World} {h : Heap} (R : Rel w h) {i f : Nat} {r : Rec} (e : h.recs[i]? = some r) (hf : f ∈ h.m.all r.cls) :
    ∃ w' g, eGet w i f = some (w', g) ∧ Rel w' (h.use i) ∧ .got g = answer h (.get i f) ∧
      (h.m.many f = true → g = .list (r.many f) ∧ ∃ w'', access w' i ((h.m.all r.cls).idxOf f) =
        some (w'', .many ⟨h.m.fid f, h.m.containment f, r.many f⟩) ∧ Rel w'' (h.use i)) := by
  obtain ⟨o, e1, Ro, el⟩ := locate_ok R e hf
  obtain ⟨w1, s, a1, a2, a3⟩ := access_ok R e hf
  have em : w1.m = h.m := a2.m
  have hc : clsOf (h.use i) i = some r.cls := by rw [use_cls, clsOf, e]; rfl
  have eu := use_get h i e
  have hone : oneOf h i f = r.one f := by rw [oneOf, e]; rfl
  have hmany : manyOf h i f = r.many f := by rw [manyOf, e]; rfl
  simp only [eGet, el, a1, answer, hone, hmany]
  cases hm : h.m.many f with
  | false =>
    simp only [RepSlot, hm, Bool.false_eq_true, if_false] at a3
    subst a3
    cases hv : r.one f with
    | none =>
      simp only [toSlot, em, hm]
      refine ⟨w1, _, rfl, a2, ?_, by simp⟩
      cases h.m.dflt f <;> rfl
    | some v => exact ⟨w1, _, rfl, a2, rfl, by simp⟩
  | true =>
    simp only [RepSlot, hm, if_true] at a3
    have again : ∀ w2, Rel w2 (h.use i) → (∃ w3 s3, access w2 i ((h.m.all r.cls).idxOf f) = some (w3, s3) ∧ Rel w3 (h.use i)) := by
      intro w2 R2
      obtain ⟨w3, s3, c1, c2, _⟩ := access_ok R2 eu hf
      refine ⟨w3, s3, c1, ?_⟩
      rw [Heap.use, Heap.use, at_at] at c2
      exact c2
    rcases a3 with ⟨rfl, hr⟩ | rfl
    · simp only [em, hm, if_true]
      obtain ⟨w2, b1, b2⟩ := writeMany_ok a2 hc hf hm id (r.many f) (by rw [manyOf_use e]; rfl)
      have hl : newList h.m f = ⟨h.m.fid f, h.m.containment f, r.many f⟩ := by rw [newList, hr]
      have hsame : (h.use i).at i (fun r => { r with many := upd r.many f (id (r.many f)), used := true }) = h.use i := by
        rw [Heap.use, at_at]
        apply at_congr h i _ _ e
        have : upd r.many f (r.many f) = r.many := by funext j; simp only [upd]; split <;> simp_all
        simp [this]
      rw [hsame] at b2
      rw [use_m] at b1
      refine ⟨w2, .list [], by rw [hl, b1]; rfl, b2, by rw [hr], fun _ => ⟨by rw [hr], ?_⟩⟩
      obtain ⟨w3, s3, c1, c2⟩ := again w2 b2
      refine ⟨w3, ?_, c2⟩
      rw [c1]
      have : s3 = .many ⟨h.m.fid f, h.m.containment f, r.many f⟩ := by
        have h1 := access_write b1
        rw [c1] at h1
        exact h1
      rw [this]
    · refine ⟨w1, _, rfl, a2, rfl, fun _ => ⟨rfl, ?_⟩⟩
      obtain ⟨w3, s3, c1, c2⟩ := again w1 a2
      refine ⟨w3, ?_, c2⟩
      rw [c1]
      have h1 := access_access a1
      rw [c1] at h1
      rw [h1]
where
  access_write {w w2 : World} {i id : Nat} {s : Slot} (hw : write w i id s = some w2) : match access w2 i id with | some (_, t) => t = s | none => False := by
    simp only [write] at hw
    split at hw
    · simp at hw
    · rename_i o e
      split at hw
      · rename_i hlt
        cases hw
        have hi := (List.getElem?_eq_some_iff.1 e).1
        generalize touch w.m o = o1 at hlt ⊢
        simp only [access, List.getElem?_set_self hi, touch, Option.getD_some]
        rw [List.getElem?_set_self hlt]
      · simp at hw
  access_access {w w2 : World} {i id : Nat} {s : Slot} (hw : access w i id = some (w2, s)) : match access w2 i id with | some (_, t) => t = s | none => False := by
    simp only [access] at hw
    split at hw
    · simp at hw
    · rename_i o e
      split at hw
      · simp at hw
      · rename_i t ht
        simp only [Option.some.injEq, Prod.mk.injEq] at hw
        obtain ⟨rfl, rfl⟩ := hw
        have hi := (List.getElem?_eq_some_iff.1 e).1
        simp only [access, List.getElem?_set_self hi]
        have : touch w.m (touch w.m o) = touch w.m o := by
          cases hp : o.props <;> simp [touch, hp]
        rw [this, ht]

theorem isSet_ok {w : World} {h : Heap} (R : Rel w h) {i f : Nat} {r : Rec} (e : h.recs[i]? = some r) (hf : f ∈ h.m.all r.cls) :
    ∃ w' b, eIsSet w i f = some (w', b) ∧ Rel w' (h.use i) ∧ (h.m.many f = false → b = (r.one f).isSome) ∧
      (h.m.many f = true → b = false → r.many f = []) := by
  obtain ⟨o, e1, Ro, el⟩ := locate_ok R e hf
  obtain ⟨w1, s, a1, a2, a3⟩ := access_ok R e hf
  refine ⟨w1, s != .empty, by simp only [eIsSet, el, a1]; rfl, a2, ?_, ?_⟩
  · intro hm
    simp only [RepSlot, hm, Bool.false_eq_true, if_false] at a3
    subst a3
    cases r.one f <;> simp [toSlot]
  · intro hm hb
    simp only [RepSlot, hm, if_true] at a3
    rcases a3 with ⟨_, h1⟩ | rfl
    · exact h1
    · simp at hb

theorem add_ok {w : World} {h : Heap} (R : Rel w h) {i f : Nat} {r : Rec} (e : h.recs[i]? = some r) (hf : f ∈ h.m.all r.cls)
    (hm : h.m.many f = true) (v : Val) : ∃ w', add w i f v = some w' ∧ Rel w' (after h (.add i f v)) := by
  obtain ⟨o, e1, Ro, el⟩ := locate_ok R e hf
  obtain ⟨w1, g, a1, a2, _, a4⟩ := get_ok R e hf
  obtain ⟨rfl, w2, b1, b2⟩ := a4 hm
  have hc : clsOf (h.use i) i = some r.cls := by rw [use_cls, clsOf, e]; rfl
  simp only [add, a1, el, b1, after, manyOf_use e]
  by_cases hv : v ∈ r.many f
  · rw [if_pos hv, if_pos hv]; exact ⟨w2, rfl, b2⟩
  · rw [if_neg hv, if_neg hv]
    obtain ⟨w3, d1, d2⟩ := writeMany_ok b2 hc hf hm (fun l => l ++ [v]) (r.many f ++ [v]) (by rw [manyOf_use e])
    rw [use_m] at d1
    simp only [d1]
    have hcm : ((h.use i).at i fun r => { r with many := upd r.many f (r.many f ++ [v]), used := true }).m = h.m := rfl
    simp only [hcm]
    cases hcn : h.m.containment f with
    | false => exact ⟨w3, by simp, d2⟩
    | true =>
      simp only [if_true]
      have hid : h.m.fid f = (h.m.all r.cls).idxOf f :=
        (idx_of_get _ Ro.fits.1 f _ ((Ro.fits.2 f hf).2 (Or.inr ⟨hm, hcn⟩))).symm
      rw [hid]
      obtain ⟨w4, f1, f2⟩ := adopt_ok (i := i) (f := f) (c := r.cls) d2
        ((congrFun (clsOf_at (h.use i) i (fun r => { r with many := upd r.many f (r.many f ++ [v]), used := true }) (fun _ => rfl)) i).trans hc) hf (some v)
      refine ⟨w4, f1, ?_⟩
      cases v <;> exact f2

theorem remove_ok {w : World} {h : Heap} (R : Rel w h) {i f : Nat} {r : Rec} (e : h.recs[i]? = some r) (hf : f ∈ h.m.all r.cls)
    (hm : h.m.many f = true) (v : Val) : ∃ w', remove w i f v = some w' ∧ Rel w' (after h (.remove i f v)) := by
  obtain ⟨o, e1, Ro, el⟩ := locate_ok R e hf
  obtain ⟨w1, g, a1, a2, _, a4⟩ := get_ok R e hf
  obtain ⟨rfl, w2, b1, b2⟩ := a4 hm
  have hc : clsOf (h.use i) i = some r.cls := by rw [use_cls, clsOf, e]; rfl
  simp only [remove, a1, el, b1, after, manyOf_use e]
  by_cases hv : v ∈ r.many f
  · rw [if_pos hv, if_pos hv]
    obtain ⟨w3, d1, d2⟩ := writeMany_ok b2 hc hf hm (fun l => l.erase v) ((r.many f).erase v) (by rw [manyOf_use e])
    rw [use_m] at d1
    simp only [d1]
    have hcm : ((h.use i).at i fun r => { r with many := upd r.many f ((r.many f).erase v), used := true }).m = h.m := rfl
    simp only [hcm]
    cases hcn : h.m.containment f with
    | false => exact ⟨w3, by simp, d2⟩
    | true =>
      refine ⟨_, rfl, ?_⟩
      have := release_ok d2 (some v)
      simp only [if_true]
      cases v <;> exact this
  · rw [if_neg hv, if_neg hv]; exact ⟨w2, rfl, b2⟩

theorem holder_ok {w : World} {h : Heap} (R : Rel w h) {x : Nat} (hx : x < h.recs.length) :
    ∃ a, holder w x = some a ∧ .holder a = answer h (.holder x) := by
  have ex : h.recs[x]? = some h.recs[x] := List.getElem?_eq_getElem hx
  obtain ⟨o, e1, Ro⟩ := R.get ex
  have hr := Ro.cont
  simp only [holder, e1, answer, ex, Option.bind_some]
  generalize h.recs[x].cont = cr at hr
  cases e2 : o.cont with
  | none =>
    rw [e2] at hr
    cases cr with
    | none => exact ⟨none, rfl, rfl⟩
    | some p => exact absurd hr (by simp [RepCont])
  | some p =>
    obtain ⟨k, id⟩ := p
    rw [e2] at hr
    cases cr with
    | none => exact absurd hr (by simp [RepCont])
    | some q =>
      obtain ⟨k', f'⟩ := q
      obtain ⟨rfl, c', hk, hf', rfl⟩ := hr
      obtain ⟨rk, ek, rfl⟩ := clsOf_some hk
      obtain ⟨ok, e3, Rk⟩ := R.get ek
      refine ⟨some (k, some f'), ?_, rfl⟩
      simp only [e3, Option.map_some, R.m, Rk.kls, get_idx _ f' hf']

theorem gather_ok (fs : List Nat) : ∀ {w : World} {h : Heap}, Rel w h → ∀ {i : Nat} {r : Rec}, h.recs[i]? = some r → (∀ f ∈ fs, f ∈ h.m.all r.cls) →
    ∃ w' l, gather w i fs = some (w', l) ∧ Rel w' (h.at i fun r => { r with used := r.used || !fs.isEmpty }) ∧
      l = fs.flatMap fun f => if h.m.many f then r.many f else (r.one f).toList := by
  induction fs with
  | nil =>
    intro w h R i r e _
    refine ⟨w, [], rfl, ?_, rfl⟩
    have : (h.at i fun r => { r with used := r.used || !([] : List Nat).isEmpty }) = h.at i fun r => r := by
      apply at_congr h i _ _ e; simp
    rw [this]
    have : (h.at i fun r => r) = h := by
      simp only [Heap.at]; congr 1; apply List.ext_getElem?; intro j; simp only [List.getElem?_modify]
      cases h.recs[j]? <;> simp
    rw [this]; exact R
  | cons f fs ih =>
    intro w h R i r e hfs
    have hf := hfs f (by simp)
    obtain ⟨w1, b, a1, a2, a3, a4⟩ := isSet_ok R e hf
    have eu := use_get h i e
    have hheap : ∀ h' : Heap, h' = h.use i → (h'.at i fun r => { r with used := r.used || !fs.isEmpty }) = h.at i fun r => { r with used := r.used || !(f :: fs).isEmpty } := by
      intro h' hh; subst hh
      rw [Heap.use, at_at]
      apply at_congr h i _ _ e; simp
    cases b with
    | false =>
      obtain ⟨w2, l, b1, b2, b3⟩ := ih a2 eu (fun g hg => hfs g (by simp [hg]))
      refine ⟨w2, l, by simp only [gather, a1]; exact b1, by rw [← hheap _ rfl]; exact b2, ?_⟩
      have b3' : l = fs.flatMap fun f => if h.m.many f then r.many f else (r.one f).toList := b3
      rw [b3', List.flatMap_cons]
      cases hm : h.m.many f with
      | true => simp [a4 hm rfl, hm]
      | false =>
        have := a3 hm
        have hn : r.one f = none := by cases hr : r.one f with
          | none => rfl
          | some v => rw [hr] at this; simp at this
        simp [hn, hm]
    | true =>
      obtain ⟨w2, g, c1, c2, c3, c4⟩ := get_ok a2 eu hf
      have huse : (h.use i).use i = h.use i := by
        simp only [Heap.use, at_at]
      rw [huse] at c2
      obtain ⟨w3, l, b1, b2, b3⟩ := ih c2 eu (fun g hg => hfs g (by simp [hg]))
      have em : w2.m = h.m := c2.m
      simp only [gather, a1, c1, em, b1, Option.map_some]
      rw [hheap _ rfl] at b2
      cases hm : h.m.many f with
      | true =>
        obtain ⟨hg, _⟩ := c4 hm
        simp only at hg
        subst hg
        refine ⟨w3, _, rfl, b2, ?_⟩
        have b3' : l = fs.flatMap fun f => if h.m.many f then r.many f else (r.one f).toList := b3
        rw [b3', List.flatMap_cons]
        simp [hm]
      | false =>
        have hs := a3 hm
        have h1 : oneOf (h.use i) i f = r.one f := oneOf_use e f
        simp only [answer, use_m, hm, Bool.false_eq_true, if_false, h1] at c3
        cases hr : r.one f with
        | none => rw [hr] at hs; simp at hs
        | some v =>
          rw [hr] at c3
          simp only [Out.got.injEq] at c3
          subst c3
          refine ⟨w3, _, rfl, b2, ?_⟩
          have b3' : l = fs.flatMap fun f => if h.m.many f then r.many f else (r.one f).toList := b3
          rw [b3', List.flatMap_cons]
          simp [hm, hr]

theorem contents_ok {w : World} {h : Heap} (R : Rel w h) {i : Nat} (hi : i < h.recs.length) :
    ∃ w' l, contents w i = some (w', l) ∧ Rel w' (after h (.contents i)) ∧ .objects l = answer h (.contents i) := by
  have e : h.recs[i]? = some h.recs[i] := List.getElem?_eq_getElem hi
  generalize h.recs[i] = r at e
  obtain ⟨o, e1, Ro⟩ := R.get e
  have hfs : o.contents.getD ((h.m.all r.cls).filter fun f => h.m.containment f) = (h.m.all r.cls).filter fun f => h.m.containment f := by
    rw [Ro.contents]; split <;> rfl
  have R1 := rel_at R e (fun r => { r with listed := true }) (fun _ => rfl)
    { o with contents := some ((h.m.all r.cls).filter fun f => h.m.containment f) }
    ⟨Ro.dyn, Ro.kls, Ro.fits, Ro.props, Ro.out, Ro.cont, rfl⟩
  have e2 : (h.at i fun r => { r with listed := true }).recs[i]? = some { r with listed := true } := by
    rw [at_get, if_pos rfl, e]; rfl
  obtain ⟨w2, l, b1, b2, b3⟩ := gather_ok ((h.m.all r.cls).filter fun f => h.m.containment f) R1 e2 (by
    intro f hf; exact (List.mem_filter.1 hf).1)
  refine ⟨w2, l, ?_, ?_, ?_⟩
  · simp only [R.m, Ro.kls] at b1
    simp only [contents, e1, R.m, Ro.kls, hfs]
    exact b1
  · rw [at_at] at b2
    simp only [after]
    rw [at_congr h i _ _ e] 
    · exact b2
    · have : ((h.m.all r.cls).any h.m.containment) = !((h.m.all r.cls).filter fun f => h.m.containment f).isEmpty := by
        rw [Bool.eq_iff_iff]; simp [List.any_eq_true]
      simp [this]
  · simp only [answer, e, Option.map_some, Option.getD_some, children]
    rw [b3]
    rfl

theorem prefix_idx {l l' : List Nat} (hp : l <+: l') {f : Nat} (hf : f ∈ l) : l'.idxOf f = l.idxOf f := by
  obtain ⟨t, rfl⟩ := hp
  rw [List.idxOf_append, if_pos hf]

theorem setClass_ok {w : World} {h : Heap} (R : Rel w h) {i c : Nat} (ok : Ok h (.setClass i c)) :
    ∃ w', setClass w i c = some w' ∧ Rel w' (after h (.setClass i c)) := by
  obtain ⟨r, e, hfit, hok⟩ := ok
  obtain ⟨o, e1, Ro⟩ := R.get e
  have hlt : i < w.objs.length := (List.getElem?_eq_some_iff.1 e1).1
  have hpre : h.m.all r.cls <+: h.m.all c := by
    rcases hok with rfl | ⟨hp, _⟩
    · exact List.prefix_refl _
    · exact hp
  -- the containers seen from the new classes
  have hcont : ∀ a b, RepCont h.m (clsOf h) a b → RepCont h.m (clsOf (after h (.setClass i c))) a b := by
    intro a b hab
    cases a with
    | none => cases b with
      | none => trivial
      | some q => exact absurd hab (by simp [RepCont])
    | some p => cases b with
      | none => exact absurd hab (by simp [RepCont])
      | some q =>
        obtain ⟨k, id⟩ := p
        obtain ⟨k', f⟩ := q
        obtain ⟨rfl, c', hk, hf, rfl⟩ := hab
        refine ⟨rfl, ?_⟩
        by_cases hik : i = k
        · subst hik
          have : c' = r.cls := by rw [clsOf, e] at hk; simpa using hk.symm
          subst this
          refine ⟨c, ?_, hpre.subset hf, (prefix_idx hpre hf).symm⟩
          simp only [clsOf, after, at_get, if_pos, e, Option.map_some]
        · refine ⟨c', ?_, hf, rfl⟩
          simp only [clsOf, after, at_get, if_neg hik]
          exact hk
  have key : ∀ o', RelObj h.m (clsOf h) o' { r with cls := c } →
      Rel { w with objs := w.objs.set i o' } (after h (.setClass i c)) := by
    intro o' Ro'
    refine ⟨R.m, by simp [after, Heap.at, R.len], ?_⟩
    intro j o2 r2 h1 h2
    simp only [after, at_get] at h2
    simp only [List.getElem?_set] at h1
    by_cases hij : i = j
    · subst hij
      rw [if_pos rfl, e] at h2
      rw [if_pos rfl, if_pos hlt] at h1
      cases h1; cases h2
      exact ⟨Ro'.dyn, Ro'.kls, Ro'.fits, Ro'.props, Ro'.out, hcont _ _ Ro'.cont, Ro'.contents⟩
    · rw [if_neg hij] at h1 h2
      have := R.objs j o2 r2 h1 h2
      exact ⟨this.dyn, this.kls, this.fits, this.props, this.out, hcont _ _ this.cont, this.contents⟩
  have hout : ∀ f, f ∉ h.m.all c → r.one f = none ∧ r.many f = [] := fun f hf => Ro.out f (fun hc => hf (hpre.subset hc))
  have hcon : o.contents = if r.listed then some ((h.m.all c).filter fun f => h.m.containment f) else none := by
    rcases hok with rfl | ⟨_, hl, _⟩
    · exact Ro.contents
    · rw [Ro.contents, hl]; rfl
  have hempty : ∀ f, f ∉ h.m.all r.cls → ∀ m, RepSlot m f .empty (r.one f) (r.many f) := by
    intro f hf m
    rw [RepSlot, (Ro.out f hf).1, (Ro.out f hf).2]
    split <;> simp [toSlot]
  simp only [setClass, e1]
  refine ⟨_, rfl, ?_⟩
  by_cases hcc : c = r.cls
  · have : (if o.dynamic = true then if c = o.cls then o else { o with cls := c, props := some (resize (w.m.all c).length (o.props.getD [])) } else { o with cls := c }) = o := by
      rw [Ro.kls, if_pos hcc, hcc, ← Ro.kls]
      split <;> rfl
    rw [this]
    apply key o
    subst hcc
    exact Ro
  · have hok' := hok.resolve_left hcc
    cases hd : o.dynamic with
    | false =>
      simp only [Bool.false_eq_true, if_false]
      apply key
      have hrd : r.dynamic = false := by rw [← Ro.dyn]; exact hd
      have hu : r.used = false := hok'.2.2.resolve_left (by rw [hrd]; simp)
      refine ⟨hrd.symm, rfl, hfit, ?_, hout, Ro.cont, hcon⟩
      have hp := Ro.props
      cases hpp : o.props with
      | none =>
        rw [hpp] at hp
        refine ⟨⟨hrd, hu⟩, ?_⟩
        intro f _
        by_cases hf : f ∈ h.m.all r.cls
        · exact hp.2 f hf
        · exact Ro.out f hf
      | some ps => rw [hpp] at hp; have := hp.1; simp [hrd, hu] at this
    | true =>
      have hrd : r.dynamic = true := by rw [← Ro.dyn]; exact hd
      simp only [if_true]
      rw [if_neg (by rw [Ro.kls]; exact hcc)]
      apply key
      refine ⟨hrd.symm, rfl, hfit, ?_, hout, Ro.cont, hcon⟩
      have hp := Ro.props
      cases hpp : o.props with
      | none => rw [hpp] at hp; have := hp.1.1; simp [hrd] at this
      | some ps =>
        rw [hpp] at hp
        obtain ⟨_, p2, p3⟩ := hp
        have hle : ps.length ≤ (h.m.all c).length := by rw [p2]; exact hpre.length_le
        have hrs : resize (w.m.all c).length ps = ps ++ List.replicate ((h.m.all c).length - ps.length) .empty := by
          rw [resize, R.m, List.take_of_length_le hle]
        simp only [Option.getD_some, hrs]
        refine ⟨Or.inl hrd, by simp; omega, ?_⟩
        intro f hf
        by_cases hfr : f ∈ h.m.all r.cls
        · obtain ⟨s, s1, s2⟩ := p3 f hfr
          refine ⟨s, ?_, s2⟩
          simp only
          rw [prefix_idx hpre hfr, List.getElem?_append_left (by rw [p2]; exact List.idxOf_lt_length_of_mem hfr)]
          exact s1
        · refine ⟨.empty, ?_, hempty f hfr _⟩
          have h1 : (h.m.all c).idxOf f < (h.m.all c).length := List.idxOf_lt_length_of_mem hf
          have h2 : ps.length ≤ (h.m.all c).idxOf f := by
            rw [p2]
            obtain ⟨t, ht⟩ := hpre
            rw [← ht, List.idxOf_append, if_neg hfr]
            omega
          simp only
          rw [List.getElem?_append_right h2, List.getElem?_replicate, if_pos (by omega)]

theorem create_ok {w : World} {h : Heap} (R : Rel w h) {d : Bool} {c : Nat} (hfit : Fits h.m d c) :
    Rel (create w d c) (after h (.create d c)) := by
  have hcont : ∀ a b, RepCont h.m (clsOf h) a b → RepCont h.m (clsOf (after h (.create d c))) a b := by
    intro a b hab
    cases a with
    | none => cases b with
      | none => trivial
      | some q => exact absurd hab (by simp [RepCont])
    | some p => cases b with
      | none => exact absurd hab (by simp [RepCont])
      | some q =>
        obtain ⟨k, id⟩ := p
        obtain ⟨k', f⟩ := q
        obtain ⟨rfl, c', hk, hf, rfl⟩ := hab
        refine ⟨rfl, c', ?_, hf, rfl⟩
        obtain ⟨rk, ek, rfl⟩ := clsOf_some hk
        simp only [clsOf, after]
        rw [List.getElem?_append_left (List.getElem?_eq_some_iff.1 ek).1, ek]; rfl
  refine ⟨R.m, by simp [create, after, R.len], ?_⟩
  intro j o r h1 h2
  simp only [create] at h1
  simp only [after] at h2
  by_cases hj : j < h.recs.length
  · rw [List.getElem?_append_left hj] at h2
    rw [List.getElem?_append_left (by rw [R.len]; exact hj)] at h1
    have := R.objs j o r h1 h2
    exact ⟨this.dyn, this.kls, this.fits, this.props, this.out, hcont _ _ this.cont, this.contents⟩
  · rw [List.getElem?_append_right (by omega)] at h2
    rw [List.getElem?_append_right (by rw [R.len]; omega), R.len] at h1
    have : j - h.recs.length = 0 := by
      have := (List.getElem?_eq_some_iff.1 h2).1
      simp at this; omega
    rw [this] at h1 h2
    simp only [List.getElem?_cons_zero, Option.some.injEq] at h1 h2
    subst h1; subst h2
    refine ⟨rfl, rfl, hfit, ?_, fun _ _ => ⟨rfl, rfl⟩, trivial, rfl⟩
    cases d with
    | false => exact ⟨⟨rfl, rfl⟩, fun _ _ => ⟨rfl, rfl⟩⟩
    | true =>
      simp only [if_true, R.m]
      refine ⟨Or.inl rfl, by simp [resize, after], ?_⟩
      simp only [after]
      intro f hf
      refine ⟨.empty, ?_, ?_⟩
      · simp only [resize, List.take_nil, List.nil_append, List.length_nil, Nat.sub_zero]
        rw [List.getElem?_replicate, if_pos (List.idxOf_lt_length_of_mem hf)]
      · rw [RepSlot]; split <;> simp [toSlot]

theorem fits_unchanged {m m' : Meta} {d : Bool} {c : Nat} (hu : Unchanged m m' c) (hf : Fits m d c) : Fits m' d c := by
  obtain ⟨h1, h2⟩ := hu
  refine ⟨by rw [h1]; exact hf.1, ?_⟩
  rw [h1]
  intro f hfm
  obtain ⟨a, b, c'⟩ := h2 f hfm
  rw [a, b, c']
  exact hf.2 f hfm

theorem classes_ok {w : World} {h : Heap} (R : Rel w h) {m : Meta} (hu : ∀ r ∈ h.recs, Unchanged h.m m r.cls) :
    Rel { w with m := m } (after h (.classes m)) := by
  refine ⟨rfl, R.len, ?_⟩
  intro j o r h1 h2
  have h2' : h.recs[j]? = some r := h2
  have Ro := R.objs j o r h1 h2'
  have hr := hu r (List.mem_of_getElem? h2')
  obtain ⟨u1, u2⟩ := hr
  have hslot : ∀ f ∈ h.m.all r.cls, ∀ s a b, RepSlot h.m f s a b → RepSlot m f s a b := by
    intro f hf s a b hs
    obtain ⟨x1, x2, x3⟩ := u2 f hf
    rw [RepSlot, x1, x2, x3]; exact hs
  refine ⟨Ro.dyn, Ro.kls, fits_unchanged ⟨u1, u2⟩ Ro.fits, ?_, ?_, ?_, ?_⟩
  · have hp := Ro.props
    cases hpp : o.props with
    | none => rw [hpp] at hp; exact ⟨hp.1, by simp only [after]; rw [u1]; exact hp.2⟩
    | some ps =>
      rw [hpp] at hp
      refine ⟨hp.1, by simp only [after]; rw [u1]; exact hp.2.1, ?_⟩
      simp only [after]
      rw [u1]
      intro f hf
      obtain ⟨s, s1, s2⟩ := hp.2.2 f hf
      exact ⟨s, s1, hslot f hf _ _ _ s2⟩
  · simp only [after]; rw [u1]; exact Ro.out
  · have hc := Ro.cont
    generalize o.cont = a at hc
    generalize r.cont = b at hc
    cases a with
    | none => cases b with
      | none => trivial
      | some q => exact absurd hc (by simp [RepCont])
    | some p => cases b with
      | none => exact absurd hc (by simp [RepCont])
      | some q =>
        obtain ⟨k, id⟩ := p
        obtain ⟨k', f⟩ := q
        obtain ⟨rfl, c', hk, hf, rfl⟩ := hc
        obtain ⟨rk, ek, rfl⟩ := clsOf_some hk
        have := (hu rk (List.mem_of_getElem? ek)).1
        exact ⟨rfl, rk.cls, hk, by simp only [after]; rw [this]; exact hf, by simp only [after]; rw [this]⟩
  · rw [Ro.contents]
    simp only [after]
    rw [u1]
    split
    · congr 1
      apply List.filter_congr
      intro f hf
      exact (u2 f hf).2.2.symm
    · rfl

theorem step_ok {w : World} {h : Heap} (R : Rel w h) (op : Op) (ok : Ok h op) :
    ∃ w', step w op = some (w', answer h op) ∧ Rel w' (after h op) := by
  cases op with
  | classes m => exact ⟨_, rfl, classes_ok R ok⟩
  | create d c => exact ⟨_, rfl, create_ok R ok⟩
  | setClass i c =>
    obtain ⟨w', a, b⟩ := setClass_ok R ok
    exact ⟨w', by simp only [step, a]; rfl, b⟩
  | set i f v =>
    obtain ⟨r, e, hf, hm⟩ := ok
    obtain ⟨w', a, b⟩ := put_ok R e hf hm v
    exact ⟨w', by simp only [step, a]; rfl, b⟩
  | unset i f =>
    obtain ⟨r, e, hf, hm⟩ := ok
    obtain ⟨w', a, b⟩ := unset_ok R e hf hm
    exact ⟨w', by simp only [step, a]; rfl, b⟩
  | get i f =>
    obtain ⟨r, e, hf⟩ := ok
    obtain ⟨w', g, a, b, c, _⟩ := get_ok R e hf
    exact ⟨w', by simp only [step, a, Option.map_some, c], b⟩
  | isSet i f =>
    obtain ⟨r, e, hf, hm⟩ := ok
    obtain ⟨w', g, a, b, c, _⟩ := isSet_ok R e hf
    refine ⟨w', by simp only [step, a, Option.map_some, c hm, answer, oneOf, e, Option.bind_some], b⟩
  | add i f v =>
    obtain ⟨r, e, hf, hm⟩ := ok
    obtain ⟨w', a, b⟩ := add_ok R e hf hm v
    exact ⟨w', by simp only [step, a]; rfl, b⟩
  | remove i f v =>
    obtain ⟨r, e, hf, hm⟩ := ok
    obtain ⟨w', a, b⟩ := remove_ok R e hf hm v
    exact ⟨w', by simp only [step, a]; rfl, b⟩
  | holder x =>
    obtain ⟨a, b, c⟩ := holder_ok R ok
    exact ⟨w, by simp only [step, b, Option.map_some, c], R⟩
  | contents i =>
    obtain ⟨w', l, a, b, c⟩ := contents_ok R ok
    exact ⟨w', by simp only [step, a, Option.map_some, c], b⟩

theorem run_ok (ops : List Op) : ∀ {w : World} {h : Heap}, Rel w h → Allowed h ops → run w ops = some (answers h ops) := by
  induction ops with
  | nil => intro w h _ _; rfl
  | cons op ops ih =>
    intro w h R ok
    obtain ⟨w', a, b⟩ := step_ok R op ok.1
    simp only [run, a, ih b ok.2, Option.map_some, answers]

end Verif.DynamicObject
