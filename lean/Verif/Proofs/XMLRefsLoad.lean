import Verif.Proofs.XMLRefsEnd

/-!
# Loaded documents
-/

namespace Verif.XMLRefs

open Graph

variable {E : Env} {cls : Nat → Nat} {saved : Nat → Nat → List Nat} {doc : List Elem}

theorem linked_init (wf : WellFormed E.M) : Linked E cls [] (init cls) := by
  refine ⟨good_init _ _, ?_, ?_⟩
  · intro x s hs
    have : eGet E.M (init cls) x s = [] := by
      rw [get_eq wf (good_init E.M cls).cls_eq hs]
      simp [init, Slot.vals]
    rw [this]; simp [contrib]
  · intro x h
    simp [init] at h

theorem eGet_init (wf : WellFormed E.M) {x s : Nat} (hs : s ∈ E.M.features (cls x)) : eGet E.M (init cls) x s = [] := by
  rw [get_eq wf (good_init E.M cls).cls_eq hs]
  simp [init, Slot.vals]

theorem get_single (wf : WellFormed E.M) {w : World} (h : Good E.M cls w) {x s : Nat} (hs : s ∈ E.M.features (cls x)) (hm : (E.M.refs s).many = false) :
    (eGet E.M w x s).length ≤ 1 := by
  rw [get_eq wf h.cls_eq hs]
  split
  · split
    · cases (w x).container <;> simp
    · simp
  · rename_i hn
    have := h.shape x s hs (by simpa using hn)
    simp only [Shape, hm] at this
    rcases this with h | ⟨y, h⟩ <;> simp [h, Slot.vals]

theorem get_nodup (wf : WellFormed E.M) {w : World} (h : Good E.M cls w) {x s : Nat} (hs : s ∈ E.M.features (cls x)) (hm : (E.M.refs s).many = true)
    (hn : E.M.isContainer s = false) : (eGet E.M w x s).Nodup := by
  rw [get_eq wf h.cls_eq hs]
  have := h.shape x s hs hn
  simp only [Shape, hm, ↓reduceIte] at this
  rcases this with h | ⟨y, hy, h⟩ <;> simp [hn, h, Slot.vals]
  exact hy

theorem mm_opp (wf : WellFormed E.M) {r s : Nat} (ho : (E.M.refs r).opposite = some s) (ht : E.transient s = false) (hm : mm E s = true) : mm E r = true := by
  have hs := (wf.opp r s ho).1
  simp only [mm, manyAdd, hs, Bool.and_eq_true, Bool.not_eq_true', Bool.or_eq_false_iff, Bool.not_eq_false'] at hm
  simp [mm, manyAdd, ho, ht, hm.1, hm.2.2]

theorem mm_written (wf : WellFormed E.M) {s : Nat} (ht : E.transient s = false) (hm : mm E s = true) : Written E s := by
  have hm' : (E.M.refs s).many = true ∧ ∃ t, (E.M.refs s).opposite = some t ∧ (E.M.refs t).many = true := by
    cases ho : (E.M.refs s).opposite with
    | none => simp [mm, manyAdd, ho] at hm
    | some t =>
      simp only [mm, manyAdd, ho, Bool.and_eq_true, Bool.not_eq_true', Bool.or_eq_false_iff, Bool.not_eq_false'] at hm
      exact ⟨hm.1, t, rfl, hm.2.2⟩
  obtain ⟨h1, t, h2, h3⟩ := hm'
  refine ⟨ht, ?_, ?_⟩
  · cases hc : (E.M.refs s).containment with
    | false => rfl
    | true => have := (wf.cont s t hc h2).2; rw [h3] at this; simp at this
  · cases hc : E.M.isContainer s with
    | false => rfl
    | true =>
      have h4 := isContainer_opp (M := E.M) h2
      rw [hc] at h4
      have := (wf.cont t s h4.symm (wf.opp s t h2).1).2
      rw [h1] at this; simp at this

theorem load_spec (wf : WellFormed E.M) (hd : Document E cls saved doc) (hs : Consistent E.M cls saved) (hfn : ∀ c, (E.M.features c).Nodup)
    (hdef : E.deferred = false) (hself : ∀ a r, (E.M.refs r).containment = false → E.M.isContainer r = false → a ∉ saved a r) :
    ∃ s, load E cls doc = some s ∧ s.errors = 0 ∧ ∀ e ∈ doc, ∀ r ∈ E.M.features (cls e.obj), E.transient r = false →
      (mm E r = false → eGet E.M s.w e.obj r = contrib E.M (links1 E doc) e.obj r ++ contrib E.M (links2 E doc) e.obj r) ∧
      ((mm E r = true ∨ (E.M.refs r).many = false) → eGet E.M s.w e.obj r = saved e.obj r) := by
  obtain ⟨ok1, ok2⟩ := links_ok wf hd hs hfn hdef
  have s1 : Sound saved (links1 E doc) := by have := OkFrom.sound (L := []) (by intro l h; simp at h) ok1; simpa using this
  have hself' : ∀ e ∈ doc, ∀ p ∈ e.attrs, e.obj ∉ p.2 := by
    rintro e he ⟨r, xs⟩ hp
    rw [hd.attrs e he] at hp
    obtain ⟨-, h2, h3, -⟩ := mem_attributes.1 hp
    simp only at h3 ⊢
    rw [h3]
    exact hself _ _ h2.cross h2.ref
  obtain ⟨w1, known, e1, e2, e3⟩ := readElems_spec wf hs hdef hd.once hd.real hself' doc [] [] ⟨init cls, [], [], [], 0⟩ rfl (linked_init wf)
    (by intro l h; simp at h) (by simp) ok1
  have hl1 : Linked E cls (links1 E doc) w1 := by simpa [links1] using e3.linked
  have hw1 : ∀ x s, s ∈ E.M.features (cls x) → eGet E.M w1 x s = contrib E.M (links1 E doc) x s := by
    intro x s hx
    rw [e3.frame x s hx, eGet_init wf hx]; rfl
  have hty : ∀ a r b, b ∈ saved a r → r ∈ E.M.features (cls a) := fun a r b h => (hs.typed a r b h).1
  have hmmem : ∀ x s, x ∈ doc.map Elem.obj → mm E s = true → E.transient s = false → s ∈ E.M.features (cls x) →
      (contrib E.M (links1 E doc) x s).Perm (saved x s) := by
    intro x s hx hm ht hf
    have hm' : (E.M.refs s).many = true := by simp only [mm, Bool.and_eq_true] at hm; exact hm.1
    have hnd := (hl1.perm x s hf).nodup_iff.1 (get_nodup wf hl1.good hf hm' (mm_written wf ht hm).ref)
    rw [List.perm_ext_iff_of_nodup hnd (hs.nodup x s)]
    intro b
    constructor
    · exact contrib_sound wf hs s1
    · intro hb
      rcases links_complete wf hd hs hdef hself hx ht hb with h | h
      · exact h
      · rw [hm] at h; simp at h
  have hpend : ∀ p ∈ pending E doc, PendOk E known (links1 E doc) p := by
    intro p hp
    obtain ⟨a1, a2, a3, a4, a5, a6⟩ := mem_pending hd hp
    refine ⟨?_, ?_, a2, ?_, ?_⟩
    · obtain ⟨e, he, heo⟩ := List.mem_map.1 a1
      exact (e2 _).2 (hd.closed e he _ a2.saved _ (by rw [heo]; exact a4))
    · intro h
      have := hself p.obj p.feature a2.cross a2.ref
      rw [← h] at a4
      exact this a4
    · intro hm s hms hts ho
      rw [mm_opp wf ho hts hms] at hm; simp at hm
    · intro hm
      have := hmmem p.obj p.feature a1 hm a2.saved (hty _ _ _ a4)
      exact ⟨this.mem_iff.2 a4, by rw [this.length_eq]; exact a6⟩
  obtain ⟨w2, f1, f2, f3⟩ := setPending_spec wf hs (known := known) hty 0 (pending E doc) (links1 E doc) w1 hl1 s1 hpend
    (fun p hp => (mem_pending hd hp).2.2.2.1) (by rw [pending_links]; exact ok2)
  rw [pending_links] at f2 f3
  have hpe : (pending E doc) = doc.flatMap (fun e => attrPend E doc e.obj e.attrs) := rfl
  refine ⟨⟨w2, known, pending E doc, [], 0⟩, ?_, rfl, ?_⟩
  · simp only [load, e1, sameProxies, List.nil_append, ← hpe, f1]
  · intro e he r hr ht
    have hx : e.obj ∈ doc.map Elem.obj := List.mem_map.2 ⟨e, he, rfl⟩
    obtain ⟨g1, g2⟩ := f3 e.obj r hr
    have h1 : mm E r = false → eGet E.M w2 e.obj r = contrib E.M (links1 E doc) e.obj r ++ contrib E.M (links2 E doc) e.obj r := by
      intro hm
      rw [g1 hm, hw1 _ _ hr]
    refine ⟨h1, ?_⟩
    rintro (hm | hm)
    · have hw := mm_written wf ht hm
      obtain ⟨X, hX⟩ := contrib_mm wf hd hs hfn hdef hself he hr hw hm
      have hmust : mustAdd E r = true := by
        have : (E.M.refs r).many = true := by simp only [mm, Bool.and_eq_true] at hm; exact hm.1
        cases h : (E.M.refs r).opposite with
        | none => simp [mustAdd, h]
        | some t => simp [mustAdd, h, this]
      rw [g2 hm ht, hw1 _ _ hr, pending_of hd hfn he hr hw hmust, List.foldl_map, hX]
      have hXp : X.Perm ((saved e.obj r).filter fun b => !before doc b e.obj) := by
        have hp := hmmem e.obj r hx hm ht hr
        rw [hX] at hp
        have h2 : ((saved e.obj r).filter (fun b => before doc b e.obj) ++ (saved e.obj r).filter fun b => !before doc b e.obj).Perm (saved e.obj r) :=
          List.filter_append_perm _ _
        exact (List.perm_append_left_iff _).1 (hp.trans h2.symm)
      have := moves_spec (fun b => before doc b e.obj) (saved e.obj r) [] X (by simpa using hs.nodup _ _) hXp
      simpa using this
    · have hmm : mm E r = false := by simp [mm, hm]
      have hlen := get_single wf f2.good hr hm
      have hsav := hs.single e.obj r hm
      have hsound : Sound saved (links1 E doc ++ links2 E doc) := ok2.sound s1
      have hiff : ∀ b, b ∈ eGet E.M w2 e.obj r ↔ b ∈ saved e.obj r := by
        intro b
        rw [h1 hmm]
        constructor
        · intro hb
          rw [← contrib_append] at hb
          exact contrib_sound wf hs hsound hb
        · intro hb
          rcases links_complete wf hd hs hdef hself hx ht hb with h | h
          · simp [h]
          · simp [h.2]
      show eGet E.M w2 e.obj r = saved e.obj r
      generalize eGet E.M w2 e.obj r = l at hlen hiff
      generalize saved e.obj r = m at hsav hiff
      match l, m, hlen, hsav with
      | [], [], _, _ => rfl
      | [], b :: m, _, _ => exact absurd ((hiff b).2 (by simp)) (by simp)
      | a :: l, [], _, _ => exact absurd ((hiff a).1 (by simp)) (by simp)
      | [a], [b], _, _ =>
        have := (hiff a).1 (by simp)
        simp only [List.mem_singleton] at this
        rw [this]

end Verif.XMLRefs
