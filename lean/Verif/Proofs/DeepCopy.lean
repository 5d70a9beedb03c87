import Mathlib.Data.List.Forall2
import Mathlib.Data.List.Nodup
import Verif.Spec.DeepCopy

/-!
# Proofs about copies: the first pass
-/

namespace Verif.DeepCopy

variable {M : Meta} {w0 w w1 w2 w' : World}

/-- what existed before is unchanged -/
structure Frame (w w' : World) : Prop where
  nobj : w.nextObj ≤ w'.nextObj
  nlist : w.nextList ≤ w'.nextList
  cls : ∀ x : Nat, x < w.nextObj → w'.cls x = w.cls x
  uri : ∀ x : Nat, x < w.nextObj → w'.uri x = w.uri x
  slot : ∀ x f : Nat, x < w.nextObj → w'.slot x f = w.slot x f
  container : ∀ x : Nat, x < w.nextObj → w'.container x = w.container x
  list : ∀ l : Nat, l < w.nextList → w'.list l = w.list l

theorem Frame.refl (w : World) : Frame w w := ⟨Nat.le_refl _, Nat.le_refl _, fun _ _ => rfl, fun _ _ => rfl, fun _ _ _ => rfl, fun _ _ => rfl, fun _ _ => rfl⟩

theorem Frame.trans (h1 : Frame w w1) (h2 : Frame w1 w2) : Frame w w2 where
  nobj := Nat.le_trans h1.nobj h2.nobj
  nlist := Nat.le_trans h1.nlist h2.nlist
  cls x hx := (h2.cls x (Nat.lt_of_lt_of_le hx h1.nobj)).trans (h1.cls x hx)
  uri x hx := (h2.uri x (Nat.lt_of_lt_of_le hx h1.nobj)).trans (h1.uri x hx)
  slot x f hx := (h2.slot x f (Nat.lt_of_lt_of_le hx h1.nobj)).trans (h1.slot x f hx)
  container x hx := (h2.container x (Nat.lt_of_lt_of_le hx h1.nobj)).trans (h1.container x hx)
  list l hl := (h2.list l (Nat.lt_of_lt_of_le hl h1.nlist)).trans (h1.list l hl)

/-- `x` is contained in `p` by the feature `f` -/
structure Child (M : Meta) (w0 : World) (p f x : Nat) : Prop where
  mem : f ∈ M.all (w0.cls p)
  cont : (M.feature f).containment = true
  nder : (M.feature f).derived = false
  val : x ∈ values w0 p f

/-- the features of `x` that the first pass copies -/
structure Copies (M : Meta) (w0 : World) (x f : Nat) : Prop where
  mem : f ∈ M.all (w0.cls x)
  ch : (M.feature f).changeable = true
  nder : (M.feature f).derived = false
  kind : (M.feature f).isRef = false ∨ (M.feature f).containment = true
  set : isSet M w0 x f = true

/-- the feature `f` of `y` is a copy of the one of `x` -/
structure Content (M : Meta) (w0 w' : World) (x y f : Nat) : Prop where
  value : ∀ v : Nat, w0.slot x f = .value v → w'.slot y f = .value v
  obj : ∀ z : Nat, w0.slot x f = .obj z → ∃ z', w'.objects z = some z' ∧ w'.slot y f = .obj z'
  list : ∀ l : Nat, w0.slot x f = .list l → ∃ l', w'.slot y f = .list l' ∧ l' < w'.nextList ∧
    ((M.feature f).isRef = false → (w'.list l').items = (w0.list l).items ∧ (M.generated (w0.cls x) = true → w0.nextList ≤ l')) ∧
    ((M.feature f).isRef = true → w0.nextList ≤ l' ∧ List.Forall₂ (fun z z' => w'.objects z = some z') (w0.list l).items (w'.list l').items)

/-- The objects of `S` have been copied from `w` to `w'`: `R` are those without container yet, `done x f` says that the
feature `f` of `x` has been copied, `U` are those without URI yet. -/
structure Post (M : Meta) (w0 w w' : World) (S R : Nat → Prop) (done : Nat → Nat → Prop) (U : Nat → Prop) : Prop where
  frame : Frame w w'
  inS : ∀ x : Nat, S x → ∃ y, w'.objects x = some y ∧ w.nextObj ≤ y ∧ y < w'.nextObj
  out : ∀ x : Nat, ¬ S x → w'.objects x = w.objects x
  inj : ∀ x x' y : Nat, S x → S x' → w'.objects x = some y → w'.objects x' = some y → x = x'
  surj : ∀ y : Nat, w.nextObj ≤ y → y < w'.nextObj → ∃ x, S x ∧ w'.objects x = some y
  cls : ∀ x y : Nat, S x → w'.objects x = some y → w'.cls y = w0.cls x
  uri : ∀ x y : Nat, S x → w'.objects x = some y → ¬ U x → w'.uri y = w0.uri x
  nouri : ∀ x y : Nat, S x → w'.objects x = some y → U x → w'.uri y = none
  content : ∀ x y f : Nat, S x → w'.objects x = some y → done x f → Copies M w0 x f → Content M w0 w' x y f
  nocontent : ∀ x y f : Nat, S x → w'.objects x = some y → ¬ (done x f ∧ Copies M w0 x f) → w'.slot y f = .none
  roots : ∀ x y : Nat, S x → w'.objects x = some y → R x → w'.container y = none
  conts : ∀ x y p f q : Nat, S x → w'.objects x = some y → ¬ R x → S p → Child M w0 p f x → w'.objects p = some q →
    w'.container y = if (M.feature f).many = false ∨ M.generated (w0.cls p) = true then some (q, f) else none
  up : ∀ x : Nat, S x → ¬ R x → ∃ p f, S p ∧ Child M w0 p f x
  down : ∀ x f z : Nat, S x → done x f → Copies M w0 x f → (M.feature f).isRef = true → z ∈ values w0 x f → S z
  own : ∀ y f l : Nat, w.nextObj ≤ y → y < w'.nextObj → w'.slot y f = .list l → w0.nextList ≤ l →
    w.nextList ≤ l ∧ l < w'.nextList ∧ ∀ y' f' : Nat, w.nextObj ≤ y' → y' < w'.nextObj → w'.slot y' f' = .list l → y = y' ∧ f = f'

theorem Post.congr {S R : Nat → Prop} {done done' : Nat → Nat → Prop} {U U' R' : Nat → Prop} (h : Post M w0 w w' S R done U)
    (hd : ∀ x f : Nat, S x → (done x f ↔ done' x f)) (hu : ∀ x : Nat, S x → (U x ↔ U' x)) (hr : ∀ x : Nat, S x → (R x ↔ R' x)) : Post M w0 w w' S R' done' U' where
  frame := h.frame
  inS := h.inS
  out := h.out
  inj := h.inj
  surj := h.surj
  cls := h.cls
  uri x y hx hy hu' := h.uri x y hx hy (fun e => hu' ((hu x hx).1 e))
  nouri x y hx hy hu' := h.nouri x y hx hy ((hu x hx).2 hu')
  content x y f hx hy hd' := h.content x y f hx hy ((hd x f hx).2 hd')
  nocontent x y f hx hy hd' := h.nocontent x y f hx hy (fun e => hd' ⟨(hd x f hx).1 e.1, e.2⟩)
  roots x y hx hy hr' := h.roots x y hx hy ((hr x hx).2 hr')
  conts x y p f q hx hy hr' := h.conts x y p f q hx hy (fun e => hr' ((hr x hx).1 e))
  up x hx hr' := h.up x hx (fun e => hr' ((hr x hx).1 e))
  down x f z hx hd' := h.down x f z hx ((hd x f hx).2 hd')
  own := h.own

theorem forall₂_imp_mem {R R' : Nat → Nat → Prop} {l l' : List Nat} (h : List.Forall₂ R l l') (hi : ∀ a b : Nat, a ∈ l → R a b → R' a b) : List.Forall₂ R' l l' := by
  induction h with
  | nil => exact .nil
  | cons hab _ ih => exact .cons (hi _ _ (by simp) hab) (ih (fun a b ha hr => hi a b (by simp [ha]) hr))

theorem Content.frame {x y f : Nat} (h : Content M w0 w1 x y f) (hs : w2.slot y f = w1.slot y f) (hl : w1.nextList ≤ w2.nextList)
    (hlist : ∀ l : Nat, l < w1.nextList → w2.list l = w1.list l) (ho : ∀ z : Nat, (M.feature f).isRef = true → z ∈ values w0 x f → w2.objects z = w1.objects z)
    (hr : (∃ z, w0.slot x f = .obj z) → (M.feature f).isRef = true) :
    Content M w0 w2 x y f where
  value v hv := hs.trans (h.value v hv)
  obj z hz := by
    obtain ⟨z', h1, h2⟩ := h.obj z hz
    exact ⟨z', (ho z (hr ⟨z, hz⟩) (by simp [values, hz])).trans h1, hs.trans h2⟩
  list l hl' := by
    obtain ⟨l', h1, h2, h3, h4⟩ := h.list l hl'
    refine ⟨l', hs.trans h1, by omega, ?_, ?_⟩
    · intro hr
      rw [hlist l' h2]
      exact h3 hr
    · intro hr
      rw [hlist l' h2]
      obtain ⟨h5, h6⟩ := h4 hr
      refine ⟨h5, forall₂_imp_mem h6 ?_⟩
      intro a b ha hab
      rw [ho a hr (by simpa [values, hl'] using ha)]
      exact hab

theorem Valid.isRef_of_obj (hv : Valid M w0) {x f z : Nat} (hx : x < w0.nextObj) (hz : w0.slot x f = .obj z) : (M.feature f).isRef = true := by
  rcases hr : (M.feature f).isRef with _ | _
  · by_cases hm : (M.feature f).many = true
    · rcases hv.many x f hx hm with e | ⟨l, e, -⟩ <;> rw [hz] at e <;> simp at e
    · rcases hv.attr x f hx hr (by simpa using hm) with e | ⟨v, e⟩ <;> rw [hz] at e <;> simp at e
  · rfl

/-- two passes over disjoint sets of objects -/
theorem Post.comp {S1 S2 R1 R2 : Nat → Prop} {done : Nat → Nat → Prop} {U : Nat → Prop} (hv : Valid M w0)
    (hold : ∀ x : Nat, S1 x ∨ S2 x → x < w0.nextObj)
    (h1 : Post M w0 w w1 S1 R1 done U) (h2 : Post M w0 w1 w2 S2 R2 done U) (hd : ∀ x : Nat, S1 x → ¬ S2 x) :
    Post M w0 w w2 (fun x => S1 x ∨ S2 x) (fun x => (S1 x ∧ R1 x) ∨ (S2 x ∧ R2 x)) done U := by
  have ho1 : ∀ x : Nat, S1 x → w2.objects x = w1.objects x := fun x hx => h2.out x (hd x hx)
  have hlt1 : ∀ x y : Nat, S1 x → w2.objects x = some y → y < w1.nextObj := by
    intro x y hx hy
    obtain ⟨y', hy', -, hlt⟩ := h1.inS x hx
    rw [ho1 x hx, hy'] at hy
    cases hy
    exact hlt
  have hge2 : ∀ x y : Nat, S2 x → w2.objects x = some y → w1.nextObj ≤ y := by
    intro x y hx hy
    obtain ⟨y', hy', hge, -⟩ := h2.inS x hx
    rw [hy'] at hy
    cases hy
    exact hge
  have huniq : ∀ p p' f f' x : Nat, (S1 p ∨ S2 p) → (S1 p' ∨ S2 p') → Child M w0 p f x → Child M w0 p' f' x → p = p' ∧ f = f' := by
    intro p p' f f' x hp hp' hc hc'
    have e1 := hv.contained p f x (hold p hp) hc.cont hc.val
    have e2 := hv.contained p' f' x (hold p' hp') hc'.cont hc'.val
    rw [e1] at e2
    simp at e2
    exact e2
  constructor
  · exact h1.frame.trans h2.frame
  · rintro x (hx | hx)
    · obtain ⟨y, hy, h3, h4⟩ := h1.inS x hx
      exact ⟨y, (ho1 x hx).trans hy, h3, Nat.lt_of_lt_of_le h4 h2.frame.nobj⟩
    · obtain ⟨y, hy, h3, h4⟩ := h2.inS x hx
      exact ⟨y, hy, Nat.le_trans h1.frame.nobj h3, h4⟩
  · intro x hx
    rw [h2.out x (fun h => hx (.inr h)), h1.out x (fun h => hx (.inl h))]
  · rintro x x' y (hx | hx) (hx' | hx') hy hy'
    · rw [ho1 x hx] at hy
      rw [ho1 x' hx'] at hy'
      exact h1.inj x x' y hx hx' hy hy'
    · have := hlt1 x y hx hy
      have := hge2 x' y hx' hy'
      omega
    · have := hlt1 x' y hx' hy'
      have := hge2 x y hx hy
      omega
    · exact h2.inj x x' y hx hx' hy hy'
  · intro y hge hlt
    by_cases hy : y < w1.nextObj
    · obtain ⟨x, hx, hxy⟩ := h1.surj y hge hy
      exact ⟨x, .inl hx, (ho1 x hx).trans hxy⟩
    · obtain ⟨x, hx, hxy⟩ := h2.surj y (by omega) hlt
      exact ⟨x, .inr hx, hxy⟩
  · rintro x y (hx | hx) hy
    · have := hlt1 x y hx hy
      rw [ho1 x hx] at hy
      rw [h2.frame.cls y this]
      exact h1.cls x y hx hy
    · exact h2.cls x y hx hy
  · rintro x y (hx | hx) hy hu
    · have := hlt1 x y hx hy
      rw [ho1 x hx] at hy
      rw [h2.frame.uri y this]
      exact h1.uri x y hx hy hu
    · exact h2.uri x y hx hy hu
  · rintro x y (hx | hx) hy hu
    · have := hlt1 x y hx hy
      rw [ho1 x hx] at hy
      rw [h2.frame.uri y this]
      exact h1.nouri x y hx hy hu
    · exact h2.nouri x y hx hy hu
  · rintro x y f (hx | hx) hy hdn hc
    · have hlt := hlt1 x y hx hy
      rw [ho1 x hx] at hy
      refine (h1.content x y f hx hy hdn hc).frame (h2.frame.slot y f hlt) h2.frame.nlist h2.frame.list ?_ ?_
      · intro z hr hzv
        exact ho1 z (h1.down x f z hx hdn hc hr hzv)
      · rintro ⟨z, hz⟩
        exact hv.isRef_of_obj (hold x (.inl hx)) hz
    · exact h2.content x y f hx hy hdn hc
  · rintro x y f (hx | hx) hy hdn
    · have hlt := hlt1 x y hx hy
      rw [ho1 x hx] at hy
      rw [h2.frame.slot y f hlt]
      exact h1.nocontent x y f hx hy hdn
    · exact h2.nocontent x y f hx hy hdn
  · rintro x y hx hy hr
    rcases hr with ⟨hx1, hr⟩ | ⟨hx2, hr⟩
    · have hlt := hlt1 x y hx1 hy
      rw [ho1 x hx1] at hy
      rw [h2.frame.container y hlt]
      exact h1.roots x y hx1 hy hr
    · exact h2.roots x y hx2 hy hr
  · rintro x y p f q hx hy hr hp hc hq
    simp only [not_or, not_and] at hr
    rcases hx with hx | hx
    · have hlt := hlt1 x y hx hy
      rw [ho1 x hx] at hy
      rw [h2.frame.container y hlt]
      obtain ⟨p', f', hp', hc'⟩ := h1.up x hx (hr.1 hx)
      obtain ⟨e, -⟩ := huniq p' p f' f x (.inl hp') hp hc' hc
      subst e
      rw [ho1 p' hp'] at hq
      exact h1.conts x y p' f q hx hy (hr.1 hx) hp' hc hq
    · obtain ⟨p', f', hp', hc'⟩ := h2.up x hx (hr.2 hx)
      obtain ⟨e, -⟩ := huniq p' p f' f x (.inr hp') hp hc' hc
      subst e
      exact h2.conts x y p' f q hx hy (hr.2 hx) hp' hc hq
  · rintro x hx hr
    simp only [not_or, not_and] at hr
    rcases hx with hx | hx
    · obtain ⟨p, f, hp, hc⟩ := h1.up x hx (hr.1 hx)
      exact ⟨p, f, .inl hp, hc⟩
    · obtain ⟨p, f, hp, hc⟩ := h2.up x hx (hr.2 hx)
      exact ⟨p, f, .inr hp, hc⟩
  · rintro x f z (hx | hx) hdn hc hr hz
    · exact .inl (h1.down x f z hx hdn hc hr hz)
    · exact .inr (h2.down x f z hx hdn hc hr hz)
  · intro y f l hge hlt hs hl
    have key : ∀ y' f' : Nat, w.nextObj ≤ y' → y' < w1.nextObj → w2.slot y' f' = .list l → w.nextList ≤ l ∧ l < w1.nextList := by
      intro y' f' hge' hlt' hs'
      rw [h2.frame.slot y' f' hlt'] at hs'
      obtain ⟨h3, h4, -⟩ := h1.own y' f' l hge' hlt' hs' hl
      exact ⟨h3, h4⟩
    have hn1 := h1.frame.nlist
    have hn2 := h2.frame.nlist
    by_cases hy : y < w1.nextObj
    · have hk := key y f hge hy hs
      refine ⟨hk.1, by omega, ?_⟩
      intro y' f' hge' hlt' hs'
      by_cases hy' : y' < w1.nextObj
      · rw [h2.frame.slot y f hy] at hs
        rw [h2.frame.slot y' f' hy'] at hs'
        exact (h1.own y f l hge hy hs hl).2.2 y' f' hge' hy' hs'
      · have := (h2.own y' f' l (by omega) hlt' hs' hl).1
        omega
    · have h3 := h2.own y f l (by omega) hlt hs hl
      refine ⟨by omega, h3.2.1, ?_⟩
      intro y' f' hge' hlt' hs'
      by_cases hy' : y' < w1.nextObj
      · have := key y' f' hge' hy' hs'
        omega
      · exact h3.2.2 y' f' (by omega) hlt' hs'

/-! ## Attaching copies -/

/-- a new value of the feature `f` of `c`, which is the container of `cs` -/
def attach (w : World) (c f : Nat) (s : Slot) (l : Option EList) (cs : List Nat) : World :=
  { w with
    slot := fun x g => if x = c ∧ g = f then s else w.slot x g
    container := fun x => if x ∈ cs then some (c, f) else w.container x
    list := match l with
      | none => w.list
      | some l => fun k => if k = w.nextList then l else w.list k
    nextList := match l with
      | none => w.nextList
      | some _ => w.nextList + 1 }

theorem eSet_attach (c f z : Nat) (hf : (M.feature f).containment = true) (hs : w.slot c f = .none) (hz : w.container z = none) :
    eSet M w c f z = attach w c f (.obj z) none [z] := by
  simp [eSet, hf, hs, inverseAdd, removeFromContainer, hz, setSlot, setContainer, attach]

theorem add_attach (c f : Nat) (hf : (M.feature f).containment = true) (cs : List Nat) : ∀ (pre : List Nat), (pre ++ cs).Nodup → (∀ z ∈ cs, w.container z = none) →
    cs.foldl (add M c f) (attach w c f (.list w.nextList) (some ⟨pre, .refs⟩) pre) = attach w c f (.list w.nextList) (some ⟨pre ++ cs, .refs⟩) (pre ++ cs) := by
  induction cs with
  | nil => intro pre _ _; simp
  | cons z cs ih =>
    intro pre hn hc
    have hz : z ∉ pre := by
      intro h
      rw [List.nodup_append] at hn
      exact hn.2.2 z h z (by simp) rfl
    rw [List.foldl_cons]
    have : add M c f (attach w c f (.list w.nextList) (some ⟨pre, .refs⟩) pre) z = attach w c f (.list w.nextList) (some ⟨pre ++ [z], .refs⟩) (pre ++ [z]) := by
      simp only [add, getList, attach, and_self, if_true, hz, if_false, inverseAdd, hf, removeFromContainer, setItems, hc z (by simp), setContainer]
      congr 1
      · funext x
        by_cases hx : x = z <;> simp [hx]
      · funext k
        by_cases hk : k = w.nextList <;> simp [hk]
    rw [this, ih (pre ++ [z]) (by simpa using hn) (fun x hx => hc x (by simp [hx]))]
    simp

theorem eSetList_attach (c f : Nat) (cs : List Nat) (hf : (M.feature f).containment = true) (hr : (M.feature f).isRef = true) (hs : w.slot c f = .none)
    (hn : cs.Nodup) (hc : ∀ z ∈ cs, w.container z = none) :
    eSetList M w c f cs = attach w c f (.list w.nextList) (some ⟨cs, if M.generated (w.cls c) = true then .refs else .immutable⟩)
      (if M.generated (w.cls c) = true then cs else []) := by
  by_cases hg : M.generated (w.cls c) = true
  · simp only [eSetList, hg, if_true]
    have := add_attach (w := w) c f hf cs [] (by simpa using hn) hc
    simp only [List.nil_append] at this
    rw [← this]
    congr 1
    simp [getList, hs, newList, attach, hr]
  · simp [eSetList, hg, newList, attach]

theorem Post.attach {S R : Nat → Prop} {done : Nat → Nat → Prop} {U : Nat → Prop} (hv : Valid M w0) (hold : ∀ x : Nat, S x → x < w0.nextObj) (hw : Frame w0 w)
    (h : Post M w0 w w1 S R done U) {o c f : Nat} {s : Slot} {l : Option EList} {cs : List Nat} (hS : S o) (ho : w1.objects o = some c)
    (hcp : Copies M w0 o f) (hcontent : Content M w0 (attach w1 c f s l cs) o c f)
    (hcs : ∀ x y : Nat, S x → w1.objects x = some y → (y ∈ cs ↔ Child M w0 o f x ∧ ((M.feature f).many = false ∨ M.generated (w0.cls o) = true)))
    (hge : ∀ y ∈ cs, w.nextObj ≤ y) (hroot : ∀ x : Nat, Child M w0 o f x → S x ∧ R x) (hdown : (M.feature f).isRef = true → ∀ z ∈ values w0 o f, S z)
    (hs : ∀ k : Nat, s = .list k → w0.nextList ≤ k → k = w1.nextList ∧ l.isSome = true) (hnd : ¬ done o f) :
    Post M w0 w (attach w1 c f s l cs) S (fun x => R x ∧ ¬ Child M w0 o f x) (fun x g => done x g ∨ (x = o ∧ g = f)) U := by
  obtain ⟨c', hc', hcge, hclt⟩ := h.inS o hS
  rw [ho] at hc'
  cases hc'
  have hnl : w1.nextList ≤ (DeepCopy.attach w1 c f s l cs).nextList := by
    cases l <;> simp [DeepCopy.attach]
  have hlist : ∀ k : Nat, k < w1.nextList → (DeepCopy.attach w1 c f s l cs).list k = w1.list k := by
    intro k hk
    cases l with
    | none => rfl
    | some l => simp only [DeepCopy.attach]; rw [if_neg (by omega)]
  have hslot : ∀ x g : Nat, ¬ (x = c ∧ g = f) → (DeepCopy.attach w1 c f s l cs).slot x g = w1.slot x g := by
    intro x g hx
    simp only [DeepCopy.attach, if_neg hx]
  have hslotc : (DeepCopy.attach w1 c f s l cs).slot c f = s := by simp [DeepCopy.attach]
  have hxc : ∀ x : Nat, S x → w1.objects x = some c → x = o := fun x hx hxy => h.inj x o c hx hS hxy ho
  have hw0 : w0.nextList ≤ w1.nextList := Nat.le_trans hw.nlist h.frame.nlist
  have hobjs : (DeepCopy.attach w1 c f s l cs).objects = w1.objects := rfl
  have hnext : (DeepCopy.attach w1 c f s l cs).nextObj = w1.nextObj := rfl
  refine ⟨⟨h.frame.nobj, Nat.le_trans h.frame.nlist hnl, h.frame.cls, h.frame.uri, ?_, ?_, ?_⟩, h.inS, h.out, h.inj, h.surj, h.cls, h.uri, h.nouri, ?_, ?_, ?_, ?_, ?_, ?_, ?_⟩
  · intro x g hx
    rw [hslot x g (by omega)]
    exact h.frame.slot x g hx
  · intro x hx
    have : x ∉ cs := fun e => by have := hge x e; omega
    simp only [DeepCopy.attach, if_neg this]
    exact h.frame.container x hx
  · intro k hk
    rw [hlist k (Nat.lt_of_lt_of_le hk h.frame.nlist)]
    exact h.frame.list k hk
  · intro x y g hx hy hd hc
    rw [hobjs] at hy
    by_cases hxo : x = o ∧ g = f
    · obtain ⟨rfl, rfl⟩ := hxo
      rw [ho] at hy
      cases hy
      exact hcontent
    · have hd' : done x g := by
        rcases hd with hd | hd
        · exact hd
        · exact absurd hd hxo
      refine (h.content x y g hx hy hd' hc).frame (hslot y g ?_) hnl hlist (fun _ _ _ => rfl) ?_
      · rintro ⟨rfl, rfl⟩
        exact hxo ⟨hxc x hx hy, rfl⟩
      · rintro ⟨z, hz⟩
        exact hv.isRef_of_obj (hold x hx) hz
  · intro x y g hx hy hd
    rw [hobjs] at hy
    have hne : ¬ (y = c ∧ g = f) := by
      rintro ⟨rfl, rfl⟩
      have := hxc x hx hy
      subst this
      exact hd ⟨.inr ⟨rfl, rfl⟩, hcp⟩
    rw [hslot y g hne]
    exact h.nocontent x y g hx hy (fun e => hd ⟨.inl e.1, e.2⟩)
  · intro x y hx hy hr
    rw [hobjs] at hy
    have : y ∉ cs := fun e => hr.2 ((hcs x y hx hy).1 e).1
    simp only [DeepCopy.attach, if_neg this]
    exact h.roots x y hx hy hr.1
  · intro x y p g q hx hy hr hp hc hq
    rw [hobjs] at hy hq
    by_cases hcx : Child M w0 o f x
    · have e1 := hv.contained o f x (hold o hS) hcx.cont hcx.val
      have e2 := hv.contained p g x (hold p hp) hc.cont hc.val
      rw [e1] at e2
      simp at e2
      obtain ⟨rfl, rfl⟩ := e2
      rw [ho] at hq
      cases hq
      have := hcs x y hx hy
      simp only [DeepCopy.attach]
      split
      · rename_i hmem
        rw [if_pos (this.1 hmem).2]
      · rename_i hmem
        rw [if_neg (fun e => hmem (this.2 ⟨hcx, e⟩))]
        exact h.roots x y hx hy (hroot x hcx).2
    · have : y ∉ cs := fun e => hcx ((hcs x y hx hy).1 e).1
      simp only [DeepCopy.attach, if_neg this]
      exact h.conts x y p g q hx hy (fun e => hr ⟨e, hcx⟩) hp hc hq
  · intro x hx hr
    by_cases hcx : Child M w0 o f x
    · exact ⟨o, f, hS, hcx⟩
    · exact h.up x hx (fun e => hr ⟨e, hcx⟩)
  · intro x g z hx hd hc hr hz
    rcases hd with hd | ⟨rfl, rfl⟩
    · exact h.down x g z hx hd hc hr hz
    · exact hdown hr z hz
  · intro y g k hge' hlt hk hkl
    rw [hnext] at hlt
    by_cases hy : y = c ∧ g = f
    · obtain ⟨rfl, rfl⟩ := hy
      rw [hslotc] at hk
      obtain ⟨rfl, hl⟩ := hs k hk hkl
      refine ⟨h.frame.nlist, ?_, ?_⟩
      · cases l with
        | none => simp at hl
        | some l => simp [DeepCopy.attach]
      · intro y' f' hge'' hlt'' hs'
        by_cases hy' : y' = y ∧ f' = g
        · exact ⟨hy'.1.symm, hy'.2.symm⟩
        · rw [hslot y' f' hy'] at hs'
          have := (h.own y' f' _ hge'' hlt'' hs' hw0).2.1
          omega
    · rw [hslot y g hy] at hk
      obtain ⟨h1, h2, h3⟩ := h.own y g k hge' hlt hk hkl
      refine ⟨h1, by omega, ?_⟩
      intro y' f' hge'' hlt'' hs'
      by_cases hy' : y' = c ∧ f' = f
      · obtain ⟨rfl, rfl⟩ := hy'
        rw [hslotc] at hs'
        obtain ⟨rfl, -⟩ := hs k hs' hkl
        omega
      · rw [hslot y' f' hy'] at hs'
        exact h3 y' f' hge'' hlt'' hs'

/-! ## Subtrees -/

theorem Within.trans {a b c : Nat} (h1 : Within M w a b) (h2 : Within M w b c) : Within M w a c := by
  induction h2 with
  | root => exact h1
  | child x f y _ hf hc hd hy ih => exact .child x f y ih hf hc hd hy

theorem Child.within {p f x : Nat} (h : Child M w p f x) : Within M w p x := .child p f x .root h.mem h.cont h.nder h.val

theorem Within.old (hv : Valid M w) (wf : WellFormed M) {a b : Nat} (ha : a < w.nextObj) (h : Within M w a b) : b < w.nextObj := by
  induction h with
  | root => exact ha
  | child x f y _ hf hc hd hy ih => exact hv.objects x f y ih (wf.cref f hc) hy

theorem Within.linear (hv : Valid M w) (wf : WellFormed M) {a b x : Nat} (ha : a < w.nextObj) (hb : b < w.nextObj) (h1 : Within M w a x) (h2 : Within M w b x) :
    Within M w a b ∨ Within M w b a := by
  induction h1 with
  | root => exact .inr h2
  | child p f x h hf hc hd hx ih =>
    cases h2 with
    | root => exact .inl (.child p f _ h hf hc hd hx)
    | child p' f' _ h' hf' hc' hd' hx' =>
      have e1 := hv.contained p f x (h.old hv wf ha) hc hx
      have e2 := hv.contained p' f' x (h'.old hv wf hb) hc' hx'
      rw [e1] at e2
      simp at e2
      exact ih (e2.1 ▸ h')

theorem Within.depth {o : Nat} {depth : Nat → Nat} (hd : ∀ x f y : Nat, Within M w o x → (M.feature f).containment = true → y ∈ values w x f → depth y < depth x)
    {a b : Nat} (ha : Within M w o a) (h : Within M w a b) : depth b ≤ depth a := by
  induction h with
  | root => exact Nat.le_refl _
  | child x f y h _ hc _ hy ih => exact Nat.le_trans (Nat.le_of_lt (hd x f y (ha.trans h) hc hy)) ih

/-- the subtrees of different children have nothing in common -/
theorem Child.disjoint (hv : Valid M w) (wf : WellFormed M) {r : Nat} {depth : Nat → Nat}
    (hd : ∀ x f y : Nat, Within M w r x → (M.feature f).containment = true → y ∈ values w x f → depth y < depth x) {o f f' z z' x : Nat}
    (ho : o < w.nextObj) (hr : Within M w r o) (h : Child M w o f z) (h' : Child M w o f' z') (hx : Within M w z x) (hx' : Within M w z' x) : z = z' := by
  have key : ∀ f f' z z' : Nat, Child M w o f z → Child M w o f' z' → Within M w z z' → z = z' := by
    intro f f' z z' h h' hw
    cases hw with
    | root => rfl
    | child p g _ hp hg hc _ hv' =>
      have hz : z < w.nextObj := h.within.old hv wf ho
      have e1 := hv.contained p g z' (hp.old hv wf hz) hc hv'
      have e2 := hv.contained o f' z' ho h'.cont h'.val
      rw [e1] at e2
      simp at e2
      obtain ⟨rfl, -⟩ := e2
      have d1 := Within.depth hd (hr.trans h.within) hp
      have d2 := hd p f z hr h.cont h.val
      omega
  rcases hx.linear hv wf (h.within.old hv wf ho) (h'.within.old hv wf ho) hx' with hl | hl
  · exact key f f' z z' h h' hl
  · exact (key f' f z' z h' h hl).symm

theorem Child.not_within {r : Nat} {depth : Nat → Nat}
    (hd : ∀ x f y : Nat, Within M w r x → (M.feature f).containment = true → y ∈ values w x f → depth y < depth x) {o f z : Nat}
    (hr : Within M w r o) (h : Child M w o f z) : ¬ Within M w z o := by
  intro hz
  have d1 := Within.depth hd (hr.trans h.within) hz
  have d2 := hd o f z hr h.cont h.val
  omega

/-! ## The loops -/

/-- `copy` copies the tree of `z` -/
def CopyOK (M : Meta) (w0 : World) (copy : World → Nat → Option (World × Nat)) (z : Nat) : Prop :=
  ∀ w : World, Frame w0 w → ∃ w', copy w z = some (w', w.nextObj) ∧ w'.objects z = some w.nextObj ∧ Post M w0 w w' (Within M w0 z) (· = z) (fun _ _ => True) (fun _ => False)

theorem Post.empty (S : Nat → Prop) (hS : ∀ x, ¬ S x) (R : Nat → Prop) (done : Nat → Nat → Prop) (U : Nat → Prop) (w : World) : Post M w0 w w S R done U := by
  refine ⟨.refl w, ?_, ?_, ?_, ?_, ?_, ?_, ?_, ?_, ?_, ?_, ?_, ?_, ?_, ?_⟩ <;> intros <;> first | (exfalso; apply hS; assumption) | rfl | omega

theorem copyAll_post (hv : Valid M w0) (wf : WellFormed M) {r : Nat} {depth : Nat → Nat}
    (hd : ∀ x f y : Nat, Within M w0 r x → (M.feature f).containment = true → y ∈ values w0 x f → depth y < depth x)
    {copy : World → Nat → Option (World × Nat)} {o f : Nat} (ho : o < w0.nextObj) (hr : Within M w0 r o) (zs : List Nat) :
    (∀ z ∈ zs, Child M w0 o f z ∧ CopyOK M w0 copy z) → zs.Nodup → ∀ w : World, Frame w0 w →
    ∃ w' cs, copyAll copy w zs = some (w', cs) ∧ Post M w0 w w' (fun x => ∃ z ∈ zs, Within M w0 z x) (· ∈ zs) (fun _ _ => True) (fun _ => False) ∧
      List.Forall₂ (fun z c => w'.objects z = some c) zs cs := by
  induction zs with
  | nil =>
    intro _ _ w _
    exact ⟨w, [], rfl, .empty _ (by simp) _ _ _ _, .nil⟩
  | cons z zs ih =>
    intro hz hn w hw
    obtain ⟨w1, h1, hz1, p1⟩ := (hz z (by simp)).2 w hw
    rw [List.nodup_cons] at hn
    obtain ⟨w2, cs, h2, p2, hf⟩ := ih (fun z' h' => hz z' (by simp [h'])) hn.2 w1 (hw.trans p1.frame)
    have hdisj : ∀ x : Nat, Within M w0 z x → ¬ ∃ z' ∈ zs, Within M w0 z' x := by
      rintro x hx ⟨z', hz', hx'⟩
      have := Child.disjoint hv wf hd ho hr (hz z (by simp)).1 (hz z' (by simp [hz'])).1 hx hx'
      exact hn.1 (this ▸ hz')
    have hold : ∀ x : Nat, (Within M w0 z x ∨ ∃ z' ∈ zs, Within M w0 z' x) → x < w0.nextObj := by
      rintro x (hx | ⟨z', hz', hx⟩)
      · exact hx.old hv wf ((hz z (by simp)).1.within.old hv wf ho)
      · exact hx.old hv wf ((hz z' (by simp [hz'])).1.within.old hv wf ho)
    have hzo : w2.objects z = some w.nextObj := by
      rw [p2.out z (hdisj z .root)]
      exact hz1
    refine ⟨w2, w.nextObj :: cs, by simp [copyAll, h1, h2], ?_, .cons hzo hf⟩
    have := Post.comp hv hold p1 p2 hdisj
    have e : (fun x => ∃ z' ∈ z :: zs, Within M w0 z' x) = (fun x => Within M w0 z x ∨ ∃ z' ∈ zs, Within M w0 z' x) := by
      funext x
      simp
    rw [e]
    refine this.congr (fun _ _ _ => .rfl) (fun _ _ => .rfl) ?_
    intro x hx
    simp only [List.mem_cons]
    constructor
    · rintro (⟨-, h⟩ | ⟨-, h⟩)
      · exact .inl h
      · exact .inr h
    · rintro (rfl | h)
      · exact .inl ⟨.root, rfl⟩
      · exact .inr ⟨⟨x, h, .root⟩, h⟩

/-- the objects copied when the features `fs` of `o` have been handled -/
def Sub (M : Meta) (w0 : World) (o : Nat) (fs : List Nat) (x : Nat) : Prop := x = o ∨ ∃ f ∈ fs, ∃ z, Child M w0 o f z ∧ Within M w0 z x

theorem isSet_frame (hv : Valid M w0) (hw : Frame w0 w) {o f : Nat} (ho : o < w0.nextObj) : isSet M w o f = isSet M w0 o f := by
  simp only [isSet, hw.container o ho, hw.slot o f ho, hw.cls o ho]
  split
  · rfl
  · split
    · rfl
    · rename_i l hl
      by_cases hm : (M.feature f).many = true
      · rcases hv.many o f ho hm with e | ⟨l', e, hl'⟩
        · rw [e] at hl; simp at hl
        · rw [e] at hl
          cases hl
          rw [hw.list _ hl']
      · exfalso
        rcases hr : (M.feature f).isRef with _ | _
        · rcases hv.attr o f ho hr (by simpa using hm) with e | ⟨v, e⟩ <;> rw [e] at hl <;> simp at hl
        · rcases hv.ref o f ho hr (by simpa using hm) with e | ⟨v, e⟩ <;> rw [e] at hl <;> simp at hl
    · rfl

theorem Valid.list_lt (hv : Valid M w0) {o f l : Nat} (ho : o < w0.nextObj) (hl : w0.slot o f = .list l) : (M.feature f).many = true ∧ l < w0.nextList := by
  by_cases hm : (M.feature f).many = true
  · rcases hv.many o f ho hm with e | ⟨l', e, hl'⟩
    · rw [e] at hl; simp at hl
    · rw [e] at hl
      cases hl
      exact ⟨hm, hl'⟩
  · exfalso
    rcases hr : (M.feature f).isRef with _ | _
    · rcases hv.attr o f ho hr (by simpa using hm) with e | ⟨v, e⟩ <;> rw [e] at hl <;> simp at hl
    · rcases hv.ref o f ho hr (by simpa using hm) with e | ⟨v, e⟩ <;> rw [e] at hl <;> simp at hl

theorem items_frame (hv : Valid M w0) (hw : Frame w0 w) {o f : Nat} (ho : o < w0.nextObj) : items w o f = items w0 o f := by
  simp only [items, hw.slot o f ho]
  split
  · rename_i l hl
    rw [hw.list l (hv.list_lt ho hl).2]
  · rfl

/-- what is known in the loop over the features of `o` -/
def LoopInv (M : Meta) (w0 w wi : World) (o : Nat) (fs : List Nat) : Prop :=
  Post M w0 w wi (Sub M w0 o fs) (· = o) (fun x g => x ≠ o ∨ g ∈ fs) (· = o) ∧ wi.objects o = some w.nextObj

theorem Sub.snoc (o : Nat) (fs : List Nat) (f x : Nat) : Sub M w0 o (fs ++ [f]) x ↔ Sub M w0 o fs x ∨ ∃ z, Child M w0 o f z ∧ Within M w0 z x := by
  simp only [Sub, List.mem_append, List.mem_singleton]
  constructor
  · rintro (h | ⟨g, hg | rfl, z, hz⟩)
    · exact .inl (.inl h)
    · exact .inl (.inr ⟨g, hg, z, hz⟩)
    · exact .inr ⟨z, hz⟩
  · rintro ((h | ⟨g, hg, z, hz⟩) | ⟨z, hz⟩)
    · exact .inl h
    · exact .inr ⟨g, .inl hg, z, hz⟩
    · exact .inr ⟨f, .inr rfl, z, hz⟩

theorem Sub.old (hv : Valid M w0) (wf : WellFormed M) {o x : Nat} {fs : List Nat} (ho : o < w0.nextObj) (h : Sub M w0 o fs x) : x < w0.nextObj := by
  rcases h with rfl | ⟨f, -, z, hz, hx⟩
  · exact ho
  · exact hx.old hv wf (hz.within.old hv wf ho)

/-- a feature without children and without anything to copy -/
theorem LoopInv.skip {o f : Nat} {fs : List Nat} {wi : World} (h : LoopInv M w0 w wi o fs) (hn : ¬ Copies M w0 o f) (hc : ∀ z : Nat, ¬ Child M w0 o f z) :
    LoopInv M w0 w wi o (fs ++ [f]) := by
  obtain ⟨h, ho⟩ := h
  refine ⟨?_, ho⟩
  have e : Sub M w0 o (fs ++ [f]) = Sub M w0 o fs := by
    funext x
    rw [eq_iff_iff, Sub.snoc]
    constructor
    · rintro (h | ⟨z, hz, -⟩)
      · exact h
      · exact absurd hz (hc z)
    · exact .inl
  rw [e]
  exact {
    frame := h.frame, inS := h.inS, out := h.out, inj := h.inj, surj := h.surj, cls := h.cls, uri := h.uri, nouri := h.nouri
    content := by
      intro x y g hx hy hd hcp
      refine h.content x y g hx hy ?_ hcp
      simp only [List.mem_append, List.mem_singleton] at hd
      rcases hd with hd | hd | rfl
      · exact .inl hd
      · exact .inr hd
      · left
        rintro rfl
        exact hn hcp
    nocontent := by
      intro x y g hx hy hd
      refine h.nocontent x y g hx hy (fun e => hd ⟨?_, e.2⟩)
      rcases e.1 with e | e
      · exact .inl e
      · exact .inr (by simp [e])
    roots := h.roots, conts := h.conts, up := h.up
    down := by
      intro x g z hx hd hcp hr hz
      refine h.down x g z hx ?_ hcp hr hz
      simp only [List.mem_append, List.mem_singleton] at hd
      rcases hd with hd | hd | rfl
      · exact .inl hd
      · exact .inr hd
      · left
        rintro rfl
        exact hn hcp
    own := h.own }

/-- the value of `f` is attached to the copy of `o`, after the children have been copied -/
theorem LoopInv.attach (hv : Valid M w0) (wf : WellFormed M) {r : Nat} {depth : Nat → Nat}
    (hd : ∀ x f y : Nat, Within M w0 r x → (M.feature f).containment = true → y ∈ values w0 x f → depth y < depth x)
    {o f : Nat} {fs : List Nat} {wi wj : World} (hr : Within M w0 r o) (ho : o < w0.nextObj) (hw : Frame w0 w) (h : LoopInv M w0 w wi o fs) (hf : f ∉ fs)
    (hch : Post M w0 wi wj (fun x => ∃ z, Child M w0 o f z ∧ Within M w0 z x) (fun x => Child M w0 o f x) (fun _ _ => True) (fun _ => False))
    {s : Slot} {l : Option EList} {cs : List Nat}
    (hcp : Copies M w0 o f) (hcontent : Content M w0 (attach wj w.nextObj f s l cs) o w.nextObj f)
    (hcs : ∀ c : Nat, c ∈ cs ↔ ∃ x, Child M w0 o f x ∧ wj.objects x = some c ∧ ((M.feature f).many = false ∨ M.generated (w0.cls o) = true))
    (hs : ∀ k : Nat, s = .list k → w0.nextList ≤ k → k = wj.nextList ∧ l.isSome = true) :
    LoopInv M w0 w (attach wj w.nextObj f s l cs) o (fs ++ [f]) := by
  obtain ⟨h, hoc⟩ := h
  have hdisj : ∀ x : Nat, Sub M w0 o fs x → ¬ ∃ z, Child M w0 o f z ∧ Within M w0 z x := by
    rintro x hx ⟨z, hz, hzx⟩
    rcases hx with rfl | ⟨g, hg, z', hz', hx'⟩
    · exact hz.not_within hd hr hzx
    · have := Child.disjoint hv wf hd ho hr hz hz' hzx hx'
      subst this
      have e1 := hv.contained o f z ho hz.cont hz.val
      have e2 := hv.contained o g z ho hz'.cont hz'.val
      rw [e1] at e2
      simp at e2
      exact hf (e2 ▸ hg)
  have hold : ∀ x : Nat, (Sub M w0 o fs x ∨ ∃ z, Child M w0 o f z ∧ Within M w0 z x) → x < w0.nextObj := by
    rintro x (hx | ⟨z, hz, hx⟩)
    · exact hx.old hv wf ho
    · exact hx.old hv wf (hz.within.old hv wf ho)
  have hch' := hch.congr (done' := fun x g => x ≠ o ∨ g ∈ fs) (U' := (· = o)) (R' := fun x => Child M w0 o f x)
    (by
      rintro x g ⟨z, hz, hx⟩
      simp only [true_iff]
      left
      rintro rfl
      exact hz.not_within hd hr hx)
    (by
      rintro x ⟨z, hz, hx⟩
      simp only [false_iff]
      rintro rfl
      exact hz.not_within hd hr hx)
    (fun _ _ => .rfl)
  have hcomp := Post.comp hv hold h hch' hdisj
  have hoj : wj.objects o = some w.nextObj := by
    rw [hch.out o (hdisj o (.inl rfl))]
    exact hoc
  have e : Sub M w0 o (fs ++ [f]) = (fun x => Sub M w0 o fs x ∨ ∃ z, Child M w0 o f z ∧ Within M w0 z x) := by
    funext x
    rw [eq_iff_iff, Sub.snoc]
  have hnx : ∀ x : Nat, Child M w0 o f x → x ≠ o := by
    rintro x hx rfl
    exact hx.not_within hd hr .root
  refine ⟨?_, hoj⟩
  rw [e]
  refine (Post.attach hv hold hw hcomp (.inl (.inl rfl)) hoj hcp hcontent ?_ ?_ ?_ ?_ hs ?_).congr ?_ (fun _ _ => .rfl) ?_
  · intro x y hx hy
    rw [hcs]
    constructor
    · rintro ⟨x', hx', hxy', hk⟩
      have := hcomp.inj x x' y hx (.inr ⟨x', hx', .root⟩) hy hxy'
      exact ⟨this ▸ hx', hk⟩
    · rintro ⟨hx', hk⟩
      exact ⟨x, hx', hy, hk⟩
  · intro y hy
    obtain ⟨x, hx, hxy, -⟩ := (hcs y).1 hy
    obtain ⟨y', hy', hge, -⟩ := hcomp.inS x (.inr ⟨x, hx, .root⟩)
    rw [hxy] at hy'
    cases hy'
    exact hge
  · intro x hx
    exact ⟨.inr ⟨x, hx, .root⟩, .inr ⟨⟨x, hx, .root⟩, hx⟩⟩
  · intro hrf z hz
    have hk : (M.feature f).containment = true := by
      rcases hcp.kind with hk | hk
      · rw [hk] at hrf; simp at hrf
      · exact hk
    exact .inr ⟨z, ⟨hcp.mem, hk, hcp.nder, hz⟩, .root⟩
  · simp [hf]
  · intro x g hx
    simp only [List.mem_append, List.mem_singleton]
    by_cases hxo : x = o <;> simp [hxo]
  · intro x hx
    constructor
    · rintro ⟨⟨-, h1⟩ | ⟨-, h1⟩, h2⟩
      · exact h1
      · exact absurd h1 h2
    · rintro rfl
      exact ⟨.inl ⟨.inl rfl, rfl⟩, fun hc => hnx x hc rfl⟩


theorem not_set_values (hv : Valid M w0) {o f : Nat} (hc : M.isContainer f = false) (h : isSet M w0 o f = false) : values w0 o f = [] := by
  simp only [isSet, hc, Bool.false_eq_true, if_false] at h
  simp only [values]
  split at h
  · rename_i e; simp [e]
  · rename_i l e
    simp only [e]
    simp at h
    exact h.2
  · split
    · simp at h
    · simp at h
    · rfl

theorem WellFormed.not_container (wf : WellFormed M) {f : Nat} (hc : (M.feature f).containment = true) : M.isContainer f = false := by
  simp only [Meta.isContainer]
  split
  · rename_i g hg
    exact (wf.cont f g hc hg).1
  · rfl

theorem attr_not_container (wf : WellFormed M) {f : Nat} (hc : (M.feature f).isRef = false) : M.isContainer f = false := by
  simp only [Meta.isContainer]
  split
  · rename_i g hg
    have := wf.ref f g hg
    rw [hc] at this
    simp at this
  · rfl

theorem items_eq_values {o f : Nat} (hm : ∀ z : Nat, w0.slot o f ≠ .obj z) : items w0 o f = values w0 o f := by
  simp only [items, values]
  rcases h : w0.slot o f with _ | _ | z | _
  · rfl
  · rfl
  · exact absurd h (hm z)
  · rfl

theorem Forall₂.mem_right_iff {R : Nat → Nat → Prop} {l l' : List Nat} (h : List.Forall₂ R l l') (hu : ∀ a b b' : Nat, R a b → R a b' → b = b') (c : Nat) :
    c ∈ l' ↔ ∃ x ∈ l, R x c := by
  induction h with
  | nil => simp
  | cons hab _ ih =>
    rename_i a b l l' _
    simp only [List.mem_cons, ih]
    constructor
    · rintro (rfl | ⟨x, hx, hxc⟩)
      · exact ⟨a, .inl rfl, hab⟩
      · exact ⟨x, .inr hx, hxc⟩
    · rintro ⟨x, rfl | hx, hxc⟩
      · exact .inl (hu _ _ _ hxc hab)
      · exact .inr ⟨x, hx, hxc⟩

theorem Forall₂.nodup {R : Nat → Nat → Prop} {l l' : List Nat} (h : List.Forall₂ R l l') (hn : l.Nodup) (hu : ∀ a b b' : Nat, R a b → R a b' → b = b')
    (hi : ∀ a a' b : Nat, a ∈ l → a' ∈ l → R a b → R a' b → a = a') : l'.Nodup := by
  induction h with
  | nil => simp
  | cons hab hr ih =>
    rename_i a b l l'
    rw [List.nodup_cons] at hn ⊢
    refine ⟨?_, ih hn.2 (fun a a' b ha ha' => hi a a' b (by simp [ha]) (by simp [ha']))⟩
    intro hb
    obtain ⟨x, hx, hxb⟩ := (Forall₂.mem_right_iff hr hu b).1 hb
    have := hi a x b (by simp) (by simp [hx]) hab hxb
    exact hn.1 (this ▸ hx)

theorem copyFeature_step (hv : Valid M w0) (wf : WellFormed M) {r : Nat} {depth : Nat → Nat} {order : List Nat} (ht : Tree M w0 r order depth)
    {copy : World → Nat → Option (World × Nat)} {o f : Nat} {fs : List Nat} {wi : World} (hr : Within M w0 r o) (ho : o < w0.nextObj) (hw : Frame w0 w)
    (hcopy : ∀ f z : Nat, Child M w0 o f z → CopyOK M w0 copy z) (h : LoopInv M w0 w wi o fs) (hf : f ∉ fs) (hall : f ∈ M.all (w0.cls o)) :
    ∃ wi', copyFeature M copy o w.nextObj wi f = some wi' ∧ LoopInv M w0 w wi' o (fs ++ [f]) := by
  have hd := ht.depth
  have hwi : Frame w0 wi := hw.trans h.1.frame
  have hset : isSet M wi o f = isSet M w0 o f := isSet_frame hv hwi ho
  have hso : wi.slot o f = w0.slot o f := hwi.slot o f ho
  have hsc : wi.slot w.nextObj f = .none := h.1.nocontent o _ f (.inl rfl) h.2 (by simp [hf])
  have hcls : wi.cls w.nextObj = w0.cls o := h.1.cls o _ (.inl rfl) h.2
  simp only [copyFeature]
  by_cases hcd : (M.feature f).changeable = true ∧ (M.feature f).derived = false
  · obtain ⟨hch, hdr⟩ := hcd
    simp only [hch, hdr, Bool.not_false, Bool.and_true, if_true]
    rcases hir : (M.feature f).isRef with _ | _
    · -- an attribute
      simp only [Bool.not_false, if_true]
      have hnc : ∀ z : Nat, ¬ Child M w0 o f z := by
        intro z hz
        have := wf.cref f hz.cont
        rw [hir] at this
        simp at this
      have hempty : Post M w0 wi wi (fun x => ∃ z, Child M w0 o f z ∧ Within M w0 z x) (fun x => Child M w0 o f x) (fun _ _ => True) (fun _ => False) :=
        .empty _ (by rintro x ⟨z, hz, -⟩; exact hnc z hz) _ _ _ _
      simp only [copyAttribute, hset]
      by_cases hs : isSet M w0 o f = true
      · have hcp : Copies M w0 o f := ⟨hall, hch, hdr, .inl hir, hs⟩
        have hcs0 : ∀ c : Nat, c ∈ ([] : List Nat) ↔ ∃ x, Child M w0 o f x ∧ wi.objects x = some c ∧ ((M.feature f).many = false ∨ M.generated (w0.cls o) = true) := by
          intro c
          simp only [List.not_mem_nil, false_iff]
          rintro ⟨x, hx, -⟩
          exact hnc x hx
        simp only [hs, if_true, hso, hcls]
        rcases hsl : w0.slot o f with _ | v | z | l
        · simp [isSet, attr_not_container wf hir, hsl] at hs
        · refine ⟨_, rfl, ?_⟩
          have e : setSlot wi w.nextObj f (.value v) = attach wi w.nextObj f (.value v) none [] := by simp [setSlot, attach]
          simp only
          rw [e]
          refine LoopInv.attach hv wf hd hr ho hw h hf hempty hcp ⟨?_, ?_, ?_⟩ hcs0 (by simp)
          · intro v' hv'
            rw [hsl] at hv'
            cases hv'
            simp [attach]
          · intro z hz; rw [hsl] at hz; simp at hz
          · intro z hz; rw [hsl] at hz; simp at hz
        · exact absurd (hv.isRef_of_obj ho hsl) (by simp [hir])
        · have hlt := (hv.list_lt ho hsl).2
          by_cases hg : M.generated (w0.cls o) = true
          · refine ⟨_, rfl, ?_⟩
            simp only [hg, if_true, getList, hsc]
            have e : setItems (newList wi w.nextObj f ⟨[], if (M.feature f).isRef then .refs else .values⟩) wi.nextList (wi.list l).items =
                attach wi w.nextObj f (.list wi.nextList) (some ⟨(wi.list l).items, .values⟩) [] := by
              simp only [setItems, newList, attach, hir, if_true, List.not_mem_nil, if_false, Bool.false_eq_true]
              congr 1
              funext k
              by_cases hk : k = wi.nextList <;> simp [hk]
            rw [e]
            refine LoopInv.attach hv wf hd hr ho hw h hf hempty hcp ⟨?_, ?_, ?_⟩ hcs0 (by simp)
            · intro v' hv'; rw [hsl] at hv'; simp at hv'
            · intro z hz; rw [hsl] at hz; simp at hz
            · intro l' hl'
              rw [hsl] at hl'
              cases hl'
              refine ⟨wi.nextList, by simp [attach], by simp [attach], ?_, by simp [hir]⟩
              intro _
              refine ⟨?_, fun _ => hwi.nlist⟩
              simp [attach, hwi.list l hlt]
          · refine ⟨_, rfl, ?_⟩
            simp only [hg, if_false]
            have e : setSlot wi w.nextObj f (.list l) = attach wi w.nextObj f (.list l) none [] := by simp [setSlot, attach]
            rw [if_neg (by simp), e]
            refine LoopInv.attach hv wf hd hr ho hw h hf hempty hcp ⟨?_, ?_, ?_⟩ hcs0 ?_
            · intro v' hv'; rw [hsl] at hv'; simp at hv'
            · intro z hz; rw [hsl] at hz; simp at hz
            · intro l' hl'
              rw [hsl] at hl'
              cases hl'
              refine ⟨l, by simp [attach], ?_, ?_, by simp [hir]⟩
              · exact Nat.lt_of_lt_of_le hlt hwi.nlist
              · intro _
                exact ⟨by simp [attach, hwi.list l hlt], fun e => absurd e hg⟩
            · intro k hk hge
              cases hk
              omega
      · simp only [hs]
        exact ⟨wi, by simp, h.skip (fun hc => hs hc.set) hnc⟩
    · simp only [Bool.not_true, Bool.false_eq_true, if_false]
      by_cases hct : (M.feature f).containment = true
      · simp only [hct, if_true, copyContainment, hset]
        have hncf := wf.not_container hct
        by_cases hs : isSet M w0 o f = true
        · have hcp : Copies M w0 o f := ⟨hall, hch, hdr, .inr hct, hs⟩
          simp only [hs, if_true]
          have hchild : ∀ z : Nat, z ∈ values w0 o f → Child M w0 o f z := fun z hz => ⟨hall, hct, hdr, hz⟩
          by_cases hm : (M.feature f).many = true
          · obtain ⟨l, hsl, hlt⟩ : ∃ l, w0.slot o f = .list l ∧ l < w0.nextList := by
              rcases hv.many o f ho hm with e | e
              · simp [isSet, hncf, e] at hs
              · exact e
            have hvals : values w0 o f = (w0.list l).items := by simp [values, hsl]
            have hitems : items wi o f = values w0 o f := by
              rw [items_frame hv hwi ho, items_eq_values (by simp [hsl])]
            simp only [hm, if_true, hitems]
            obtain ⟨wj, cs, h1, hp, hF⟩ := copyAll_post hv wf hd ho hr (values w0 o f) (fun z hz => ⟨hchild z hz, hcopy f z (hchild z hz)⟩)
              (hv.unique o f ho hir) wi hwi
            rw [h1]
            simp only [Option.map_some]
            have e : (fun x => ∃ z ∈ values w0 o f, Within M w0 z x) = (fun x => ∃ z, Child M w0 o f z ∧ Within M w0 z x) := by
              funext x
              apply propext
              constructor
              · rintro ⟨z, hz, hx⟩; exact ⟨z, hchild z hz, hx⟩
              · rintro ⟨z, hz, hx⟩; exact ⟨z, hz.val, hx⟩
            rw [e] at hp
            have hp' := hp.congr (done' := fun _ _ => True) (U' := fun _ => False) (R' := fun x => Child M w0 o f x) (fun _ _ _ => .rfl) (fun _ _ => .rfl)
              (fun x _ => ⟨hchild x, fun hx => hx.val⟩)
            have hclt : w.nextObj < wi.nextObj := by
              obtain ⟨y, hy, -, hlt⟩ := h.1.inS o (.inl rfl)
              rw [h.2] at hy
              cases hy
              exact hlt
            have hcsn : cs.Nodup := Forall₂.nodup hF (hv.unique o f ho hir) (fun a b b' h1 h2 => by rw [h1] at h2; cases h2; rfl)
              (fun a a' b ha ha' h1 h2 => hp'.inj a a' b ⟨a, hchild a ha, .root⟩ ⟨a', hchild a' ha', .root⟩ h1 h2)
            have hmem := Forall₂.mem_right_iff hF (fun a b b' h1 h2 => by rw [h1] at h2; cases h2; rfl)
            have hat := eSetList_attach (M := M) (w := wj) w.nextObj f cs hct hir (by rw [hp'.frame.slot _ _ hclt]; exact hsc) hcsn (by
              intro z hz
              obtain ⟨x, hx, hxz⟩ := (hmem z).1 hz
              exact hp'.roots x z ⟨x, hchild x hx, .root⟩ hxz (hchild x hx))
            refine ⟨_, rfl, ?_⟩
            rw [hat, hp'.frame.cls _ hclt, hcls]
            refine LoopInv.attach hv wf hd hr ho hw h hf hp' hcp ⟨?_, ?_, ?_⟩ ?_ (by simp)
            · intro v' hv'; rw [hsl] at hv'; simp at hv'
            · intro z hz; rw [hsl] at hz; simp at hz
            · intro l' hl'
              rw [hsl] at hl'
              cases hl'
              refine ⟨wj.nextList, by simp [attach], by simp [attach], by simp [hir], ?_⟩
              intro _
              refine ⟨Nat.le_trans hwi.nlist hp'.frame.nlist, ?_⟩
              simp only [attach, if_true]
              rw [← hvals]
              exact hF
            · intro c
              simp only [hm, Bool.true_eq_false, false_or]
              by_cases hg : M.generated (w0.cls o) = true
              · simp only [hg, if_true, and_true, hmem]
                constructor
                · rintro ⟨x, hx, hxc⟩; exact ⟨x, hchild x hx, hxc⟩
                · rintro ⟨x, hx, hxc⟩; exact ⟨x, hx.val, hxc⟩
              · simp [hg]
          · simp only [hm, Bool.false_eq_true, if_false]
            obtain ⟨z, hsl⟩ : ∃ z, w0.slot o f = .obj z := by
              rcases hv.ref o f ho hir (by simpa using hm) with e | e
              · simp [isSet, hncf, e] at hs
              · exact e
            rw [hso, hsl]
            simp only
            have hzv : z ∈ values w0 o f := by simp [values, hsl]
            have hz := hchild z hzv
            have honly : ∀ x : Nat, Child M w0 o f x → x = z := by
              intro x hx
              have := hx.val
              simpa [values, hsl] using this
            obtain ⟨wj, h1, hzo, hp⟩ := hcopy f z hz wi hwi
            rw [h1]
            simp only [Option.map_some]
            have e : Within M w0 z = (fun x => ∃ z, Child M w0 o f z ∧ Within M w0 z x) := by
              funext x
              apply propext
              constructor
              · intro hx; exact ⟨z, hz, hx⟩
              · rintro ⟨z', hz', hx⟩
                rw [honly z' hz'] at hx
                exact hx
            rw [e] at hp
            have hp' := hp.congr (done' := fun _ _ => True) (U' := fun _ => False) (R' := fun x => Child M w0 o f x) (fun _ _ _ => .rfl) (fun _ _ => .rfl)
              (fun x _ => ⟨fun e => e ▸ hz, fun hx => honly x hx⟩)
            have hclt : w.nextObj < wi.nextObj := by
              obtain ⟨y, hy, -, hlt⟩ := h.1.inS o (.inl rfl)
              rw [h.2] at hy
              cases hy
              exact hlt
            have hat := eSet_attach (M := M) (w := wj) w.nextObj f wi.nextObj hct (by rw [hp'.frame.slot _ _ hclt]; exact hsc)
              (hp'.roots z wi.nextObj ⟨z, hz, .root⟩ hzo hz)
            refine ⟨_, rfl, ?_⟩
            rw [hat]
            refine LoopInv.attach hv wf hd hr ho hw h hf hp' hcp ⟨?_, ?_, ?_⟩ ?_ (by simp)
            · intro v' hv'; rw [hsl] at hv'; simp at hv'
            · intro z' hz'
              rw [hsl] at hz'
              cases hz'
              exact ⟨wi.nextObj, hzo, by simp [attach]⟩
            · intro z hz; rw [hsl] at hz; simp at hz
            · intro c
              simp only [List.mem_singleton, hm]
              constructor
              · rintro rfl
                exact ⟨z, hz, hzo, .inl (by simp)⟩
              · rintro ⟨x, hx, hxc, -⟩
                rw [honly x hx, hzo] at hxc
                cases hxc
                rfl
        · simp only [hs, if_false]
          refine ⟨wi, by simp, h.skip (fun hc => hs hc.set) ?_⟩
          intro z hz
          have := hz.val
          rw [not_set_values hv hncf (by simpa using hs)] at this
          simp at this
      · simp only [hct, if_false]
        refine ⟨wi, by simp, h.skip (fun hc => ?_) (fun z hz => hct hz.cont)⟩
        rcases hc.kind with e | e
        · rw [hir] at e; simp at e
        · exact hct e
  · have : ((M.feature f).changeable && !(M.feature f).derived) = false := by
      rcases h1 : (M.feature f).changeable with _ | _ <;> rcases h2 : (M.feature f).derived with _ | _ <;> simp_all
    simp only [this]
    refine ⟨wi, by simp, h.skip (fun hc => hcd ⟨hc.ch, hc.nder⟩) ?_⟩
    intro z hz
    have hncf := wf.not_container hz.cont
    have hn : (M.feature f).changeable = false := by
      rcases h1 : (M.feature f).changeable with _ | _
      · rfl
      · exact absurd ⟨h1, hz.nder⟩ hcd
    have := ht.changeable o f hr hall hz.nder hn hncf
    have hz' := hz.val
    rw [not_set_values hv hncf this] at hz'
    simp at hz'


theorem loop_post (hv : Valid M w0) (wf : WellFormed M) {r : Nat} {depth : Nat → Nat} {order : List Nat} (ht : Tree M w0 r order depth)
    {copy : World → Nat → Option (World × Nat)} {o : Nat} (hr : Within M w0 r o) (ho : o < w0.nextObj) (hw : Frame w0 w)
    (hcopy : ∀ f z : Nat, Child M w0 o f z → CopyOK M w0 copy z) (gs : List Nat) : ∀ (fs : List Nat) (wi : World), LoopInv M w0 w wi o fs →
    (fs ++ gs).Nodup → (∀ f ∈ gs, f ∈ M.all (w0.cls o)) →
    ∃ wi', gs.foldlM (copyFeature M copy o w.nextObj) wi = some wi' ∧ LoopInv M w0 w wi' o (fs ++ gs) := by
  induction gs with
  | nil => intro fs wi h _ _; exact ⟨wi, rfl, by simpa using h⟩
  | cons f gs ih =>
    intro fs wi h hn hall
    have hf : f ∉ fs := by
      intro e
      rw [List.nodup_append] at hn
      exact hn.2.2 f e f (by simp) rfl
    obtain ⟨w1, h1, hi⟩ := copyFeature_step hv wf ht hr ho hw hcopy h hf (hall f (by simp))
    obtain ⟨w2, h2, hi2⟩ := ih (fs ++ [f]) w1 hi (by simpa using hn) (fun g hg => hall g (by simp [hg]))
    exact ⟨w2, by simp [List.foldlM_cons, h1, h2], by simpa using hi2⟩

theorem create_post (hw : Frame w0 w) {o : Nat} (ho : o < w0.nextObj) : LoopInv M w0 w (create w o) o [] := by
  have hobj : ∀ x y : Nat, Sub M w0 o [] x → (create w o).objects x = some y → x = o ∧ y = w.nextObj := by
    rintro x y (rfl | ⟨f, hf, -⟩) hy
    · simp only [create, if_true, Option.some.injEq] at hy
      exact ⟨rfl, hy.symm⟩
    · simp at hf
  have hlt : o < w.nextObj := Nat.lt_of_lt_of_le ho hw.nobj
  refine ⟨⟨⟨?_, Nat.le_refl _, ?_, ?_, ?_, ?_, fun _ _ => rfl⟩, ?_, ?_, ?_, ?_, ?_, ?_, ?_, ?_, ?_, ?_, ?_, ?_, ?_, ?_⟩, by simp [create]⟩
  · simp [create]
  · intro x hx; simp only [create]; rw [if_neg (by omega)]
  · intro x hx; simp only [create]; rw [if_neg (by omega)]
  · intro x f hx; simp only [create]; rw [if_neg (by omega)]
  · intro x hx; simp only [create]; rw [if_neg (by omega)]
  · rintro x (rfl | ⟨f, hf, -⟩)
    · exact ⟨w.nextObj, by simp [create], Nat.le_refl _, by simp [create]⟩
    · simp at hf
  · intro x hx
    simp only [create]
    rw [if_neg]
    rintro rfl
    exact hx (.inl rfl)
  · intro x x' y hx hx' hy hy'
    rw [(hobj x y hx hy).1, (hobj x' y hx' hy').1]
  · intro y h1 h2
    have h3 : (create w o).nextObj = w.nextObj + 1 := rfl
    have : y = w.nextObj := by omega
    subst this
    exact ⟨o, .inl rfl, by simp [create]⟩
  · intro x y hx hy
    obtain ⟨rfl, rfl⟩ := hobj x y hx hy
    simp only [create, if_true]
    exact hw.cls x ho
  · intro x y hx hy hu
    exact absurd (hobj x y hx hy).1 hu
  · intro x y hx hy hu
    obtain ⟨rfl, rfl⟩ := hobj x y hx hy
    simp [create]
  · intro x y f hx hy hd
    obtain ⟨rfl, rfl⟩ := hobj x y hx hy
    simp at hd
  · intro x y f hx hy hd
    obtain ⟨rfl, rfl⟩ := hobj x y hx hy
    simp [create]
  · intro x y hx hy hd
    obtain ⟨rfl, rfl⟩ := hobj x y hx hy
    simp [create]
  · intro x y p f q hx hy hd
    exact absurd (hobj x y hx hy).1 hd
  · rintro x (rfl | ⟨f, hf, -⟩) hx
    · exact absurd rfl hx
    · simp at hf
  · rintro x f z (rfl | ⟨f, hf, -⟩) hd
    · simp at hd
    · simp at hf
  · intro y f l h1 h2 hs
    have h3 : (create w o).nextObj = w.nextObj + 1 := rfl
    have : y = w.nextObj := by omega
    subst this
    simp [create] at hs

theorem copy_post (hv : Valid M w0) (wf : WellFormed M) {r : Nat} {depth : Nat → Nat} {order : List Nat} (ht : Tree M w0 r order depth) (n : Nat) :
    ∀ o : Nat, Within M w0 r o → depth o < n → CopyOK M w0 (copy M n) o := by
  induction n with
  | zero => intro o _ h; omega
  | succ n ih =>
    intro o hr hn w hw
    have ho : o < w0.nextObj := hr.old hv wf ht.exists_
    obtain ⟨w1, h1, hp, hoc⟩ := loop_post hv wf ht (copy := copy M n) hr ho hw (by
      intro f z hz
      refine ih z (hr.trans hz.within) ?_
      have := ht.depth o f z hr hz.cont hz.val
      omega) (M.all (w0.cls o)) [] (create w o) (create_post hw ho) (by simpa using wf.nodup _) (fun _ h => h)
    refine ⟨copyProxyURI w1 o w.nextObj, ?_, ?_, ?_⟩
    · simp only [copy, hw.cls o ho, h1, Option.map_some]
    · simp only [copyProxyURI]
      split <;> exact hoc
    · have e : Sub M w0 o ([] ++ M.all (w0.cls o)) = Within M w0 o := by
        funext x
        apply propext
        constructor
        · rintro (rfl | ⟨f, -, z, hz, hx⟩)
          · exact .root
          · exact hz.within.trans hx
        · intro h
          induction h with
          | root => exact .inl rfl
          | child x f y hx hf hc hd hy ihx =>
            rcases ihx with rfl | ⟨g, hg, z, hz, hzx⟩
            · exact .inr ⟨f, by simpa using hf, y, ⟨hf, hc, hd, hy⟩, .root⟩
            · exact .inr ⟨g, hg, z, hz, .child x f y hzx hf hc hd hy⟩
      rw [e] at hp
      have huri : w1.uri o = w0.uri o := by
        rw [hp.frame.uri o (Nat.lt_of_lt_of_le ho hw.nobj)]
        exact hw.uri o ho
      have hnext : w1.objects o = some w.nextObj := hoc
      have hcopyuri : ∀ x y : Nat, Within M w0 o x → w1.objects x = some y → (copyProxyURI w1 o w.nextObj).uri y = w0.uri x := by
        intro x y hx hy
        by_cases hxo : x = o
        · subst hxo
          rw [hnext] at hy
          cases hy
          simp only [copyProxyURI]
          split
          · simp [huri]
          · rename_i hs
            rw [hp.nouri x _ hx hnext rfl]
            rw [huri] at hs
            simp at hs
            exact hs.symm
        · have hyc : y ≠ w.nextObj := by
            rintro rfl
            exact hxo (hp.inj x o _ hx .root hy hnext)
          simp only [copyProxyURI]
          split
          · simp only [if_neg hyc]
            exact hp.uri x y hx hy hxo
          · exact hp.uri x y hx hy hxo
      have hsame : ∃ u, copyProxyURI w1 o w.nextObj = { w1 with uri := u } := by
        simp only [copyProxyURI]
        split
        · exact ⟨_, rfl⟩
        · exact ⟨w1.uri, rfl⟩
      have hframe : Frame w (copyProxyURI w1 o w.nextObj) := by
        refine ⟨?_, ?_, ?_, ?_, ?_, ?_, ?_⟩
        · obtain ⟨u, hu⟩ := hsame; rw [hu]; exact hp.frame.nobj
        · obtain ⟨u, hu⟩ := hsame; rw [hu]; exact hp.frame.nlist
        · obtain ⟨u, hu⟩ := hsame; rw [hu]; exact hp.frame.cls
        · intro x hx
          simp only [copyProxyURI]
          split
          · simp only
            rw [if_neg (by omega)]
            exact hp.frame.uri x hx
          · exact hp.frame.uri x hx
        · obtain ⟨u, hu⟩ := hsame; rw [hu]; exact hp.frame.slot
        · obtain ⟨u, hu⟩ := hsame; rw [hu]; exact hp.frame.container
        · obtain ⟨u, hu⟩ := hsame; rw [hu]; exact hp.frame.list
      have hobjs : (copyProxyURI w1 o w.nextObj).objects = w1.objects := by obtain ⟨u, hu⟩ := hsame; rw [hu]
      have hslots : (copyProxyURI w1 o w.nextObj).slot = w1.slot := by obtain ⟨u, hu⟩ := hsame; rw [hu]
      have hdone : ∀ x f : Nat, Copies M w0 x f → x ≠ o ∨ f ∈ [] ++ M.all (w0.cls o) := by
        intro x f hc
        by_cases hx : x = o
        · right; subst hx; simpa using hc.mem
        · exact .inl hx
      refine ⟨hframe, ?_, ?_, ?_, ?_, ?_, ?_, ?_, ?_, ?_, ?_, ?_, ?_, ?_, ?_⟩
      · obtain ⟨u, hu⟩ := hsame; rw [hu]; exact hp.inS
      · obtain ⟨u, hu⟩ := hsame; rw [hu]; exact hp.out
      · obtain ⟨u, hu⟩ := hsame; rw [hu]; exact hp.inj
      · obtain ⟨u, hu⟩ := hsame; rw [hu]; exact hp.surj
      · obtain ⟨u, hu⟩ := hsame; rw [hu]; exact hp.cls
      · intro x y hx hy _
        rw [hobjs] at hy
        exact hcopyuri x y hx hy
      · intro _ _ _ _ h; exact h.elim
      · intro x y f hx hy _ hc
        rw [hobjs] at hy
        have hct := hp.content x y f hx hy (hdone x f hc) hc
        obtain ⟨u, hu⟩ := hsame
        rw [hu]
        exact ⟨hct.value, hct.obj, hct.list⟩
      · intro x y f hx hy hd
        rw [hobjs] at hy
        rw [hslots]
        exact hp.nocontent x y f hx hy (fun e => hd ⟨trivial, e.2⟩)
      · obtain ⟨u, hu⟩ := hsame; rw [hu]; exact hp.roots
      · obtain ⟨u, hu⟩ := hsame; rw [hu]; exact hp.conts
      · exact hp.up
      · intro x f z hx _ hc
        exact hp.down x f z hx (hdone x f hc) hc
      · obtain ⟨u, hu⟩ := hsame; rw [hu]; exact hp.own

end Verif.DeepCopy
