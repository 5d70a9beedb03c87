import Verif.Proofs.DeepCopyPass
import Verif.Props.DeepEqual

/-!
# Proofs about copies: what they are equal to
-/

namespace Verif.DeepCopy

variable {M : Meta} {w0 w1 w w' : World} {S : Nat → Prop}

/-- what `Copy` and `CopyAll` have done: the objects of `S` are copied, those of `R` are the roots -/
structure Final (M : Meta) (w0 w1 w' : World) (S R : Nat → Prop) (order : List Nat) : Prop where
  post : Post M w0 w0 w1 S R (fun _ _ => True) (fun _ => False)
  ctx : Ctx M w0 w1 S
  inv : Inv M w0 w1 w' (fun x f => x ∈ order ∧ f ∈ crossReferences M (w0.cls x)) (fun x f => x ∈ order ∧ f ∈ crossReferences M (w0.cls x))

theorem not_copied {x f : Nat} (hf : Cross M f) : ¬ Copies M w0 x f := by
  intro h
  rcases h.kind with e | e
  · rw [hf.ref] at e; simp at e
  · rw [hf.ncont] at e; simp at e

theorem copyReferences_final {R : Nat → Prop} (hv0 : Valid M w0) (wf : WellFormed M) {order : List Nat} (hnone : ∀ x : Nat, w0.objects x = none)
    (hold : ∀ x : Nat, S x → x < w0.nextObj) (hmem : ∀ x ∈ order, S x) (hnd : order.Nodup)
    (h3 : Post M w0 w0 w1 S R (fun _ _ => True) (fun _ => False)) :
    ∃ w', copyReferences M order w1 = some w' ∧ Final M w0 w1 w' S R order := by
  have hC : Ctx M w0 w1 S := by
    refine ⟨hv0, wf, hold, h3.inS, fun x hx => (h3.out x hx).trans (hnone x), ?_⟩
    intro x x' y hx hx'
    have key : ∀ x : Nat, w1.objects x = some y → S x := by
      intro x hx
      rcases Classical.em (S x) with h | h
      · exact h
      · rw [h3.out x h, hnone] at hx
        simp at hx
    exact h3.inj x x' y (key x hx) (key x' hx') hx hx'
  have hcross : ∀ y f : Nat, w0.nextObj ≤ y → y < w1.nextObj → Cross M f → w1.slot y f = .none := by
    intro y f hge hlt hf
    obtain ⟨x, hx, hxy⟩ := h3.surj y hge hlt
    exact h3.nocontent x y f hx hxy (fun e => not_copied hf e.2)
  have hI : Inv M w0 w1 w1 (fun _ _ => False) (fun _ _ => False) := by
    constructor
    · refine ⟨h3.frame, rfl, Nat.le_refl _, rfl, rfl, rfl, rfl, fun _ _ _ _ => rfl, fun _ _ _ _ _ _ _ => rfl, ?_, ?_, ?_, ?_, ?_⟩
      · intro y f l hge hlt hs hl
        exact (h3.own y f l hge hlt hs hl).2
      · intro y f l hge hlt hf hs
        rw [hcross y f hge hlt hf] at hs
        simp at hs
      · intro y f l hge hlt hs
        by_cases hl : w0.nextList ≤ l
        · exact (h3.own y f l hge hlt hs hl).2.1
        · have := h3.frame.nlist
          omega
      · intro y f hge hlt hf _
        exact .inl (hcross y f hge hlt hf)
      · intro y f hge hlt hf _
        exact .inl (hcross y f hge hlt hf)
    · have hnil : ∀ x y f : Nat, w1.objects x = some y → Cross M f → values w1 y f = [] := by
        intro x y f hxy hf
        have := hC.mem hxy
        simp [values, hcross y f this.2.1 this.2.2 hf]
      refine ⟨?_, ?_, ?_, ?_, ?_, ?_⟩
      · intro x y f hxy hf; simp [hnil x y f hxy hf]
      · intro x y f v hxy hf; simp [hnil x y f hxy hf]
      · intro x y f _ _ _ hxy _ hf; simp [hnil x y f hxy hf]
      · intro x y f hxy hf hz
        have := hC.mem hxy
        exact absurd (hcross y f this.2.1 this.2.2 hf) hz
      · intro x y f hxy hf _ _; exact hnil x y f hxy hf
      · intro _ _ _ _ _ h; exact h.elim
  obtain ⟨w', h4, h5⟩ := copyReferences_loop hC order _ w1 hI hnd (fun x hx => ⟨hmem x hx, fun _ h => h⟩)
  exact ⟨w', h4, h3, hC, h5.congr (by simp)⟩

theorem within_objects (M : Meta) (w : World) (o x : Nat) : Within M { w with objects := fun _ => none } o x ↔ Within M w o x := by
  constructor
  · intro h
    induction h with
    | root => exact .root
    | child x f y _ h1 h2 h3 h4 ih => exact .child x f y ih h1 h2 h3 h4
  · intro h
    induction h with
    | root => exact .root
    | child x f y _ h1 h2 h3 h4 ih => exact .child x f y ih h1 h2 h3 h4

theorem valid_objects (hv : Valid M w) : Valid M { w with objects := fun _ => none } :=
  ⟨hv.attr, hv.ref, hv.many, hv.objects, hv.container, hv.unique, hv.contained, hv.symmetric⟩

theorem tree_objects {o : Nat} {depth : Nat → Nat} {order : List Nat} (ht : Tree M w o order depth) : Tree M { w with objects := fun _ => none } o order depth :=
  ⟨ht.exists_, fun x => by rw [ht.mem, within_objects], ht.nodup, fun x f y h => ht.depth x f y ((within_objects M w o x).1 h),
    fun x f h => ht.changeable x f ((within_objects M w o x).1 h)⟩

theorem copyTop_final (hv : Valid M w) (wf : WellFormed M) {o : Nat} {depth : Nat → Nat} {order : List Nat} (ht : Tree M w o order depth) {n : Nat} (hn : depth o < n) :
    ∃ w1 w' c, copyTop M order n w o = some (w', c) ∧
      Final M { w with objects := fun _ => none } w1 w' (Within M { w with objects := fun _ => none } o) (· = o) order ∧ w1.objects o = some c := by
  have hv0 := valid_objects hv
  have ht0 := tree_objects ht
  have hnone : ∀ x : Nat, ({ w with objects := fun _ => none } : World).objects x = none := fun _ => rfl
  simp only [copyTop]
  generalize ({ w with objects := fun _ => none } : World) = w0 at *
  clear hv ht
  obtain ⟨w1, h1, h2, h3⟩ := copy_post hv0 wf ht0 n o .root hn w0 (Frame.refl _)
  obtain ⟨w', h4, h5⟩ := copyReferences_final hv0 wf hnone (fun x hx => hx.old hv0 wf ht0.exists_) (fun x hx => (ht0.mem x).1 hx) ht0.nodup h3
  refine ⟨w1, w', w0.nextObj, ?_, h5, h2⟩
  rw [h1]
  simp [h4]

/-- what is needed of the objects of `S`, the roots of which are those of `R` -/
structure Ready (M : Meta) (w : World) (S R : Nat → Prop) (order : List Nat) : Prop where
  mem : ∀ x : Nat, S x → x ∈ order
  changeable : ∀ x f : Nat, S x → f ∈ M.all (w.cls x) → (M.feature f).derived = false → (M.feature f).changeable = false →
    M.isContainer f = false → isSet M w x f = false
  root : ∀ x f : Nat, R x → f ∈ M.declared (w.cls x) → M.isContainer f = true → isSet M w x f = false
  inside : ∀ x f z : Nat, S x → f ∈ M.declared (w.cls x) → (M.feature f).opposite.isSome = true → (M.feature f).containment = false →
    M.isContainer f = false → z ∈ values w x f → S z
  lists : ∀ x f : Nat, S x → M.generated (w.cls x) = false → (M.feature f).containment = true → (M.feature f).many = true →
    (M.feature f).opposite.isSome = true → values w x f = []

section
variable {R : Nat → Prop} {order : List Nat}

theorem Final.slot (h : Final M w0 w1 w' S R order) {x y f : Nat} (hxy : w1.objects x = some y) (hf : ¬ Cross M f) : w'.slot y f = w1.slot y f :=
  h.inv.str.keep y f (h.ctx.mem hxy).2.1 hf

theorem Final.list (h : Final M w0 w1 w' S R order) {x y f l : Nat} (hxy : w1.objects x = some y) (hf : ¬ Cross M f) (hl : w1.slot y f = .list l) : w'.list l = w1.list l :=
  h.inv.str.keepList y f l (h.ctx.mem hxy).2.1 (h.ctx.mem hxy).2.2 hf hl

/-- containments of the copies -/
theorem Final.values_cont (h : Final M w0 w1 w' S R order) {x y f : Nat} (hxy : w1.objects x = some y) (hf : (M.feature f).containment = true) :
    (w'.slot y f = .none) ∨ (Copies M w0 x f ∧ List.Forall₂ (fun z z' => w1.objects z = some z') (values w0 x f) (values w' y f)) := by
  have hS := (h.ctx.mem hxy).1
  have hnc : ¬ Cross M f := fun e => by rw [e.ncont] at hf; simp at hf
  rcases Classical.em (Copies M w0 x f) with hc | hc
  · right
    refine ⟨hc, ?_⟩
    have ct := h.post.content x y f hS hxy trivial hc
    have hr := h.ctx.wf.cref f hf
    have hs := h.slot hxy hnc
    rcases he : w0.slot x f with _ | v | z | l
    · exact absurd he (isSet_slot (h.ctx.wf.not_container hf) hc.set)
    · simp [values, he, hs, ct.value v he]
    · obtain ⟨z', h1, h2⟩ := ct.obj z he
      simp [values, he, hs, h2, h1]
    · obtain ⟨l', h1, -, -, h4⟩ := ct.list l he
      simp only [values, he, hs, h1]
      rw [h.list hxy hnc h1]
      exact (h4 hr).2
  · left
    rw [h.slot hxy hnc]
    exact h.post.nocontent x y f hS hxy (fun e => hc e.2)

/-- the objects that the copy contains are copies -/
theorem Final.within (h : Final M w0 w1 w' S R order) {a c y : Nat} (ha : w1.objects a = some c) (hy : Within M w' c y) : ∃ x, w1.objects x = some y := by
  induction hy with
  | root => exact ⟨a, ha⟩
  | child y f z hy hm hf hd hz ih =>
    obtain ⟨x, hxy⟩ := ih
    rcases h.values_cont hxy hf with e | ⟨-, e⟩
    · simp [values, e] at hz
    · obtain ⟨a, -, ha⟩ := (Forall₂.mem_right_iff e (by intro a b b' h1 h2; rw [h1] at h2; simpa using h2) z).1 hz
      exact ⟨a, ha⟩

/-- paired objects: originals and copies, and what is outside of the tree -/
def Pair (w0 w1 : World) (S : Nat → Prop) (a b : Nat) : Prop := w1.objects a = some b ∨ w1.objects b = some a ∨ (a = b ∧ ¬ S a ∧ a < w0.nextObj)

theorem Final.sameFeature (h : Final M w0 w1 w' S R order) (ht : Ready M w0 S R order) {x y f : Nat} (hxy : w1.objects x = some y) (hf : f ∈ M.declared (w0.cls x))
    (hd : (M.feature f).derived = false) : DeepEqual.SameFeature (toMeta M) (toHeap M w') (Pair w0 w1 S) x y f := by
  have hv := h.ctx.hv
  have wf := h.ctx.wf
  obtain ⟨hS, hge, hlt⟩ := h.ctx.mem hxy
  have hxo := h.ctx.old x hS
  have hfr := h.inv.str.frame
  have hall := wf.sub _ f hf
  have hsx : isSet M w' x f = isSet M w0 x f := isSet_frame hv hfr hxo
  have hix : items w' x f = items w0 x f := items_frame hv hfr hxo
  have hslx : w'.slot x f = w0.slot x f := hfr.slot x f hxo
  have hcy : w'.cls y = w0.cls x := by rw [h.inv.str.cls]; exact h.post.cls x y hS hxy
  have hcx : w'.cls x = w0.cls x := hfr.cls x hxo
  by_cases hcer : M.isContainer f = true
  · -- the container
    obtain ⟨g, hg, hgc⟩ : ∃ g, (M.feature f).opposite = some g ∧ (M.feature g).containment = true := by
      simp only [Meta.isContainer] at hcer
      split at hcer
      · exact ⟨_, by assumption, hcer⟩
      · simp at hcer
    have hgf := (wf.opp f g hg).1
    have hm := (wf.cont g f hgc hgf).2
    have hr := wf.ref f g hg
    have hcont : w'.container = w1.container := h.inv.str.container
    have hconx : w'.container x = w0.container x := hfr.container x hxo
    have main : (isSet M w' x f = isSet M w' y f) ∧ (isSet M w' x f = true → ∃ p q, w'.container x = some (p, g) ∧ w'.container y = some (q, g) ∧ w1.objects p = some q) := by
      by_cases hxr : R x
      · have hz := ht.root x f hxr hf hcer
        have hy : w'.container y = none := by
          rw [hcont]; exact h.post.roots x y hS hxy hxr
        rw [hsx, hz]
        refine ⟨?_, by simp⟩
        simp [isSet, hcer, hy]
      · obtain ⟨p, r, hSp, hch⟩ := h.post.up x hS hxr
        obtain ⟨q, hpq, -, -⟩ := h.ctx.inS p hSp
        have hcx' := hv.contained p r x (h.ctx.old p hSp) hch.cont hch.val
        have hcy' := h.post.conts x y p r q hS hxy hxr hSp hch hpq
        rw [← hcont] at hcy'
        rw [← hconx] at hcx'
        by_cases hsing : (M.feature r).many = false ∨ M.generated (w0.cls p) = true
        · rw [if_pos hsing] at hcy'
          refine ⟨by simp [isSet, hcer, hcx', hcy'], ?_⟩
          intro hs
          simp only [isSet, hcer, hcx', hg, if_true, beq_iff_eq, Option.some.injEq] at hs
          subst hs
          exact ⟨p, q, hcx', hcy', hpq⟩
        · have hno : ¬ g = r := by
            rintro rfl
            have := ht.lists p g hSp (by simpa using (not_or.1 hsing).2) hch.cont (by simpa using (not_or.1 hsing).1) (by simp [hgf])
            have hval := hch.val
            rw [this] at hval
            simp at hval
          rw [if_neg hsing] at hcy'
          have : isSet M w' x f = false := by
            simp [isSet, hcer, hcx', hg, hno]
          refine ⟨by rw [this]; simp [isSet, hcer, hcy'], by simp [this]⟩
    refine ⟨main.1, ?_, ?_, ?_, ?_⟩
    · simp [toMeta, hr, hm]
    · simp [toMeta, hr, hm]
    · intro _ hs
      obtain ⟨p, q, h1, h2, h3⟩ := main.2 hs
      simp only [toHeap, hcer, h1, h2, if_true]
      exact .inl h3
    · simp [toMeta, hr, hm]
  · have hcer' : M.isContainer f = false := by simpa using hcer
    by_cases hcross : Cross M f
    · -- the references of the second pass
      have hsetw : isSet M w0 x f = true → (M.feature f).changeable = true := by
        intro hs
        by_contra hch
        have := ht.changeable x f hS hall hd (by simpa using hch) hcer'
        rw [hs] at this
        simp at this
      -- everything is wanted
      have hpairs : List.Forall₂ (Pair w0 w1 S) (values w0 x f) (want M w0 w1 x f) := by
        have hin : ∀ z ∈ values w0 x f, ∃ v, img M w1 f z = some v ∧ Pair w0 w1 S z v := by
          intro z hz
          rcases hoz : w1.objects z with _ | z'
          · have hnS : ¬ S z := by
              intro hSz
              obtain ⟨y', h1, -, -⟩ := h.ctx.inS z hSz
              rw [hoz] at h1
              simp at h1
            cases hop : (M.feature f).opposite with
            | none => exact ⟨z, by simp [img, hoz, hop], .inr (.inr ⟨rfl, hnS, hv.objects x f z hxo hcross.ref hz⟩)⟩
            | some g => exact absurd (ht.inside x f z hS hf (by simp [hop]) hcross.ncont hcer' hz) hnS
          · exact ⟨z', by simp [img, hoz], .inl hoz⟩
        simp only [want]
        revert hin
        generalize values w0 x f = l
        intro hin
        induction l with
        | nil => exact .nil
        | cons z l ih =>
          obtain ⟨v, h1, h2⟩ := hin z (by simp)
          rw [List.filterMap_cons_some h1]
          exact .cons h2 (ih (fun z' hz' => hin z' (by simp [hz'])))
      have hlen := hpairs.length_eq
      have hvals : values w' y f = want M w0 w1 x f ∧ (isSet M w0 x f = true → (M.feature f).many = true ∨ want M w0 w1 x f ≠ [] → w'.slot y f ≠ .none) := by
        by_cases hch : (M.feature f).changeable = true
        · exact h.inv.abs.done x y f hxy hcross ⟨ht.mem x hS, mem_crossReferences.2 ⟨hf, hcross, hch, hd⟩⟩
        · have hns : isSet M w0 x f = false := ht.changeable x f hS hall hd (by simpa using hch) hcer'
          have hw : want M w0 w1 x f = [] := by
            rw [not_set_values hv hcer' hns] at hlen
            exact List.length_eq_zero_iff.1 hlen.symm
          refine ⟨?_, by simp [hns]⟩
          rw [hw, List.eq_nil_iff_forall_not_mem]
          intro v hv'
          have := h.inv.abs.sub x y f v hxy hcross hv'
          rw [hw] at this
          simp at this
      have hz := h.inv.abs.set x y f hxy hcross
      have hr := hcross.ref
      have hvx : values w' x f = values w0 x f := by
        simp only [values, hslx]
        split
        · rfl
        · rename_i l hl
          rw [hfr.list l (hv.list_lt hxo hl).2]
        · rfl
      rw [← hvx, ← hvals.1] at hpairs
      rw [← hvals.1] at hvals
      clear hlen
      have hlen := hpairs.length_eq
      by_cases hm : (M.feature f).many = true
      · have hx' := hv.many x f hxo hm
        have hy' := h.inv.str.many y f hge hlt hcross hm
        have hset : isSet M w' x f = isSet M w' y f := by
          rw [hsx]
          rcases hgen : M.generated (w0.cls x) with _ | _
          · -- dynamic
            rcases hy' with e | ⟨l, e⟩
            · have : isSet M w' y f = false := by simp [isSet, hcer', e]
              rw [this]
              by_contra hs
              exact (hvals.2 (by simpa using hs) (.inl hm)) e
            · have h1 : isSet M w' y f = true := by simp [isSet, hcer', e, hcy, hgen]
              have h2 := hz (by simp [e])
              rcases hx' with e' | ⟨l', e', -⟩
              · exact absurd e' h2
              · rw [h1]
                simp [isSet, hcer', e', hgen]
          · have h1 : ∀ (w : World) (z : Nat), M.generated (w.cls z) = true → (w.slot z f = .none ∨ ∃ l, w.slot z f = .list l) → isSet M w z f = !(values w z f).isEmpty := by
              intro w z hg hs
              rcases hs with hs | ⟨l, hs⟩ <;> simp [isSet, hcer', hs, values, hg]
            rw [← hsx, h1 w' x (by rw [hcx]; exact hgen) (by rw [hslx]; rcases hx' with e | ⟨l, e, -⟩; exact .inl e; exact .inr ⟨l, e⟩), h1 w' y (by rw [hcy]; exact hgen) hy']
            rcases hp : values w' x f with _ | _ <;> rcases hq : values w' y f with _ | _ <;> rw [hp, hq] at hlen <;> simp at hlen ⊢
        have hitems : ∀ (z : Nat), (w'.slot z f = .none ∨ ∃ l, w'.slot z f = .list l) → items w' z f = values w' z f := by
          intro z hs
          rcases hs with hs | ⟨l, hs⟩ <;> simp [items, hs, values]
        refine ⟨hset, ?_, ?_, ?_, ?_⟩
        · simp [toMeta, hr, hm]
        · simp [toMeta, hr, hm]
        · simp [toMeta, hr, hm]
        · intro _ _
          simp only [toHeap, hr, if_true]
          rw [hitems x (by rw [hslx]; rcases hx' with e | ⟨l, e, -⟩; exact .inl e; exact .inr ⟨l, e⟩), hitems y hy']
          exact hpairs
      · have hm' : (M.feature f).many = false := by simpa using hm
        have hx' := hv.ref x f hxo hr hm'
        rw [← hslx] at hx'
        have hy' := h.inv.str.single y f hge hlt hcross hm'
        rcases hx' with e | ⟨z, e⟩ <;> rcases hy' with e' | ⟨z', e'⟩
        · refine ⟨?_, ?_, ?_, ?_, ?_⟩ <;> simp [toHeap, toMeta, isSet, hcer', e, e', hr, hm']
        · simp [values, e, e'] at hlen
        · simp [values, e, e'] at hlen
        · refine ⟨?_, ?_, ?_, ?_, ?_⟩
          · simp [toHeap, isSet, hcer', e, e']
          · simp [toMeta, hr, hm']
          · simp [toMeta, hr, hm']
          · intro _ _
            simp only [values, e, e'] at hpairs
            simp only [toHeap, hcer', e, e', Bool.false_eq_true, if_false]
            cases hpairs with
            | cons h1 _ => exact h1
          · simp [toMeta, hr, hm']
    · -- attributes and containments
      have hsy := h.slot hxy hcross
      rcases his : isSet M w0 x f with _ | _
      · have hnc : ¬ Copies M w0 x f := fun e => by rw [e.set] at his; simp at his
        have hy : w'.slot y f = .none := by
          rw [hsy]
          exact h.post.nocontent x y f hS hxy (fun e => hnc e.2)
        have h1 : isSet M w' x f = false := hsx.trans his
        have h2 : isSet M w' y f = false := by simp [isSet, hcer', hy]
        refine ⟨?_, ?_, ?_, ?_, ?_⟩ <;> simp [toHeap, h1, h2]
      · have hch : (M.feature f).changeable = true := by
          by_contra hch
          have := ht.changeable x f hS hall hd (by simpa using hch) hcer'
          rw [his] at this
          simp at this
        have hkind : (M.feature f).isRef = false ∨ (M.feature f).containment = true := by
          by_contra hk
          rw [not_or] at hk
          exact hcross ⟨by simpa using hk.1, by simpa using hk.2, hcer'⟩
        have hco : Copies M w0 x f := ⟨hall, hch, hd, hkind, his⟩
        have ct := h.post.content x y f hS hxy trivial hco
        have h1 : isSet M w' x f = true := hsx.trans his
        have hslot0 := isSet_slot hcer' his
        rcases hr : (M.feature f).isRef with _ | _
        · rcases hm : (M.feature f).many with _ | _
          · rcases hv.attr x f hxo hr hm with e | ⟨v, e⟩
            · exact absurd e hslot0
            · have hy := hsy.trans (ct.value v e)
              have h2 : isSet M w' y f = true := by simp [isSet, hcer', hy]
              refine ⟨?_, ?_, ?_, ?_, ?_⟩ <;> simp [toHeap, toMeta, h1, h2, hr, hm, hslx, e, hy]
          · rcases hv.many x f hxo hm with e | ⟨l, e, -⟩
            · exact absurd e hslot0
            · obtain ⟨l', h3, h4, h5, -⟩ := ct.list l e
              have hy := hsy.trans h3
              have hli := h.list hxy hcross h3
              have h6 := (h5 hr).1
              have h2 : isSet M w' y f = true := by
                simp only [isSet, hcer', Bool.false_eq_true, if_false, e] at his
                simp only [isSet, hcer', hy, hcy, hli, h6, Bool.false_eq_true, if_false]
                exact his
              refine ⟨?_, ?_, ?_, ?_, ?_⟩
              · simp [toHeap, h1, h2]
              · simp [toMeta, hr, hm]
              · intro _ _
                simp only [toHeap, hix]
                simp [items, e, hy, hli, h6]
              · simp [toMeta, hr, hm]
              · simp [toMeta, hr, hm]
        · rcases hm : (M.feature f).many with _ | _
          · rcases hv.ref x f hxo hr hm with e | ⟨z, e⟩
            · exact absurd e hslot0
            · obtain ⟨z', h3, h4⟩ := ct.obj z e
              have hy := hsy.trans h4
              have h2 : isSet M w' y f = true := by simp [isSet, hcer', hy]
              refine ⟨?_, ?_, ?_, ?_, ?_⟩
              · simp [toHeap, h1, h2]
              · simp [toMeta, hr, hm]
              · simp [toMeta, hr, hm]
              · intro _ _
                simp only [toHeap, hcer', hslx, e, hy, Bool.false_eq_true, if_false]
                exact .inl h3
              · simp [toMeta, hr, hm]
          · rcases hv.many x f hxo hm with e | ⟨l, e, -⟩
            · exact absurd e hslot0
            · obtain ⟨l', h3, h4, -, h5⟩ := ct.list l e
              have hy := hsy.trans h3
              have hli := h.list hxy hcross h3
              have h6 := (h5 hr).2
              have h2 : isSet M w' y f = true := by
                simp only [isSet, hcer', Bool.false_eq_true, if_false, e] at his
                simp only [isSet, hcer', hy, hcy, hli, Bool.false_eq_true, if_false]
                have hl := h6.length_eq
                rcases hp : (w0.list l).items with _ | _ <;> rcases hq : (w1.list l').items with _ | _ <;> simp_all
              refine ⟨?_, ?_, ?_, ?_, ?_⟩
              · simp [toHeap, h1, h2]
              · simp [toMeta, hr, hm]
              · simp [toMeta, hr, hm]
              · simp [toMeta, hr, hm]
              · intro _ _
                simp only [toHeap, hix, hr, if_true]
                simp only [items, e, hy, hli]
                exact h6.imp (fun _ _ h => .inl h)

theorem SameFeature.symm {M : DeepEqual.Meta} {H : DeepEqual.Heap} {R : Nat → Nat → Prop} (hR : ∀ a b, R a b → R b a) {a b f : Nat} (h : DeepEqual.SameFeature M H R a b f) :
    DeepEqual.SameFeature M H R b a f where
  set := h.set.symm
  attr h1 h2 := (h.attr h1 (h.set.trans h2)).symm
  attrs h1 h2 := (h.attrs h1 (h.set.trans h2)).symm
  ref h1 h2 := hR _ _ (h.ref h1 (h.set.trans h2))
  refs h1 h2 := ((h.refs h1 (h.set.trans h2)).imp (fun _ _ => hR _ _)).flip

theorem Final.pairing (h : Final M w0 w1 w' S R order) (ht : Ready M w0 S R order) :
    DeepEqual.Pairing (toMeta M) (toHeap M w') (toMeta M).features (Pair w0 w1 S) := by
  have hsymm : ∀ a b : Nat, Pair w0 w1 S a b → Pair w0 w1 S b a := by
    intro a b hab
    rcases hab with h1 | h1 | ⟨rfl, h1, h2⟩
    · exact .inr (.inl h1)
    · exact .inl h1
    · exact .inr (.inr ⟨rfl, h1, h2⟩)
  have hside : ∀ x y : Nat, w1.objects x = some y → ((toHeap M w').uri x = (toHeap M w').uri y ∧ (toHeap M w').cls x = (toHeap M w').cls y ∧ (toHeap M w').cls x = w0.cls x) := by
    intro x y hxy
    have hS := (h.ctx.mem hxy).1
    have hxo := h.ctx.old x hS
    refine ⟨?_, ?_, h.inv.str.frame.cls x hxo⟩
    · simp only [toHeap]
      rw [h.inv.str.frame.uri x hxo, h.inv.str.uri, h.post.uri x y hS hxy (fun e => e)]
    · simp only [toHeap]
      rw [h.inv.str.frame.cls x hxo, h.inv.str.cls, h.post.cls x y hS hxy]
  refine ⟨hsymm, ?_, ?_⟩
  · intro a b c' hab hac
    rcases hab with h1 | h1 | ⟨rfl, h1, h2⟩ <;> rcases hac with h3 | h3 | ⟨rfl, h3, h4⟩
    · rw [h1] at h3; simpa using h3
    · have := h.ctx.old a (h.ctx.mem h1).1
      have := (h.ctx.mem h3).2.1
      omega
    · exact absurd (h.ctx.mem h1).1 h3
    · have := h.ctx.old a (h.ctx.mem h3).1
      have := (h.ctx.mem h1).2.1
      omega
    · exact h.ctx.inj b c' a h1 h3
    · have := (h.ctx.mem h1).2.1
      omega
    · exact absurd (h.ctx.mem h3).1 h1
    · have := (h.ctx.mem h3).2.1
      omega
    · rfl
  · intro a b hab
    rcases hab with h1 | h1 | ⟨rfl, -, -⟩
    · obtain ⟨h2, h3, h4⟩ := hside a b h1
      right
      rcases hu : (toHeap M w').uri a with _ | u
      · right
        refine ⟨rfl, by rw [← h2, hu], h3, ?_⟩
        intro f hf hd
        rw [h4] at hf
        exact h.sameFeature ht h1 hf hd
      · left
        exact ⟨rfl, by rw [← h2, hu]⟩
    · obtain ⟨h2, h3, h4⟩ := hside b a h1
      right
      rcases hu : (toHeap M w').uri a with _ | u
      · right
        refine ⟨rfl, by rw [h2, hu], h3.symm, ?_⟩
        intro f hf hd
        rw [← h3, h4] at hf
        exact SameFeature.symm hsymm (h.sameFeature ht h1 hf hd)
      · left
        exact ⟨rfl, by rw [h2, hu]⟩
    · exact .inl rfl

theorem Final.closed (h : Final M w0 w1 w' S R order) : DeepEqual.Closed (toHeap M w') (List.range w'.nextObj) := by
  have hv := h.ctx.hv
  have wf := h.ctx.wf
  have hfr := h.inv.str.frame
  have hnew : ∀ y : Nat, w0.nextObj ≤ y → y < w'.nextObj → ∃ x, w1.objects x = some y := by
    intro y h1 h2
    rw [h.inv.str.nobj] at h2
    obtain ⟨x, -, hx⟩ := h.post.surj y h1 h2
    exact ⟨x, hx⟩
  have hcopy : ∀ x y : Nat, w1.objects x = some y → y < w'.nextObj := by
    intro x y hxy
    rw [h.inv.str.nobj]
    exact (h.ctx.mem hxy).2.2
  have hvals : ∀ (a f v : Nat), a < w'.nextObj → (M.feature f).isRef = true → M.isContainer f = false → v ∈ values w' a f → v < w'.nextObj := by
    intro a f v ha hr hcer hva
    by_cases hold : a < w0.nextObj
    · have hvx : values w' a f = values w0 a f := by
        simp only [values, hfr.slot a f hold]
        split
        · rfl
        · rename_i l hl
          rw [hfr.list l (hv.list_lt hold hl).2]
        · rfl
      rw [hvx] at hva
      exact Nat.lt_of_lt_of_le (hv.objects a f v hold hr hva) hfr.nobj
    · obtain ⟨x, hxy⟩ := hnew a (by omega) ha
      rcases hcn : (M.feature f).containment with _ | _
      · have hcross : Cross M f := ⟨hr, hcn, hcer⟩
        have := h.inv.abs.sub x a f v hxy hcross hva
        simp only [want, List.mem_filterMap] at this
        obtain ⟨z, hz, hi⟩ := this
        simp only [img] at hi
        split at hi
        · rename_i z' hz'
          simp at hi
          subst hi
          exact hcopy z z' hz'
        · split at hi
          · simp at hi
            subst hi
            exact Nat.lt_of_lt_of_le (hv.objects x f z (h.ctx.old x (h.ctx.mem hxy).1) hr hz) hfr.nobj
          · simp at hi
      · rcases h.values_cont hxy hcn with e | ⟨-, e⟩
        · simp [values, e] at hva
        · obtain ⟨z, -, hz⟩ := (Forall₂.mem_right_iff e (by intro a b b' h1 h2; rw [h1] at h2; simpa using h2) v).1 hva
          exact hcopy z v hz
  have hobj : ∀ (a f z : Nat), a < w'.nextObj → w'.slot a f = .obj z → (M.feature f).isRef = true := by
    intro a f z ha hs
    by_cases hold : a < w0.nextObj
    · rw [hfr.slot a f hold] at hs
      exact hv.isRef_of_obj hold hs
    · obtain ⟨x, hxy⟩ := hnew a (by omega) ha
      by_cases hcross : Cross M f
      · exact hcross.ref
      · rw [h.slot hxy hcross] at hs
        have hS := (h.ctx.mem hxy).1
        rcases Classical.em (Copies M w0 x f) with hc | hc
        · have ct := h.post.content x a f hS hxy trivial hc
          rcases e : w0.slot x f with _ | v | z1 | l
          · exact absurd e (isSet_slot (by
              rcases hc.kind with hk | hk
              · exact attr_not_container wf hk
              · exact wf.not_container hk) hc.set)
          · rw [ct.value v e] at hs; simp at hs
          · exact hv.isRef_of_obj (h.ctx.old x hS) e
          · obtain ⟨l', h1, -⟩ := ct.list l e
            rw [h1] at hs; simp at hs
        · rw [h.post.nocontent x a f hS hxy (fun e => hc e.2)] at hs
          simp at hs
  -- container references have no values of their own in the copies; a list of a container reference is the one of an old object
  constructor
  · intro a ha f
    rw [List.mem_range] at ha ⊢
    simp only [toHeap]
    split
    · split
      · rename_i p r hc
        by_cases hold : a < w0.nextObj
        · rw [hfr.container a hold] at hc
          exact Nat.lt_of_lt_of_le (hv.container a p r hold hc) hfr.nobj
        · obtain ⟨x, hxy⟩ := hnew a (by omega) ha
          have hS := (h.ctx.mem hxy).1
          rw [h.inv.str.container] at hc
          by_cases hxr : R x
          · rw [h.post.roots x a hS hxy hxr] at hc
            simp at hc
          · obtain ⟨p', r', hSp, hch⟩ := h.post.up x hS hxr
            obtain ⟨q, hpq, -, -⟩ := h.ctx.inS p' hSp
            rw [h.post.conts x a p' r' q hS hxy hxr hSp hch hpq] at hc
            split at hc
            · simp at hc
              rw [← hc.1]
              exact hcopy p' q hpq
            · simp at hc
      · exact ha
    · rename_i hcer
      split
      · rename_i z hz
        exact hvals a f z ha (hobj a f z ha hz) (by simpa using hcer) (by simp [values, hz])
      · exact ha
  · intro a ha f x hx
    rw [List.mem_range] at ha ⊢
    simp only [toHeap] at hx
    split at hx
    · rename_i hr
      rcases hcer : M.isContainer f with _ | _
      · refine hvals a f x ha hr hcer ?_
        simp only [items] at hx
        split at hx
        · rename_i l hl
          simpa [values, hl] using hx
        · simp at hx
      · -- a container reference is single valued
        obtain ⟨g, hg, hgc⟩ : ∃ g, (M.feature f).opposite = some g ∧ (M.feature g).containment = true := by
          simp only [Meta.isContainer] at hcer
          split at hcer
          · exact ⟨_, by assumption, hcer⟩
          · simp at hcer
        have hm := (wf.cont g f hgc (wf.opp f g hg).1).2
        simp only [items] at hx
        split at hx
        · rename_i l hl
          exfalso
          by_cases hold : a < w0.nextObj
          · rw [hfr.slot a f hold] at hl
            rw [(hv.list_lt hold hl).1] at hm
            simp at hm
          · obtain ⟨x', hxy⟩ := hnew a (by omega) ha
            have hnc : ¬ Cross M f := fun e => by rw [e.ncer] at hcer; simp at hcer
            rw [h.slot hxy hnc, h.post.nocontent x' a f (h.ctx.mem hxy).1 hxy (by
              rintro ⟨-, hc⟩
              rcases hc.kind with hk | hk
              · rw [hr] at hk; simp at hk
              · rw [(wf.cont g f hgc (wf.opp f g hg).1).1] at hk; simp at hk)] at hl
            simp at hl
        · simp at hx
    · simp at hx

/-- the lists of the copies are new, but for lists of values of dynamic objects -/
theorem Final.fresh (h : Final M w0 w1 w' S R order) {x y f l : Nat} (hxy : w1.objects x = some y) (hl : w'.slot y f = .list l)
    (hk : (M.feature f).isRef = true ∨ M.generated (w'.cls y) = true) : w0.nextList ≤ l := by
  obtain ⟨hS, hge, hlt⟩ := h.ctx.mem hxy
  by_cases hcross : Cross M f
  · exact h.inv.str.fresh y f l hge hlt hcross hl
  · rw [h.slot hxy hcross] at hl
    rcases Classical.em (Copies M w0 x f) with hc | hc
    · have ct := h.post.content x y f hS hxy trivial hc
      have hcls : w'.cls y = w0.cls x := by rw [h.inv.str.cls]; exact h.post.cls x y hS hxy
      rcases e : w0.slot x f with _ | v | z1 | l0
      · exact absurd e (isSet_slot (by
          rcases hc.kind with hk | hk
          · exact attr_not_container h.ctx.wf hk
          · exact h.ctx.wf.not_container hk) hc.set)
      · rw [ct.value v e] at hl; simp at hl
      · obtain ⟨z', -, h1⟩ := ct.obj z1 e
        rw [h1] at hl; simp at hl
      · obtain ⟨l', h1, -, h3, h4⟩ := ct.list l0 e
        rw [h1] at hl
        cases hl
        rcases hr : (M.feature f).isRef with _ | _
        · rw [hr, hcls] at hk
          exact (h3 hr).2 (by simpa using hk)
        · exact (h4 hr).1
    · rw [h.post.nocontent x y f hS hxy (fun e => hc e.2)] at hl
      simp at hl

theorem edits_kept {w0 w' : World} {Y : Nat → Prop} (hy : ∀ y : Nat, Y y → w0.nextObj ≤ y) : ∀ (es : List Edit) (w : World), Kept w0 w → w0.nextList ≤ w.nextList → w.cls = w'.cls →
      (∀ y f l : Nat, Y y → ((M.feature f).isRef = true ∨ M.generated (w'.cls y) = true) → w.slot y f = .list l → w0.nextList ≤ l) →
      (∀ e ∈ es, Y e.object) → (∀ y f V, Edit.fill y f V ∈ es → (M.feature f).isRef = true ∨ M.generated (w'.cls y) = true) →
    Kept w0 (es.foldl (Edit.apply M) w) := by
  intro es
  induction es with
  | nil => intro w h _ _ _ _ _; exact h
  | cons e es ih =>
    intro w h hn hc hl hY hf
    have hYe := hY e (by simp)
    have hge := hy _ hYe
    rw [List.foldl_cons]
    have key : Kept w0 (e.apply M w) ∧ w0.nextList ≤ (e.apply M w).nextList ∧ (e.apply M w).cls = w.cls ∧
        (∀ y f l : Nat, (e.apply M w).slot y f = .list l → w.slot y f = .list l ∨ w0.nextList ≤ l) := by
      cases e with
      | put y f v =>
        simp only [Edit.object] at hge
        have hs : ∀ (s : Slot) (x g : Nat), x < w0.nextObj → (setSlot w y f s).slot x g = w.slot x g := by
          intro s x g hx
          simp only [setSlot]
          rw [if_neg (by omega)]
        have hk : ∀ s : Slot, Kept w0 (setSlot w y f s) := fun s => ⟨h.cls, h.uri, fun x g hx => (hs s x g hx).trans (h.slot x g hx), h.container, h.list⟩
        cases v with
        | none =>
          refine ⟨hk _, hn, rfl, ?_⟩
          intro y' f' l hl'
          simp only [Edit.apply, setSlot] at hl'
          split at hl'
          · simp at hl'
          · exact .inl hl'
        | some v =>
          refine ⟨hk _, hn, rfl, ?_⟩
          intro y' f' l hl'
          simp only [Edit.apply, setSlot] at hl'
          split at hl'
          · split at hl' <;> simp at hl'
          · exact .inl hl'
      | fill y f V =>
        simp only [Edit.object] at hge hYe
        have hcond := hf y f V (by simp)
        -- the list is a new one
        have hget : Kept w0 (getList M w y f).1 ∧ w0.nextList ≤ (getList M w y f).1.nextList ∧ (getList M w y f).1.cls = w.cls ∧ w0.nextList ≤ (getList M w y f).2 ∧
            (∀ y' f' l : Nat, (getList M w y f).1.slot y' f' = .list l → w.slot y' f' = .list l ∨ w0.nextList ≤ l) := by
          have hnew : ∀ k : EList, Kept w0 (newList w y f k) ∧ w0.nextList ≤ (newList w y f k).nextList ∧ (newList w y f k).cls = w.cls ∧ w0.nextList ≤ w.nextList ∧
            (∀ y' f' l : Nat, (newList w y f k).slot y' f' = .list l → w.slot y' f' = .list l ∨ w0.nextList ≤ l) := by
            intro k
            refine ⟨⟨h.cls, h.uri, ?_, h.container, ?_⟩, ?_, rfl, hn, ?_⟩
            · intro x g hx
              simp only [newList]
              rw [if_neg (by omega)]
              exact h.slot x g hx
            · intro l hl'
              simp only [newList]
              rw [if_neg (by omega)]
              exact h.list l hl'
            · simp only [newList]; omega
            · intro y' f' l hl'
              simp only [newList] at hl'
              split at hl'
              · cases hl'
                exact .inr hn
              · exact .inl hl'
          rcases hs : w.slot y f with _ | v | z | l
          · simp only [getList, hs]; exact hnew _
          · simp only [getList, hs]; exact hnew _
          · simp only [getList, hs]; exact hnew _
          · simp only [getList, hs]
            exact ⟨h, hn, trivial, hl y f l hYe hcond hs, fun _ _ _ => .inl⟩
        obtain ⟨h1, h2, h3, h4, h5⟩ := hget
        refine ⟨⟨h1.cls, h1.uri, h1.slot, h1.container, ?_⟩, h2, h3, h5⟩
        intro l hl'
        simp only [Edit.apply, setItems]
        rw [if_neg (by omega)]
        exact h1.list l hl'
    obtain ⟨h1, h2, h3, h4⟩ := key
    refine ih _ h1 h2 (h3.trans hc) ?_ (fun e he => hY e (by simp [he])) (fun y f V he => hf y f V (by simp [he]))
    intro y f l hYy hcond hl'
    rcases h4 y f l hl' with h5 | h5
    · exact hl y f l hYy hcond h5
    · exact h5

end

end Verif.DeepCopy
