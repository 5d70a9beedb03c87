import Verif.Proofs.DeepCopy

/-!
# Proofs about copies: the second pass
-/

namespace Verif.DeepCopy

variable {M : Meta} {w0 w1 w w' : World} {S : Nat → Prop}

/-- references that are neither containments nor containers -/
structure Cross (M : Meta) (f : Nat) : Prop where
  ref : (M.feature f).isRef = true
  ncont : (M.feature f).containment = false
  ncer : M.isContainer f = false

theorem Cross.opp (wf : WellFormed M) {f g : Nat} (h : Cross M f) (hg : (M.feature f).opposite = some g) : Cross M g where
  ref := wf.ref g f (wf.opp f g hg).1
  ncont := by
    have := h.ncer
    simpa [Meta.isContainer, hg] using this
  ncer := by
    simp only [Meta.isContainer, (wf.opp f g hg).1]
    exact h.ncont

/-- the object that stands for `z` in the copy -/
def img (M : Meta) (w1 : World) (f z : Nat) : Option Nat :=
  match w1.objects z with
  | some z' => some z'
  | none => if (M.feature f).opposite.isNone then some z else none

/-- the objects a copied reference should have -/
def want (M : Meta) (w0 w1 : World) (x f : Nat) : List Nat := (values w0 x f).filterMap (img M w1 f)

/-- what the second pass changes: only values of cross references of the new objects -/
structure Str (M : Meta) (w0 w1 w : World) : Prop where
  frame : Frame w0 w
  nobj : w.nextObj = w1.nextObj
  nlist : w1.nextList ≤ w.nextList
  cls : w.cls = w1.cls
  uri : w.uri = w1.uri
  container : w.container = w1.container
  objects : w.objects = w1.objects
  keep : ∀ y f : Nat, w0.nextObj ≤ y → ¬ Cross M f → w.slot y f = w1.slot y f
  keepList : ∀ y f l : Nat, w0.nextObj ≤ y → y < w1.nextObj → ¬ Cross M f → w1.slot y f = .list l → w.list l = w1.list l
  own : ∀ y f l : Nat, w0.nextObj ≤ y → y < w1.nextObj → w.slot y f = .list l → w0.nextList ≤ l →
    l < w.nextList ∧ ∀ y' f' : Nat, w0.nextObj ≤ y' → y' < w1.nextObj → w.slot y' f' = .list l → y = y' ∧ f = f'
  fresh : ∀ y f l : Nat, w0.nextObj ≤ y → y < w1.nextObj → Cross M f → w.slot y f = .list l → w0.nextList ≤ l
  lists : ∀ y f l : Nat, w0.nextObj ≤ y → y < w1.nextObj → w.slot y f = .list l → l < w.nextList
  many : ∀ y f : Nat, w0.nextObj ≤ y → y < w1.nextObj → Cross M f → (M.feature f).many = true → w.slot y f = .none ∨ ∃ l, w.slot y f = .list l
  single : ∀ y f : Nat, w0.nextObj ≤ y → y < w1.nextObj → Cross M f → (M.feature f).many = false → w.slot y f = .none ∨ ∃ x, w.slot y f = .obj x

/-- from `w` to `w'`, the values of `f` of `y` have become `V` -/
structure Change (M : Meta) (w0 w1 w w' : World) (y f : Nat) (V : List Nat) : Prop where
  str : Str M w0 w1 w'
  val : values w' y f = V
  other : ∀ y' f' : Nat, w0.nextObj ≤ y' → y' < w1.nextObj → ¬ (y' = y ∧ f' = f) → values w' y' f' = values w y' f'
  slots : ∀ y' f' : Nat, ¬ (y' = y ∧ f' = f) → w'.slot y' f' = w.slot y' f'
  set : w'.slot y f ≠ .none

theorem change_items (h : Str M w0 w1 w) {y f l : Nat} (V : List Nat) (hge : w0.nextObj ≤ y) (hlt : y < w1.nextObj) (hf : Cross M f) (hs : w.slot y f = .list l) :
    Change M w0 w1 w (setItems w l V) y f V := by
  have hfr := h.fresh y f l hge hlt hf hs
  obtain ⟨hl, hu⟩ := h.own y f l hge hlt hs hfr
  have hlist : ∀ k : Nat, k ≠ l → (setItems w l V).list k = w.list k := by
    intro k hk
    simp [setItems, hk]
  refine ⟨⟨?_, h.nobj, h.nlist, h.cls, h.uri, h.container, h.objects, h.keep, ?_, h.own, h.fresh, h.lists, h.many, h.single⟩, ?_, ?_, fun _ _ _ => rfl, by simp [setItems, hs]⟩
  · refine ⟨h.frame.nobj, h.frame.nlist, h.frame.cls, h.frame.uri, h.frame.slot, h.frame.container, ?_⟩
    intro k hk
    rw [hlist k (by omega)]
    exact h.frame.list k hk
  · intro y' f' k hge' hlt' hnc hk
    rw [hlist k]
    · exact h.keepList y' f' k hge' hlt' hnc hk
    · rintro rfl
      rw [← h.keep y' f' hge' hnc] at hk
      obtain ⟨rfl, rfl⟩ := hu y' f' hge' hlt' hk
      exact hnc hf
  · simp [values, hs, setItems]
  · intro y' f' hge' hlt' hne
    have hsl : (setItems w l V).slot y' f' = w.slot y' f' := rfl
    simp only [values, hsl]
    split
    · rfl
    · rename_i k hk
      rw [hlist k]
      rintro rfl
      obtain ⟨rfl, rfl⟩ := hu y' f' hge' hlt' hk
      exact hne ⟨rfl, rfl⟩
    · rfl

theorem change_newList (h : Str M w0 w1 w) {y f : Nat} (V : List Nat) (k : LKind) (hge : w0.nextObj ≤ y) (hlt : y < w1.nextObj) (hf : Cross M f)
    (hm : (M.feature f).many = true) : Change M w0 w1 w (newList w y f ⟨V, k⟩) y f V := by
  have hlist : ∀ k' : Nat, k' < w.nextList → (newList w y f ⟨V, k⟩).list k' = w.list k' := by
    intro k' hk
    simp only [newList]
    rw [if_neg (by omega)]
  have hslot : ∀ y' f' : Nat, ¬ (y' = y ∧ f' = f) → (newList w y f ⟨V, k⟩).slot y' f' = w.slot y' f' := by
    intro y' f' hne
    simp only [newList, if_neg hne]
  have hslotc : (newList w y f ⟨V, k⟩).slot y f = .list w.nextList := by simp [newList]
  have hn : (newList w y f ⟨V, k⟩).nextList = w.nextList + 1 := rfl
  have hw0 := h.frame.nlist
  have hw1 := h.nlist
  refine ⟨⟨?_, h.nobj, by omega, h.cls, h.uri, h.container, h.objects, ?_, ?_, ?_, ?_, ?_, ?_, ?_⟩, ?_, ?_, hslot, by simp [hslotc]⟩
  · refine ⟨h.frame.nobj, by omega, h.frame.cls, h.frame.uri, ?_, h.frame.container, ?_⟩
    · intro x g hx
      rw [hslot x g (by omega)]
      exact h.frame.slot x g hx
    · intro l hl
      rw [hlist l (by omega)]
      exact h.frame.list l hl
  · intro y' f' hge' hnc
    rw [hslot y' f' (fun e => hnc (e.2 ▸ hf))]
    exact h.keep y' f' hge' hnc
  · intro y' f' l hge' hlt' hnc hk
    rw [hlist l]
    · exact h.keepList y' f' l hge' hlt' hnc hk
    · rw [← h.keep y' f' hge' hnc] at hk
      exact h.lists y' f' l hge' hlt' hk
  · intro y' f' l hge' hlt' hk hl
    by_cases he : y' = y ∧ f' = f
    · obtain ⟨rfl, rfl⟩ := he
      rw [hslotc] at hk
      cases hk
      refine ⟨by omega, ?_⟩
      intro y'' f'' hge'' hlt'' hk''
      by_cases he' : y'' = y' ∧ f'' = f'
      · exact ⟨he'.1.symm, he'.2.symm⟩
      · rw [hslot _ _ he'] at hk''
        have := h.lists y'' f'' _ hge'' hlt'' hk''
        omega
    · rw [hslot _ _ he] at hk
      obtain ⟨h1, h2⟩ := h.own y' f' l hge' hlt' hk hl
      refine ⟨by omega, ?_⟩
      intro y'' f'' hge'' hlt'' hk''
      by_cases he' : y'' = y ∧ f'' = f
      · obtain ⟨rfl, rfl⟩ := he'
        rw [hslotc] at hk''
        cases hk''
        omega
      · rw [hslot _ _ he'] at hk''
        exact h2 y'' f'' hge'' hlt'' hk''
  · intro y' f' l hge' hlt' hcf hk
    by_cases he : y' = y ∧ f' = f
    · obtain ⟨rfl, rfl⟩ := he
      rw [hslotc] at hk
      cases hk
      exact hw0
    · rw [hslot _ _ he] at hk
      exact h.fresh y' f' l hge' hlt' hcf hk
  · intro y' f' l hge' hlt' hk
    by_cases he : y' = y ∧ f' = f
    · obtain ⟨rfl, rfl⟩ := he
      rw [hslotc] at hk
      cases hk
      omega
    · rw [hslot _ _ he] at hk
      have := h.lists y' f' l hge' hlt' hk
      omega
  · intro y' f' hge' hlt' hcf hm'
    by_cases he : y' = y ∧ f' = f
    · obtain ⟨rfl, rfl⟩ := he
      exact .inr ⟨_, hslotc⟩
    · rw [hslot _ _ he]
      exact h.many y' f' hge' hlt' hcf hm'
  · intro y' f' hge' hlt' hcf hm'
    by_cases he : y' = y ∧ f' = f
    · obtain ⟨rfl, rfl⟩ := he
      rw [hm] at hm'
      simp at hm'
    · rw [hslot _ _ he]
      exact h.single y' f' hge' hlt' hcf hm'
  · simp only [values, hslotc]
    simp [newList]
  · intro y' f' hge' hlt' hne
    simp only [values, hslot y' f' hne]
    split
    · rfl
    · rename_i l hk
      rw [hlist l (h.lists y' f' l hge' hlt' hk)]
    · rfl

theorem change_slot (h : Str M w0 w1 w) {y f : Nat} (v : Nat) (hge : w0.nextObj ≤ y) (hf : Cross M f)
    (hm : (M.feature f).many = false) : Change M w0 w1 w (setSlot w y f (.obj v)) y f [v] := by
  have hslot : ∀ y' f' : Nat, ¬ (y' = y ∧ f' = f) → (setSlot w y f (.obj v)).slot y' f' = w.slot y' f' := by
    intro y' f' hne
    simp only [setSlot, if_neg hne]
  have hslotc : (setSlot w y f (.obj v)).slot y f = .obj v := by simp [setSlot]
  refine ⟨⟨?_, h.nobj, h.nlist, h.cls, h.uri, h.container, h.objects, ?_, h.keepList, ?_, ?_, ?_, ?_, ?_⟩, ?_, ?_, hslot, by simp [hslotc]⟩
  · refine ⟨h.frame.nobj, h.frame.nlist, h.frame.cls, h.frame.uri, ?_, h.frame.container, h.frame.list⟩
    intro x g hx
    rw [hslot x g (by omega)]
    exact h.frame.slot x g hx
  · intro y' f' hge' hnc
    rw [hslot y' f' (fun e => hnc (e.2 ▸ hf))]
    exact h.keep y' f' hge' hnc
  · intro y' f' l hge' hlt' hk hl
    by_cases he : y' = y ∧ f' = f
    · obtain ⟨rfl, rfl⟩ := he
      rw [hslotc] at hk
      cases hk
    · rw [hslot _ _ he] at hk
      obtain ⟨h1, h2⟩ := h.own y' f' l hge' hlt' hk hl
      refine ⟨h1, ?_⟩
      intro y'' f'' hge'' hlt'' hk''
      by_cases he' : y'' = y ∧ f'' = f
      · obtain ⟨rfl, rfl⟩ := he'
        rw [hslotc] at hk''
        cases hk''
      · rw [hslot _ _ he'] at hk''
        exact h2 y'' f'' hge'' hlt'' hk''
  · intro y' f' l hge' hlt' hcf hk
    by_cases he : y' = y ∧ f' = f
    · obtain ⟨rfl, rfl⟩ := he
      rw [hslotc] at hk
      cases hk
    · rw [hslot _ _ he] at hk
      exact h.fresh y' f' l hge' hlt' hcf hk
  · intro y' f' l hge' hlt' hk
    by_cases he : y' = y ∧ f' = f
    · obtain ⟨rfl, rfl⟩ := he
      rw [hslotc] at hk
      cases hk
    · rw [hslot _ _ he] at hk
      exact h.lists y' f' l hge' hlt' hk
  · intro y' f' hge' hlt' hcf hm'
    by_cases he : y' = y ∧ f' = f
    · obtain ⟨rfl, rfl⟩ := he
      rw [hm] at hm'
      simp at hm'
    · rw [hslot _ _ he]
      exact h.many y' f' hge' hlt' hcf hm'
  · intro y' f' hge' hlt' hcf hm'
    by_cases he : y' = y ∧ f' = f
    · obtain ⟨rfl, rfl⟩ := he
      exact .inr ⟨_, hslotc⟩
    · rw [hslot _ _ he]
      exact h.single y' f' hge' hlt' hcf hm'
  · simp [values, hslotc]
  · intro y' f' hge' hlt' hne
    simp only [values, hslot y' f' hne]
    rfl

/-- the other end of a new value -/
theorem change_inverse (h : Str M w0 w1 w) {c f e g : Nat} (hge : w0.nextObj ≤ e) (hlt : e < w1.nextObj) (hf : Cross M f) (hg : Cross M g)
    (ho : (M.feature f).opposite = some g) (hone : (M.feature g).many = false → values w e g = []) :
    Change M w0 w1 w (inverseAdd M w c f e) e g (values w e g ++ [c]) := by
  simp only [inverseAdd, hf.ncont, Bool.false_eq_true, if_false, ho]
  by_cases hm : (M.feature g).many = true
  · simp only [hm, if_true, getList]
    rcases h.many e g hge hlt hg hm with hs | ⟨l, hs⟩
    · have h1 := change_newList h (y := e) (f := g) [] (if (M.feature g).isRef then .refs else .values) hge hlt hg hm
      simp only [hs]
      have h2 := change_items h1.str (y := e) (f := g) (l := w.nextList) ([] ++ [c]) hge hlt hg (by simp [newList])
      have hv : values w e g = [] := by simp [values, hs]
      rw [hv]
      have he : ((newList w e g ⟨[], if (M.feature g).isRef then .refs else .values⟩).list w.nextList).items = [] := by simp [newList]
      rw [he]
      refine ⟨h2.str, h2.val, ?_, ?_, h2.set⟩
      · intro y' f' h3 h4 h5
        rw [h2.other y' f' h3 h4 h5, h1.other y' f' h3 h4 h5]
      · intro y' f' h5
        rw [h2.slots y' f' h5, h1.slots y' f' h5]
    · simp only [hs]
      have : values w e g = (w.list l).items := by simp [values, hs]
      rw [this]
      exact change_items h _ hge hlt hg hs
  · simp only [hm, Bool.false_eq_true, if_false]
    have hv := hone (by simpa using hm)
    rw [hv]
    have hs : w.slot e g = .none := by
      rcases h.single e g hge hlt hg (by simpa using hm) with hs | ⟨x, hs⟩
      · exact hs
      · simp [values, hs] at hv
    simp only [hs, List.nil_append]
    exact change_slot h c hge hg (by simpa using hm)


/-! ## The values of the references -/

/-- what the first pass has given -/
structure Ctx (M : Meta) (w0 w1 : World) (S : Nat → Prop) : Prop where
  hv : Valid M w0
  wf : WellFormed M
  old : ∀ x : Nat, S x → x < w0.nextObj
  inS : ∀ x : Nat, S x → ∃ y, w1.objects x = some y ∧ w0.nextObj ≤ y ∧ y < w1.nextObj
  out : ∀ x : Nat, ¬ S x → w1.objects x = none
  inj : ∀ x x' y : Nat, w1.objects x = some y → w1.objects x' = some y → x = x'

theorem Ctx.mem (C : Ctx M w0 w1 S) {x y : Nat} (h : w1.objects x = some y) : S x ∧ w0.nextObj ≤ y ∧ y < w1.nextObj := by
  rcases Classical.em (S x) with hs | hs
  · obtain ⟨y', h1, h2, h3⟩ := C.inS x hs
    rw [h] at h1
    cases h1
    exact ⟨hs, h2, h3⟩
  · rw [C.out x hs] at h
    simp at h

theorem Ctx.img_inj (C : Ctx M w0 w1 S) {f z z' v : Nat} (hz : z < w0.nextObj) (hz' : z' < w0.nextObj) (h : img M w1 f z = some v) (h' : img M w1 f z' = some v) : z = z' := by
  have key : ∀ z : Nat, z < w0.nextObj → img M w1 f z = some v → w1.objects z = some v ∨ (z = v ∧ w1.objects z = none) := by
    intro z hz h
    simp only [img] at h
    split at h
    · rename_i e; rw [e, h]; exact .inl rfl
    · rename_i e
      split at h
      · simp at h; exact .inr ⟨h, e⟩
      · simp at h
  rcases key z hz h with h1 | ⟨h1, h2⟩ <;> rcases key z' hz' h' with h3 | ⟨h3, h4⟩
  · exact C.inj z z' v h1 h3
  · have := (C.mem h1).2.1; omega
  · have := (C.mem h3).2.1; omega
  · omega

theorem nodup_filterMap_of {g : Nat → Option Nat} {l : List Nat} (hn : l.Nodup) (hi : ∀ a a' b : Nat, a ∈ l → a' ∈ l → g a = some b → g a' = some b → a = a') : (l.filterMap g).Nodup := by
  induction l with
  | nil => simp
  | cons x l ih =>
    rw [List.nodup_cons] at hn
    have ih' := ih hn.2 (fun a a' b ha ha' => hi a a' b (by simp [ha]) (by simp [ha']))
    rcases hg : g x with _ | v
    · rw [List.filterMap_cons_none hg]; exact ih'
    · rw [List.filterMap_cons_some hg, List.nodup_cons]
      refine ⟨?_, ih'⟩
      intro hm
      rw [List.mem_filterMap] at hm
      obtain ⟨a, ha, hga⟩ := hm
      have := hi x a v (by simp) (by simp [ha]) hg hga
      exact hn.1 (this ▸ ha)

theorem Ctx.want_nodup (C : Ctx M w0 w1 S) {x f : Nat} (hx : S x) (hf : Cross M f) : (want M w0 w1 x f).Nodup :=
  nodup_filterMap_of (C.hv.unique x f (C.old x hx) hf.ref) (fun a a' _ ha ha' h h' =>
    C.img_inj (C.hv.objects x f a (C.old x hx) hf.ref ha) (C.hv.objects x f a' (C.old x hx) hf.ref ha') h h')

/-- with an opposite, only objects of the tree are wanted, and the other end wants this one -/
theorem Ctx.want_opp (C : Ctx M w0 w1 S) {x y f g v : Nat} (hxy : w1.objects x = some y) (hf : Cross M f) (ho : (M.feature f).opposite = some g) (hv : v ∈ want M w0 w1 x f) :
    ∃ z, w1.objects z = some v ∧ z ∈ values w0 x f ∧ x ∈ values w0 z g ∧ y ∈ want M w0 w1 z g := by
  simp only [want, List.mem_filterMap] at hv
  obtain ⟨z, hz, hi⟩ := hv
  simp only [img] at hi
  have hzv : w1.objects z = some v := by
    split at hi
    · rename_i e; rw [e, hi]
    · simp [ho] at hi
  have hx := C.old x (C.mem hxy).1
  have hs := C.hv.symmetric x f z g hx (C.old z (C.mem hzv).1) ho hf.ncont (hf.opp C.wf ho).ncont hz
  refine ⟨z, hzv, hz, hs, ?_⟩
  simp only [want, List.mem_filterMap]
  exact ⟨x, hs, by simp [img, hxy]⟩

theorem Ctx.want_single (C : Ctx M w0 w1 S) {x f v v' : Nat} (hx : S x) (hf : Cross M f) (hm : (M.feature f).many = false) (h : v ∈ want M w0 w1 x f) (h' : v' ∈ want M w0 w1 x f) :
    v = v' := by
  simp only [want, List.mem_filterMap] at h h'
  obtain ⟨z, hz, hi⟩ := h
  obtain ⟨z', hz', hi'⟩ := h'
  have : z = z' := by
    rcases C.hv.ref x f (C.old x hx) hf.ref hm with hs | ⟨u, hs⟩
    · simp [values, hs] at hz
    · simp [values, hs] at hz hz'
      rw [hz, hz']
  subst this
  rw [hi] at hi'
  simpa using hi'

/-- The values `V` of the references of the copies: always some of those that are wanted, all of them once the reference
is done (`D`); `B` are the references that have been begun, `Z` those that have a value or a list. -/
structure Abs (M : Meta) (w0 w1 : World) (V : Nat → Nat → List Nat) (Z D B : Nat → Nat → Prop) : Prop where
  nodup : ∀ x y f : Nat, w1.objects x = some y → Cross M f → (V y f).Nodup
  sub : ∀ x y f v : Nat, w1.objects x = some y → Cross M f → v ∈ V y f → v ∈ want M w0 w1 x f
  sym : ∀ x y f x' y' g : Nat, w1.objects x = some y → w1.objects x' = some y' → Cross M f → (M.feature f).opposite = some g → y' ∈ V y f → y ∈ V y' g
  set : ∀ x y f : Nat, w1.objects x = some y → Cross M f → Z y f → w0.slot x f ≠ .none
  uni : ∀ x y f : Nat, w1.objects x = some y → Cross M f → (M.feature f).opposite = none → ¬ B x f → V y f = []
  done : ∀ x y f : Nat, w1.objects x = some y → Cross M f → D x f → V y f = want M w0 w1 x f ∧
    (isSet M w0 x f = true → (M.feature f).many = true ∨ want M w0 w1 x f ≠ [] → Z y f)

/-- a new value, and the other end -/
theorem Abs.link {V V' : Nat → Nat → List Nat} {Z Z' D B : Nat → Nat → Prop} (C : Ctx M w0 w1 S) (h : Abs M w0 w1 V Z D B) {x c f e e' g : Nat} (hx : w1.objects x = some c)
    (he : w1.objects e = some e') (hf : Cross M f) (ho : (M.feature f).opposite = some g) (hev : e ∈ values w0 x f) (hn : e' ∉ V c f)
    (h1 : (V' c f).Perm (e' :: V c f)) (h2 : V' e' g = V e' g ++ [c]) (h3 : ∀ y' f' : Nat, w0.nextObj ≤ y' → y' < w1.nextObj → ¬ (y' = c ∧ f' = f) → ¬ (y' = e' ∧ f' = g) → V' y' f' = V y' f')
    (hZ : ∀ y' f' : Nat, Z' y' f' ↔ Z y' f' ∨ (y' = c ∧ f' = f) ∨ (y' = e' ∧ f' = g)) :
    Abs M w0 w1 V' Z' D B := by
  have hog := (C.wf.opp f g ho).1
  have hfg := (C.wf.opp f g ho).2
  have hgc := hf.opp C.wf ho
  have hwant : e' ∈ want M w0 w1 x f := by
    simp only [want, List.mem_filterMap]
    exact ⟨e, hev, by simp [img, he]⟩
  obtain ⟨e1, he1, -, hxe, hcw⟩ := C.want_opp hx hf ho hwant
  have := C.inj e1 e e' he1 he
  subst this
  have hng : c ∉ V e' g := fun hm => hn (h.sym e1 e' g x c f he hx hgc hog hm)
  have hDf : ¬ D x f := fun hd => hn ((h.done x c f hx hf hd).1 ▸ hwant)
  have hDg : ¬ D e1 g := fun hd => hng ((h.done e1 e' g he hgc hd).1 ▸ hcw)
  have hcase : ∀ x' y' f' : Nat, w1.objects x' = some y' → (x' = x ∧ y' = c ∧ f' = f) ∨ (x' = e1 ∧ y' = e' ∧ f' = g) ∨
      (¬ (y' = c ∧ f' = f) ∧ ¬ (y' = e' ∧ f' = g) ∧ V' y' f' = V y' f') := by
    intro x' y' f' hxy
    by_cases hc1 : y' = c ∧ f' = f
    · obtain ⟨rfl, rfl⟩ := hc1
      exact .inl ⟨C.inj x' x _ hxy hx, rfl, rfl⟩
    · by_cases hc2 : y' = e' ∧ f' = g
      · obtain ⟨rfl, rfl⟩ := hc2
        exact .inr (.inl ⟨C.inj x' e1 _ hxy he, rfl, rfl⟩)
      · exact .inr (.inr ⟨hc1, hc2, h3 y' f' (C.mem hxy).2.1 (C.mem hxy).2.2 hc1 hc2⟩)
  refine ⟨?_, ?_, ?_, ?_, ?_, ?_⟩
  · intro x' y' f' hxy hcf
    rcases hcase x' y' f' hxy with ⟨rfl, rfl, rfl⟩ | ⟨rfl, rfl, rfl⟩ | ⟨-, -, e⟩
    · rw [h1.nodup_iff, List.nodup_cons]
      exact ⟨hn, h.nodup x' y' f' hxy hcf⟩
    · rw [h2, List.nodup_append]
      refine ⟨h.nodup x' y' f' hxy hcf, by simp, ?_⟩
      intro a ha b hb
      simp at hb
      subst hb
      rintro rfl
      exact hng ha
    · rw [e]
      exact h.nodup x' y' f' hxy hcf
  · intro x' y' f' v hxy hcf hv
    rcases hcase x' y' f' hxy with ⟨rfl, rfl, rfl⟩ | ⟨rfl, rfl, rfl⟩ | ⟨-, -, e⟩
    · rw [h1.mem_iff, List.mem_cons] at hv
      rcases hv with rfl | hv
      · exact hwant
      · exact h.sub x' y' f' v hxy hcf hv
    · rw [h2, List.mem_append, List.mem_singleton] at hv
      rcases hv with hv | rfl
      · exact h.sub x' y' f' v hxy hcf hv
      · exact hcw
    · rw [e] at hv
      exact h.sub x' y' f' v hxy hcf hv
  · -- opposites
    have mem' : ∀ a b k : Nat, w0.nextObj ≤ a → a < w1.nextObj → (b ∈ V' a k ↔ b ∈ V a k ∨ (a = c ∧ k = f ∧ b = e') ∨ (a = e' ∧ k = g ∧ b = c)) := by
      intro a b k hage halt
      by_cases hc1 : a = c ∧ k = f
      · obtain ⟨rfl, rfl⟩ := hc1
        rw [h1.mem_iff, List.mem_cons]
        constructor
        · rintro (rfl | hb)
          · exact .inr (.inl ⟨rfl, rfl, rfl⟩)
          · exact .inl hb
        · rintro (hb | ⟨-, -, rfl⟩ | ⟨-, hk, -⟩)
          · exact .inr hb
          · exact .inl rfl
          · exact absurd hk.symm hfg
      · by_cases hc2 : a = e' ∧ k = g
        · obtain ⟨rfl, rfl⟩ := hc2
          rw [h2, List.mem_append, List.mem_singleton]
          constructor
          · rintro (hb | rfl)
            · exact .inl hb
            · exact .inr (.inr ⟨rfl, rfl, rfl⟩)
          · rintro (hb | ⟨-, hk, -⟩ | ⟨-, -, rfl⟩)
            · exact .inl hb
            · exact absurd hk hfg
            · exact .inr rfl
        · rw [h3 a k hage halt hc1 hc2]
          constructor
          · exact .inl
          · rintro (hb | ⟨rfl, rfl, -⟩ | ⟨rfl, rfl, -⟩)
            · exact hb
            · exact absurd ⟨rfl, rfl⟩ hc1
            · exact absurd ⟨rfl, rfl⟩ hc2
    intro x1 y1 f1 x2 y2 g2 hx1 hx2 hcf ho1 hm
    rw [mem' y1 y2 f1 (C.mem hx1).2.1 (C.mem hx1).2.2] at hm
    rw [mem' y2 y1 g2 (C.mem hx2).2.1 (C.mem hx2).2.2]
    rcases hm with hm | ⟨rfl, rfl, rfl⟩ | ⟨rfl, rfl, rfl⟩
    · exact .inl (h.sym x1 y1 f1 x2 y2 g2 hx1 hx2 hcf ho1 hm)
    · rw [ho] at ho1
      cases ho1
      exact .inr (.inr ⟨rfl, rfl, rfl⟩)
    · rw [hog] at ho1
      cases ho1
      exact .inr (.inl ⟨rfl, rfl, rfl⟩)
  · intro x' y' f' hxy hcf hz
    rw [hZ] at hz
    rcases hz with hz | ⟨rfl, rfl⟩ | ⟨rfl, rfl⟩
    · exact h.set x' y' f' hxy hcf hz
    · have := C.inj x' x _ hxy hx
      subst this
      intro hs
      simp [values, hs] at hev
    · have := C.inj x' e1 _ hxy he
      subst this
      intro hs
      simp [values, hs] at hxe
  · intro x' y' f' hxy hcf hno hb
    rcases hcase x' y' f' hxy with ⟨rfl, rfl, rfl⟩ | ⟨rfl, rfl, rfl⟩ | ⟨-, -, e⟩
    · rw [ho] at hno; simp at hno
    · rw [hog] at hno; simp at hno
    · rw [e]
      exact h.uni x' y' f' hxy hcf hno hb
  · intro x' y' f' hxy hcf hd
    rcases hcase x' y' f' hxy with ⟨rfl, rfl, rfl⟩ | ⟨rfl, rfl, rfl⟩ | ⟨-, -, e⟩
    · exact absurd hd hDf
    · exact absurd hd hDg
    · rw [e]
      refine ⟨(h.done x' y' f' hxy hcf hd).1, fun h4 h5 => (hZ y' f').2 (.inl ((h.done x' y' f' hxy hcf hd).2 h4 h5))⟩

/-- other values of a reference that is being copied, the same ones with an opposite -/
theorem Abs.change {V V' : Nat → Nat → List Nat} {Z Z' D B : Nat → Nat → Prop} (C : Ctx M w0 w1 S) (h : Abs M w0 w1 V Z D B) {x c f : Nat} (hx : w1.objects x = some c)
    (hn : (V' c f).Nodup) (hs : ∀ v ∈ V' c f, v ∈ want M w0 w1 x f) (ho : (M.feature f).opposite.isSome = true → ∀ v : Nat, v ∈ V' c f ↔ v ∈ V c f)
    (hD : ¬ D x f) (hB : B x f) (hset : w0.slot x f ≠ .none)
    (h3 : ∀ y' f' : Nat, w0.nextObj ≤ y' → y' < w1.nextObj → ¬ (y' = c ∧ f' = f) → V' y' f' = V y' f') (hZ : ∀ y' f' : Nat, Z' y' f' ↔ Z y' f' ∨ (y' = c ∧ f' = f)) :
    Abs M w0 w1 V' Z' D B := by
  have hcase : ∀ x' y' f' : Nat, w1.objects x' = some y' → (x' = x ∧ y' = c ∧ f' = f) ∨ (¬ (y' = c ∧ f' = f) ∧ V' y' f' = V y' f') := by
    intro x' y' f' hxy
    by_cases hc1 : y' = c ∧ f' = f
    · obtain ⟨rfl, rfl⟩ := hc1
      exact .inl ⟨C.inj x' x _ hxy hx, rfl, rfl⟩
    · exact .inr ⟨hc1, h3 y' f' (C.mem hxy).2.1 (C.mem hxy).2.2 hc1⟩
  have hmem : ∀ x' y' f' v : Nat, w1.objects x' = some y' → (M.feature f').opposite.isSome = true → (v ∈ V' y' f' ↔ v ∈ V y' f') := by
    intro x' y' f' v hxy hop
    rcases hcase x' y' f' hxy with ⟨rfl, rfl, rfl⟩ | ⟨-, e⟩
    · exact ho hop v
    · rw [e]
  refine ⟨?_, ?_, ?_, ?_, ?_, ?_⟩
  · intro x' y' f' hxy hcf
    rcases hcase x' y' f' hxy with ⟨rfl, rfl, rfl⟩ | ⟨-, e⟩
    · exact hn
    · rw [e]
      exact h.nodup x' y' f' hxy hcf
  · intro x' y' f' v hxy hcf hv
    rcases hcase x' y' f' hxy with ⟨rfl, rfl, rfl⟩ | ⟨-, e⟩
    · exact hs v hv
    · rw [e] at hv
      exact h.sub x' y' f' v hxy hcf hv
  · intro x1 y1 f1 x2 y2 g2 hx1 hx2 hcf ho1 hm
    rw [hmem x1 y1 f1 y2 hx1 (by simp [ho1])] at hm
    rw [hmem x2 y2 g2 y1 hx2 (by simp [(C.wf.opp f1 g2 ho1).1])]
    exact h.sym x1 y1 f1 x2 y2 g2 hx1 hx2 hcf ho1 hm
  · intro x' y' f' hxy hcf hz
    rw [hZ] at hz
    rcases hz with hz | ⟨rfl, rfl⟩
    · exact h.set x' y' f' hxy hcf hz
    · have := C.inj x' x _ hxy hx
      subst this
      exact hset
  · intro x' y' f' hxy hcf hno hb
    rcases hcase x' y' f' hxy with ⟨rfl, rfl, rfl⟩ | ⟨-, e⟩
    · exact absurd hB hb
    · rw [e]
      exact h.uni x' y' f' hxy hcf hno hb
  · intro x' y' f' hxy hcf hd
    rcases hcase x' y' f' hxy with ⟨rfl, rfl, rfl⟩ | ⟨-, e⟩
    · exact absurd hd hD
    · rw [e]
      refine ⟨(h.done x' y' f' hxy hcf hd).1, fun h4 h5 => (hZ y' f').2 (.inl ((h.done x' y' f' hxy hcf hd).2 h4 h5))⟩

end Verif.DeepCopy
