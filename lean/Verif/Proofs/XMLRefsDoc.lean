import Verif.Proofs.XMLRefs

/-!
# The links of a document
-/

namespace Verif.XMLRefs

open Graph

variable {E : Env} {cls : Nat → Nat} {saved : Nat → Nat → List Nat} {doc : List Elem}

/-- both ends are lists that are saved -/
def mm (E : Env) (r : Nat) : Bool := (E.M.refs r).many && !manyAdd E r

/-- a reference that is written as an attribute -/
structure Written (E : Env) (r : Nat) : Prop where
  saved : E.transient r = false
  cross : (E.M.refs r).containment = false
  ref : E.M.isContainer r = false

/-- the links of an element for the references `c` and the values `q` -/
def genElem (c : Nat → Bool) (q : Nat → Nat → Bool) (e : Elem) : List Edge :=
  e.attrs.flatMap fun p => if c p.1 then (p.2.filter fun x => q x e.obj).map fun x => (e.obj, p.1, x) else []

theorem mem_attributes {o r : Nat} {xs : List Nat} : (r, xs) ∈ attributes E cls saved o ↔
    r ∈ E.M.features (cls o) ∧ Written E r ∧ xs = saved o r ∧ xs ≠ [] := by
  simp only [attributes, List.mem_filterMap]
  constructor
  · rintro ⟨r', h1, h2⟩
    split at h2
    · simp at h2
    · rename_i hc
      simp only [Option.some.injEq, Prod.mk.injEq] at h2
      obtain ⟨rfl, rfl⟩ := h2
      simp only [Bool.or_eq_true, not_or, Bool.not_eq_true] at hc
      obtain ⟨⟨⟨a, b⟩, c⟩, d⟩ := hc
      exact ⟨h1, ⟨a, b, c⟩, rfl, by intro h; rw [h] at d; simp at d⟩
  · rintro ⟨h1, ⟨a, b, c⟩, rfl, h2⟩
    refine ⟨r, h1, ?_⟩
    simp [a, b, c, h2]

theorem mem_genElem {c : Nat → Bool} {q : Nat → Nat → Bool} (hd : Document E cls saved doc) (hs : Consistent E.M cls saved) {e : Elem} (he : e ∈ doc) {a r b : Nat} :
    (a, r, b) ∈ genElem c q e ↔ a = e.obj ∧ Written E r ∧ c r = true ∧ b ∈ saved a r ∧ q b a = true := by
  simp only [genElem, List.mem_flatMap, Prod.exists, hd.attrs e he]
  constructor
  · rintro ⟨f, xs, h1, h2⟩
    obtain ⟨k1, k2, k3, k4⟩ := mem_attributes.1 h1
    split at h2
    · rename_i hc
      simp only [List.mem_map, List.mem_filter, Prod.mk.injEq] at h2
      obtain ⟨x, ⟨h3, h4⟩, rfl, rfl, rfl⟩ := h2
      exact ⟨rfl, k2, hc, k3 ▸ h3, h4⟩
    · simp at h2
  · rintro ⟨rfl, h1, h2, h3, h4⟩
    refine ⟨r, saved e.obj r, mem_attributes.2 ⟨(hs.typed _ _ _ h3).1, h1, rfl, by intro h; rw [h] at h3; simp at h3⟩, ?_⟩
    simp [h2, h3, h4]

theorem nodup_genElem {c : Nat → Bool} {q : Nat → Nat → Bool} (hd : Document E cls saved doc) (hs : Consistent E.M cls saved)
    (hfn : ∀ c, (E.M.features c).Nodup) {e : Elem} (he : e ∈ doc) : (genElem c q e).Nodup := by
  simp only [genElem, List.Nodup, List.pairwise_flatMap, hd.attrs e he]
  constructor
  · rintro ⟨f, xs⟩ hp
    obtain ⟨-, -, rfl, -⟩ := mem_attributes.1 hp
    split
    · rw [List.pairwise_map]
      refine List.Pairwise.imp ?_ ((hs.nodup e.obj f).filter _)
      intro x y hxy h
      simp only [Prod.mk.injEq, true_and] at h
      exact hxy h
    · exact List.Pairwise.nil
  · have : (attributes E cls saved e.obj).Pairwise fun p p' => p.1 ≠ p'.1 := by
      simp only [attributes]
      refine List.Pairwise.filterMap _ ?_ (hfn (cls e.obj))
      intro r r' hrr p hp p' hp'
      split at hp <;> simp at hp
      split at hp' <;> simp at hp'
      rw [← hp, ← hp']; exact hrr
    refine List.Pairwise.imp ?_ this
    rintro ⟨f, xs⟩ ⟨f', xs'⟩ hne l hl l' hl' heq
    simp only at hne hl hl'
    split at hl <;> simp at hl
    split at hl' <;> simp at hl'
    obtain ⟨x, -, rfl⟩ := hl
    obtain ⟨y, -, rfl⟩ := hl'
    simp only [Prod.mk.injEq] at heq
    exact hne heq.2.1

theorem Document.pairwise (hd : Document E cls saved doc) : doc.Pairwise fun e e' => e.obj ≠ e'.obj := by
  have := hd.once
  rw [List.Nodup, List.pairwise_map] at this
  exact this

theorem Document.obj_inj (hd : Document E cls saved doc) {x y : Elem} (hx : x ∈ doc) (hy : y ∈ doc) (h : x.obj = y.obj) : x = y := by
  obtain ⟨pre, post, hdoc⟩ := List.append_of_mem hx
  have hp := hd.pairwise
  rw [hdoc, List.pairwise_append, List.pairwise_cons] at hp
  rw [hdoc] at hy
  simp only [List.mem_append, List.mem_cons] at hy
  rcases hy with hy | hy | hy
  · exact absurd h.symm (hp.2.2 y hy x (by simp))
  · exact hy.symm
  · exact absurd h (hp.2.1.1 y hy)

/-- the links of all the elements -/
def genDoc (c : Nat → Bool) (q : Nat → Nat → Bool) (doc : List Elem) : List Edge := doc.flatMap (genElem c q)

theorem mem_genDoc {c : Nat → Bool} {q : Nat → Nat → Bool} (hd : Document E cls saved doc) (hs : Consistent E.M cls saved) {a r b : Nat} :
    (a, r, b) ∈ genDoc c q doc ↔ a ∈ doc.map Elem.obj ∧ Written E r ∧ c r = true ∧ b ∈ saved a r ∧ q b a = true := by
  simp only [genDoc, List.mem_flatMap, List.mem_map]
  constructor
  · rintro ⟨e, he, h⟩
    rw [mem_genElem hd hs he] at h
    exact ⟨⟨e, he, h.1.symm⟩, h.2⟩
  · rintro ⟨⟨e, he, rfl⟩, h⟩
    exact ⟨e, he, (mem_genElem hd hs he).2 ⟨rfl, h⟩⟩

theorem nodup_genDoc {c : Nat → Bool} {q : Nat → Nat → Bool} (hd : Document E cls saved doc) (hs : Consistent E.M cls saved)
    (hfn : ∀ c, (E.M.features c).Nodup) : (genDoc c q doc).Nodup := by
  simp only [genDoc, List.Nodup, List.pairwise_flatMap]
  refine ⟨fun e he => nodup_genElem hd hs hfn he, ?_⟩
  refine List.Pairwise.imp_of_mem ?_ hd.pairwise
  intro e e' he he' hne l hl l' hl' heq
  obtain ⟨a, r, b⟩ := l
  rw [mem_genElem hd hs he] at hl
  rw [← heq, mem_genElem hd hs he'] at hl'
  exact hne (hl.1.symm.trans hl'.1)

/-! ### Containments -/

theorem mem_places (hd : Document E cls saved doc) {a r b : Nat} :
    (∃ e ∈ doc, (a, r, b) ∈ placeEdges e.obj e.place) ↔ (E.M.refs r).containment = true ∧ b ∈ saved a r := by
  constructor
  · rintro ⟨e, he, h⟩
    cases hp : e.place with
    | none => rw [hp] at h; simp [placeEdges] at h
    | some q =>
      obtain ⟨a', r'⟩ := q
      rw [hp] at h
      simp only [placeEdges, List.mem_singleton, Prod.mk.injEq] at h
      obtain ⟨rfl, rfl, rfl⟩ := h
      obtain ⟨pre, post, hdoc⟩ := List.append_of_mem he
      have hc := (hd.inside pre e post a r hdoc hp).1
      refine ⟨hc, ?_⟩
      rw [← hd.places a r hc]
      exact List.mem_map.2 ⟨e, List.mem_filter.2 ⟨he, by simp [hp]⟩, rfl⟩
  · rintro ⟨hc, hb⟩
    rw [← hd.places a r hc] at hb
    obtain ⟨e, he, rfl⟩ := List.mem_map.1 hb
    rw [List.mem_filter] at he
    have hp : e.place = some (a, r) := by simpa using he.2
    exact ⟨e, he.1, by simp [placeEdges, hp]⟩

theorem Document.own (hd : Document E cls saved doc) (a r b q e : Nat) (hr : (E.M.refs r).containment = true) (hq : (E.M.refs q).containment = true)
    (h1 : e ∈ saved a r) (h2 : e ∈ saved b q) : a = b ∧ r = q := by
  obtain ⟨x, hx, hxe⟩ := (mem_places hd).2 ⟨hr, h1⟩
  obtain ⟨y, hy, hye⟩ := (mem_places hd).2 ⟨hq, h2⟩
  have key : ∀ (x : Elem) (a r : Nat), (a, r, e) ∈ placeEdges x.obj x.place → x.obj = e ∧ x.place = some (a, r) := by
    intro x a r h
    cases hp : x.place with
    | none => rw [hp] at h; simp [placeEdges] at h
    | some q =>
      obtain ⟨a', r'⟩ := q
      rw [hp] at h
      simp only [placeEdges, List.mem_singleton, Prod.mk.injEq] at h
      exact ⟨h.2.2.symm, by rw [h.1, h.2.1]⟩
  obtain ⟨k1, k2⟩ := key x a r hxe
  obtain ⟨k3, k4⟩ := key y b q hye
  have : x = y := hd.obj_inj hx hy (k1.trans k3.symm)
  rw [this, k4] at k2
  simp only [Option.some.injEq, Prod.mk.injEq] at k2
  exact ⟨k2.1.symm, k2.2.symm⟩

/-- the links made while the document is read -/
def links1 (E : Env) (doc : List Elem) : List Edge := doc.flatMap (elemEdges E doc)

theorem mem_links1 (hd : Document E cls saved doc) (hs : Consistent E.M cls saved) {a r b : Nat} :
    (a, r, b) ∈ links1 E doc ↔ b ∈ saved a r ∧ ((E.M.refs r).containment = true ∨
      a ∈ doc.map Elem.obj ∧ Written E r ∧ mayResolve E r = true ∧ before doc b a = true) := by
  have h1 : (a, r, b) ∈ links1 E doc ↔ (a, r, b) ∈ genDoc (mayResolve E) (before doc) doc ∨ ∃ e ∈ doc, (a, r, b) ∈ placeEdges e.obj e.place := by
    simp only [links1, genDoc, List.mem_flatMap, elemEdges, List.mem_append]
    constructor
    · rintro ⟨e, he, h | h⟩
      · exact Or.inl ⟨e, he, h⟩
      · exact Or.inr ⟨e, he, h⟩
    · rintro (⟨e, he, h⟩ | ⟨e, he, h⟩)
      · exact ⟨e, he, Or.inl h⟩
      · exact ⟨e, he, Or.inr h⟩
  rw [h1, mem_genDoc hd hs, mem_places hd]
  constructor
  · rintro (⟨k1, k2, k3, k4, k5⟩ | ⟨k1, k2⟩)
    · exact ⟨k4, Or.inr ⟨k1, k2, k3, k5⟩⟩
    · exact ⟨k2, Or.inl k1⟩
  · rintro ⟨k1, k2 | ⟨k2, k3, k4, k5⟩⟩
    · exact Or.inr ⟨k2, k1⟩
    · exact Or.inl ⟨k2, k3, k4, k1, k5⟩

theorem kind_elemEdges (hd : Document E cls saved doc) (hs : Consistent E.M cls saved) {e : Elem} (he : e ∈ doc) {a r b : Nat} (h : (a, r, b) ∈ elemEdges E doc e) :
    ((E.M.refs r).containment = false ∧ a = e.obj) ∨ ((E.M.refs r).containment = true ∧ b = e.obj) := by
  simp only [elemEdges, List.mem_append] at h
  rcases h with h | h
  · have := (mem_genElem (c := mayResolve E) (q := before doc) hd hs he).1 h
    exact Or.inl ⟨this.2.1.cross, this.1⟩
  · right
    refine ⟨((mem_places hd).1 ⟨e, he, h⟩).1, ?_⟩
    cases hp : e.place with
    | none => rw [hp] at h; simp [placeEdges] at h
    | some q =>
      rw [hp] at h
      simp only [placeEdges, List.mem_singleton, Prod.mk.injEq] at h
      exact h.2.2

theorem nodup_links1 (hd : Document E cls saved doc) (hs : Consistent E.M cls saved) (hfn : ∀ c, (E.M.features c).Nodup) : (links1 E doc).Nodup := by
  simp only [links1, List.Nodup, List.pairwise_flatMap]
  constructor
  · intro e he
    simp only [elemEdges, List.pairwise_append]
    refine ⟨nodup_genElem (c := mayResolve E) (q := before doc) hd hs hfn he, ?_, ?_⟩
    · cases e.place <;> simp [placeEdges]
    · rintro ⟨a, r, b⟩ hl l' hl' rfl
      have h1 := (mem_genElem (c := mayResolve E) (q := before doc) hd hs he).1 hl
      have h2 := ((mem_places hd).1 ⟨e, he, hl'⟩).1
      rw [h1.2.1.cross] at h2
      simp at h2
  · refine List.Pairwise.imp_of_mem ?_ hd.pairwise
    rintro e e' he he' hne ⟨a, r, b⟩ hl l' hl' rfl
    rcases kind_elemEdges hd hs he hl with ⟨h1, h2⟩ | ⟨h1, h2⟩ <;> rcases kind_elemEdges hd hs he' hl' with ⟨h3, h4⟩ | ⟨h3, h4⟩
    · exact hne (h2.symm.trans h4)
    · rw [h1] at h3; simp at h3
    · rw [h1] at h3; simp at h3
    · exact hne (h2.symm.trans h4)

/-- the links made at the end -/
def links2 (E : Env) (doc : List Elem) : List Edge := genDoc (fun f => mustAdd E f && !mm E f) (fun b a => !before doc b a) doc

theorem before_asymm {a b : Nat} (h : before doc b a = true) : before doc a b = false := by
  simp only [before, decide_eq_true_eq, decide_eq_false_iff_not, Nat.not_lt] at *
  omega

theorem before_total {a b : Nat} (hb : b ∈ doc.map Elem.obj) (hne : a ≠ b) (h : before doc b a = false) : before doc a b = true := by
  simp only [before, decide_eq_true_eq, decide_eq_false_iff_not, Nat.not_lt] at *
  have : (doc.map Elem.obj).idxOf a ≠ (doc.map Elem.obj).idxOf b := by
    intro h'
    have h1 := List.getElem_idxOf (List.idxOf_lt_length_of_mem hb)
    have h2 : (doc.map Elem.obj).idxOf a < (doc.map Elem.obj).length := by rw [h']; exact List.idxOf_lt_length_of_mem hb
    have h3 := List.getElem_idxOf h2
    apply hne
    rw [← h1, ← h3]
    simp [h']
  omega

theorem links_ok (wf : WellFormed E.M) (hd : Document E cls saved doc) (hs : Consistent E.M cls saved) (hfn : ∀ c, (E.M.features c).Nodup)
    (hdef : E.deferred = false) : OkFrom E saved [] (links1 E doc) ∧ OkFrom E saved (links1 E doc) (links2 E doc) := by
  have s1 : Sound saved (links1 E doc) := by rintro ⟨a, r, b⟩ h; exact ((mem_links1 hd hs).1 h).1
  have s2 : Sound saved (links2 E doc) := by rintro ⟨a, r, b⟩ h; exact ((mem_genDoc hd hs).1 h).2.2.2.1
  have c1 : ∀ l ∈ links1 E doc, E.M.isContainer l.2.1 = false := by
    rintro ⟨a, r, b⟩ h
    rcases ((mem_links1 hd hs).1 h).2 with h | h
    · exact wf.contNot h
    · exact h.2.1.ref
  have c2 : ∀ l ∈ links2 E doc, E.M.isContainer l.2.1 = false := by
    rintro ⟨a, r, b⟩ h
    exact ((mem_genDoc hd hs).1 h).2.1.ref
  constructor
  · refine okFrom_of hd.own [] _ (by simpa using nodup_links1 hd hs hfn) (by simpa using s1) c1 ?_
    rintro ⟨a, r, b⟩ h r' ho hm
    simp only [List.nil_append] at ho hm
    have k1 := ((mem_links1 hd hs).1 h).2
    have k2 := ((mem_links1 hd hs).1 hm).2
    have hc := isContainer_opp (M := E.M) (wf.opp r r' ho).1
    have hc' := isContainer_opp (M := E.M) ho
    rcases k1 with k1 | k1
    · rcases k2 with k2 | k2
      · rw [(wf.cont r r' k1 ho).1] at k2; simp at k2
      · rw [k2.2.1.ref] at hc; rw [k1] at hc; simp at hc
    · rcases k2 with k2 | k2
      · rw [k1.2.1.ref, k2] at hc'; simp at hc'
      · rw [before_asymm k1.2.2.2] at k2; simp at k2
  · refine okFrom_of hd.own _ _ ?_ ?_ c2 ?_
    · rw [List.nodup_append]
      refine ⟨nodup_links1 hd hs hfn, nodup_genDoc hd hs hfn, ?_⟩
      rintro ⟨a, r, b⟩ h l' h' rfl
      have k1 := ((mem_links1 hd hs).1 h).2
      have k2 := (mem_genDoc hd hs).1 h'
      rcases k1 with k1 | k1
      · rw [k2.2.1.cross] at k1; simp at k1
      · have := k2.2.2.2.2; rw [k1.2.2.2] at this; simp at this
    · intro l hl
      rcases List.mem_append.1 hl with hl | hl
      · exact s1 l hl
      · exact s2 l hl
    · rintro ⟨a, r, b⟩ h r' ho hm
      simp only at ho hm
      have k := (mem_genDoc hd hs).1 h
      have hc' := isContainer_opp (M := E.M) ho
      have hro := (wf.opp r r' ho).1
      have key : Written E r' → mustAdd E r' = false ∧ mayResolve E r' = false := by
        intro hw
        have k3 := k.2.2.1
        simp only [mustAdd, hdef, ho, mm, manyAdd, hw.saved, Bool.false_or, Bool.and_eq_true, Bool.not_eq_true',
          Bool.and_eq_false_iff] at k3
        obtain ⟨k4, k5⟩ := k3
        have k6 : (E.M.refs r').many = false := by
          rcases k5 with k5 | k5
          · rw [k4] at k5; simp at k5
          · simpa using k5
        have : mustAdd E r' = false := by simp [mustAdd, hdef, hro, k.2.1.saved, k6]
        exact ⟨this, by simp [mayResolve, hdef, hro, this, k4]⟩
      rcases List.mem_append.1 hm with hm | hm
      · rcases ((mem_links1 hd hs).1 hm).2 with k2 | k2
        · rw [k.2.1.ref, k2] at hc'; simp at hc'
        · rw [(key k2.2.1).2] at k2; simp at k2
      · have k2 := (mem_genDoc hd hs).1 hm
        have := k2.2.2.1
        rw [(key k2.2.1).1] at this; simp at this

/-- all the links of a saved graph are made -/
theorem links_complete (wf : WellFormed E.M) (hd : Document E cls saved doc) (hs : Consistent E.M cls saved) (hdef : E.deferred = false)
    (hself : ∀ a r, (E.M.refs r).containment = false → E.M.isContainer r = false → a ∉ saved a r) {x s b : Nat} (hx : x ∈ doc.map Elem.obj) (ht : E.transient s = false) (hb : b ∈ saved x s) :
    b ∈ contrib E.M (links1 E doc) x s ∨ (mm E s = false ∧ b ∈ contrib E.M (links2 E doc) x s) := by
  have hbd : b ∈ doc.map Elem.obj := by
    obtain ⟨e, he, rfl⟩ := List.mem_map.1 hx
    exact hd.closed e he s ht b hb
  cases hct : (E.M.refs s).containment with
  | true => exact Or.inl ((mem_contrib wf).2 (Or.inl ((mem_links1 hd hs).2 ⟨hb, Or.inl hct⟩)))
  | false =>
  cases hic : E.M.isContainer s with
  | true =>
    cases ho : (E.M.refs s).opposite with
    | none => simp [Meta.isContainer, ho] at hic
    | some t =>
      rw [isContainer_opp ho] at hic
      exact Or.inl ((mem_contrib wf).2 (Or.inr ⟨t, (wf.opp s t ho).1, (mem_links1 hd hs).2 ⟨(hs.symm x s b t ho).1 hb, Or.inl hic⟩⟩))
  | false =>
  have hw : Written E s := ⟨ht, hct, hic⟩
  have hne : x ≠ b := by rintro rfl; exact hself x s hct hic hb
  by_cases hbx : before doc b x = true ∧ mayResolve E s = true
  · exact Or.inl ((mem_contrib wf).2 (Or.inl ((mem_links1 hd hs).2 ⟨hb, Or.inr ⟨hx, hw, hbx.2, hbx.1⟩⟩)))
  by_cases h2 : before doc b x = false ∧ (mustAdd E s && !mm E s) = true
  · have hmm : mm E s = false := by
      have := h2.2
      simp only [Bool.and_eq_true, Bool.not_eq_true'] at this
      exact this.2
    exact Or.inr ⟨hmm, (mem_contrib wf).2 (Or.inl ((mem_genDoc hd hs).2 ⟨hx, hw, h2.2, hb, by simp [h2.1]⟩))⟩
  -- the other end
  cases ho : (E.M.refs s).opposite with
  | none =>
    exfalso
    have hma : mustAdd E s = true := by simp [mustAdd, ho]
    have hmr : mayResolve E s = true := by simp [mayResolve, ho, hdef]
    have hm : mm E s = false := by simp [mm, manyAdd, ho]
    cases hbb : before doc b x with
    | true => exact hbx ⟨hbb, hmr⟩
    | false => exact h2 ⟨hbb, by simp [hma, hm]⟩
  | some t =>
    have hto := (wf.opp s t ho).1
    have hxt : x ∈ saved b t := (hs.symm x s b t ho).1 hb
    have htc : (E.M.refs t).containment = false := by rw [← isContainer_opp ho, hic]
    have hti : E.M.isContainer t = false := by rw [isContainer_opp hto, hct]
    have late : mayResolve E s = true → before doc b x = false ∧ before doc x b = true := by
      intro h
      have : before doc b x = false := by
        cases hbb : before doc b x with
        | false => rfl
        | true => exact absurd ⟨hbb, h⟩ hbx
      exact ⟨this, before_total hbd hne this⟩
    cases htt : E.transient t with
    | true =>
      exfalso
      have hma : mustAdd E s = true := by simp [mustAdd, ho, htt]
      have hmm : mm E s = false := by simp [mm, manyAdd, ho, htt]
      exact h2 ⟨(late (may_of_must hdef hma)).1, by simp [hma, hmm]⟩
    | false =>
      have hwt : Written E t := ⟨htt, htc, hti⟩
      have mk1 : mayResolve E t = true → before doc x b = true → b ∈ contrib E.M (links1 E doc) x s := by
        intro h1 h3
        exact (mem_contrib wf).2 (Or.inr ⟨t, hto, (mem_links1 hd hs).2 ⟨hxt, Or.inr ⟨hbd, hwt, h1, h3⟩⟩⟩)
      cases hms : (E.M.refs s).many with
      | true =>
        have hma : mustAdd E s = true := by simp [mustAdd, ho, hms]
        have hl := late (may_of_must hdef hma)
        have hmm : mm E s = true := by
          cases h : mm E s with
          | true => rfl
          | false => exact absurd ⟨hl.1, by simp [hma, h]⟩ h2
        have hmt : (E.M.refs t).many = true := by
          simp only [mm, manyAdd, ho, htt, hms, Bool.true_and, Bool.false_or, Bool.not_not] at hmm
          exact hmm
        exact Or.inl (mk1 (may_of_must hdef (by simp [mustAdd, hto, hmt])) hl.2)
      | false =>
        cases hmt : (E.M.refs t).many with
        | false =>
          have hl := late (by simp [mayResolve, hdef, ho, hmt])
          exact Or.inl (mk1 (by simp [mayResolve, hdef, hto, hms]) hl.2)
        | true =>
          have hmat : mustAdd E t = true := by simp [mustAdd, hto, hmt]
          cases hbb : before doc x b with
          | true => exact Or.inl (mk1 (may_of_must hdef hmat) hbb)
          | false =>
            right
            have hmm : mm E t = false := by simp [mm, manyAdd, hto, hms]
            exact ⟨by simp [mm, hms], (mem_contrib wf).2 (Or.inr ⟨t, hto, (mem_genDoc hd hs).2 ⟨hbd, hwt, by simp [hmat, hmm], hxt, by simp [hbb]⟩⟩)⟩

end Verif.XMLRefs
