import Verif.Proofs.XMLRefsDoc

/-!
# The references set at the end of a document
-/

namespace Verif.XMLRefs

open Graph

variable {E : Env} {cls : Nat → Nat} {saved : Nat → Nat → List Nat} {doc : List Elem}

/-- an element of a list of references is moved -/
theorem move_step (wf : WellFormed E.M) {L : List Edge} {w : World} (hl : Linked E cls L w) {a r e i : Nat} (hr : r ∈ E.M.features (cls a))
    (hm : (E.M.refs r).many = true) (hn : E.M.isContainer r = false) (he : e ∈ eGet E.M w a r) (hi : i < (eGet E.M w a r).length) :
    ∃ w', listOp E.M w a r (.move ((eGet E.M w a r).idxOf e) i) = some w' ∧ Linked E cls L w' ∧
      ∀ x s, s ∈ E.M.features (cls x) → eGet E.M w' x s = if x = a ∧ s = r then moveTo (eGet E.M w a r) e i else eGet E.M w x s := by
  have hc := hl.good.cls_eq
  have hsl := hl.good.shape a r hr hn
  simp only [Shape, hm, ↓reduceIte] at hsl
  have hget : eGet E.M w a r = ((w a).slots (E.M.refs r).declId).vals := by rw [get_eq wf hc hr]; simp [hn]
  have hdata : eGet E.M w a r = ((w a).slots (E.M.refs r).declId).data := by
    rw [hget]; rcases hsl with h | ⟨l, -, h⟩ <;> rw [h] <;> rfl
  have hlt := List.idxOf_lt_length_of_mem he
  have hge : (eGet E.M w a r)[(eGet E.M w a r).idxOf e]? = some e := by
    rw [List.getElem?_eq_getElem hlt, List.getElem_idxOf hlt]
  have hmv : ((eGet E.M w a r).eraseIdx ((eGet E.M w a r).idxOf e)).insertIdx i e = moveTo (eGet E.M w a r) e i := by
    rw [moveTo, List.erase_eq_eraseIdx_of_idxOf rfl]
  have hstep : listOp E.M w a r (.move ((eGet E.M w a r).idxOf e) i) = some (setSlot w a (E.M.refs r).declId (.list (moveTo (eGet E.M w a r) e i))) := by
    rw [← hmv]
    simp only [listOp, hc a, wf.featureID hr, Int.toNat_natCast, ← hdata, hge, hi, ↓reduceIte]
    rw [if_neg (by omega)]
  refine ⟨_, hstep, ?_, ?_⟩
  · have hgood := good_listOp wf hl.good hr hm hn _ (by simp [LOp.added]) hstep
    refine ⟨hgood, ?_, by simpa using hl.cont⟩
    intro x s hs
    rw [get_setSlot wf hc hr hn _ hs]
    split
    · rename_i h
      obtain ⟨rfl, rfl⟩ := h
      refine List.Perm.trans ?_ (hl.perm x s hs)
      simp only [Slot.vals, moveTo]
      have h1 : ((eGet E.M w x s).erase e).length = (eGet E.M w x s).length - 1 := List.length_erase_of_mem he
      have h2 := List.perm_insertIdx e ((eGet E.M w x s).erase e) (i := i) (by rw [h1]; omega)
      exact h2.trans (List.perm_cons_erase he).symm
    · exact hl.perm x s hs
  · intro x s hs
    exact get_setSlot wf hc hr hn _ hs

/-- the link of a reference that is set at the end -/
def edgeOf (p : Pending) : Edge := (p.obj, p.feature, p.id)

/-- references that can be set at the end -/
structure PendOk (E : Env) (known : List Nat) (L : List Edge) (p : Pending) : Prop where
  known : p.id ∈ known
  ne : p.obj ≠ p.id
  written : Written E p.feature
  opp : mm E p.feature = false → ∀ s, mm E s = true → E.transient s = false → (E.M.refs p.feature).opposite ≠ some s
  present : mm E p.feature = true → p.id ∈ contrib E.M L p.obj p.feature ∧ p.pos < (contrib E.M L p.obj p.feature).length

theorem setPending_spec (wf : WellFormed E.M) (hs : Consistent E.M cls saved) {known : List Nat} (hty : ∀ a r b, b ∈ saved a r → r ∈ E.M.features (cls a)) (n : Nat) (ps : List Pending) :
    ∀ (L : List Edge) (w : World), Linked E cls L w → Sound saved L → (∀ p ∈ ps, PendOk E known L p) → (∀ p ∈ ps, p.id ∈ saved p.obj p.feature) →
      OkFrom E saved L ((ps.filter fun p => !mm E p.feature).map edgeOf) →
      ∃ w', setPending E known w n ps = some (w', n) ∧ Linked E cls (L ++ (ps.filter fun p => !mm E p.feature).map edgeOf) w' ∧
        ∀ x s, s ∈ E.M.features (cls x) →
          (mm E s = false → eGet E.M w' x s = eGet E.M w x s ++ contrib E.M ((ps.filter fun p => !mm E p.feature).map edgeOf) x s) ∧
          (mm E s = true → E.transient s = false →
            eGet E.M w' x s = (ps.filter fun p => p.obj = x ∧ p.feature = s).foldl (fun l p => moveTo l p.id p.pos) (eGet E.M w x s)) := by
  induction ps with
  | nil =>
    intro L w hl hL hps hsv hok
    refine ⟨w, rfl, by simpa using hl, ?_⟩
    intro x s hsx
    simp [contrib]
  | cons p ps ih =>
    intro L w hl hL hps hsv hok
    obtain ⟨hk, hne, hw, hopp, hpres⟩ := hps p (by simp)
    have hfeat := hty _ _ _ (hsv p (by simp))
    simp only [setPending, hk, ↓reduceIte]
    cases hmm : mm E p.feature with
    | true =>
      simp only [List.filter_cons, hmm, Bool.not_true, Bool.false_eq_true, ↓reduceIte] at hok ⊢
      have hm : (E.M.refs p.feature).many = true ∧ manyAdd E p.feature = false := by simpa [mm] using hmm
      obtain ⟨hp1, hp2⟩ := hpres hmm
      have hperm := hl.perm p.obj p.feature hfeat
      have hin := hperm.mem_iff.2 hp1
      obtain ⟨w1, e1, e2, e3⟩ := move_step wf hl hfeat hm.1 hw.ref hin (i := p.pos) (by rw [hperm.length_eq]; exact hp2)
      have hset : setValue E w p.obj p.feature p.id (some p.pos) = some w1 := by
        simp only [setValue, hm.1, ↓reduceIte, hne, hm.2, Bool.false_eq_true, hin]
        exact e1
      obtain ⟨w2, f1, f2, f3⟩ := ih L w1 e2 hL (fun q hq => hps q (by simp [hq])) (fun q hq => hsv q (by simp [hq])) hok
      refine ⟨w2, by rw [hset]; exact f1, f2, ?_⟩
      intro x s hsx
      obtain ⟨g1, g2⟩ := f3 x s hsx
      have h3 := e3 x s hsx
      constructor
      · intro hms
        rw [g1 hms, h3, if_neg]
        rintro ⟨rfl, rfl⟩
        rw [hmm] at hms; simp at hms
      · intro hms hts
        rw [g2 hms hts, h3]
        by_cases hx : p.obj = x ∧ p.feature = s
        · obtain ⟨rfl, rfl⟩ := hx
          simp
        · rw [if_neg (by rintro ⟨rfl, rfl⟩; exact hx ⟨rfl, rfl⟩)]
          simp [hx]
    | false =>
      simp only [List.filter_cons, hmm, Bool.not_false, ↓reduceIte, List.map_cons] at hok ⊢
      obtain ⟨w1, e1, e2, e3⟩ := link_step wf hs hl hL hok.1
      have hset : setValue E w p.obj p.feature p.id (some p.pos) = some w1 := by
        rw [← e1]
        simp only [setValue]
        cases hm : (E.M.refs p.feature).many with
        | false => rfl
        | true =>
          have hma : manyAdd E p.feature = true := by simpa [mm, hm] using hmm
          simp [hne, hma]
      have hps' : ∀ q ∈ ps, PendOk E known (L ++ [edgeOf p]) q := by
        intro q hq
        obtain ⟨a1, a2, a3, a4, a5⟩ := hps q (by simp [hq])
        refine ⟨a1, a2, a3, a4, ?_⟩
        intro h
        obtain ⟨b1, b2⟩ := a5 h
        rw [contrib_append]
        exact ⟨by simp [b1], by simp only [List.length_append]; omega⟩
      have hL' : Sound saved (L ++ [edgeOf p]) := by
        intro l hm
        simp only [List.mem_append, List.mem_singleton] at hm
        rcases hm with hm | hm
        · exact hL l hm
        · rw [hm]; exact hok.1.sound
      obtain ⟨w2, f1, f2, f3⟩ := ih (L ++ [edgeOf p]) w1 e2 hL' hps' (fun q hq => hsv q (by simp [hq])) hok.2
      refine ⟨w2, by rw [hset]; exact f1, by simpa using f2, ?_⟩
      intro x s hsx
      obtain ⟨g1, g2⟩ := f3 x s hsx
      have h3 := e3 x s hsx
      have hsp : edgeOf p :: (ps.filter fun p => !mm E p.feature).map edgeOf = [edgeOf p] ++ (ps.filter fun p => !mm E p.feature).map edgeOf := rfl
      constructor
      · intro hms
        rw [g1 hms, h3, hsp, contrib_append, List.append_assoc]
        rfl
      · intro hms hts
        have hnf : p.feature ≠ s := by rintro rfl; rw [hmm] at hms; simp at hms
        have hno := hopp hmm s hms hts
        rw [g2 hms hts, h3]
        have hz : contrib E.M [(p.obj, p.feature, p.id)] x s = [] := by
          simp [contrib, delta, Ne.symm hnf, hno]
        rw [hz]
        simp [hnf]

/-! ### The references of a document -/

/-- the references that are set at the end -/
def pending (E : Env) (doc : List Elem) : List Pending := doc.flatMap fun e => attrPend E doc e.obj e.attrs

theorem zipIdx_filter (q : Nat → Bool) (xs : List Nat) (n : Nat) : ((xs.zipIdx n).filter fun p => q p.1).map Prod.fst = xs.filter q := by
  induction xs generalizing n with
  | nil => rfl
  | cons x xs ih =>
    simp only [List.zipIdx_cons, List.filter_cons]
    split
    · simp [ih]
    · simp [ih]

theorem pending_links (E : Env) (doc : List Elem) : ((pending E doc).filter fun p => !mm E p.feature).map edgeOf = links2 E doc := by
  simp only [pending, links2, genDoc, List.filter_flatMap, List.map_flatMap]
  congr 1
  funext e
  simp only [attrPend, genElem, List.filter_flatMap, List.map_flatMap]
  congr 1
  funext p
  obtain ⟨f, xs⟩ := p
  simp only [idPend]
  cases h1 : mustAdd E f with
  | false => simp
  | true =>
    cases h2 : mm E f with
    | true =>
      simp only [↓reduceIte, Bool.not_true, Bool.and_false, Bool.false_eq_true]
      rw [List.map_eq_nil_iff, List.filter_eq_nil_iff]
      intro p hp
      simp only [List.mem_map] at hp
      obtain ⟨q, -, rfl⟩ := hp
      simp [h2]
    | false =>
      simp only [↓reduceIte, Bool.not_false, Bool.and_self]
      rw [List.filter_eq_self.2, List.map_map, ← zipIdx_filter (fun x => !before doc x e.obj) xs 0, List.map_map]
      · rfl
      · intro p hp
        simp only [List.mem_map] at hp
        obtain ⟨q, -, rfl⟩ := hp
        simp [h2]

theorem mem_pending (hd : Document E cls saved doc) {p : Pending} (hp : p ∈ pending E doc) :
    p.obj ∈ doc.map Elem.obj ∧ Written E p.feature ∧ mustAdd E p.feature = true ∧ p.id ∈ saved p.obj p.feature ∧ before doc p.id p.obj = false ∧
      p.pos < (saved p.obj p.feature).length := by
  simp only [pending, attrPend, List.mem_flatMap, Prod.exists] at hp
  obtain ⟨e, he, f, xs, hf, hp⟩ := hp
  rw [hd.attrs e he] at hf
  obtain ⟨k1, k2, k3, k4⟩ := mem_attributes.1 hf
  simp only [idPend] at hp
  split at hp
  · rename_i hm
    simp only [List.mem_map, List.mem_filter, Prod.exists] at hp
    obtain ⟨x, i, ⟨h1, h2⟩, rfl⟩ := hp
    have h3 := List.mem_zipIdx h1
    refine ⟨List.mem_map.2 ⟨e, he, rfl⟩, k2, hm, ?_, by simpa using h2, ?_⟩
    · show x ∈ saved e.obj f
      rw [← k3, h3.2.2]; exact List.getElem_mem _
    · simp only; rw [← k3]; omega
  · simp at hp

theorem flatMap_single {α β : Type} {l : List α} {f : α → List β} {a : α} (hnd : l.Nodup) (ha : a ∈ l) (h : ∀ b ∈ l, b ≠ a → f b = []) : l.flatMap f = f a := by
  induction l with
  | nil => simp at ha
  | cons b l ih =>
    rw [List.nodup_cons] at hnd
    simp only [List.flatMap_cons]
    by_cases hb : b = a
    · subst hb
      have : l.flatMap f = [] := by
        rw [List.flatMap_eq_nil_iff]
        intro c hc
        exact h c (by simp [hc]) (by rintro rfl; exact hnd.1 hc)
      simp [this]
    · rw [h b (by simp) hb, ih hnd.2 (by simp only [List.mem_cons] at ha; exact ha.resolve_left (Ne.symm hb)) (fun c hc => h c (by simp [hc]))]
      rfl

theorem Document.nodup (hd : Document E cls saved doc) : doc.Nodup :=
  List.Pairwise.imp (fun h h' => h (by rw [h'])) hd.pairwise

/-- only the attribute of a reference says something about it -/
theorem attributes_flatMap {β : Type} (hfn : ∀ c, (E.M.features c).Nodup) {o s : Nat} (hf : s ∈ E.M.features (cls o)) (hw : Written E s) (g : Nat × List Nat → List β)
    (hnil : g (s, []) = []) (h : ∀ r xs, (r, xs) ∈ attributes E cls saved o → r ≠ s → g (r, xs) = []) :
    (attributes E cls saved o).flatMap g = g (s, saved o s) := by
  by_cases he : saved o s = []
  · rw [he, hnil, List.flatMap_eq_nil_iff]
    rintro ⟨r, xs⟩ hm
    refine h r xs hm ?_
    rintro rfl
    obtain ⟨-, -, h1, h2⟩ := mem_attributes.1 hm
    exact h2 (h1.trans he)
  · have hnd : (attributes E cls saved o).Nodup := by
      simp only [attributes]
      refine List.Pairwise.filterMap _ ?_ (hfn (cls o))
      intro r r' hrr p hp p' hp'
      split at hp <;> simp at hp
      split at hp' <;> simp at hp'
      rw [← hp, ← hp']
      intro hh
      simp only [Prod.mk.injEq] at hh
      exact hrr hh.1
    refine flatMap_single (a := (s, saved o s)) hnd (mem_attributes.2 ⟨hf, hw, rfl, he⟩) ?_
    rintro ⟨r, xs⟩ hm hne
    refine h r xs hm ?_
    rintro rfl
    obtain ⟨-, -, h1, -⟩ := mem_attributes.1 hm
    exact hne (by rw [h1])

theorem pending_of (hd : Document E cls saved doc) (hfn : ∀ c, (E.M.features c).Nodup) {e : Elem} (he : e ∈ doc) {s : Nat}
    (hf : s ∈ E.M.features (cls e.obj)) (hw : Written E s) (hm : mustAdd E s = true) :
    (pending E doc).filter (fun p => p.obj = e.obj ∧ p.feature = s) =
      (((saved e.obj s).zipIdx).filter fun q => !before doc q.1 e.obj).map fun q => ⟨e.obj, s, q.1, q.2⟩ := by
  simp only [pending, List.filter_flatMap]
  rw [flatMap_single (a := e) hd.nodup he]
  · simp only [attrPend, List.filter_flatMap, hd.attrs e he]
    rw [attributes_flatMap hfn hf hw]
    · simp only [idPend, hm, ↓reduceIte]
      rw [List.filter_eq_self]
      intro p hp
      simp only [List.mem_map] at hp
      obtain ⟨q, -, rfl⟩ := hp
      simp
    · simp [idPend]
    · intro r xs _ hne
      rw [List.filter_eq_nil_iff]
      intro p hp
      simp only [idPend] at hp
      split at hp
      · simp only [List.mem_map] at hp
        obtain ⟨q, -, rfl⟩ := hp
        simp [hne]
      · simp at hp
  · intro e' he' hne
    rw [List.filter_eq_nil_iff]
    intro p hp
    simp only [attrPend, List.mem_flatMap, Prod.exists] at hp
    obtain ⟨f, xs, -, hp⟩ := hp
    simp only [idPend] at hp
    split at hp
    · simp only [List.mem_map] at hp
      obtain ⟨q, -, rfl⟩ := hp
      simp only [decide_eq_true_eq, not_and]
      intro ho
      exact absurd (hd.obj_inj he' he ho) hne
    · simp at hp

/-! ### Values -/

theorem contrib_flatMap {α : Type} (M : Meta) (l : List α) (f : α → List Edge) (x s : Nat) : contrib M (l.flatMap f) x s = l.flatMap fun a => contrib M (f a) x s := by
  simp [contrib, List.flatMap_assoc]

theorem contrib_nil {M : Meta} {L : List Edge} {x s : Nat} (h : ∀ a r b, (a, r, b) ∈ L → ¬ (x = a ∧ s = r) ∧ ¬ (x = b ∧ (M.refs r).opposite = some s)) :
    contrib M L x s = [] := by
  simp only [contrib, List.flatMap_eq_nil_iff]
  rintro ⟨a, r, b⟩ hm
  obtain ⟨h1, h2⟩ := h a r b hm
  simp [delta, h1, h2]

/-- what an object says itself about a reference -/
theorem contrib_own (hd : Document E cls saved doc) (hfn : ∀ c, (E.M.features c).Nodup) (hself : ∀ a r, (E.M.refs r).containment = false → E.M.isContainer r = false → a ∉ saved a r)
    {c : Nat → Bool} {q : Nat → Nat → Bool} {e : Elem} (he : e ∈ doc) {s : Nat} (hf : s ∈ E.M.features (cls e.obj)) (hw : Written E s) :
    contrib E.M (genElem c q e) e.obj s = if c s then (saved e.obj s).filter fun x => q x e.obj else [] := by
  simp only [genElem, contrib_flatMap, hd.attrs e he]
  rw [attributes_flatMap hfn hf hw]
  · cases hc : c s with
    | false => simp [contrib]
    | true =>
      simp only [↓reduceIte, contrib, List.flatMap_map]
      generalize (saved e.obj s).filter (fun x => q x e.obj) = l
      induction l with
      | nil => rfl
      | cons y l ih => simp [ih, delta]
  · simp [contrib]
  · intro r xs hm hne
    obtain ⟨h1, h2, h3, h4⟩ := mem_attributes.1 hm
    apply contrib_nil
    intro a r' b hb
    simp only at hb
    split at hb
    · simp only [List.mem_map, List.mem_filter, Prod.mk.injEq] at hb
      obtain ⟨y, ⟨hy, -⟩, rfl, rfl, rfl⟩ := hb
      refine ⟨by rintro ⟨-, h⟩; exact hne h.symm, ?_⟩
      rintro ⟨h, -⟩
      rw [h3, ← h] at hy
      exact hself _ _ h2.cross h2.ref hy
    · simp at hb

theorem contrib_place (wf : WellFormed E.M) (hd : Document E cls saved doc) {e : Elem} (he : e ∈ doc) {x s : Nat} (hw : Written E s) :
    contrib E.M (placeEdges e.obj e.place) x s = [] := by
  apply contrib_nil
  intro a r b hb
  have hc := ((mem_places hd).1 ⟨e, he, hb⟩).1
  constructor
  · rintro ⟨-, rfl⟩
    rw [hw.cross] at hc; simp at hc
  · rintro ⟨-, ho⟩
    have := isContainer_opp (M := E.M) (wf.opp r s ho).1
    rw [hw.ref, hc] at this; simp at this

/-- the other elements say nothing about a reference whose opposite sets nothing -/
theorem contrib_other (hd : Document E cls saved doc) (hs : Consistent E.M cls saved) {c : Nat → Bool} {q : Nat → Nat → Bool} {e : Elem} (he : e ∈ doc) {x s : Nat} (hne : e.obj ≠ x)
    (h : ∀ t, (E.M.refs t).opposite = some s → Written E t → c t = true → q x e.obj = true → False) :
    contrib E.M (genElem c q e) x s = [] := by
  apply contrib_nil
  intro a r b hb
  obtain ⟨rfl, h2, h3, h4, h5⟩ := (mem_genElem hd hs he).1 hb
  constructor
  · rintro ⟨rfl, -⟩; exact hne rfl
  · rintro ⟨rfl, ho⟩; exact h r ho h2 h3 h5

/-- a list whose opposite does not say its order -/
theorem contrib_oneSided (wf : WellFormed E.M) (hd : Document E cls saved doc) (hs : Consistent E.M cls saved) (hfn : ∀ c, (E.M.features c).Nodup)
    (hdef : E.deferred = false) (hself : ∀ a r, (E.M.refs r).containment = false → E.M.isContainer r = false → a ∉ saved a r) {e : Elem} (he : e ∈ doc) {s : Nat} (hf : s ∈ E.M.features (cls e.obj))
    (hw : Written E s) (ho : OneSided E s) :
    contrib E.M (links1 E doc) e.obj s ++ contrib E.M (links2 E doc) e.obj s =
      (saved e.obj s).filter (fun b => before doc b e.obj) ++ (saved e.obj s).filter fun b => !before doc b e.obj := by
  have key : ∀ t, (E.M.refs t).opposite = some s → Written E t → mustAdd E t = false ∧ mayResolve E t = false := by
    intro t ht hwt
    have hst := (wf.opp t s ht).1
    have h1 : (E.M.refs t).many = false := by
      rcases ho.2.2 t hst with h | h
      · exact h
      · rw [hwt.saved] at h; simp at h
    have : mustAdd E t = false := by simp [mustAdd, hdef, ht, hw.saved, h1]
    exact ⟨this, by simp [mayResolve, hdef, ht, this, ho.1]⟩
  have hmust : mustAdd E s = true := by
    cases h : (E.M.refs s).opposite with
    | none => simp [mustAdd, h]
    | some t => simp [mustAdd, h, ho.1]
  have hmm : mm E s = false := by
    cases h : (E.M.refs s).opposite with
    | none => simp [mm, manyAdd, h]
    | some t => rcases ho.2.2 t h with h' | h' <;> simp [mm, manyAdd, h, h']
  have h1 : contrib E.M (links1 E doc) e.obj s = (saved e.obj s).filter fun b => before doc b e.obj := by
    simp only [links1, contrib_flatMap]
    rw [flatMap_single (a := e) hd.nodup he]
    · simp only [elemEdges, contrib_append, contrib_place wf hd he hw, List.append_nil]
      have := contrib_own (c := mayResolve E) (q := before doc) hd hfn hself he hf hw
      rw [if_pos (may_of_must hdef hmust)] at this
      exact this
    · intro e' he' hne
      simp only [elemEdges, contrib_append, contrib_place wf hd he' hw, List.append_nil]
      exact contrib_other (c := mayResolve E) (q := before doc) hd hs he' (fun h => hne (hd.obj_inj he' he h))
        (by intro t ht hwt h _; rw [(key t ht hwt).2] at h; simp at h)
  have h2 : contrib E.M (links2 E doc) e.obj s = (saved e.obj s).filter fun b => !before doc b e.obj := by
    simp only [links2, genDoc, contrib_flatMap]
    rw [flatMap_single (a := e) hd.nodup he]
    · rw [contrib_own hd hfn hself he hf hw]; simp [hmust, hmm]
    · intro e' he' hne
      refine contrib_other hd hs he' (fun h => hne (hd.obj_inj he' he h)) ?_
      intro t ht hwt h _; rw [(key t ht hwt).1] at h; simp at h
  rw [h1, h2]

/-- a list whose opposite is a list, before the moves -/
theorem contrib_mm (wf : WellFormed E.M) (hd : Document E cls saved doc) (hs : Consistent E.M cls saved) (hfn : ∀ c, (E.M.features c).Nodup)
    (hdef : E.deferred = false) (hself : ∀ a r, (E.M.refs r).containment = false → E.M.isContainer r = false → a ∉ saved a r) {e : Elem} (he : e ∈ doc) {s : Nat} (hf : s ∈ E.M.features (cls e.obj))
    (hw : Written E s) (hm : mm E s = true) :
    ∃ X, contrib E.M (links1 E doc) e.obj s = (saved e.obj s).filter (fun b => before doc b e.obj) ++ X := by
  obtain ⟨pre, post, hdoc⟩ := List.append_of_mem he
  have hmust : mustAdd E s = true := by
    have : (E.M.refs s).many = true := by
      simp only [mm, Bool.and_eq_true] at hm
      exact hm.1
    cases h : (E.M.refs s).opposite with
    | none => simp [mustAdd, h]
    | some t => simp [mustAdd, h, this]
  refine ⟨contrib E.M (post.flatMap (elemEdges E doc)) e.obj s, ?_⟩
  have hsplit : links1 E doc = pre.flatMap (elemEdges E doc) ++ (elemEdges E doc e ++ post.flatMap (elemEdges E doc)) := by
    have : ∀ f : Elem → List Edge, doc.flatMap f = pre.flatMap f ++ (f e ++ post.flatMap f) := by intro f; rw [hdoc]; simp
    exact this _
  rw [hsplit, contrib_append, contrib_append]
  have hpre : contrib E.M (pre.flatMap (elemEdges E doc)) e.obj s = [] := by
    rw [contrib_flatMap, List.flatMap_eq_nil_iff]
    intro e' he'
    have hd' : e' ∈ doc := by rw [hdoc]; simp [he']
    have hb : before doc e'.obj e.obj = true := (before_iff hd.once hdoc _).2 (List.mem_map.2 ⟨e', he', rfl⟩)
    simp only [elemEdges, contrib_append, contrib_place wf hd hd' hw, List.append_nil]
    refine contrib_other (c := mayResolve E) (q := before doc) hd hs hd' ?_ ?_
    · intro h
      rw [h] at hb
      simp [before] at hb
    · intro t _ _ _ h
      rw [before_asymm hb] at h; simp at h
  have hown : contrib E.M (elemEdges E doc e) e.obj s = (saved e.obj s).filter fun b => before doc b e.obj := by
    simp only [elemEdges, contrib_append, contrib_place wf hd he hw, List.append_nil]
    have := contrib_own (c := mayResolve E) (q := before doc) hd hfn hself he hf hw
    rw [if_pos (may_of_must hdef hmust)] at this
    exact this
  rw [hpre, hown]
  rfl

/-- a containment -/
theorem contrib_containment (wf : WellFormed E.M) (hd : Document E cls saved doc) (hs : Consistent E.M cls saved) {x s : Nat} (hc : (E.M.refs s).containment = true) :
    contrib E.M (links1 E doc) x s = saved x s ∧ contrib E.M (links2 E doc) x s = [] := by
  have hno : ∀ {c : Nat → Bool} {q : Nat → Nat → Bool} {e : Elem}, e ∈ doc → contrib E.M (genElem c q e) x s = [] := by
    intro c q e he
    apply contrib_nil
    intro a r b hb
    obtain ⟨-, h2, -⟩ := (mem_genElem hd hs he).1 hb
    constructor
    · rintro ⟨-, rfl⟩; rw [h2.cross] at hc; simp at hc
    · rintro ⟨-, ho⟩
      have := isContainer_opp (M := E.M) ho
      rw [h2.ref, hc] at this; simp at this
  constructor
  · rw [← hd.places x s hc]
    simp only [links1, contrib_flatMap]
    have hone : ∀ e ∈ doc, contrib E.M (elemEdges E doc e) x s = if e.place = some (x, s) then [e.obj] else [] := by
      intro e he
      have h1 := hno (c := mayResolve E) (q := before doc) he
      have h2 : contrib E.M (elemEdges E doc e) x s = contrib E.M (genElem (mayResolve E) (before doc) e) x s ++ contrib E.M (placeEdges e.obj e.place) x s := by
        rw [← contrib_append]; rfl
      rw [h2, h1, List.nil_append]
      split
      · rename_i hp
        simp [hp, placeEdges, contrib, delta]
      · rename_i hp
        apply contrib_nil
        intro a r b hb
        have hcr := ((mem_places hd).1 ⟨e, he, hb⟩).1
        constructor
        · rintro ⟨rfl, rfl⟩
          cases hq : e.place with
          | none => rw [hq] at hb; simp [placeEdges] at hb
          | some q =>
            obtain ⟨a', r'⟩ := q
            rw [hq] at hb
            simp only [placeEdges, List.mem_singleton, Prod.mk.injEq] at hb
            exact hp (by rw [hq, hb.1, hb.2.1])
        · rintro ⟨-, ho⟩
          have := (wf.cont r s hcr ho).1
          rw [hc] at this; simp at this
    have : ∀ l : List Elem, (∀ e ∈ l, e ∈ doc) → (l.flatMap fun e => contrib E.M (elemEdges E doc e) x s) = (l.filter fun e => e.place = some (x, s)).map Elem.obj := by
      intro l
      induction l with
      | nil => intro _; rfl
      | cons e l ih =>
        intro h
        simp only [List.flatMap_cons, hone e (h e (by simp)), ih (fun y hy => h y (by simp [hy])), List.filter_cons]
        by_cases hp : e.place = some (x, s) <;> simp [hp]
    exact this doc (fun _ h => h)
  · simp only [links2, genDoc, contrib_flatMap, List.flatMap_eq_nil_iff]
    intro e he
    exact hno he

end Verif.XMLRefs
