import Verif.Proofs.XMLSingle

/-!
# C103: An object written alone is read as an object of its own
-/

namespace Verif.XMLSingle

theorem encode_get (ids : Bool) (r : Res) (refs : Nat → Nat → List Nat) (features : Nat → List Nat) (objs : List Nat) (k : Nat) (e : Elem)
    (h : (encode ids r refs features objs)[k]? = some e) : ∃ o, objs[k]? = some o ∧ e = encodeElem ids r refs features o := by
  simp only [encode, List.getElem?_map, Option.map_eq_some_iff] at h
  obtain ⟨o, h1, h2⟩ := h
  exact ⟨o, h1, h2.symm⟩

theorem encode_nodup (ids : Bool) (r : Res) {refs : Nat → Nat → List Nat} {features : Nat → List Nat} {objs : List Nat} (h : Written refs features objs) :
    ∀ e ∈ encode ids r refs features objs, (e.refs.map (·.1)).Nodup := by
  intro e he
  simp only [encode, List.mem_map] at he
  obtain ⟨o, ho, rfl⟩ := he
  exact encode_features ids r refs features o (h.distinct o ho)

theorem take_get {α : Type} {l : List α} {n k : Nat} {a : α} (h : (l.take n)[k]? = some a) : l[k]? = some a ∧ k < n := by
  rw [List.getElem?_take] at h
  split at h
  · rename_i hk; exact ⟨h, hk⟩
  · cases h

theorem nodup_map (g : Nat → Nat) (l : List Nat) (h : l.Nodup) (hg : ∀ x ∈ l, ∀ y ∈ l, g x = g y → x = y) : (l.map g).Nodup := by
  induction l with
  | nil => simp
  | cons x l ih =>
    rw [List.nodup_cons] at h
    rw [List.map_cons, List.nodup_cons]
    refine ⟨?_, ih h.2 (fun a ha b hb => hg a (by simp [ha]) b (by simp [hb]))⟩
    intro e
    obtain ⟨y, hy, e⟩ := List.mem_map.1 e
    exact h.1 (hg y (by simp [hy]) x (by simp) e ▸ hy)

theorem encode_distinct {r : Res} {m : Manager} {ident : Nat → Nat} {refs : Nat → Nat → List Nat} {features : Nat → List Nat} {objs : List Nat}
    (hw : Written refs features objs) (hid : Identified r m ident objs) (j k : Nat) (a b : Elem) (i : Nat) (ha : (encode true r refs features objs)[j]? = some a)
    (hb : (encode true r refs features objs)[k]? = some b) (hi : a.id = some i) (hi' : b.id = some i) : j = k := by
  have hids : ∀ o ∈ objs, (encodeElem true r refs features o).id = some (ident o) := by
    intro o ho
    simp [encodeElem, hid.manager, hid.has o ho]
  obtain ⟨o, ho, rfl⟩ := encode_get _ _ _ _ _ _ _ ha
  obtain ⟨p, hp, rfl⟩ := encode_get _ _ _ _ _ _ _ hb
  have hom := List.mem_of_getElem? ho
  have hpm := List.mem_of_getElem? hp
  rw [hids o hom] at hi
  rw [hids p hpm, ← hi] at hi'
  simp only [Option.some.injEq] at hi'
  have := hid.own o hom p hpm hi'.symm
  subst this
  have hj := (List.getElem?_eq_some_iff.1 ho).1
  exact (List.getElem?_inj hj hw.once).1 (ho.trans hp.symm)

/-- In a resource whose ID manager knows none of the IDs, with the ID attribute: the result is the new object; there is no error; the resource has the contents
it had, other objects have the references they had; the references of the new objects are to the new objects, those of the originals with the originals replaced
by their copies; with deferred resolution in the same order. -/
theorem C103_copy_partial (E : Env) (hi : E.ids = true) (hroot : E.deferredRoot = false) (r : Res) (m : Manager) (ident : Nat → Nat) (refs : Nat → Nat → List Nat)
    (features : Nat → List Nat) (objs : List Nat) (hw : Written refs features objs) (hin : Inside refs features objs) (hid : Identified r m ident objs)
    (r' : Res) (m' : Manager) (hm' : r'.manager = some m') (hfree : ∀ o ∈ objs, m'.objOf (ident o) = none)
    (next : Nat) (hnew : ∀ o, next ≤ o → m'.idOf o = none) (hu : Unused refs next) :
    ∃ s, decode E r' refs next (encode true r refs features objs) = some s ∧ s.result = some next ∧ s.errors = 0 ∧ s.res.contents = r'.contents ∧
      (∀ o f, o < next → s.refs o f = refs o f) ∧
      ∀ (k : Nat) (o : Nat), objs[k]? = some o → ∀ f ∈ features o,
        (s.refs (next + k) f).Perm ((refs o f).map (copyOf objs next)) ∧ (E.deferred = true → s.refs (next + k) f = (refs o f).map (copyOf objs next)) := by
  have hids : ∀ o ∈ objs, (encodeElem true r refs features o).id = some (ident o) := by
    intro o ho
    simp [encodeElem, hid.manager, hid.has o ho]
  have hfrag : ∀ o ∈ objs, fragment r o = .id (ident o) := by
    intro o ho
    simp [fragment, hid.attached o ho, hid.manager, hid.has o ho]
  have hne : encode true r refs features objs ≠ [] := by
    simpa [encode] using hw.some_
  -- the lookups after some elements
  have hlook : ∀ n x, x ∈ objs → getEObject (resAfter true r' next ((encode true r refs features objs).take n)) (.id (ident x)) =
      if objs.idxOf x < n then some (copyOf objs next x) else none := by
    intro n x hx
    obtain ⟨m2, g1, -, -, g4, g5⟩ := resAfter_ids r' m' hm' next hnew ((encode true r refs features objs).take n) (by
      intro j k a b i ha hb
      exact encode_distinct hw hid j k a b i (take_get ha).1 (take_get hb).1)
    simp only [getEObject, g1]
    have hxi : objs.idxOf x < objs.length := List.idxOf_lt_length_iff.2 hx
    have hxe : (encode true r refs features objs)[objs.idxOf x]? = some (encodeElem true r refs features x) := by
      simp only [encode, List.getElem?_map]
      rw [List.getElem?_eq_getElem hxi, List.getElem_idxOf hxi]
      rfl
    split
    · rename_i hlt
      exact g4 (objs.idxOf x) _ (ident x) (by rw [List.getElem?_take_of_lt hlt]; exact hxe) (hids x hx)
    · rename_i hlt
      rw [g5, hfree x hx]
      intro e he hei
      obtain ⟨j, hj⟩ := List.getElem?_of_mem he
      have hj' := take_get hj
      obtain ⟨o, ho, rfl⟩ := encode_get _ _ _ _ _ _ _ hj'.1
      have hom := List.mem_of_getElem? ho
      rw [hids o hom] at hei
      simp only [Option.some.injEq] at hei
      have := hid.own o hom x hx hei
      subst this
      have hjl := (List.getElem?_eq_some_iff.1 ho).1
      have : j = objs.idxOf o := (List.getElem?_inj hjl hw.once).1 (by rw [ho, List.getElem?_eq_getElem hxi, List.getElem_idxOf hxi])
      omega
  have hlen : (encode true r refs features objs).length = objs.length := by simp [encode]
  have hfin : ∀ x ∈ objs, getEObject (resAfter true r' next (encode true r refs features objs)) (.id (ident x)) = some (copyOf objs next x) := by
    intro x hx
    have := hlook objs.length x hx
    rw [← hlen, List.take_length, hlen] at this
    rw [this, if_pos (List.idxOf_lt_length_iff.2 hx)]
  have hmap : ∀ o ∈ objs, ∀ f ∈ features o, (refs o f).map (fragment r) = (refs o f).map (fun x => .id (ident x)) := by
    intro o ho f hf
    exact List.map_congr_left fun x hx => hfrag x (hin o ho f hf x hx)
  have hT : ∀ o ∈ objs, ∀ f ∈ features o, ((refs o f).map (fragment r)).filterMap (getEObject (resAfter true r' next (encode true r refs features objs))) =
      (refs o f).map (copyOf objs next) := by
    intro o ho f hf
    rw [hmap o ho f hf, List.filterMap_map, ← List.filterMap_eq_map]
    refine filterMap_same fun x hx => ?_
    exact hfin x (hin o ho f hf x hx)
  have hcopy : ∀ x ∈ objs, ∀ y ∈ objs, copyOf objs next x = copyOf objs next y → x = y := by
    intro x hx y hy e
    have h1 := List.getElem_idxOf (List.idxOf_lt_length_iff.2 hx)
    have h2 := List.getElem_idxOf (List.idxOf_lt_length_iff.2 hy)
    have e' : objs.idxOf x = objs.idxOf y := by simp only [copyOf] at e; omega
    rw [← h1, ← h2]
    congr 1
  have hnd : ∀ o ∈ objs, ∀ f ∈ features o, ((refs o f).map (copyOf objs next)).Nodup := by
    intro o ho f hf
    exact nodup_map _ _ (hw.unique o ho f hf) (fun x hx y hy => hcopy x (hin o ho f hf x hx) y (hin o ho f hf y hy))
  have hcond : ∀ (k : Nat) (e : Elem), (encode true r refs features objs)[k]? = some e → ∀ f,
      ((fragsOf e.refs f).filterMap (getEObject (resAfter E.ids r' next (encode true r refs features objs)))).Nodup ∧
      ∀ x ∈ fragsOf e.refs f, (∃ y, getEObject (resAfter E.ids r' next (encode true r refs features objs)) x = some y) ∧
        (E.deferred = false → getEObject (resAfter E.ids r' next ((encode true r refs features objs).take (k + 1))) x =
            getEObject (resAfter E.ids r' next (encode true r refs features objs)) x ∨
          getEObject (resAfter E.ids r' next ((encode true r refs features objs).take (k + 1))) x = none ∧
            getEObject (resAfter E.ids r' next (encode true r refs features objs)) x ≠ some (next + k)) := by
    intro k e he f
    obtain ⟨o, ho, rfl⟩ := encode_get _ _ _ _ _ _ _ he
    have hom := List.mem_of_getElem? ho
    rw [fragsOf_encode, hi]
    split
    · rename_i hf
      refine ⟨by rw [hT o hom f hf]; exact hnd o hom f hf, ?_⟩
      intro x hx
      obtain ⟨z, hz, rfl⟩ := List.mem_map.1 hx
      have hzo := hin o hom f hf z hz
      rw [hfrag z hzo, hfin z hzo, hlook (k + 1) z hzo]
      refine ⟨⟨_, rfl⟩, fun _ => ?_⟩
      split
      · exact .inl rfl
      · rename_i hlt
        refine .inr ⟨rfl, ?_⟩
        simp only [copyOf, ne_eq, Option.some.injEq]
        omega
    · exact ⟨by simp, by simp⟩
  obtain ⟨s, a1, a2, a3, a4, a5, a6⟩ := decode_found E hroot r' refs next (fun o f h => hu o f h) (encode true r refs features objs) hne (encode_nodup true r hw) _ rfl hcond
  refine ⟨s, a1, a2, a3, by rw [a4]; exact (resAfter_rest _ _ _ _).1, a5, ?_⟩
  intro k o ho f hf
  have hom := List.mem_of_getElem? ho
  have he : (encode true r refs features objs)[k]? = some (encodeElem true r refs features o) := by simp [encode, ho]
  obtain ⟨b1, b2⟩ := a6 k _ he f
  have hc := hcond k _ he f
  rw [fragsOf_encode, if_pos hf] at b1 b2 hc
  have hTo : ((refs o f).map (fragment r)).filterMap (getEObject (resAfter E.ids r' next (encode true r refs features objs))) = (refs o f).map (copyOf objs next) := by
    rw [hi]; exact hT o hom f hf
  constructor
  · cases hd : E.deferred with
    | true => rw [b1 hd, hTo]
    | false =>
      rw [b2 hd, ← hTo]
      exact split_perm _ _ _ (fun x hx => ⟨(hc.2 x hx).1, ((hc.2 x hx).2 hd).imp_right (·.1)⟩)
  · intro hd
    rw [b1 hd, hTo]

/-- No reference is lost without an error, whatever the document and the resource are: if there is no error, each fragment of the document has led to an object,
when its element was read or at the end, and this object is in the reference. -/
theorem C103_reported (E : Env) (r : Res) (refs : Nat → Nat → List Nat) (next : Nat) (hu : Unused refs next) (es : List Elem) (hn : ∀ e ∈ es, (e.refs.map (·.1)).Nodup)
    (s : State) (h : decode E r refs next es = some s) (he : s.errors = 0) (k : Nat) (e : Elem) (hk : es[k]? = some e) (f : Nat) (x : Frag) (hx : x ∈ fragsOf e.refs f) :
    ∃ y ∈ s.refs (next + k) f, getEObject s.res x = some y ∨ getEObject (resAfter E.ids r next (es.take (k + 1))) x = some y := by
  have hne : es ≠ [] := by rintro rfl; simp at hk
  rw [decode_start E r refs next es hne] at h
  obtain ⟨-, h2, h3, -, -, -, h7⟩ := readElems_spec E (start E r refs next) rfl (fun o f h => hu o f h) es hn
  generalize es.foldl (readElem E) (start E r refs next) = t at *
  obtain ⟨g1, g2⟩ := h7 k e hk f
  simp only [start] at g1 g2
  obtain ⟨-, p2, p3⟩ := setPending_all _ _ _ _ _ _ (finish_some h)
  have hn0 : s.errors = t.errors := by rw [he]; exact h3.symm
  rcases (setIds_all E.deferred _ (next + k) f (fragsOf e.refs f) [] 0).2 x hx with ⟨y, y1, y2⟩ | ⟨p, hp1, hp2⟩
  · refine ⟨y, p2 _ _ y ?_, .inr y1⟩
    exact g1 ▸ y2
  · rw [← g2] at hp1
    obtain ⟨hp1, hkey⟩ := List.mem_filter.1 hp1
    obtain ⟨y, y1, y2⟩ := p3 hn0 p hp1
    simp only [key, decide_eq_true_eq] at hkey
    rw [hkey.1, hkey.2] at y2
    exact ⟨y, y2, .inl (hp2 ▸ y1)⟩

/-- In the resource of the original itself, without IDs, or any resource where the paths lead to these objects: the references of the new objects are exactly
those of the originals. No reference is to a new object, also where the original refers to an object of its own tree, or itself. -/
theorem C103_originals_violated (E : Env) (hroot : E.deferredRoot = false) (r : Res) (hm : r.manager = none) (refs : Nat → Nat → List Nat) (features : Nat → List Nat)
    (objs : List Nat) (hw : Written refs features objs) (next : Nat) (hu : Unused refs next)
    (hpath : ∀ o ∈ objs, ∀ f ∈ features o, ∀ x ∈ refs o f, x < next ∧ r.attached x = true ∧ r.atPath (r.pathOf x) = some x) :
    ∃ s, decode E r refs next (encode E.ids r refs features objs) = some s ∧ s.result = some next ∧ s.errors = 0 ∧
      ∀ (k : Nat) (o : Nat), objs[k]? = some o → ∀ f ∈ features o, s.refs (next + k) f = refs o f ∧ ∀ y ∈ s.refs (next + k) f, y < next := by
  have hne : encode E.ids r refs features objs ≠ [] := by
    simpa [encode] using hw.some_
  have hfrag : ∀ o ∈ objs, ∀ f ∈ features o, ∀ x ∈ refs o f, fragment r x = .path (r.pathOf x) := by
    intro o ho f hf x hx
    simp [fragment, hm, (hpath o ho f hf x hx).2.1]
  have hget : ∀ es, ∀ o ∈ objs, ∀ f ∈ features o, ∀ x ∈ refs o f, getEObject (resAfter E.ids r next es) (fragment r x) = some x := by
    intro es o ho f hf x hx
    rw [hfrag o ho f hf x hx]
    simp only [getEObject, (resAfter_rest E.ids es r next).2.1]
    exact (hpath o ho f hf x hx).2.2
  have hT : ∀ es, ∀ o ∈ objs, ∀ f ∈ features o, ((refs o f).map (fragment r)).filterMap (getEObject (resAfter E.ids r next es)) = refs o f := by
    intro es o ho f hf
    rw [List.filterMap_map]
    have : (refs o f).filterMap (getEObject (resAfter E.ids r next es) ∘ fragment r) = (refs o f).filterMap some := filterMap_same (fun x hx => hget es o ho f hf x hx)
    rw [this, List.filterMap_some]
  obtain ⟨s, a1, a2, a3, a4, a5, a6⟩ := decode_found E hroot r refs next (fun o f h => hu o f h) (encode E.ids r refs features objs) hne (encode_nodup E.ids r hw) _ rfl (by
    intro k e he f
    obtain ⟨o, ho, rfl⟩ := encode_get _ _ _ _ _ _ _ he
    have hom := List.mem_of_getElem? ho
    rw [fragsOf_encode]
    split
    · rename_i hf
      refine ⟨by rw [hT _ o hom f hf]; exact hw.unique o hom f hf, ?_⟩
      intro x hx
      obtain ⟨z, hz, rfl⟩ := List.mem_map.1 hx
      rw [hget _ o hom f hf z hz, hget _ o hom f hf z hz]
      exact ⟨⟨z, rfl⟩, fun _ => .inl rfl⟩
    · exact ⟨by simp, by simp⟩)
  refine ⟨s, a1, a2, a3, ?_⟩
  intro k o ho f hf
  have hom := List.mem_of_getElem? ho
  have he : (encode E.ids r refs features objs)[k]? = some (encodeElem E.ids r refs features o) := by simp [encode, ho]
  obtain ⟨b1, b2⟩ := a6 k _ he f
  rw [fragsOf_encode, if_pos hf] at b1 b2
  have hres : s.refs (next + k) f = refs o f := by
    cases hd : E.deferred with
    | true => rw [b1 hd, hT _ o hom f hf]
    | false =>
      rw [b2 hd, hT _ o hom f hf]
      have : ((refs o f).map (fragment r)).filter (fun x => (getEObject (resAfter E.ids r next ((encode E.ids r refs features objs).take (k + 1))) x).isNone) = [] := by
        rw [List.filter_eq_nil_iff]
        intro x hx
        obtain ⟨z, hz, rfl⟩ := List.mem_map.1 hx
        rw [hget _ o hom f hf z hz]
        simp
      rw [this]
      simp
  refine ⟨hres, fun y hy => (hpath o hom f hf y (hres ▸ hy)).1⟩

/-- An object that is not in the resource: none of its references is read, each of them is an error. -/
theorem C103_unattached_violated (E : Env) (hroot : E.deferredRoot = false) (r : Res) (refs : Nat → Nat → List Nat) (features : Nat → List Nat)
    (objs : List Nat) (hw : Written refs features objs) (next : Nat) (hu : Unused refs next)
    (hout : ∀ o ∈ objs, ∀ f ∈ features o, ∀ x ∈ refs o f, r.attached x = false) :
    ∃ s, decode E r refs next (encode E.ids r refs features objs) = some s ∧ s.result = some next ∧
      (s.errors = 0 ↔ ∀ o ∈ objs, ∀ f ∈ features o, refs o f = []) ∧ ∀ (k : Nat) (o : Nat), objs[k]? = some o → ∀ f ∈ features o, s.refs (next + k) f = [] := by
  have hne : encode E.ids r refs features objs ≠ [] := by
    simpa [encode] using hw.some_
  rw [decode_start E r refs next _ hne]
  obtain ⟨h1, h2, h3, h4, h5, h6, h7⟩ := readElems_spec E (start E r refs next) rfl (fun o f h => hu o f h) _ (encode_nodup E.ids r hw)
  generalize (encode E.ids r refs features objs).foldl (readElem E) (start E r refs next) = t at *
  simp only [start, hroot] at h1 h2 h3 h4 h5 h6 h7
  have hroots : t.roots = [] := by rw [h4]; rfl
  have hfr : ∀ o ∈ objs, ∀ f ∈ features o, ∀ x ∈ (refs o f).map (fragment r), x = .outside := by
    intro o ho f hf x hx
    obtain ⟨z, hz, rfl⟩ := List.mem_map.1 hx
    simp [fragment, hout o ho f hf z hz]
  have hone : ∀ (k : Nat) (o : Nat), objs[k]? = some o → ∀ f, t.refs (next + k) f = [] ∧
      (t.pending.filter (key (next + k) f)).map (·.frag) = if f ∈ features o then (refs o f).map (fragment r) else [] := by
    intro k o ho f
    have hom := List.mem_of_getElem? ho
    have he : (encode E.ids r refs features objs)[k]? = some (encodeElem E.ids r refs features o) := by simp [encode, ho]
    obtain ⟨g1, g2⟩ := h7 k _ he f
    rw [fragsOf_encode] at g1 g2
    rw [g1, g2]
    refine setIds_none _ _ _ _ _ ?_ _ _
    intro x hx
    split at hx
    · rename_i hf
      rw [hfr o hom f hf x hx]
      rfl
    · simp at hx
  have hobj : ∀ p ∈ t.pending, ∃ (k : Nat) (o : Nat), objs[k]? = some o ∧ p.obj = next + k := by
    intro p hp
    by_cases hr : p.obj < next ∨ t.next ≤ p.obj
    · have := (h6 p.obj p.feature hr).2
      have hm := mem_key hp
      rw [this] at hm
      simp at hm
    · have hl : (encode E.ids r refs features objs).length = objs.length := by simp [encode]
      have hlt : p.obj - next < objs.length := by omega
      exact ⟨p.obj - next, objs[p.obj - next], by simp [hlt], by omega⟩
  have hnone : ∀ p ∈ t.pending, getEObject t.res p.frag = none := by
    intro p hp
    obtain ⟨k, o, hk, e⟩ := hobj p hp
    have hm := List.mem_map_of_mem (f := (·.frag)) (mem_key hp)
    rw [e, (hone k o hk p.feature).2] at hm
    split at hm
    · rename_i hf
      rw [hfr o (List.mem_of_getElem? hk) _ hf _ hm]
      rfl
    · simp at hm
  refine ⟨{ t with errors := t.errors + t.pending.length, pending := [] }, ?_, by rw [h5]; rfl, ?_, ?_⟩
  · simp only [finish, hroots, setPending_none _ _ _ _ hnone]
  · show t.errors + t.pending.length = 0 ↔ _
    rw [h3, Nat.zero_add, List.length_eq_zero_iff]
    constructor
    · intro e o ho f hf
      obtain ⟨k, hk⟩ := List.getElem?_of_mem ho
      have := (hone k o hk f).2
      rw [e, if_pos hf] at this
      simpa using this.symm
    · intro e
      rw [List.eq_nil_iff_forall_not_mem]
      intro p hp
      obtain ⟨k, o, hk, e'⟩ := hobj p hp
      have hm := List.mem_map_of_mem (f := (·.frag)) (mem_key hp)
      rw [e', (hone k o hk p.feature).2] at hm
      split at hm
      · rename_i hf
        rw [e o (List.mem_of_getElem? hk) _ hf] at hm
        simp at hm
      · simp at hm
  · intro k o hk f hf
    exact (hone k o hk f).1

/-- In a resource with an ID manager, the objects read get the IDs of the elements: IDs that led to the originals lead to objects that are not in the resource. -/
theorem C103_taken_violated (E : Env) (hi : E.ids = true) (hroot : E.deferredRoot = false) (r : Res) (m : Manager) (ident : Nat → Nat) (refs : Nat → Nat → List Nat)
    (features : Nat → List Nat) (objs : List Nat) (hw : Written refs features objs) (hid : Identified r m ident objs)
    (next : Nat) (hold : ∀ o ∈ objs, o < next) (hnew : ∀ o, next ≤ o → m.idOf o = none) (hu : Unused refs next) (s : State)
    (h : decode E r refs next (encode true r refs features objs) = some s) :
    ∀ (k : Nat) (o : Nat), objs[k]? = some o → getEObject s.res (.id (ident o)) = some (next + k) ∧ fragment s.res o = .id (ident o) := by
  have hne : encode true r refs features objs ≠ [] := by
    simpa [encode] using hw.some_
  rw [decode_start E r refs next _ hne] at h
  obtain ⟨-, h2, -, h4, -, -, -⟩ := readElems_spec E (start E r refs next) rfl (fun o f h => hu o f h) _ (encode_nodup true r hw)
  generalize (encode true r refs features objs).foldl (readElem E) (start E r refs next) = t at *
  have hroots : t.roots = [] := by rw [h4]; simp [start, hroot]
  have hres : s.res = resAfter true r next (encode true r refs features objs) := by
    simp only [finish, hroots] at h
    split at h
    · simp only [Option.some.injEq] at h
      subst h
      rw [hi] at h2
      exact h2
    · cases h
  obtain ⟨m2, g1, -, g3, g4, -⟩ := resAfter_ids r m hid.manager next hnew (encode true r refs features objs) (fun j k a b i => encode_distinct hw hid j k a b i)
  intro k o hk
  have hom := List.mem_of_getElem? hk
  have he : (encode true r refs features objs)[k]? = some (encodeElem true r refs features o) := by simp [encode, hk]
  constructor
  · simp only [getEObject, hres, g1]
    exact g4 k _ (ident o) he (by simp [encodeElem, hid.manager, hid.has o hom])
  · simp only [fragment, hres, (resAfter_rest _ _ _ _).2.2.2, hid.attached o hom, if_true, g1, g3 o (hold o hom), hid.has o hom]

/-- With deferred attachment of the root there is no result and no error: the object is added to the contents of the resource. -/
theorem C103_root_violated (E : Env) (hroot : E.deferredRoot = true) (r : Res) (refs : Nat → Nat → List Nat) (next : Nat) (hu : Unused refs next) (es : List Elem) (hes : es ≠ [])
    (s : State) (hn : ∀ e ∈ es, (e.refs.map (·.1)).Nodup) (h : decode E r refs next es = some s) : s.result = none ∧ s.res.contents = r.contents ++ [next] := by
  rw [decode_start E r refs next es hes] at h
  obtain ⟨-, h2, -, h4, h5, -, -⟩ := readElems_spec E (start E r refs next) rfl (fun o f h => hu o f h) es hn
  generalize es.foldl (readElem E) (start E r refs next) = t at *
  have hr : t.roots = [next] := by rw [h4]; simp [start, hroot]
  simp only [finish, hr] at h
  split at h
  · simp only [Option.some.injEq] at h
    subst h
    refine ⟨by rw [h5]; simp [start, hroot], ?_⟩
    show t.res.contents ++ [next] = _
    rw [h2, (resAfter_rest _ _ _ _).1]
    rfl
  · cases h

/-! ### Examples -/

/-- two objects 0 and 1 of a resource, with or without IDs -/
def sampleRes (ids : Bool) : Res :=
  ⟨[0], fun o => o < 2, fun o => o, fun p => if p < 2 then some p else none,
    if ids then some ⟨fun o => if o < 2 then some (10 + o) else none, fun i => if i = 10 then some 0 else if i = 11 then some 1 else none⟩ else none⟩

/-- 0 refers to 1 and to itself, 1 refers to 0 -/
def sampleRefs : Nat → Nat → List Nat
  | 0, 0 => [1, 0]
  | 1, 0 => [0]
  | _, _ => []

/-- an empty resource with an ID manager -/
def emptyRes : Res := ⟨[], fun _ => false, fun o => o, fun _ => none, some ⟨fun _ => none, fun _ => none⟩⟩

theorem sampleWritten : Written sampleRefs (fun _ => [0]) [0, 1] := by
  refine ⟨by simp, by simp, by simp, ?_⟩
  intro o ho f hf
  simp only [List.mem_cons, List.not_mem_nil, or_false] at ho hf
  subst hf
  rcases ho with rfl | rfl <;> simp [sampleRefs]

theorem sampleUnused : Unused sampleRefs 2 := by
  intro o f h
  match o, h with
  | o + 2, _ => rfl

theorem sampleIdentified : Identified (sampleRes true) ⟨fun o => if o < 2 then some (10 + o) else none, fun i => if i = 10 then some 0 else if i = 11 then some 1 else none⟩
    (fun o => 10 + o) [0, 1] := by
  refine ⟨rfl, by simp [sampleRes], by simp, ?_⟩
  intro o _ p _ h
  omega

example : ∃ s, decode ⟨true, false, false, fun _ => none⟩ emptyRes sampleRefs 2 (encode true (sampleRes true) sampleRefs (fun _ => [0]) [0, 1]) = some s ∧
    s.result = some 2 ∧ (s.refs 2 0).Perm [3, 2] := by
  obtain ⟨s, h1, h2, -, -, -, h6⟩ := C103_copy_partial ⟨true, false, false, fun _ => none⟩ rfl rfl (sampleRes true) _ (fun o => 10 + o) sampleRefs (fun _ => [0]) [0, 1] sampleWritten
    (by
      intro o ho f hf x hx
      simp only [List.mem_cons, List.not_mem_nil, or_false] at ho hf
      subst hf
      rcases ho with rfl | rfl <;> simp [sampleRefs] at hx ⊢ <;> omega) sampleIdentified emptyRes _ rfl (by simp) 2 (by simp) sampleUnused
  exact ⟨s, h1, h2, (h6 0 0 rfl 0 (by simp)).1⟩

/-- what is read: the references of the two new objects, the number of errors, and what the IDs lead to -/
def outcome (s : Option State) : Option (List (List Nat) × Nat × List (Option Nat)) :=
  s.map fun s => ([s.refs 2 0, s.refs 3 0], s.errors, [getEObject s.res (.id 10), getEObject s.res (.id 11)])

/-- in another resource with an ID manager: with deferred resolution, and without -/
example : outcome (decode ⟨true, true, false, fun _ => none⟩ emptyRes sampleRefs 2 (encode true (sampleRes true) sampleRefs (fun _ => [0]) [0, 1])) =
      some ([[3, 2], [2]], 0, [some 2, some 3]) ∧
    outcome (decode ⟨true, false, false, fun _ => none⟩ emptyRes sampleRefs 2 (encode true (sampleRes true) sampleRefs (fun _ => [0]) [0, 1])) =
      some ([[2, 3], [2]], 0, [some 2, some 3]) := by decide

/-- in the same resource, without IDs -/
example : outcome (decode ⟨false, false, false, fun _ => none⟩ (sampleRes false) sampleRefs 2 (encode false (sampleRes false) sampleRefs (fun _ => [0]) [0, 1])) =
    some ([[1, 0], [0]], 0, [none, none]) := by decide

/-- In the same resource, with IDs: a reference to an object that comes later in the document is one to the original, a reference to an object that comes before is
one to the copy; and the IDs lead to the copies. -/
theorem C103_mixed_violated : outcome (decode ⟨true, false, false, fun _ => none⟩ (sampleRes true) sampleRefs 2 (encode true (sampleRes true) sampleRefs (fun _ => [0]) [0, 1])) =
    some ([[1, 2], [2]], 0, [some 2, some 3]) := by decide

/-- in another resource that has no ID manager -/
example : outcome (decode ⟨true, false, false, fun _ => none⟩ { emptyRes with manager := none } sampleRefs 2 (encode true (sampleRes true) sampleRefs (fun _ => [0]) [0, 1])) =
    some ([[], []], 3, [none, none]) := by decide

/-- With deferred resolution, an object that refers to itself after a reference that is not found: the decoder panics, the position is past the end of the list.
Here the document is that of object 0 alone, the object 1 is not in it. -/
theorem C103_panic_violated : decode ⟨true, true, false, fun _ => none⟩ emptyRes sampleRefs 2 (encode true (sampleRes true) sampleRefs (fun _ => [0]) [0]) = none := by decide

end Verif.XMLSingle
