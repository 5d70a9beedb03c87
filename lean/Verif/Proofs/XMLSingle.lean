import Verif.Spec.XMLSingle

/-!
# Proofs about documents of one object
-/

namespace Verif.XMLSingle

def key (o f : Nat) (p : Pending) : Bool := p.obj = o ∧ p.feature = f

/-! ### One reference -/

theorem setIds_key (d : Bool) (get : Frag → Option Nat) (o f : Nat) (xs : List Frag) : ∀ (l : List Nat) (pos : Nat) (p : Pending),
    p ∈ (setIds d get o f l pos xs).2 → p.obj = o ∧ p.feature = f := by
  induction xs with
  | nil => intro l pos p h; simp [setIds] at h
  | cons x xs ih =>
    intro l pos p h
    simp only [setIds] at h
    split at h
    · exact ih _ _ _ h
    · rcases List.mem_cons.1 h with rfl | h
      · exact ⟨rfl, rfl⟩
      · exact ih _ _ _ h

theorem setIds_filter (d : Bool) (get : Frag → Option Nat) (o f : Nat) (xs : List Frag) (l : List Nat) (pos : Nat) (o' f' : Nat) :
    (setIds d get o f l pos xs).2.filter (key o' f') = if o' = o ∧ f' = f then (setIds d get o f l pos xs).2 else [] := by
  split
  · rename_i h
    rw [List.filter_eq_self]
    intro p hp
    have := setIds_key d get o f xs l pos p hp
    simp [key, this, h]
  · rename_i h
    rw [List.filter_eq_nil_iff]
    intro p hp
    have := setIds_key d get o f xs l pos p hp
    simp only [key, decide_eq_true_eq, this]
    exact fun e => h ⟨e.1.symm, e.2.symm⟩

/-- with all references deferred -/
theorem setIds_deferred (get : Frag → Option Nat) (o f : Nat) (xs : List Frag) : ∀ (l : List Nat) (pos : Nat),
    (setIds true get o f l pos xs).1 = l ∧ (setIds true get o f l pos xs).2.map (·.frag) = xs ∧
    (setIds true get o f l pos xs).2.map (·.pos) = List.range' pos xs.length := by
  induction xs with
  | nil => intro l pos; simp [setIds]
  | cons x xs ih =>
    intro l pos
    obtain ⟨h1, h2, h3⟩ := ih l (pos + 1)
    simp [setIds, h1, h2, h3, List.range'_succ]

/-- nothing is found -/
theorem setIds_none (d : Bool) (get : Frag → Option Nat) (o f : Nat) (xs : List Frag) (h : ∀ x ∈ xs, get x = none) : ∀ (l : List Nat) (pos : Nat),
    (setIds d get o f l pos xs).1 = l ∧ (setIds d get o f l pos xs).2.map (·.frag) = xs := by
  induction xs with
  | nil => intro l pos; simp [setIds]
  | cons x xs ih =>
    intro l pos
    obtain ⟨h1, h2⟩ := ih (fun y hy => h y (by simp [hy])) l (pos + 1)
    cases d <;> simp [setIds, h x (by simp), h1, h2]

theorem mem_add {l : List Nat} {x y : Nat} : x ∈ add l y ↔ x ∈ l ∨ x = y := by
  simp only [add]
  split
  · constructor
    · exact .inl
    · rintro (h | rfl) <;> assumption
  · simp

/-- what is found is in the list, the rest is deferred -/
theorem setIds_all (d : Bool) (get : Frag → Option Nat) (o f : Nat) (xs : List Frag) : ∀ (l : List Nat) (pos : Nat),
    (∀ y ∈ l, y ∈ (setIds d get o f l pos xs).1) ∧
    ∀ x ∈ xs, (∃ y, get x = some y ∧ y ∈ (setIds d get o f l pos xs).1) ∨ ∃ p ∈ (setIds d get o f l pos xs).2, p.frag = x := by
  induction xs with
  | nil => intro l pos; simp [setIds]
  | cons x xs ih =>
    intro l pos
    simp only [setIds]
    split
    · rename_i y hy
      obtain ⟨h1, h2⟩ := ih (add l y) (pos + 1)
      refine ⟨fun z hz => h1 z (mem_add.2 (.inl hz)), ?_⟩
      intro z hz
      rcases List.mem_cons.1 hz with rfl | hz
      · refine .inl ⟨y, ?_, h1 y (mem_add.2 (.inr rfl))⟩
        cases d <;> simp at hy
        exact hy
      · exact h2 z hz
    · obtain ⟨h1, h2⟩ := ih l (pos + 1)
      refine ⟨h1, ?_⟩
      intro z hz
      rcases List.mem_cons.1 hz with rfl | hz
      · exact .inr ⟨_, List.mem_cons_self .., rfl⟩
      · rcases h2 z hz with h | ⟨p, hp, e⟩
        · exact .inl h
        · exact .inr ⟨p, List.mem_cons_of_mem _ hp, e⟩

/-- otherwise those are deferred that are not found yet -/
theorem setIds_eager (get : Frag → Option Nat) (o f : Nat) (xs : List Frag) : ∀ (l : List Nat) (pos : Nat), (l ++ xs.filterMap get).Nodup →
    (setIds false get o f l pos xs).1 = l ++ xs.filterMap get ∧ (setIds false get o f l pos xs).2.map (·.frag) = xs.filter (fun x => (get x).isNone) := by
  induction xs with
  | nil => intro l pos _; simp [setIds]
  | cons x xs ih =>
    intro l pos hn
    cases hx : get x with
    | none =>
      simp only [List.filterMap_cons, hx] at hn ⊢
      obtain ⟨h1, h2⟩ := ih l (pos + 1) hn
      simp [setIds, hx, h1, h2]
    | some y =>
      simp only [List.filterMap_cons, hx] at hn ⊢
      have hy : y ∉ l := by
        intro e
        rw [List.nodup_append] at hn
        exact hn.2.2 y e y (by simp) rfl
      have ha : add l y = l ++ [y] := by simp [add, hy]
      obtain ⟨h1, h2⟩ := ih (l ++ [y]) (pos + 1) (by simpa using hn)
      simp [setIds, hx, ha, h1, h2]

/-! ### One element -/

theorem setAttrs_spec (d : Bool) (get : Frag → Option Nat) (o : Nat) (as : List (Nat × List Frag)) : ∀ (refs : Nat → Nat → List Nat), (as.map (·.1)).Nodup →
    (∀ x f, x ≠ o → (setAttrs d get o refs as).1 x f = refs x f ∧ (setAttrs d get o refs as).2.filter (key x f) = []) ∧
    (∀ f, (setAttrs d get o refs as).1 o f = (setIds d get o f (refs o f) 0 (fragsOf as f)).1 ∧
      (setAttrs d get o refs as).2.filter (key o f) = (setIds d get o f (refs o f) 0 (fragsOf as f)).2) := by
  induction as with
  | nil => intro refs _; simp [setAttrs, fragsOf, setIds]
  | cons a as ih =>
    obtain ⟨g, xs⟩ := a
    intro refs hn
    rw [List.map_cons, List.nodup_cons] at hn
    obtain ⟨i1, i2⟩ := ih (setRefs refs o g (setIds d get o g (refs o g) 0 xs).1) hn.2
    constructor
    · intro x f hx
      obtain ⟨j1, j2⟩ := i1 x f hx
      simp only [setAttrs, List.filter_append, j1, j2, setIds_filter, hx, false_and, if_false, List.append_nil, and_true]
      simp [setRefs, hx]
    · intro f
      obtain ⟨j1, j2⟩ := i2 f
      simp only [setAttrs, List.filter_append, j1, j2, setIds_filter, true_and]
      by_cases hf : f = g
      · subst hf
        have hnone : fragsOf as f = [] := by
          simp only [fragsOf]
          have : as.find? (fun a => decide (a.1 = f)) = none := by
            rw [List.find?_eq_none]
            intro a ha e
            exact hn.1 (List.mem_map.2 ⟨a, ha, by simpa using e⟩)
          rw [this]
        have hself : fragsOf ((f, xs) :: as) f = xs := by simp [fragsOf]
        rw [hnone, hself]
        simp [setIds, setRefs]
      · have hrest : fragsOf ((g, xs) :: as) f = fragsOf as f := by simp [fragsOf, List.find?_cons, Ne.symm hf]
        rw [hrest]
        simp [hf, setRefs]

/-! ### The document -/

theorem resAfter_snoc (ids : Bool) (es : List Elem) (e : Elem) : ∀ (r : Res) (next : Nat),
    resAfter ids r next (es ++ [e]) = readID ids (resAfter ids r next es) (next + es.length) e.id := by
  induction es with
  | nil => intro r next; rfl
  | cons a es ih =>
    intro r next
    simp only [List.cons_append, resAfter, ih, List.length_cons]
    congr 1
    omega

theorem readElems_spec (E : Env) (s0 : State) (hp : s0.pending = []) (hrefs : ∀ o f, s0.next ≤ o → s0.refs o f = []) (es : List Elem)
    (hn : ∀ e ∈ es, (e.refs.map (·.1)).Nodup) :
    let s := es.foldl (readElem E) s0
    s.next = s0.next + es.length ∧ s.res = resAfter E.ids s0.res s0.next es ∧ s.errors = s0.errors ∧ s.roots = s0.roots ∧ s.result = s0.result ∧
    (∀ x f, x < s0.next ∨ s.next ≤ x → s.refs x f = s0.refs x f ∧ s.pending.filter (key x f) = []) ∧
    ∀ (k : Nat) (e : Elem), es[k]? = some e → ∀ f,
      s.refs (s0.next + k) f = (setIds E.deferred (getEObject (resAfter E.ids s0.res s0.next (es.take (k + 1)))) (s0.next + k) f [] 0 (fragsOf e.refs f)).1 ∧
      s.pending.filter (key (s0.next + k) f) =
        (setIds E.deferred (getEObject (resAfter E.ids s0.res s0.next (es.take (k + 1)))) (s0.next + k) f [] 0 (fragsOf e.refs f)).2 := by
  suffices H : ∀ n, n ≤ es.length →
      let s := (es.take n).foldl (readElem E) s0
      s.next = s0.next + n ∧ s.res = resAfter E.ids s0.res s0.next (es.take n) ∧ s.errors = s0.errors ∧ s.roots = s0.roots ∧ s.result = s0.result ∧
      (∀ x f, x < s0.next ∨ s.next ≤ x → s.refs x f = s0.refs x f ∧ s.pending.filter (key x f) = []) ∧
      ∀ (k : Nat) (e : Elem), k < n → es[k]? = some e → ∀ f,
        s.refs (s0.next + k) f = (setIds E.deferred (getEObject (resAfter E.ids s0.res s0.next (es.take (k + 1)))) (s0.next + k) f [] 0 (fragsOf e.refs f)).1 ∧
        s.pending.filter (key (s0.next + k) f) =
          (setIds E.deferred (getEObject (resAfter E.ids s0.res s0.next (es.take (k + 1)))) (s0.next + k) f [] 0 (fragsOf e.refs f)).2 by
    have := H es.length (Nat.le_refl _)
    rw [List.take_length] at this
    obtain ⟨h1, h2, h3, h4, h5, h6, h7⟩ := this
    refine ⟨h1, h2, h3, h4, h5, h6, fun k e hk => h7 k e ?_ hk⟩
    exact (List.getElem?_eq_some_iff.1 hk).1
  intro n
  induction n with
  | zero => intro _; simp [resAfter, hp]
  | succ n ih =>
    intro hle
    obtain ⟨h1, h2, h3, h4, h5, h6, h7⟩ := ih (by omega)
    have hlt : n < es.length := by omega
    have ht : es.take (n + 1) = es.take n ++ [es[n]] := by simp
    have hfold : (es.take (n + 1)).foldl (readElem E) s0 = readElem E ((es.take n).foldl (readElem E) s0) es[n] := by rw [ht, List.foldl_append]; rfl
    rw [hfold]
    generalize (es.take n).foldl (readElem E) s0 = s at *
    have hres : readID E.ids s.res s.next es[n].id = resAfter E.ids s0.res s0.next (es.take (n + 1)) := by
      rw [ht, resAfter_snoc, h2, h1]
      congr 1
      simp [Nat.min_eq_left (Nat.le_of_lt hlt)]
    obtain ⟨a1, a2⟩ := setAttrs_spec E.deferred (getEObject (readID E.ids s.res s.next es[n].id)) s.next es[n].refs s.refs (hn _ (List.getElem_mem hlt))
    refine ⟨by simp only [readElem]; omega, by simp only [readElem]; exact hres, h3, h4, h5, ?_, ?_⟩
    · intro x f hx
      simp only [readElem] at hx ⊢
      obtain ⟨b1, b2⟩ := a1 x f (by omega)
      obtain ⟨c1, c2⟩ := h6 x f (by omega)
      rw [b1, c1, List.filter_append, b2, c2]
      exact ⟨rfl, rfl⟩
    · intro k e hk he f
      simp only [readElem]
      by_cases hkn : k = n
      · subst hkn
        have he' : e = es[k] := by rw [List.getElem?_eq_getElem hlt] at he; simpa using he.symm
        subst he'
        obtain ⟨b1, b2⟩ := a2 f
        obtain ⟨c1, c2⟩ := h6 s.next f (.inr (Nat.le_refl _))
        rw [hrefs s.next f (by omega)] at c1
        rw [c1, hres] at b1 b2
        rw [← h1, List.filter_append, c2]
        rw [hres]
        exact ⟨b1, b2⟩
      · obtain ⟨b1, b2⟩ := a1 (s0.next + k) f (by omega)
        obtain ⟨c1, c2⟩ := h7 k e (by omega) he f
        rw [b1, c1, List.filter_append, b2, c2]
        exact ⟨rfl, by simp⟩

/-! ### The end of the document -/

theorem setPending_spec (get : Frag → Option Nat) (ps : List Pending) : ∀ (refs : Nat → Nat → List Nat) (n : Nat), (∀ p ∈ ps, ∃ y, get p.frag = some y) →
    (∀ o f, ps.filter (key o f) ≠ [] → (refs o f ++ (ps.filter (key o f)).filterMap (fun p => get p.frag)).Nodup) →
    (∀ p ∈ ps, get p.frag = some p.obj →
      (ps.filter (key p.obj p.feature)).map (·.pos) = List.range' (refs p.obj p.feature).length (ps.filter (key p.obj p.feature)).length) →
    ∃ refs', setPending get refs n ps = some (refs', n) ∧ ∀ o f, refs' o f = refs o f ++ (ps.filter (key o f)).filterMap (fun p => get p.frag) := by
  induction ps with
  | nil => intro refs n _ _ _; exact ⟨refs, rfl, by simp⟩
  | cons p ps ih =>
    intro refs n hg hn hpos
    obtain ⟨y, hy⟩ := hg p (by simp)
    have hkey : key p.obj p.feature p = true := by simp [key]
    have hnp := hn p.obj p.feature (by simp [hkey])
    simp only [List.filter_cons, hkey, if_true, List.filterMap_cons, hy] at hnp
    have hnot : y ∉ refs p.obj p.feature := by
      intro e
      rw [List.nodup_append] at hnp
      exact hnp.2.2 y e y (by simp) rfl
    have hset : setAt (refs p.obj p.feature) p.obj y p.pos = some (refs p.obj p.feature ++ [y]) := by
      simp only [setAt]
      split
      · rename_i e
        have := hpos p (by simp) (by rw [hy, e])
        simp only [List.filter_cons, hkey, if_true, List.map_cons, List.length_cons, List.range'_succ, List.cons.injEq] at this
        simp [hnot, this.1]
      · simp [add, hnot]
    have hrefs : ∀ o f, setRefs refs p.obj p.feature (refs p.obj p.feature ++ [y]) o f ++ (ps.filter (key o f)).filterMap (fun p => get p.frag) =
        refs o f ++ ((p :: ps).filter (key o f)).filterMap (fun p => get p.frag) := by
      intro o f
      by_cases e : o = p.obj ∧ f = p.feature
      · obtain ⟨rfl, rfl⟩ := e
        simp [setRefs, hkey, hy]
      · have : key o f p = false := by simp only [key, decide_eq_false_iff_not]; exact fun h => e ⟨h.1.symm, h.2.symm⟩
        simp [setRefs, e, this]
    obtain ⟨refs', h1, h2⟩ := ih (setRefs refs p.obj p.feature (refs p.obj p.feature ++ [y])) n (fun q hq => hg q (by simp [hq]))
      (by
        intro o f hne
        rw [hrefs]
        refine hn o f (fun e => hne ?_)
        rw [List.filter_eq_nil_iff] at e ⊢
        exact fun q hq => e q (by simp [hq])) (by
        intro q hq e
        have := hpos q (by simp [hq]) e
        by_cases hk : q.obj = p.obj ∧ q.feature = p.feature
        · rw [hk.1, hk.2] at this ⊢
          simp only [List.filter_cons, hkey, if_true, List.map_cons, List.length_cons, List.range'_succ, List.cons.injEq] at this
          simp [setRefs, this.2]
        · have hf : key q.obj q.feature p = false := by simp only [key, decide_eq_false_iff_not]; exact fun h => hk ⟨h.1.symm, h.2.symm⟩
          simp only [List.filter_cons, hf] at this
          simp only [setRefs, hk, if_false]
          exact this)
    refine ⟨refs', ?_, ?_⟩
    · simp only [setPending, hy, hset]
      exact h1
    · intro o f
      rw [h2, hrefs]

/-- what is never found is an error each -/
theorem setPending_none (get : Frag → Option Nat) (ps : List Pending) : ∀ (refs : Nat → Nat → List Nat) (n : Nat), (∀ p ∈ ps, get p.frag = none) →
    setPending get refs n ps = some (refs, n + ps.length) := by
  induction ps with
  | nil => intro refs n _; rfl
  | cons p ps ih =>
    intro refs n h
    simp only [setPending, h p (by simp)]
    rw [ih refs (n + 1) (fun q hq => h q (by simp [hq]))]
    simp only [List.length_cons, Option.some.injEq, Prod.mk.injEq, true_and]
    omega

theorem setAt_mem {l l' : List Nat} {o x pos : Nat} (h : setAt l o x pos = some l') : x ∈ l' ∧ ∀ y ∈ l, y ∈ l' := by
  simp only [setAt] at h
  split at h
  · split at h
    · split at h
      · simp only [Option.some.injEq] at h
        subst h
        have hpos : pos ≤ (l.erase x).length := by rw [List.length_erase_of_mem ‹x ∈ l›]; omega
        refine ⟨(List.mem_insertIdx hpos).2 (.inl rfl), fun y hy => (List.mem_insertIdx hpos).2 ?_⟩
        by_cases e : y = x
        · exact .inl e
        · exact .inr ((List.mem_erase_of_ne e).2 hy)
      · cases h
    · split at h
      · rename_i hpos
        simp only [Option.some.injEq] at h
        subst h
        exact ⟨(List.mem_insertIdx hpos).2 (.inl rfl), fun y hy => (List.mem_insertIdx hpos).2 (.inr hy)⟩
      · cases h
  · simp only [Option.some.injEq] at h
    subst h
    exact ⟨mem_add.2 (.inr rfl), fun y hy => mem_add.2 (.inl hy)⟩

/-- without another error, all are found and are in their lists -/
theorem setPending_all (get : Frag → Option Nat) (ps : List Pending) : ∀ (refs refs' : Nat → Nat → List Nat) (n n' : Nat), setPending get refs n ps = some (refs', n') →
    n ≤ n' ∧ (∀ o f x, x ∈ refs o f → x ∈ refs' o f) ∧ (n' = n → ∀ p ∈ ps, ∃ y, get p.frag = some y ∧ y ∈ refs' p.obj p.feature) := by
  induction ps with
  | nil =>
    intro refs refs' n n' h
    simp only [setPending, Option.some.injEq, Prod.mk.injEq] at h
    obtain ⟨rfl, rfl⟩ := h
    exact ⟨Nat.le_refl _, fun _ _ _ h => h, by simp⟩
  | cons p ps ih =>
    intro refs refs' n n' h
    simp only [setPending] at h
    cases hg : get p.frag with
    | none =>
      rw [hg] at h
      obtain ⟨h1, h2, -⟩ := ih refs refs' (n + 1) n' h
      exact ⟨by omega, h2, fun e => by omega⟩
    | some y =>
      rw [hg] at h
      simp only at h
      cases hs : setAt (refs p.obj p.feature) p.obj y p.pos with
      | none => rw [hs] at h; cases h
      | some l =>
        rw [hs] at h
        obtain ⟨h1, h2, h3⟩ := ih _ refs' n n' h
        obtain ⟨m1, m2⟩ := setAt_mem hs
        have hl : ∀ x ∈ l, x ∈ refs' p.obj p.feature := fun x hx => h2 _ _ x (by simp [setRefs, hx])
        refine ⟨h1, ?_, ?_⟩
        · intro o f x hx
          by_cases e : o = p.obj ∧ f = p.feature
          · obtain ⟨rfl, rfl⟩ := e
            exact hl x (m2 x hx)
          · exact h2 o f x (by simpa [setRefs, e] using hx)
        · intro e q hq
          rcases List.mem_cons.1 hq with rfl | hq
          · exact ⟨y, hg, hl y m1⟩
          · exact h3 e q hq

/-! ### The ID manager -/

theorem readID_rest (ids : Bool) (r : Res) (o : Nat) (id : Option Nat) : (readID ids r o id).contents = r.contents ∧ (readID ids r o id).atPath = r.atPath ∧
    (readID ids r o id).attached = r.attached ∧ (readID ids r o id).pathOf = r.pathOf ∧ (r.manager = none → (readID ids r o id).manager = none) := by
  simp only [readID]
  split
  · split
    · rename_i m h
      refine ⟨rfl, rfl, rfl, rfl, ?_⟩
      intro e
      rw [e] at h
      cases h
    · exact ⟨rfl, rfl, rfl, rfl, fun e => e⟩
  · exact ⟨rfl, rfl, rfl, rfl, fun e => e⟩

theorem resAfter_rest (ids : Bool) (es : List Elem) : ∀ (r : Res) (next : Nat), (resAfter ids r next es).contents = r.contents ∧ (resAfter ids r next es).atPath = r.atPath ∧
    (r.manager = none → (resAfter ids r next es).manager = none) ∧ (resAfter ids r next es).attached = r.attached := by
  induction es with
  | nil => intro r next; exact ⟨rfl, rfl, id, rfl⟩
  | cons e es ih =>
    intro r next
    obtain ⟨h1, h2, h3, -, h5⟩ := readID_rest ids r next e.id
    obtain ⟨i1, i2, i3, i4⟩ := ih (readID ids r next e.id) (next + 1)
    exact ⟨i1.trans h1, i2.trans h2, fun e => i3 (h5 e), i4.trans h3⟩

/-- new objects have no ID, then the ID of their elements; an ID leads to the object of its element, one that no element has to what it led to -/
theorem resAfter_ids (r : Res) (m : Manager) (hm : r.manager = some m) (next : Nat) (hnew : ∀ o, next ≤ o → m.idOf o = none) (es : List Elem)
    (hd : ∀ (j k : Nat) (a b : Elem) (i : Nat), es[j]? = some a → es[k]? = some b → a.id = some i → b.id = some i → j = k) : 
    ∃ m', (resAfter true r next es).manager = some m' ∧ (∀ o, next + es.length ≤ o → m'.idOf o = none) ∧ (∀ o, o < next → m'.idOf o = m.idOf o) ∧
      (∀ (k : Nat) (e : Elem) (i : Nat), es[k]? = some e → e.id = some i → m'.objOf i = some (next + k)) ∧
      ∀ i, (∀ e ∈ es, e.id ≠ some i) → m'.objOf i = m.objOf i := by
  induction es generalizing r m next with
  | nil =>
    refine ⟨m, hm, by simpa using hnew, fun _ _ => rfl, by simp, fun _ _ => rfl⟩
  | cons e es ih =>
    have hd' : ∀ (j k : Nat) (a b : Elem) (i : Nat), es[j]? = some a → es[k]? = some b → a.id = some i → b.id = some i → j = k := by
      intro j k a b i ha hb hi hi'
      have := hd (j + 1) (k + 1) a b i (by simpa using ha) (by simpa using hb) hi hi'
      omega
    cases hid : e.id with
    | none =>
      have hr : readID true r next e.id = r := by simp [readID, hid]
      obtain ⟨m', h1, h2, h3, h4, h5⟩ := ih r m hm (next + 1) (fun o ho => hnew o (by omega)) hd'
      refine ⟨m', by rw [resAfter, hr]; exact h1, fun o ho => h2 o (by simp at ho; omega), fun o ho => h3 o (by omega), ?_, ?_⟩
      · intro k a i ha hi
        cases k with
        | zero => simp at ha; subst ha; rw [hid] at hi; cases hi
        | succ k => rw [h4 k a i (by simpa using ha) hi]; congr 1; omega
      · intro i hi
        exact h5 i (fun a ha => hi a (by simp [ha]))
    | some i0 =>
      have hr : readID true r next e.id = { r with manager := some (setID m next i0) } := by simp [readID, hid, hm]
      have hs : setID m next i0 = ⟨fun x => if x = next then some i0 else m.idOf x, fun k => if k = i0 then some next else m.objOf k⟩ := by
        simp [setID, hnew next (Nat.le_refl _)]
      obtain ⟨m', h1, h2, h3, h4, h5⟩ := ih { r with manager := some (setID m next i0) } (setID m next i0) rfl (next + 1) (by
        intro o ho
        rw [hs]
        have : o ≠ next := by omega
        simp [this, hnew o (by omega)]) hd'
      refine ⟨m', by rw [resAfter, hr]; exact h1, fun o ho => h2 o (by simp at ho; omega), ?_, ?_, ?_⟩
      · intro o ho
        rw [h3 o (by omega), hs]
        have : o ≠ next := by omega
        simp [this]
      · intro k a i ha hi
        cases k with
        | zero =>
          simp at ha
          subst ha
          rw [hid] at hi
          simp only [Option.some.injEq] at hi
          subst hi
          rw [h5 i0, hs]
          · simp
          · intro b hb hbi
            obtain ⟨j, hj⟩ := List.getElem?_of_mem hb
            have := hd 0 (j + 1) e b i0 (by simp) (by simpa using hj) hid hbi
            omega
        | succ k => rw [h4 k a i (by simpa using ha) hi]; congr 1; omega
      · intro i hi
        rw [h5 i (fun a ha => hi a (by simp [ha])), hs]
        have : i ≠ i0 := by
          rintro rfl
          exact hi e (by simp) hid
        simp [this]

/-! ### The whole -/

/-- the state at the beginning, with what is known about the first object -/
def start (E : Env) (r : Res) (refs : Nat → Nat → List Nat) (next : Nat) : State :=
  ⟨r, refs, next, [], 0, if E.deferredRoot then [next] else [], if E.deferredRoot then none else some next⟩

theorem decode_start (E : Env) (r : Res) (refs : Nat → Nat → List Nat) (next : Nat) (es : List Elem) (h : es ≠ []) :
    decode E r refs next es = finish E (es.foldl (readElem E) (start E r refs next)) := by
  cases es with
  | nil => exact absurd rfl h
  | cons e es =>
    simp only [decode, List.foldl_cons]
    congr 2
    simp only [readRoot, start, readElem]
    split
    · rename_i hd
      simp [hd]
    · rename_i hd
      simp [hd]

theorem finish_some {E : Env} {t s : State} (h : finish E t = some s) : setPending (getEObject s.res) t.refs t.errors t.pending = some (s.refs, s.errors) := by
  simp only [finish] at h
  split at h
  · rename_i refs n hp
    simp only [Option.some.injEq] at h
    subst h
    exact hp
  · cases h

theorem filterMap_frag (get : Frag → Option Nat) (ps : List Pending) : ps.filterMap (fun p => get p.frag) = (ps.map (·.frag)).filterMap get := by
  rw [List.filterMap_map]
  rfl

theorem mem_key {ps : List Pending} {p : Pending} (h : p ∈ ps) : p ∈ ps.filter (key p.obj p.feature) := by
  rw [List.mem_filter]
  exact ⟨h, by simp [key]⟩

theorem filterMap_same {α β : Type} {f g : α → Option β} {l : List α} (h : ∀ x ∈ l, f x = g x) : l.filterMap f = l.filterMap g := by
  induction l with
  | nil => rfl
  | cons x l ih => simp only [List.filterMap_cons, h x (by simp), ih (fun y hy => h y (by simp [hy]))]

/-- those found first, then the others -/
theorem split_perm (G T : Frag → Option Nat) (l : List Frag) (h : ∀ x ∈ l, (∃ y, T x = some y) ∧ (G x = T x ∨ G x = none)) :
    (l.filterMap G ++ (l.filter (fun x => (G x).isNone)).filterMap T).Perm (l.filterMap T) := by
  induction l with
  | nil => simp
  | cons x l ih =>
    have ih := ih (fun y hy => h y (by simp [hy]))
    obtain ⟨⟨y, hy⟩, hx⟩ := h x (by simp)
    rcases hx with e | e
    · have : G x = some y := by rw [e, hy]
      simp only [List.filterMap_cons, this, hy, List.filter_cons, Option.isNone_some, Bool.false_eq_true, if_false, List.cons_append]
      exact ih.cons y
    · simp only [List.filterMap_cons, e, hy, List.filter_cons, Option.isNone_none, if_true]
      exact List.perm_middle.trans (ih.cons y)

/-- all fragments lead to objects at the end; those that did before lead to the same object -/
theorem decode_found (E : Env) (hE : E.deferredRoot = false) (r : Res) (refs : Nat → Nat → List Nat) (next : Nat) (hrefs : ∀ o f, next ≤ o → refs o f = [])
    (es : List Elem) (hes : es ≠ []) (hn : ∀ e ∈ es, (e.refs.map (·.1)).Nodup) (T : Frag → Option Nat) (hT : getEObject (resAfter E.ids r next es) = T)
    (h : ∀ (k : Nat) (e : Elem), es[k]? = some e → ∀ f, ((fragsOf e.refs f).filterMap T).Nodup ∧ ∀ x ∈ fragsOf e.refs f, (∃ y, T x = some y) ∧
      (E.deferred = false → getEObject (resAfter E.ids r next (es.take (k + 1))) x = T x ∨
        getEObject (resAfter E.ids r next (es.take (k + 1))) x = none ∧ T x ≠ some (next + k))) :
    ∃ s, decode E r refs next es = some s ∧ s.result = some next ∧ s.errors = 0 ∧ s.res = resAfter E.ids r next es ∧ (∀ o f, o < next → s.refs o f = refs o f) ∧
      ∀ (k : Nat) (e : Elem), es[k]? = some e → ∀ f,
        (E.deferred = true → s.refs (next + k) f = (fragsOf e.refs f).filterMap T) ∧
        (E.deferred = false → s.refs (next + k) f = (fragsOf e.refs f).filterMap (getEObject (resAfter E.ids r next (es.take (k + 1)))) ++
          ((fragsOf e.refs f).filter (fun x => (getEObject (resAfter E.ids r next (es.take (k + 1))) x).isNone)).filterMap T) := by
  rw [decode_start E r refs next es hes]
  obtain ⟨h1, h2, h3, h4, h5, h6, h7⟩ := readElems_spec E (start E r refs next) rfl hrefs es hn
  generalize hs : es.foldl (readElem E) (start E r refs next) = s at *
  simp only [start, hE] at h1 h2 h3 h4 h5 h6 h7
  have hroots : s.roots = [] := by rw [h4]; rfl
  have hget : getEObject s.res = T := by rw [h2, hT]
  -- what one reference has
  have hone : ∀ (k : Nat) (e : Elem), es[k]? = some e → ∀ f,
      (s.refs (next + k) f ++ (s.pending.filter (key (next + k) f)).filterMap (fun p => T p.frag)).Nodup ∧
      (E.deferred = true → s.refs (next + k) f = [] ∧ (s.pending.filter (key (next + k) f)).map (·.frag) = fragsOf e.refs f ∧
        (s.pending.filter (key (next + k) f)).map (·.pos) = List.range' 0 (fragsOf e.refs f).length) ∧
      (E.deferred = false → s.refs (next + k) f = (fragsOf e.refs f).filterMap (getEObject (resAfter E.ids r next (es.take (k + 1)))) ∧
        (s.pending.filter (key (next + k) f)).map (·.frag) = (fragsOf e.refs f).filter (fun x => (getEObject (resAfter E.ids r next (es.take (k + 1))) x).isNone)) := by
    intro k e hk f
    obtain ⟨g1, g2⟩ := h7 k e hk f
    obtain ⟨u1, u2⟩ := h k e hk f
    rw [filterMap_frag, g1, g2]
    cases hd : E.deferred with
    | true =>
      rw [hd] at g1 g2
      obtain ⟨a1, a2, a3⟩ := setIds_deferred (getEObject (resAfter E.ids r next (es.take (k + 1)))) (next + k) f (fragsOf e.refs f) [] 0
      rw [a1, a2, a3]
      refine ⟨by simpa using u1, fun _ => ⟨rfl, rfl, rfl⟩, by simp⟩
    | false =>
      rw [hd] at g1 g2
      generalize hG : getEObject (resAfter E.ids r next (es.take (k + 1))) = G at *
      have hperm := split_perm G T (fragsOf e.refs f) (fun x hx => ⟨(u2 x hx).1, ((u2 x hx).2 hd).imp_right (·.1)⟩)
      have hsub : ((fragsOf e.refs f).filterMap G).Nodup := (List.nodup_append.1 (hperm.nodup_iff.2 u1)).1
      obtain ⟨a1, a2⟩ := setIds_eager G (next + k) f (fragsOf e.refs f) [] 0 (by simpa using hsub)
      rw [a1, a2]
      simp only [List.nil_append]
      exact ⟨hperm.nodup_iff.2 u1, by simp, by simp⟩
  -- the object of a deferred reference
  have hobj : ∀ p ∈ s.pending, ∃ (k : Nat) (e : Elem), es[k]? = some e ∧ p.obj = next + k := by
    intro p hp
    by_cases hr : p.obj < next ∨ s.next ≤ p.obj
    · have := (h6 p.obj p.feature hr).2
      have hm := mem_key hp
      rw [this] at hm
      simp at hm
    · have hlt : p.obj - next < es.length := by omega
      exact ⟨p.obj - next, es[p.obj - next], by simp [hlt], by omega⟩
  obtain ⟨refs', e1, e2⟩ := setPending_spec T s.pending s.refs s.errors (by
    intro p hp
    obtain ⟨k, e, hk, ho⟩ := hobj p hp
    obtain ⟨-, i2, i3⟩ := hone k e hk p.feature
    have hm := List.mem_map_of_mem (f := (·.frag)) (mem_key hp)
    rw [ho] at hm
    cases hd : E.deferred with
    | true => rw [(i2 hd).2.1] at hm; exact ((h k e hk p.feature).2 _ hm).1
    | false => rw [(i3 hd).2] at hm; exact ((h k e hk p.feature).2 _ (List.mem_filter.1 hm).1).1) (by
    intro o f hne
    by_cases hr : o < next ∨ s.next ≤ o
    · exact absurd (h6 o f hr).2 hne
    · have hlt : o - next < es.length := by omega
      have := (hone (o - next) es[o - next] (by simp [hlt]) f).1
      rwa [show next + (o - next) = o by omega] at this) (by
    intro p hp hself
    obtain ⟨k, e, hk, ho⟩ := hobj p hp
    obtain ⟨-, i2, i3⟩ := hone k e hk p.feature
    cases hd : E.deferred with
    | true =>
      rw [ho]
      obtain ⟨j1, j2, j3⟩ := i2 hd
      rw [j3, j1, ← j2]
      simp
    | false =>
      exfalso
      have hm := List.mem_map_of_mem (f := (·.frag)) (mem_key hp)
      rw [ho, (i3 hd).2] at hm
      obtain ⟨m1, m2⟩ := List.mem_filter.1 hm
      rcases ((h k e hk p.feature).2 _ m1).2 hd with e' | ⟨-, e'⟩
      · rw [e', hself] at m2; simp at m2
      · exact e' (ho ▸ hself))
  refine ⟨{ s with refs := refs', pending := [] }, ?_, by rw [h5]; rfl, h3, h2, ?_, ?_⟩
  · simp only [finish, hroots, hget, e1]
  · intro o f ho
    have := h6 o f (.inl ho)
    show refs' o f = refs o f
    rw [e2, this.1, this.2]
    simp
  · intro k e hk f
    obtain ⟨-, i2, i3⟩ := hone k e hk f
    show (_ → refs' (next + k) f = _) ∧ (_ → refs' (next + k) f = _)
    rw [e2, filterMap_frag]
    constructor
    · intro hd
      obtain ⟨j1, j2, -⟩ := i2 hd
      rw [j1, j2]
      rfl
    · intro hd
      obtain ⟨j1, j2⟩ := i3 hd
      rw [j1, j2]

/-- the references of an element -/
theorem fragsOf_encode (ids : Bool) (r : Res) (refs : Nat → Nat → List Nat) (features : Nat → List Nat) (o f : Nat) :
    fragsOf (encodeElem ids r refs features o).refs f = if f ∈ features o then (refs o f).map (fragment r) else [] := by
  simp only [encodeElem]
  generalize features o = l
  induction l with
  | nil => simp [fragsOf]
  | cons g l ih =>
    by_cases he : refs o g = []
    · simp only [List.filterMap_cons, he, List.isEmpty_nil, if_true, ih]
      by_cases hfg : f = g
      · subst hfg; simp [he]
      · simp [hfg]
    · have hne : (refs o g).isEmpty = false := by simpa using he
      simp only [List.filterMap_cons, hne, Bool.false_eq_true, if_false]
      by_cases hfg : f = g
      · subst hfg; simp [fragsOf]
      · simp only [fragsOf, List.find?_cons, Ne.symm hfg, decide_false, List.mem_cons, hfg, false_or]
        simpa [fragsOf] using ih

theorem encode_features (ids : Bool) (r : Res) (refs : Nat → Nat → List Nat) (features : Nat → List Nat) (o : Nat) (h : (features o).Nodup) :
    ((encodeElem ids r refs features o).refs.map (·.1)).Nodup := by
  simp only [encodeElem, List.map_filterMap]
  have : (features o).filterMap (fun f => Option.map (·.1) (if (refs o f).isEmpty = true then none else some (f, (refs o f).map (fragment r)))) =
      (features o).filter (fun f => !(refs o f).isEmpty) := by
    rw [← List.filterMap_eq_filter]
    congr 1
    funext f
    cases hf : (refs o f).isEmpty <;> simp [hf, Option.guard]
  rw [this]
  exact h.filter _

end Verif.XMLSingle
