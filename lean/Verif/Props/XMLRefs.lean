import Verif.Proofs.XMLRefsLoad
import Verif.Proofs.XMLRefsSymm
import Verif.Props.Graph

/-!
# C80: references of loaded XML documents
-/

namespace Verif.XMLRefs

open Graph

/-- **C80** (partial): a document of a consistent graph is loaded without an error, and afterwards every containment list, every
single valued reference, and every list whose opposite is a saved list, has the values of the graph in their order, wherever
the objects are in the document.
Missing: lists whose opposite is single valued, not saved or missing, whose order may change (`C80_order_partial`,
`C80_order_violated`); objects that refer to themselves (`C80_self_violated`, `C80_self_lost_violated`), deferred references
(`C80_deferred_violated`), proxies (`C80_proxy_violated`, `C80_proxy_panic_violated`). -/
theorem C80_restored_partial (E : Env) (wf : WellFormed E.M) (hfn : ∀ c, (E.M.features c).Nodup) (hdef : E.deferred = false) (cls : Nat → Nat)
    (saved : Nat → Nat → List Nat) (hs : Consistent E.M cls saved) (hself : ∀ a r, a ∉ saved a r) (doc : List Elem) (hd : Document E cls saved doc) :
    ∃ s, load E cls doc = some s ∧ s.errors = 0 ∧ ∀ e ∈ doc, ∀ r ∈ E.M.features (cls e.obj), E.transient r = false → ¬ OneSided E r →
      eGet E.M s.w e.obj r = saved e.obj r := by
  obtain ⟨s, h1, h2, h3⟩ := load_spec wf hd hs hfn hdef (fun a r _ _ => hself a r)
  refine ⟨s, h1, h2, ?_⟩
  intro e he r hr ht ho
  obtain ⟨g1, g2⟩ := h3 e he r hr ht
  cases hm : (E.M.refs r).many with
  | false => exact g2 (Or.inr hm)
  | true =>
    cases hc : (E.M.refs r).containment with
    | true =>
      have hmm : mm E r = false := by
        cases h : mm E r with
        | false => rfl
        | true => have := (mm_written wf ht h).cross; rw [hc] at this; simp at this
      obtain ⟨k1, k2⟩ := contrib_containment (x := e.obj) wf hd hs hc
      rw [g1 hmm, k1, k2, List.append_nil]
    | false =>
      refine g2 (Or.inl ?_)
      simp only [OneSided, hm, hc, true_and] at ho
      cases hop : (E.M.refs r).opposite with
      | none => simp [hop] at ho
      | some t =>
        simp only [hop, Option.some.injEq, forall_eq', not_or, Bool.not_eq_false, Bool.not_eq_true] at ho
        simp [mm, manyAdd, hop, hm, ho.1, ho.2]

/-- **C80** (partial): the other lists have their values, too: first those whose objects come before in the document, then the
others, each in the order of the graph. -/
theorem C80_order_partial (E : Env) (wf : WellFormed E.M) (hfn : ∀ c, (E.M.features c).Nodup) (hdef : E.deferred = false) (cls : Nat → Nat)
    (saved : Nat → Nat → List Nat) (hs : Consistent E.M cls saved) (hself : ∀ a r, a ∉ saved a r) (doc : List Elem) (hd : Document E cls saved doc) :
    ∃ s, load E cls doc = some s ∧ ∀ e ∈ doc, ∀ r ∈ E.M.features (cls e.obj), E.transient r = false → OneSided E r →
      eGet E.M s.w e.obj r = (saved e.obj r).filter (fun b => before doc b e.obj) ++ (saved e.obj r).filter (fun b => !before doc b e.obj) := by
  obtain ⟨s, h1, h2, h3⟩ := load_spec wf hd hs hfn hdef (fun a r _ _ => hself a r)
  refine ⟨s, h1, ?_⟩
  intro e he r hr ht ho
  have hmm : mm E r = false := by
    cases h : (E.M.refs r).opposite with
    | none => simp [mm, manyAdd, h]
    | some t => rcases ho.2.2 t h with h' | h' <;> simp [mm, manyAdd, h, h']
  rw [(h3 e he r hr ht).1 hmm]
  exact contrib_oneSided wf hd hs hfn hdef (fun a r _ _ => hself a r) he hr ⟨ht, ho.2.1, many_not_container wf ho.1⟩ ho

/-- **C80** (partial): in particular their order is the one of the graph when no value comes before the object in the document
and after it in the list another one that comes later. -/
theorem C80_order_kept_partial (E : Env) (wf : WellFormed E.M) (hfn : ∀ c, (E.M.features c).Nodup) (hdef : E.deferred = false) (cls : Nat → Nat)
    (saved : Nat → Nat → List Nat) (hs : Consistent E.M cls saved) (hself : ∀ a r, a ∉ saved a r) (doc : List Elem) (hd : Document E cls saved doc)
    (e : Elem) (he : e ∈ doc) (r : Nat) (hr : r ∈ E.M.features (cls e.obj)) (ht : E.transient r = false)
    (hb : (∀ b ∈ saved e.obj r, before doc b e.obj = true) ∨ ∀ b ∈ saved e.obj r, before doc b e.obj = false) :
    ∃ s, load E cls doc = some s ∧ eGet E.M s.w e.obj r = saved e.obj r := by
  by_cases ho : OneSided E r
  · obtain ⟨s, h1, h2⟩ := C80_order_partial E wf hfn hdef cls saved hs hself doc hd
    refine ⟨s, h1, ?_⟩
    rw [h2 e he r hr ht ho]
    rcases hb with hb | hb
    · rw [List.filter_eq_self.2 hb, List.filter_eq_nil_iff.2 (fun b h => by simp [hb b h]), List.append_nil]
    · rw [List.filter_eq_nil_iff.2 (fun b h => by simp [hb b h]), List.filter_eq_self.2 (fun b h => by simp [hb b h]), List.nil_append]
  · obtain ⟨s, h1, -, h2⟩ := C80_restored_partial E wf hfn hdef cls saved hs hself doc hd
    exact ⟨s, h1, h2 e he r hr ht ho⟩

/-- **C80**: whatever the document says — objects in any order, IDs that are not found, references at one end only or at both ends
differently, proxies of the same document, with or without deferred references — unless loading panics, both ends of
opposites say the same and containments and containers agree. -/
theorem C80_symmetric (E : Env) (wf : WellFormed E.M) (cls : Nat → Nat) (doc : List Elem) (ht : TypedDocument E.M cls doc) (s : State)
    (h : load E cls doc = some s) : Symmetric E.M cls s.w ∧ Contained E.M cls s.w :=
  ⟨(good_load wf ht h).symmetric wf, (good_load wf ht h).contained wf⟩

/-! ## Examples -/

/-- a graph given by a table -/
def savedOf (t : List ((Nat × Nat) × List Nat)) (a r : Nat) : List Nat := (t.lookup (a, r)).getD []

/-- check of `Consistent` -/
def consistent (M : Meta) (cls : Nat → Nat) (t : List ((Nat × Nat) × List Nat)) : Bool :=
  t.all fun p => decide p.2.Nodup && ((M.refs p.1.2).many || p.2.length ≤ 1) && p.2.all fun b => decide (p.1.2 ∈ M.features (cls p.1.1)) &&
    match (M.refs p.1.2).opposite with
    | none => true
    | some r' => decide (r' ∈ M.features (cls b) ∧ p.1.1 ∈ savedOf t b r')

theorem mem_lookup {t : List ((Nat × Nat) × List Nat)} {k : Nat × Nat} {l : List Nat} (h : t.lookup k = some l) : (k, l) ∈ t := by
  induction t with
  | nil => simp at h
  | cons p t ih =>
    obtain ⟨k', l'⟩ := p
    simp only [List.lookup_cons] at h
    split at h
    · rename_i hk
      have : k = k' := by simpa using hk
      injection h with h
      simp [this, h]
    · simp [ih h]

theorem savedOf_cases (t : List ((Nat × Nat) × List Nat)) (a r : Nat) : savedOf t a r = [] ∨ ((a, r), savedOf t a r) ∈ t := by
  cases h : t.lookup (a, r) with
  | none => left; simp [savedOf, h]
  | some l => right; simpa [savedOf, h] using mem_lookup h

theorem consistent_savedOf {M : Meta} (wf : WellFormed M) {cls : Nat → Nat} {t : List ((Nat × Nat) × List Nat)} (h : consistent M cls t = true) :
    Consistent M cls (savedOf t) := by
  simp only [consistent, List.all_eq_true, Bool.and_eq_true, decide_eq_true_eq, Bool.or_eq_true] at h
  have hsym : ∀ a r b r', (M.refs r).opposite = some r' → b ∈ savedOf t a r → a ∈ savedOf t b r' := by
    intro a r b r' ho hb
    rcases savedOf_cases t a r with hc | hc
    · rw [hc] at hb; simp at hb
    · have := ((h _ hc).2 b hb).2
      rw [ho] at this
      exact (of_decide_eq_true this).2
  refine ⟨?_, ?_, ?_, fun a r b r' ho => ⟨hsym a r b r' ho, hsym b r' a r (wf.opp r r' ho).1⟩⟩
  · intro a r
    rcases savedOf_cases t a r with hc | hc
    · rw [hc]; simp
    · exact (h _ hc).1.1
  · intro a r hm
    rcases savedOf_cases t a r with hc | hc
    · rw [hc]; simp
    · have := (h _ hc).1.2
      simp only [hm, Bool.false_eq_true, false_or] at this
      exact this
  · intro a r b hb
    rcases savedOf_cases t a r with hc | hc
    · rw [hc] at hb; simp at hb
    · have := (h _ hc).2 b hb
      refine ⟨this.1, ?_⟩
      intro r' ho
      have h2 := this.2
      rw [ho] at h2
      exact (of_decide_eq_true h2).1

/-- check of `Document.inside` -/
def insideOf (E : Env) : List Nat → List Elem → Bool
  | _, [] => true
  | seen, e :: es => (match e.place with
    | none => true
    | some (a, r) => (E.M.refs r).containment && decide (a ∈ seen)) && insideOf E (seen ++ [e.obj]) es

/-- check of `Document` -/
def isDocument (E : Env) (cls : Nat → Nat) (t : List ((Nat × Nat) × List Nat)) (doc : List Elem) : Bool :=
  decide (doc.map Elem.obj).Nodup && (doc.all fun e => e.proxy = none ∧ e.attrs = attributes E cls (savedOf t) e.obj) &&
    ((t.map Prod.fst ++ doc.filterMap Elem.place).all fun k => (E.M.refs k.2).containment → (doc.filter fun e => e.place = some k).map Elem.obj = savedOf t k.1 k.2) &&
    insideOf E [] doc && t.all fun p => p.2.all fun b => b ∈ doc.map Elem.obj

theorem document_savedOf {E : Env} {cls : Nat → Nat} {t : List ((Nat × Nat) × List Nat)} {doc : List Elem} (h : isDocument E cls t doc = true) :
    Document E cls (savedOf t) doc := by
  simp only [isDocument, Bool.and_eq_true, decide_eq_true_eq, List.all_eq_true] at h
  obtain ⟨⟨⟨⟨h1, h2⟩, h3⟩, h4⟩, h5⟩ := h
  refine ⟨h1, fun e he => (h2 e he).1, fun e he => (h2 e he).2, ?_, ?_, ?_⟩
  · intro a r hc
    by_cases hm : (a, r) ∈ t.map Prod.fst ++ doc.filterMap Elem.place
    · exact h3 _ hm hc
    · simp only [List.mem_append, not_or] at hm
      have h6 : savedOf t a r = [] := (savedOf_cases t a r).resolve_right fun hc => hm.1 (List.mem_map.2 ⟨_, hc, rfl⟩)
      rw [h6, List.map_eq_nil_iff, List.filter_eq_nil_iff]
      intro e he hp
      exact hm.2 (List.mem_filterMap.2 ⟨e, he, by simpa using hp⟩)
  · have : ∀ (es : List Elem) (seen : List Nat), insideOf E seen es = true → ∀ pre e post a r, es = pre ++ e :: post → e.place = some (a, r) →
        (E.M.refs r).containment = true ∧ a ∈ seen ++ pre.map Elem.obj := by
      intro es
      induction es with
      | nil => intro seen _ pre e post a r he; simp at he
      | cons e' es ih =>
        intro seen hi pre e post a r he hp
        simp only [insideOf, Bool.and_eq_true] at hi
        cases pre with
        | nil =>
          simp only [List.nil_append, List.cons.injEq] at he
          have := hi.1
          rw [he.1, hp] at this
          simpa using this
        | cons e'' pre =>
          simp only [List.cons_append, List.cons.injEq] at he
          have := ih _ hi.2 pre e post a r he.2 hp
          rw [he.1] at this
          simpa using this
    intro pre e post a r he hp
    have := this doc [] h4 pre e post a r he hp
    simpa using this
  · intro e he r _ b hb
    rcases savedOf_cases t e.obj r with hc | hc
    · rw [hc] at hb; simp at hb
    · have := h5 _ hc b hb
      simpa using this

/-- references 0 `children` and 1 `parent`, 2 `friends` and 3 `friendOf`, 4 `boss` and 5 `staff`, 6 `spouse` and 7 `spouseOf`, 8 `likes`, 9 `single` -/
def people : Meta := metaOf
  [⟨true, true, some 1, 0⟩, ⟨false, false, some 0, 1⟩, ⟨false, true, some 3, 2⟩, ⟨false, true, some 2, 3⟩, ⟨false, false, some 5, 4⟩, ⟨false, true, some 4, 5⟩,
    ⟨false, false, some 7, 6⟩, ⟨false, false, some 6, 7⟩, ⟨false, true, none, 8⟩, ⟨false, false, none, 9⟩] [[0, 1, 2, 3, 4, 5, 6, 7, 8, 9]]

theorem people_wf : WellFormed people := wellFormed_metaOf (by decide)

theorem people_nodup : ∀ c, (people.features c).Nodup := by
  intro c
  match c with
  | 0 => decide
  | n + 1 => simp [people, metaOf]

def peopleEnv (ids deferred : Bool) : Env := ⟨people, fun _ => false, fun _ => true, ids, deferred⟩

/-- four objects: 1, 2 and 3 in 0; the friends of 2 are 3, 0 and 1, the friends of 1 are 3 and 0, 1 and 3 work for 2, 0 for 3; 1 is the spouse of 3; 2 likes 3 and 1 -/
def family : List ((Nat × Nat) × List Nat) :=
  [((0, 0), [1, 2, 3]), ((1, 1), [0]), ((2, 1), [0]), ((3, 1), [0]), ((2, 2), [3, 0, 1]), ((1, 2), [3, 0]), ((3, 3), [1, 2]), ((0, 3), [2, 1]), ((1, 3), [2]),
    ((1, 4), [2]), ((3, 4), [2]), ((2, 5), [1, 3]), ((0, 4), [3]), ((3, 5), [0]), ((3, 6), [1]), ((1, 7), [3]), ((2, 8), [1, 3]), ((0, 9), [3])]

def familyDoc (ids : Bool) : List Elem :=
  [⟨0, none, attributes (peopleEnv ids false) (fun _ => 0) (savedOf family) 0, none⟩, ⟨1, some (0, 0), attributes (peopleEnv ids false) (fun _ => 0) (savedOf family) 1, none⟩,
    ⟨2, some (0, 0), attributes (peopleEnv ids false) (fun _ => 0) (savedOf family) 2, none⟩, ⟨3, some (0, 0), attributes (peopleEnv ids false) (fun _ => 0) (savedOf family) 3, none⟩]

theorem family_ok : Consistent people (fun _ => 0) (savedOf family) := consistent_savedOf people_wf (by decide)

theorem family_self (a r : Nat) : a ∉ savedOf family a r := by
  intro h
  rcases savedOf_cases family a r with hc | hc
  · rw [hc] at h; simp at h
  · have : ∀ p ∈ family, p.1.1 ∉ p.2 := by decide
    exact this _ hc h

theorem familyDoc_ok (ids : Bool) : Document (peopleEnv ids false) (fun _ => 0) (savedOf family) (familyDoc ids) := document_savedOf (by cases ids <;> decide)

/-- what is loaded from a document: the errors and some values -/
def loaded (E : Env) (cls : Nat → Nat) (doc : List Elem) (what : List (Nat × Nat)) : Option (Nat × List (List Nat)) :=
  (load E cls doc).map fun s => (s.errors, what.map fun k => eGet E.M s.w k.1 k.2)

/-- all references are restored: the friends of 2 come before and after it in the document -/
example (ids : Bool) : loaded (peopleEnv ids false) (fun _ => 0) (familyDoc ids) (family.map Prod.fst) = some (0, family.map Prod.snd) := by
  cases ids <;> decide +kernel

/-- the theorem applies to it -/
example (ids : Bool) : ∃ s, load (peopleEnv ids false) (fun _ => 0) (familyDoc ids) = some s ∧ s.errors = 0 ∧ ∀ e ∈ familyDoc ids, ∀ r ∈ people.features 0, ¬ OneSided (peopleEnv ids false) r →
    eGet people s.w e.obj r = savedOf family e.obj r := by
  obtain ⟨s, h1, h2, h3⟩ := C80_restored_partial _ people_wf people_nodup rfl _ _ family_ok family_self _ (familyDoc_ok ids)
  exact ⟨s, h1, h2, fun e he r hr ho => h3 e he r hr rfl ho⟩

theorem typedDocument_of {M : Meta} {cls : Nat → Nat} {doc : List Elem} (h1 : ∀ e ∈ doc, ∀ p ∈ e.attrs, p.1 ∈ M.features (cls e.obj) ∧ ∀ x ∈ p.2, Fits M cls p.1 x)
    (h2 : ∀ e ∈ doc, ∀ p ∈ e.place, p.2 ∈ M.features (cls p.1) ∧ Fits M cls p.2 e.obj)
    (h3 : ∀ e ∈ doc, ∀ p ∈ e.proxy, ∀ x ∈ p, ∀ f ∈ M.features (cls e.obj), f ∈ M.features (cls x)) : TypedDocument M cls doc :=
  ⟨h1, fun e he a r hp => h2 e he (a, r) (by simp [hp]), fun e he x hx => h3 e he (some x) (by simp [hx]) x (by simp)⟩

/-- a document that no encoder writes: 1 is a friend of 2 and 9, which is not there; it does not say that it is a friend of 3; 1 and 3 say
that their spouse is 2; 0 has a proxy of 1 and a foreign one as friends -/
def strange : List Elem :=
  [⟨0, none, [], none⟩, ⟨2, some (0, 0), [(2, [1])], none⟩, ⟨1, some (0, 0), [(3, [2, 9]), (6, [2])], none⟩, ⟨3, some (1, 0), [(2, [1]), (6, [2])], none⟩,
    ⟨4, some (0, 2), [], some none⟩, ⟨5, some (0, 2), [], some (some 1)⟩]

example : TypedDocument people (fun _ => 0) strange := typedDocument_of (by decide) (by decide) (by decide)

example : loaded (peopleEnv false false) (fun _ => 0) strange [(0, 2), (2, 2), (1, 3), (3, 2), (1, 6), (3, 6), (2, 7)] =
    some (1, [[4, 1], [1], [2, 3, 0], [1], [], [2], [3]]) := by decide +kernel

/-! ### Violations -/

/-- 1, 2 and 3 are children of 0 -/
def kids (t : List ((Nat × Nat) × List Nat)) : List ((Nat × Nat) × List Nat) := [((0, 0), [1, 2, 3]), ((1, 1), [0]), ((2, 1), [0]), ((3, 1), [0])] ++ t

def docOf (E : Env) (t : List ((Nat × Nat) × List Nat)) : List Elem :=
  (List.range 4).map fun o => ⟨o, if o = 0 then none else some (0, 0), attributes E (fun _ => 0) (savedOf (kids t)) o, none⟩

/-- **C80** is violated: 2 likes 3 and 1; loaded, it likes 1 and 3, as 1 is known when 2 is read, 3 not yet. -/
theorem C80_order_violated :
    let E := peopleEnv false false
    let t := [((2, 8), [3, 1])]
    Consistent people (fun _ => 0) (savedOf (kids t)) ∧ Document E (fun _ => 0) (savedOf (kids t)) (docOf E t) ∧
      loaded E (fun _ => 0) (docOf E t) [(2, 8)] = some (0, [[1, 3]]) :=
  ⟨consistent_savedOf people_wf (by decide), document_savedOf (by decide), by decide +kernel⟩

/-- **C80** is violated: the same for the staff of 2, although 3 and 1 name 2 as their boss. -/
theorem C80_order_opposite_violated :
    let E := peopleEnv true false
    let t := [((2, 5), [3, 1]), ((3, 4), [2]), ((1, 4), [2])]
    Consistent people (fun _ => 0) (savedOf (kids t)) ∧ Document E (fun _ => 0) (savedOf (kids t)) (docOf E t) ∧
      loaded E (fun _ => 0) (docOf E t) [(2, 5)] = some (0, [[1, 3]]) :=
  ⟨consistent_savedOf people_wf (by decide), document_savedOf (by decide), by decide +kernel⟩

/-- **C80** is violated: 2 is a friend of 2, 1 and 0, in this order, itself being one; loaded, of 0, 2 and 1.  The arguments of
`Move` are the wrong way round (ecore/xmldecoder.go 484): the first friend is moved to the end, instead of 2 to the front. -/
theorem C80_self_violated :
    let E := peopleEnv false false
    let t := [((2, 2), [2]), ((2, 3), [2, 1, 0]), ((1, 2), [2]), ((0, 2), [2])]
    Consistent people (fun _ => 0) (savedOf (kids t)) ∧ Document E (fun _ => 0) (savedOf (kids t)) (docOf E t) ∧
      loaded E (fun _ => 0) (docOf E t) [(2, 3)] = some (0, [[0, 2, 1]]) :=
  ⟨consistent_savedOf people_wf (by decide), document_savedOf (by decide), by decide +kernel⟩

/-- **C80** is violated with IDs, too: 2 is a friend of 1 and itself; loaded, of itself and 1. -/
theorem C80_self_ids_violated :
    let E := peopleEnv true false
    let t := [((2, 2), [1, 2]), ((2, 3), [1, 2]), ((1, 3), [2]), ((1, 2), [2])]
    Consistent people (fun _ => 0) (savedOf (kids t)) ∧ Document E (fun _ => 0) (savedOf (kids t)) (docOf E t) ∧
      loaded E (fun _ => 0) (docOf E t) [(2, 2), (2, 3)] = some (0, [[1, 2], [2, 1]]) :=
  ⟨consistent_savedOf people_wf (by decide), document_savedOf (by decide), by decide +kernel⟩

/-- **C80** is violated: an object without ID that is its own spouse has no spouse after loading, and no error is reported: both
ends wait for the other one. -/
theorem C80_self_lost_violated :
    let E := peopleEnv false false
    let t := [((2, 6), [2]), ((2, 7), [2])]
    Consistent people (fun _ => 0) (savedOf (kids t)) ∧ Document E (fun _ => 0) (savedOf (kids t)) (docOf E t) ∧
      loaded E (fun _ => 0) (docOf E t) [(2, 6), (2, 7)] = some (0, [[], []]) :=
  ⟨consistent_savedOf people_wf (by decide), document_savedOf (by decide), by decide +kernel⟩

/-- **C80** is violated: with deferred references, a document with two lists that are opposites makes loading panic: nothing was
added, and `MoveObject` does not find what it moves. -/
theorem C80_deferred_violated :
    let E := peopleEnv false true
    let t := [((2, 2), [1]), ((1, 3), [2])]
    Consistent people (fun _ => 0) (savedOf (kids t)) ∧ (∀ a r, a ∉ savedOf (kids t) a r) ∧ Document E (fun _ => 0) (savedOf (kids t)) (docOf E t) ∧
      load E (fun _ => 0) (docOf E t) = none := by
  refine ⟨consistent_savedOf people_wf (by decide), ?_, document_savedOf (by decide), ?_⟩
  · intro a r h
    rcases savedOf_cases (kids [((2, 2), [1]), ((1, 3), [2])]) a r with hc | hc
    · rw [hc] at h; simp at h
    · have : ∀ p ∈ kids [((2, 2), [1]), ((1, 3), [2])], p.1.1 ∉ p.2 := by decide
      exact this _ hc h
  · have : (load (peopleEnv false true) (fun _ => 0) (docOf (peopleEnv false true) [((2, 2), [1]), ((1, 3), [2])])).isNone = true := by decide +kernel
    simpa using this

/-- **C80** is violated: a document that says at one end only that 1 is a friend of 0, an object that comes before, makes loading panic; if
1 says it instead, it is loaded. -/
theorem C80_one_end_violated :
    (load (peopleEnv false false) (fun _ => 0) [⟨0, none, [(2, [1])], none⟩, ⟨1, some (0, 0), [], none⟩]).isNone = true ∧
    loaded (peopleEnv false false) (fun _ => 0) [⟨0, none, [], none⟩, ⟨1, some (0, 0), [(3, [0])], none⟩] [(0, 2), (1, 3)] = some (0, [[1], [0]]) := by
  decide +kernel

/-- **C80** is violated: a reference to an object that is not there is reported for lists and references without opposite, but
not for a single valued reference with a single valued opposite. -/
theorem C80_dangling_violated :
    loaded (peopleEnv false false) (fun _ => 0) [⟨0, none, [(6, [7])], none⟩] [(0, 6)] = some (0, [[]]) ∧
    loaded (peopleEnv false false) (fun _ => 0) [⟨0, none, [(9, [7])], none⟩] [(0, 9)] = some (1, [[]]) := by decide +kernel

/-- **C80** is violated: 0 has the friend 1, which says so itself, and the foreign one 4, both also given by elements with `href`.
The proxy 2 of 1 should be replaced by 1; it stays in the list beside 1, in front of it: `Remove` is called with a number
(ecore/xmldecoder.go 701, 703) and removes nothing. -/
theorem C80_proxy_violated :
    loaded (peopleEnv false false) (fun _ => 0)
      [⟨0, none, [], none⟩, ⟨1, some (0, 0), [(3, [0])], none⟩, ⟨4, some (0, 2), [], some none⟩, ⟨2, some (0, 2), [], some (some 1)⟩] [(0, 2), (2, 3)] =
      some (0, [[2, 1, 4], [0]]) := by decide +kernel

/-- **C80** is violated: a proxy of the same document in a reference with a single valued opposite makes loading panic, if the object has
no value for this opposite: `value.(EObject)` of nil (ecore/xmldecoder.go 715). -/
theorem C80_proxy_panic_violated :
    (load (peopleEnv false false) (fun _ => 0) [⟨0, none, [], none⟩, ⟨1, some (0, 0), [], none⟩, ⟨2, some (0, 6), [], some (some 1)⟩]).isNone = true ∧
    (load (peopleEnv false false) (fun _ => 0) [⟨0, none, [], none⟩, ⟨1, some (0, 0), [], none⟩, ⟨2, some (0, 5), [], some (some 1)⟩]).isNone = true := by
  decide +kernel

end Verif.XMLRefs
