import Verif.Proofs.XMLCodecRun

/-!
# The decoder reads the root, and the references that were left
-/

namespace Verif.XMLCodec

open Verif.XMLString (Text escape)
open Verif.XMLString.Spec (Forest)
open Verif.XMLLex (Name Token LegalName Literal attributeName elementName readText Reads IsBlank NotDecl rawName)
open Spec

variable {D : Type}

section
variable {env : Env D} {g : Graph D} {opt : Opt} {root : Nat} {doc : List Nat}
variable (h : Savable env g opt root doc)
include h

/-! ## The root -/

theorem attributeName_xmlns (ns : List (Text × Text)) {q : Text} (hq : q ≠ [] ∧ ':' ∉ q) : attributeName ns ("xmlns:".toList ++ q) = ⟨XMLLex.xmlns, q⟩ := by
  have e : rawName ("xmlns:".toList ++ q) = ⟨XMLLex.xmlns, q⟩ := rawName_prefixed "xmlns".toList q (by decide) hq.2 (by decide) hq.1
  unfold attributeName
  rw [e]
  simp [XMLLex.translate]

theorem toks_namespaces {st : Enc} (hg : GoodEnc env g doc st) : toks (spaces st) (namespaces st) =
    (⟨xmiURI, "version".toList⟩, "2.0".toList) :: (spaces st).reverse.map fun a => (⟨XMLLex.xmlns, a.1⟩, a.2) := by
  obtain ⟨l', e1, e2⟩ := spaces_reverse h st
  have hf := spaces_facts h hg
  have hn := goodSpaces h hg
  rw [namespaces_eq h hg, e2]
  simp only [toks, List.map_cons, List.map_map]
  have e3 : attributeName (spaces st) "xmi:version".toList = ⟨xmiURI, "version".toList⟩ := by
    unfold attributeName
    have : rawName "xmi:version".toList = ⟨"xmi".toList, "version".toList⟩ := by decide
    rw [this, XMLLex.translate, if_neg (by decide), if_neg (by decide), if_neg (by decide)]
    simp only [hn.xmi]
  have e4 : attributeName (spaces st) "xmlns:xmi".toList = ⟨XMLLex.xmlns, "xmi".toList⟩ :=
    attributeName_xmlns h _ (q := "xmi".toList) (by decide)
  have e5 : (readText xmiURI).getD [] = xmiURI := by
    rw [XMLLex.readText_literal (by unfold Literal; decide)]; rfl
  have e6 : (readText "2.0".toList).getD [] = "2.0".toList := by
    rw [XMLLex.readText_literal (by unfold Literal; decide)]; rfl
  rw [e3, e4, e5, e6]
  congr 1
  conv => rhs; rw [e1]
  simp only [List.reverse_append, List.reverse_cons, List.reverse_nil, List.nil_append, List.singleton_append, List.map_cons]
  congr 1
  apply List.map_congr_left
  intro a ha
  have := hf a (by rw [e1]; simp at ha; simp [ha])
  simp only [Function.comp]
  rw [attributeName_xmlns h _ ⟨legal_ne this.1, this.2.1⟩, XMLLex.readText_literal this.2.2.1]
  rfl

theorem prefixesOf_root {st : Enc} (hg : GoodEnc env g doc st) (l : List (Text × Text)) (hl : ∀ a ∈ l, ':' ∉ a.1 ∧ a.1 ≠ XMLLex.xmlns) :
    prefixesOf (toks (spaces st) (namespaces st ++ l)) = spaces st := by
  have e1 : toks (spaces st) (namespaces st ++ l) = toks (spaces st) (namespaces st) ++ toks (spaces st) l := by simp [toks]
  have e2 : (toks (spaces st) l).filterMap (fun (a : Name × Text) =>
    if a.1.space = XMLLex.xmlns then some (a.1.loc, a.2)
    else if a.1.space = [] ∧ a.1.loc = XMLLex.xmlns then some ([], a.2)
    else none) = [] := by
    rw [List.filterMap_eq_nil_iff]
    intro b hb
    simp only [toks, List.mem_map] at hb
    obtain ⟨a, ha, rfl⟩ := hb
    have := hl a ha
    simp only [attributeName_plain h _ this.1]
    rw [if_neg (show ([] : Text) ≠ XMLLex.xmlns by decide), if_neg]
    rintro ⟨-, e⟩
    exact this.2 e
  rw [prefixesOf, e1, List.filterMap_append, e2, List.append_nil, toks_namespaces h hg, List.filterMap_cons_none]
  · rw [List.filterMap_map]
    have : ((fun (a : Name × Text) =>
      if a.1.space = XMLLex.xmlns then some (a.1.loc, a.2)
      else if a.1.space = [] ∧ a.1.loc = XMLLex.xmlns then some ([], a.2)
      else none) ∘ fun a : Text × Text => ((⟨XMLLex.xmlns, a.1⟩ : Name), a.2)) = some := by
      funext a
      simp
    rw [this, List.filterMap_some, List.reverse_reverse]
  · simp only
    rw [if_neg (show xmiURI ≠ XMLLex.xmlns by decide), if_neg]
    rintro ⟨e, -⟩
    exact absurd e (show xmiURI ≠ [] by decide)

theorem elementName_root {st : Enc} (hg : GoodEnc env g doc st) {c : Nat} (hc : Named env g doc c) (hd : env.ns.nsPrefix (env.pkg c) ∈ st.declared) :
    elementName (spaces st) (qname env c) = ⟨(env.ns.nsURI (env.pkg c)).toList, env.name c⟩ := by
  have hk := h.known c hc
  have hr := hk.reserved.1
  simp only [List.mem_cons, List.not_mem_nil, or_false, not_or] at hr
  have e : rawName (qname env c) = ⟨(env.ns.nsPrefix (env.pkg c)).toList, env.name c⟩ :=
    rawName_prefixed _ _ hk.pre.2 hk.name.2 (legal_ne hk.pre.1) (legal_ne hk.name.1)
  unfold elementName
  rw [e, XMLLex.translate, if_neg, if_neg, if_neg]
  · simp only [(goodSpaces h hg).package c hc hd]
  · rintro ⟨e, -⟩
    exact legal_ne hk.pre.1 e
  · intro e
    exact hr.2.2.2.1 (toList_inj h e)
  · rintro (e | ⟨e, -⟩)
    · exact hr.2.2.1 (toList_inj h e)
    · exact legal_ne hk.pre.1 e

/-- the start of the root element -/
theorem start_root {st : Enc} (hg : GoodEnc env g doc st) {l : List Nat} (hdoc : doc = root :: l)
    (hd : env.ns.nsPrefix (env.pkg (g.cls root)) ∈ st.declared) :
    ∃ s', step env g.manager opt {} (.start (elementName (spaces st) (qname env (g.cls root)))
        (toks (spaces st) (namespaces st ++ (idAttrs g opt root ++ allAttrs env g doc root)))) = some s' ∧
      At env g opt root doc s' [.obj root] (begin' env g opt doc (fun _ _ => 0) root) [some (im [.obj root] (.obj root))] [.object] [spaces st] := by
  have hroot : root ∈ doc := by simp [hdoc]
  have hnamed : Named env g doc (g.cls root) := ⟨root, hroot, .inl rfl⟩
  have hk := h.known _ hnamed
  have hplain : ∀ a ∈ idAttrs g opt root ++ allAttrs env g doc root, ':' ∉ a.1 ∧ a.1 ≠ XMLLex.xmlns := by
    intro a ha
    rcases List.mem_append.1 ha with ha | ha
    · exact idAttr_plain h hroot a ha
    · exact allAttr_plain h hroot a ha
  let t : Dec D := { spaces := [spaces st] }
  have hB : Before env g root doc t [] (fun _ _ => 0) root := by
    refine ⟨⟨by simp, by simp, by simp, by simp, by simp, by simp⟩, ⟨rfl, by simp, rfl, ?_⟩, hroot, by simp, ?_⟩
    · intro _ y _ id _; rfl
    · intro y
      simp [hdoc]
  have hattrs := read_attributes h hB (spaces st) (begin' env g opt doc (fun _ _ => 0) root) (fun i => by simp [begin'])
  have hskip : ∀ s1 : Dec D, handleAttributes env g.manager opt t.objs.length s1
      (toks (spaces st) (namespaces st ++ (idAttrs g opt root ++ allAttrs env g doc root))) =
      handleAttributes env g.manager opt t.objs.length s1 (toks (spaces st) (idAttrs g opt root ++ allAttrs env g doc root)) := by
    intro s1
    have e1 : toks (spaces st) (namespaces st ++ (idAttrs g opt root ++ allAttrs env g doc root)) =
      toks (spaces st) (namespaces st) ++ toks (spaces st) (idAttrs g opt root ++ allAttrs env g doc root) := by simp [toks]
    rw [e1]
    apply skip_attributes h
    intro b hb
    rw [toks_namespaces h hg] at hb
    simp only [List.mem_cons, List.mem_map, List.mem_reverse] at hb
    rcases hb with rfl | ⟨a, ha, rfl⟩
    · refine ⟨?_, by decide, .inr (by simp [notFeatures])⟩
      intro e
      apply h.idAttribute
      simp only at e
      rw [← e]; decide
    · have := spaces_facts h hg a ha
      exact ⟨this.2.2.2.2.2.2, this.2.2.2.2.2.1, .inl rfl⟩
  have hLog := log_root (opt := opt) h (k := fun _ _ => 0) hdoc
  have hobjs' := objs_snoc h (log := []) hLog (fun _ _ => 0) (by simp)
  refine ⟨processObject { t with
        objs := t.objs ++ [{ cls := g.cls root, slot := slots env g ([] ++ [.obj root]) (begin' env g opt doc (fun _ _ => 0) root) root }]
        ids := newIds g root t.objs.length t.ids
        refs := t.refs ++ (env.features (g.cls root)).zipIdx.flatMap (pend env g opt doc t.objs.length root)
        roots := [0] } (some 0), ?_, hLog, ⟨?_, ?_, ?_, ?_⟩, ?_, ?_, ?_, ?_, ?_, ?_, ?_⟩
  · simp only [step, startElement, prefixesOf_root h hg _ hplain, if_true, createTop, elementName_root h hg hnamed hd, hk.factory, hk.classifier,
      create, hk.concrete, Bool.false_eq_true, if_false, alloc]
    have := hskip { t with objs := t.objs ++ [{ cls := g.cls root }] }
    rw [hattrs] at this
    have h0 : ({} : Dec D).objs.length = 0 := rfl
    simp only [t, h0] at this ⊢
    rw [this]
    rfl
  · simp only [processObject, t, List.nil_append, List.append_nil]
    rw [← List.nil_append [Entry.obj root], ← hobjs']
    simp [copyOf, h.top.1]
  · simp
  · simp [processObject, im]
  · intro hm y hy id hid
    simp only [processObject]
    have := (reading h hB).ids hm y hy id hid
    rw [this]
    by_cases e : root = y
    · subst e
      simp [im]
    · simp [e, Ne.symm e]
  · intro a q n y ha; simp at ha
  · rfl
  · rfl
  · simp only [processObject]
    have := refsOf_obj h (log := []) (x := root) (by simp)
    rw [List.nil_append] at this
    rw [this]
    rfl
  · simp [processObject, t, im]
  · rfl
  · rfl

/-! ## The references that were left -/

theorem refs_step {s : Dec D} {log : List Entry} {k : Nat → Nat → Nat} {stk : List (Option Nat)} {tys : List Ty} {sp : List (List (Text × Text))}
    (hA : At env g opt root doc s log k stk tys sp) (hall : ∀ x ∈ doc, Entry.obj x ∈ log) {o : Nat} (ho : o ∈ doc) {p : Feature × Nat}
    (hp : p ∈ (env.features (g.cls o)).zipIdx) (hr : isRef g o p = true) {y : Nat} (hy : (objects (g.slot o p.2))[k o p.2]? = some y) :
    ∃ s', getEObject env g.manager s (frag env g doc y) = .obj (im log (.obj y)) ∧
      setObject s (im log (.obj o)) p.2 p.1 (im log (.obj y)) (some (k o p.2)) = some s' ∧ At env g opt root doc s' log (bump k o p.2) stk tys sp := by
  obtain ⟨hsv, hr1, hr2, hr3⟩ := (isRef_iff h).1 hr
  have hyd : y ∈ doc := ref_doc h ho hp hr y (List.mem_of_getElem? hy)
  have hent : ∀ n z, entryAt g o p n z = .obj z := fun n z => by simp only [entryAt]; rw [if_pos (.inr ⟨hr2, hr3⟩)]
  have hobjs : s.objs = log.map (copyOf env g doc log k) := by simpa using hA.looks.objs
  have hnd := nodup_objects h ho hp hsv hr1
  have hset := set_object h hA.wf (hall o ho) hp hsv hr1 hy s [] (by simp [hobjs]) (by
    intro n z hn hz
    rw [hent, hent]
    intro e
    have hzd : z ∈ doc := ref_doc h ho hp hr z (List.mem_of_getElem? hz)
    have := im_inj (hall z hzd) (hall y hyd) e
    cases this
    have hn' : n < (objects (g.slot o p.2)).length := (List.getElem?_eq_some_iff.1 hz).1
    have := (List.getElem?_inj hn' hnd).1 (hz.trans hy.symm)
    omega) (some (k o p.2)) (.inr rfl)
  rw [hent] at hset
  have hcont : ∀ s0 : Dec D, contain s0 (im log (.obj o)) p.2 p.1 (im log (.obj y)) = s0 := by
    intro s0; simp [contain, hr2]
  rw [hcont] at hset
  refine ⟨_, ?_, hset, ?_⟩
  · rw [sees h hA.looks hA.wf hyd, if_pos (hall y hyd)]
  · refine ⟨log_bump h hA.wf hp ?_, ⟨by simp, by simp, hA.looks.roots, hA.looks.ids⟩, ?_, hA.errors, hA.builder, hA.refs, hA.objects, hA.types, hA.spaces⟩
    · intro _
      refine ⟨hr2, ?_⟩
      intro z hz
      rw [hent]
      exact hall z (ref_doc h ho hp hr z (List.mem_of_getElem? hz))
    · intro a q m z ha
      have := hA.proxies a q m z ha
      simp only [bump]
      split <;> omega

theorem refs_feature {log : List Entry} (hall : ∀ x ∈ doc, Entry.obj x ∈ log) {o : Nat} (ho : o ∈ doc) {p : Feature × Nat}
    (hp : p ∈ (env.features (g.cls o)).zipIdx) (hr : isRef g o p = true) {stk : List (Option Nat)} {tys : List Ty} {sp : List (List (Text × Text))}
    (rest : List Ref) (m : Nat) : ∀ {s : Dec D} {k : Nat → Nat → Nat}, At env g opt root doc s log k stk tys sp →
    k o p.2 + m = (objects (g.slot o p.2)).length →
    ∃ s' k', handleReferences env g.manager s (((objects (g.slot o p.2)).zipIdx.drop (k o p.2)).map
        (fun x => (⟨im log (.obj o), p.2, p.1, frag env g doc x.1, x.2⟩ : Ref)) ++ rest) = handleReferences env g.manager s' rest ∧
      At env g opt root doc s' log k' stk tys sp ∧ k' o p.2 = (objects (g.slot o p.2)).length ∧
      ∀ a j, ¬ (a = o ∧ j = p.2) → k' a j = k a j := by
  induction m with
  | zero =>
    intro s k hA hm
    refine ⟨s, k, ?_, hA, by omega, fun _ _ _ => rfl⟩
    rw [List.drop_eq_nil_of_le (by simp; omega)]
    rfl
  | succ m ih =>
    intro s k hA hm
    have hlt : k o p.2 < (objects (g.slot o p.2)).length := by omega
    have hy : (objects (g.slot o p.2))[k o p.2]? = some ((objects (g.slot o p.2))[k o p.2]) := List.getElem?_eq_getElem hlt
    generalize (objects (g.slot o p.2))[k o p.2] = y at hy
    obtain ⟨s1, e1, e2, hA1⟩ := refs_step h hA hall ho hp hr hy
    obtain ⟨s', k', e3, hA', hk', hk''⟩ := ih hA1 (by simp [bump]; omega)
    refine ⟨s', k', ?_, hA', hk', ?_⟩
    · have hd : (objects (g.slot o p.2)).zipIdx.drop (k o p.2) = (y, k o p.2) :: (objects (g.slot o p.2)).zipIdx.drop (k o p.2 + 1) := by
        rw [List.drop_eq_getElem_cons (by simpa using hlt)]
        congr 1
        apply Option.some.inj
        rw [← List.getElem?_eq_getElem, List.getElem?_zipIdx, hy]
        simp
      rw [hd, List.map_cons, List.cons_append, handleReferences, e1]
      simp only [e2, Option.bind_some]
      rw [← e3]
      simp [bump]
    · intro a j haj
      rw [hk'' a j haj]
      simp [bump, haj]

theorem refs_list {log : List Entry} (hall : ∀ x ∈ doc, Entry.obj x ∈ log) {stk : List (Option Nat)} {tys : List Ty} {sp : List (List (Text × Text))}
    (rest : List Ref) (L : List (Nat × (Feature × Nat))) : ∀ {s : Dec D} {k : Nat → Nat → Nat}, L.Nodup →
    (∀ a ∈ L, a.1 ∈ doc ∧ a.2 ∈ (env.features (g.cls a.1)).zipIdx ∧ (isRef g a.1 a.2 = true → k a.1 a.2.2 = vis g opt doc a.1 a.2)) →
    At env g opt root doc s log k stk tys sp →
    ∃ s' k', handleReferences env g.manager s (L.flatMap (fun a => pend env g opt doc (im log (.obj a.1)) a.1 a.2) ++ rest) =
        handleReferences env g.manager s' rest ∧
      At env g opt root doc s' log k' stk tys sp ∧
      (∀ a ∈ L, k' a.1 a.2.2 = if isRef g a.1 a.2 then (objects (g.slot a.1 a.2.2)).length else k a.1 a.2.2) ∧
      ∀ a j, (∀ b ∈ L, ¬ (a = b.1 ∧ j = b.2.2)) → k' a j = k a j := by
  induction L with
  | nil => intro s k _ _ hA; exact ⟨s, k, rfl, hA, by simp, fun _ _ _ => rfl⟩
  | cons a L ih =>
    intro s k hn hL hA
    rw [List.nodup_cons] at hn
    obtain ⟨ho, hp, hk⟩ := hL a (by simp)
    have hne : ∀ b ∈ L, ¬ (b.1 = a.1 ∧ b.2.2 = a.2.2) := by
      intro b hb ⟨e1, e2⟩
      have hb2 := (hL b (by simp [hb])).2.1
      rw [e1] at hb2
      have := zip_inj hb2 hp e2
      exact hn.1 (by rw [← Prod.ext e1 this]; exact hb)
    by_cases hr : isRef g a.1 a.2 = true
    · have hv := hk hr
      have hle := vis_le h (o := a.1) (p := a.2)
      obtain ⟨s1, k1, e1, hA1, hk1, hk2⟩ := refs_feature h hall ho hp hr (L.flatMap (fun a => pend env g opt doc (im log (.obj a.1)) a.1 a.2) ++ rest)
        ((objects (g.slot a.1 a.2.2)).length - k a.1 a.2.2) hA (by omega)
      obtain ⟨s', k', e2, hA2, hk3, hk4⟩ := ih hn.2 (k := k1) (fun b hb => by
        obtain ⟨q1, q2, q3⟩ := hL b (by simp [hb])
        exact ⟨q1, q2, fun hr => by rw [hk2 _ _ (hne b hb), q3 hr]⟩) hA1
      refine ⟨s', k', ?_, hA2, ?_, ?_⟩
      · rw [← e2, ← e1, List.flatMap_cons, List.append_assoc]
        simp only [pend, hr, if_true, hv]
      · intro b hb
        rcases List.mem_cons.1 hb with rfl | hb
        · rw [hk4 _ _ (fun c hc e => hne c hc ⟨e.1.symm, e.2.symm⟩), hk1, if_pos hr]
        · rw [hk3 b hb, hk2 _ _ (hne b hb)]
      · intro c j hc
        rw [hk4 c j (fun b hb => hc b (by simp [hb])), hk2 c j (hc a (by simp))]
    · obtain ⟨s', k', e2, hA2, hk3, hk4⟩ := ih hn.2 (fun b hb => hL b (by simp [hb])) hA
      refine ⟨s', k', ?_, hA2, ?_, ?_⟩
      · rw [← e2, List.flatMap_cons]
        simp only [pend, hr, if_false, List.nil_append, Bool.false_eq_true]
      · intro b hb
        rcases List.mem_cons.1 hb with rfl | hb
        · rw [hk4 _ _ (fun c hc e => hne c hc ⟨e.1.symm, e.2.symm⟩), if_neg hr]
        · exact hk3 b hb
      · intro c j hc
        exact hk4 c j (fun b hb => hc b (by simp [hb]))

/-- all the references -/
theorem refs_all {s : Dec D} {log : List Entry} {k : Nat → Nat → Nat} {stk : List (Option Nat)} {tys : List Ty} {sp : List (List (Text × Text))}
    (hA : At env g opt root doc s log k stk tys sp) (hobjs : objsOf log = doc)
    (hk : ∀ o ∈ doc, ∀ p ∈ (env.features (g.cls o)).zipIdx, k o p.2 = vis g opt doc o p + count p (allItems env g o)) :
    ∃ s' k', handleReferences env g.manager s (refsOf env g opt doc log) = some s' ∧ At env g opt root doc s' log k' stk tys sp ∧
      ∀ o ∈ doc, ∀ p ∈ (env.features (g.cls o)).zipIdx, k' o p.2 = if isRef g o p then (objects (g.slot o p.2)).length else (items g o p).length := by
  have hall : ∀ x ∈ doc, Entry.obj x ∈ log := fun x hx => mem_objsOf.1 (by rw [hobjs]; exact hx)
  let L : List (Nat × (Feature × Nat)) := doc.flatMap fun o => (env.features (g.cls o)).zipIdx.map fun p => (o, p)
  have hmem : ∀ a, a ∈ L ↔ a.1 ∈ doc ∧ a.2 ∈ (env.features (g.cls a.1)).zipIdx := by
    intro a
    simp only [L, List.mem_flatMap, List.mem_map]
    constructor
    · rintro ⟨o, ho, p, hp, rfl⟩; exact ⟨ho, hp⟩
    · rintro ⟨ho, hp⟩; exact ⟨_, ho, _, hp, rfl⟩
  have hnd : L.Nodup := by
    rw [List.nodup_flatMap]
    refine ⟨fun o _ => (zipIdx_nodup _).map (fun a b e => (Prod.mk.inj e).2), ?_⟩
    refine h.nodup.imp ?_
    intro a b hab
    simp only [Function.onFun]
    intro c hc hc'
    simp only [List.mem_map] at hc hc'
    obtain ⟨p, -, rfl⟩ := hc
    obtain ⟨q, -, e⟩ := hc'
    exact hab (Prod.mk.inj e).1.symm
  have hitems : ∀ o p, isRef g o p = true → items g o p = [] := by
    intro o p hr
    obtain ⟨hsv, hr1, hr2, hr3⟩ := (isRef_iff h).1 hr
    unfold items
    rw [kind_href hsv hr1 hr2]
    cases p.1.many <;> simp [hr3]
  obtain ⟨s', k', e, hA', hk', -⟩ := refs_list h hall [] L hnd (k := k) (fun a ha => by
    obtain ⟨ha1, ha2⟩ := (hmem a).1 ha
    refine ⟨ha1, ha2, fun hr => ?_⟩
    rw [hk _ ha1 _ ha2, count_all ha2, hitems _ _ hr]
    simp) hA
  refine ⟨s', k', ?_, hA', ?_⟩
  · rw [List.append_nil] at e
    have : refsOf env g opt doc log = L.flatMap (fun a => pend env g opt doc (im log (.obj a.1)) a.1 a.2) := by
      simp only [refsOf, hobjs, L, List.flatMap_assoc, List.flatMap_map]
    rw [this, e]
    rfl
  · intro o ho p hp
    rw [hk' (o, p) ((hmem (o, p)).2 ⟨ho, hp⟩)]
    simp only
    split
    · rfl
    · rename_i hr
      rw [hk o ho p hp, count_all hp, vis_zero h (by simpa using hr)]
      omega

end

end Verif.XMLCodec
