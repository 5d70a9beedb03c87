import Verif.Proofs.XMLCodecLog

/-!
# The decoder reads the elements
-/

namespace Verif.XMLCodec

open Verif.XMLString (Text escape)
open Verif.XMLString.Spec (Forest)
open Verif.XMLLex (Name Token LegalName Literal attributeName elementName readText Reads IsBlank NotDecl rawName)
open Spec

variable {D : Type}

/-- the objects that have been read, in order -/
def objsOf (log : List Entry) : List Nat := log.filterMap fun
  | .obj x => some x
  | .proxy .. => none

theorem mem_objsOf {log : List Entry} {x : Nat} : x ∈ objsOf log ↔ Entry.obj x ∈ log := by
  simp only [objsOf, List.mem_filterMap]
  constructor
  · rintro ⟨e, he, e'⟩
    cases e with
    | obj y => cases e'; exact he
    | proxy => cases e'
  · intro hx; exact ⟨_, hx, rfl⟩

theorem objsOf_obj (log : List Entry) (x : Nat) : objsOf (log ++ [.obj x]) = objsOf log ++ [x] := by simp [objsOf]

theorem objsOf_proxy (log : List Entry) (o : Nat) (p : Feature × Nat) (n x : Nat) : objsOf (log ++ [.proxy o p n x]) = objsOf log := by simp [objsOf]

/-- the references that are left for later -/
noncomputable def refsOf (env : Env D) (g : Graph D) (opt : Opt) (doc : List Nat) (log : List Entry) : List Ref :=
  (objsOf log).flatMap fun x => (env.features (g.cls x)).zipIdx.flatMap (pend env g opt doc (im log (.obj x)) x)

/-- the state between two elements -/
structure At (env : Env D) (g : Graph D) (opt : Opt) (root : Nat) (doc : List Nat) (s : Dec D) (log : List Entry) (k : Nat → Nat → Nat)
    (stk : List (Option Nat)) (tys : List Ty) (sp : List (List (Text × Text))) : Prop where
  wf : Log env g doc log k
  looks : Looks env g root doc s log k [] none
  proxies : ∀ o p n x, Entry.proxy o p n x ∈ log → n < k o p.2
  errors : s.errors = 0
  builder : s.builder = none
  refs : s.refs = refsOf env g opt doc log
  objects : s.objects = stk
  types : s.types = tys
  spaces : s.spaces = sp

theorem run_append (env : Env D) (m : Bool) (opt : Opt) (s s' : Dec D) (a b : List Token) (ha : run env m opt s a = some s') :
    run env m opt s (a ++ b) = run env m opt s' b := by
  induction a generalizing s with
  | nil => rw [run] at ha; cases ha; rfl
  | cons x a ih =>
    rw [run] at ha
    rw [List.cons_append, run]
    cases hx : step env m opt s x with
    | none => rw [hx] at ha; cases ha
    | some s1 =>
      rw [hx] at ha
      simp only [Option.bind_some] at ha ⊢
      exact ih _ ha

theorem run_blank (env : Env D) (m : Bool) (opt : Opt) (s : Dec D) (hb : s.builder = none) (ws rest : List Token) (hw : ∀ w ∈ ws, IsBlank w) :
    run env m opt s (ws ++ rest) = run env m opt s rest := by
  induction ws with
  | nil => rfl
  | cons w ws ih =>
    obtain ⟨t, rfl, -⟩ := hw w (by simp)
    rw [List.cons_append, run]
    simp only [step, hb, Option.map_none, Option.bind_some]
    have : ({ s with builder := none } : Dec D) = s := by rw [← hb]
    rw [this]
    exact ih fun w hw' => hw w (by simp [hw'])

section
variable {env : Env D} {g : Graph D} {opt : Opt} {root : Nat} {doc : List Nat}
variable (h : Savable env g opt root doc)
include h

theorem refsOf_obj {log : List Entry} {x : Nat} (hx : Entry.obj x ∉ log) : refsOf env g opt doc (log ++ [.obj x]) =
    refsOf env g opt doc log ++ (env.features (g.cls x)).zipIdx.flatMap (pend env g opt doc log.length x) := by
  simp only [refsOf, objsOf_obj, List.flatMap_append, List.flatMap_cons, List.flatMap_nil, List.append_nil]
  congr 1
  · apply List.flatMap_congr
    intro y hy
    rw [im_append (mem_objsOf.1 hy)]
  · have : im (log ++ [Entry.obj x]) (.obj x) = log.length := by
      rw [im_snoc (.inr rfl), im, List.idxOf_eq_length hx]
    rw [this]

theorem refsOf_proxy {log : List Entry} {o : Nat} {p : Feature × Nat} {n x : Nat} : refsOf env g opt doc (log ++ [.proxy o p n x]) =
    refsOf env g opt doc log := by
  simp only [refsOf, objsOf_proxy]
  apply List.flatMap_congr
  intro y hy
  rw [im_append (mem_objsOf.1 hy)]

/-! ## Attributes of elements -/

/-- an attribute of an inner element -/
def InnerAttr (a : Text × Text) : Prop := a.1 = "xsi:type".toList ∨ (':' ∉ a.1 ∧ a.1 ≠ XMLLex.xmlns)

theorem type_name {d : List String} {ns : List (Text × Text)} (hn : GoodSpaces env g doc d ns) (hx : "xsi" ∈ d) :
    attributeName ns "xsi:type".toList = ⟨xsiURI, "type".toList⟩ := by
  unfold attributeName
  have : rawName "xsi:type".toList = ⟨"xsi".toList, "type".toList⟩ := by decide
  rw [this, XMLLex.translate, if_neg (by decide), if_neg (by decide), if_neg (by decide)]
  simp only [hn.xsi hx]

theorem prefixesOf_inner {d : List String} {ns : List (Text × Text)} (hn : GoodSpaces env g doc d ns) (l : List (Text × Text))
    (hl : ∀ a ∈ l, InnerAttr a) (hx : ∀ a ∈ l, a.1 = "xsi:type".toList → "xsi" ∈ d) : prefixesOf (toks ns l) = [] := by
  simp only [prefixesOf, List.reverse_eq_nil_iff, List.filterMap_eq_nil_iff]
  intro b hb
  simp only [toks, List.mem_map] at hb
  obtain ⟨a, ha, rfl⟩ := hb
  simp only
  rcases hl a ha with e | ⟨e1, e2⟩
  · rw [e, type_name h hn (hx a ha e), if_neg (show xsiURI ≠ XMLLex.xmlns by decide), if_neg]
    rintro ⟨e, -⟩
    exact absurd e (show xsiURI ≠ [] by decide)
  · rw [attributeName_plain h ns e1, if_neg (show ([] : Text) ≠ XMLLex.xmlns by decide), if_neg]
    rintro ⟨-, e⟩
    exact e2 e

theorem lookup_plain (ns l : List (Text × Text)) (hl : ∀ a ∈ l, ':' ∉ a.1) (u t : Text) (hu : u ≠ []) : (toks ns l).lookup ⟨u, t⟩ = none := by
  rw [List.lookup_eq_none_iff]
  intro b hb
  simp only [toks, List.mem_map] at hb
  obtain ⟨a, ha, rfl⟩ := hb
  simp only [attributeName_plain h ns (hl a ha), beq_eq_false_iff_ne, ne_eq, Name.mk.injEq, not_and, bne_iff_ne]
  intro e; exact absurd e hu

theorem xsiType_plain (ns l : List (Text × Text)) (hl : ∀ a ∈ l, ':' ∉ a.1) : xsiType (toks ns l) = [] := by
  simp only [xsiType, attributeValue, lookup_plain h ns l hl xsiURI _ (by decide), lookup_plain h ns l hl xmiURI _ (by decide),
    Option.getD_none, if_true]

theorem xsiType_first {d : List String} {ns : List (Text × Text)} (hn : GoodSpaces env g doc d ns) (hx : "xsi" ∈ d) (q : Text) (hq : Literal q)
    (hne : q ≠ []) (l : List (Text × Text)) : xsiType (toks ns (("xsi:type".toList, q) :: l)) = q := by
  simp only [xsiType, attributeValue, toks, List.map_cons, type_name h hn hx, XMLLex.readText_literal hq, Option.getD_some, List.lookup_cons,
    BEq.rfl]
  rw [if_neg hne]

/-- the class that the name of a type leads to -/
theorem type_class {d : List String} {ns : List (Text × Text)} (hn : GoodSpaces env g doc d ns) {c : Nat} (hc : Named env g doc c)
    (hd : env.ns.nsPrefix (env.pkg c) ∈ d) {s : Dec D} (hs : s.spaces.flatten = ns) :
    env.factory (spaceOf s (splitQName (qname env c)).1) = some (env.pkg c) ∧ env.classifier (env.pkg c) (splitQName (qname env c)).2 = some c := by
  have hk := h.known c hc
  have : splitQName (qname env c) = ((env.ns.nsPrefix (env.pkg c)).toList, env.name c) :=
    splitQName_prefixed _ _ hk.pre.2 (legal_ne hk.pre.1)
  rw [this]
  simp only [spaceOf, hs, hn.package c hc hd, Option.getD_some]
  exact ⟨hk.factory, hk.classifier⟩

theorem idAttr_plain {x : Nat} (hx : x ∈ doc) : ∀ a ∈ idAttrs g opt x, ':' ∉ a.1 ∧ a.1 ≠ XMLLex.xmlns := by
  intro a ha
  rcases ids_eq h hx with ⟨-, e⟩ | ⟨hm, id, -, -, e⟩
  · rw [e] at ha; cases ha
  · rw [e, List.mem_singleton] at ha
    subst ha
    refine ⟨(h.managed hm).1.2.1, ?_⟩
    intro e
    apply h.idAttribute
    simp only at e
    rw [e]; decide

theorem allAttr_plain {x : Nat} (hx : x ∈ doc) : ∀ a ∈ allAttrs env g doc x, ':' ∉ a.1 ∧ a.1 ≠ XMLLex.xmlns := by
  intro a ha
  simp only [allAttrs, List.mem_flatMap] at ha
  obtain ⟨p, hp, ha⟩ := ha
  have hf := (h.features x hx).2 p.1 (feature_mem h hp)
  have : a.1 = p.1.name := attrs_name h ha
  rw [this]
  exact ⟨hf.1.2.1, hf.2.2.1⟩

/-- a prefix of a name that is written -/
theorem typed_prefix {d : List String} {c c' : Nat} (hc : Named env g doc c) (hc' : Named env g doc c') (e : qname env c = qname env c')
    (hd : env.ns.nsPrefix (env.pkg c') ∈ d) : env.ns.nsPrefix (env.pkg c) ∈ d := by
  have hk := h.known c hc
  have hk' := h.known c' hc'
  have e1 : splitQName (qname env c) = ((env.ns.nsPrefix (env.pkg c)).toList, env.name c) :=
    splitQName_prefixed _ _ hk.pre.2 (legal_ne hk.pre.1)
  have e2 : splitQName (qname env c') = ((env.ns.nsPrefix (env.pkg c')).toList, env.name c') :=
    splitQName_prefixed _ _ hk'.pre.2 (legal_ne hk'.pre.1)
  rw [e, e2] at e1
  simp only [Prod.mk.injEq] at e1
  rw [← toList_inj h e1.1]
  exact hd

/-- an element for a reference: an object is created and placed -/
theorem handle_ref {s : Dec D} {o' o : Nat} {stk : List (Option Nat)} (ho : o ∈ doc) (hs : s.objects = some o' :: stk) (hcls : clsOf s o' = g.cls o)
    {p : Feature × Nat} (hp : p ∈ (env.features (g.cls o)).zipIdx) (hr : p.1.isReference = true) {c : Nat} (hc : env.isAbstract c = false)
    (as : List (Name × Text))
    (ht : (xsiType as = [] ∧ p.1.type = c) ∨ (xsiType as ≠ [] ∧ ∃ pk, env.factory (spaceOf s (splitQName (xsiType as)).1) = some pk ∧
      env.classifier pk (splitQName (xsiType as)).2 = some c)) :
    handleFeature env g.manager opt s p.1.name as =
      (handleAttributes env g.manager opt s.objs.length { s with objs := s.objs ++ [{ cls := c }] } as).bind fun s1 =>
        place s1 o' p.2 p.1 (some s.objs.length) := by
  have hcr : create env g.manager opt s (some c) as =
      (handleAttributes env g.manager opt s.objs.length { s with objs := s.objs ++ [{ cls := c }] } as).map (·, some s.objs.length) := by
    simp only [create, hc, Bool.false_eq_true, if_false, alloc]
  generalize handleAttributes env g.manager opt s.objs.length { s with objs := s.objs ++ [{ cls := c }] } as = r at hcr ⊢
  simp only [handleFeature, hs, hcls, findFeature_eq env _ (h.features o ho).1 p hp, hr, if_true]
  rcases ht with ⟨e, rfl⟩ | ⟨e, pk, e1, e2⟩
  · simp only [e, ne_eq, not_true_eq_false, if_false, hcr, Option.bind_eq_bind]
    cases r <;> rfl
  · simp only [e, ne_eq, not_false_eq_true, if_true, e1, e2, hcr, Option.bind_eq_bind]
    cases r <;> rfl

theorem copy_begin {log : List Entry} {k : Nat → Nat → Nat} {x : Nat} (hx : Entry.obj x ∉ log) {a : Entry} (ha : a ∈ log) :
    copyOf env g doc log (begin' env g opt doc k x) a = copyOf env g doc log k a := by
  cases a with
  | proxy => rfl
  | obj y =>
    have : y ≠ x := by rintro rfl; exact hx ha
    simp only [copyOf]
    congr 1
    funext i
    simp only [slots, begin', this, if_false]

theorem objs_snoc {log : List Entry} {k' : Nat → Nat → Nat} {e : Entry} (hl : Log env g doc (log ++ [e]) k') (k : Nat → Nat → Nat)
    (hk : ∀ a ∈ log, copyOf env g doc log k' a = copyOf env g doc log k a) :
    log.map (copyOf env g doc log k) ++ [copyOf env g doc (log ++ [e]) k' e] = (log ++ [e]).map (copyOf env g doc (log ++ [e]) k') := by
  rw [List.map_append]
  congr 1
  apply List.map_congr_left
  intro a ha
  rw [copy_snoc h hl ha, hk a ha]

/-- the start of an element for a contained object -/
theorem start_child {s : Dec D} {log : List Entry} {k : Nat → Nat → Nat} {stk : List (Option Nat)} {tys : List Ty}
    {sp : List (List (Text × Text))} {o : Nat} (ho : Entry.obj o ∈ log)
    (hA : At env g opt root doc s log k (some (im log (.obj o)) :: stk) tys sp) {d : List String} (hn : GoodSpaces env g doc d sp.flatten)
    {p : Feature × Nat} (hp : p ∈ (env.features (g.cls o)).zipIdx) (hsv : Saved p.1) (hr : p.1.isReference = true) (hct : p.1.containment = true)
    {x : Nat} (hx : (objects (g.slot o p.2))[k o p.2]? = some x) (hin : Inside g x) (hmem : x ∈ doc) (hnew : Entry.obj x ∉ log)
    (hbefore : ∀ y, Entry.obj y ∈ log ↔ doc.idxOf y < doc.idxOf x)
    (hT : ∀ a ∈ typeAttrs env g p x, a.1 = "xsi:type".toList → "xsi" ∈ d ∧ ∃ c, Named env g doc c ∧ a.2 = qname env c ∧ env.ns.nsPrefix (env.pkg c) ∈ d) :
    ∃ s', step env g.manager opt s (.start ⟨[], p.1.name⟩ (toks sp.flatten (typeAttrs env g p x ++ idAttrs g opt x ++ allAttrs env g doc x))) = some s' ∧
      At env g opt root doc s' (log ++ [.obj x]) (begin' env g opt doc (bump k o p.2) x)
        (some (im (log ++ [.obj x]) (.obj x)) :: some (im log (.obj o)) :: stk) (.object :: tys) ([] :: sp) := by
  have hod := hA.wf.objs o ho
  have hobjs : s.objs = log.map (copyOf env g doc log k) := by simpa using hA.looks.objs
  have hlen : s.objs.length = log.length := by simp [hobjs]
  have hnamed : Named env g doc (g.cls x) := ⟨x, hmem, .inl rfl⟩
  have hconc := (h.known _ hnamed).concrete
  have himx : im log (.obj x) = log.length := List.idxOf_eq_length hnew
  have hinner : ∀ a ∈ typeAttrs env g p x ++ idAttrs g opt x ++ allAttrs env g doc x, InnerAttr a := by
    intro a ha
    simp only [List.mem_append] at ha
    rcases ha with (ha | ha) | ha
    · simp only [typeAttrs] at ha
      split at ha
      · simp only [List.mem_singleton] at ha; subst ha; exact .inl rfl
      · cases ha
    · exact .inr (idAttr_plain h hmem a ha)
    · exact .inr (allAttr_plain h hmem a ha)
  have hplain : ∀ a ∈ idAttrs g opt x ++ allAttrs env g doc x, ':' ∉ a.1 := by
    intro a ha
    rcases List.mem_append.1 ha with ha | ha
    · exact (idAttr_plain h hmem a ha).1
    · exact (allAttr_plain h hmem a ha).1
  have hpre : prefixesOf (toks sp.flatten (typeAttrs env g p x ++ idAttrs g opt x ++ allAttrs env g doc x)) = [] := by
    apply prefixesOf_inner h hn _ hinner
    intro a ha e
    simp only [List.mem_append, or_assoc] at ha
    rcases ha with ha | ha
    · exact (hT a ha e).1
    · exact absurd (show ':' ∈ a.1 by rw [e]; decide) (hplain a (List.mem_append.2 ha))
  let t : Dec D := { s with spaces := [] :: s.spaces }
  have htsp : t.spaces.flatten = sp.flatten := by simp [t, hA.spaces]
  have hB : Before env g root doc t log k x := ⟨hA.wf, ⟨hA.looks.objs, hA.looks.alone, hA.looks.roots, hA.looks.ids⟩, hmem, hnew, hbefore⟩
  have htoks : toks sp.flatten (typeAttrs env g p x ++ idAttrs g opt x ++ allAttrs env g doc x) =
      toks sp.flatten (typeAttrs env g p x) ++ toks sp.flatten (idAttrs g opt x ++ allAttrs env g doc x) := by simp [toks]
  have hstep : step env g.manager opt s (.start ⟨[], p.1.name⟩ (toks sp.flatten (typeAttrs env g p x ++ idAttrs g opt x ++ allAttrs env g doc x))) =
      handleFeature env g.manager opt t p.1.name (toks sp.flatten (typeAttrs env g p x ++ idAttrs g opt x ++ allAttrs env g doc x)) := by
    simp only [step, startElement, hpre]
    rw [if_neg (by simp [hA.objects])]
  have hattrs := read_attributes h hB sp.flatten (begin' env g opt doc (bump k o p.2) x) (fun i => by simp [begin'])
  have hclass : (xsiType (toks sp.flatten (typeAttrs env g p x ++ idAttrs g opt x ++ allAttrs env g doc x)) = [] ∧ p.1.type = g.cls x) ∨
      (xsiType (toks sp.flatten (typeAttrs env g p x ++ idAttrs g opt x ++ allAttrs env g doc x)) ≠ [] ∧
        ∃ pk, env.factory (spaceOf t (splitQName (xsiType (toks sp.flatten (typeAttrs env g p x ++ idAttrs g opt x ++ allAttrs env g doc x)))).1) = some pk ∧
          env.classifier pk (splitQName (xsiType (toks sp.flatten (typeAttrs env g p x ++ idAttrs g opt x ++ allAttrs env g doc x)))).2 = some (g.cls x)) := by
    by_cases ht : p.1.type ≠ g.cls x ∧ p.1.type ≠ env.eObject
    · right
      have e : typeAttrs env g p x = [("xsi:type".toList, qname env (g.cls x))] := by simp only [typeAttrs]; rw [if_pos ht]
      rw [e] at hT ⊢
      obtain ⟨hxsi, c, hc, e1, hd⟩ := hT _ (List.mem_singleton.2 rfl) rfl
      have hd := typed_prefix h hnamed hc e1 hd
      have hq := legal_ne (qname_legal h hnamed)
      have := xsiType_first h hn hxsi _ (literal_legal (qname_legal h hnamed)) hq (idAttrs g opt x ++ allAttrs env g doc x)
      simp only [List.cons_append, List.nil_append]
      rw [this]
      exact ⟨hq, _, type_class h hn hnamed hd htsp⟩
    · left
      have e : typeAttrs env g p x = [] := by simp only [typeAttrs]; rw [if_neg ht]
      rw [e, List.nil_append]
      refine ⟨xsiType_plain h _ _ hplain, ?_⟩
      by_cases e1 : p.1.type = g.cls x
      · exact e1
      · have e2 : p.1.type = env.eObject := by
          by_cases e2 : p.1.type = env.eObject
          · exact e2
          · exact absurd ⟨e1, e2⟩ ht
        rw [e2, h.types o hod p hp hsv x (List.mem_of_getElem? hx) e2]
  have hskip : ∀ s1 : Dec D, handleAttributes env g.manager opt t.objs.length s1
      (toks sp.flatten (typeAttrs env g p x ++ idAttrs g opt x ++ allAttrs env g doc x)) =
      handleAttributes env g.manager opt t.objs.length s1 (toks sp.flatten (idAttrs g opt x ++ allAttrs env g doc x)) := by
    intro s1
    rw [htoks]
    apply skip_attributes h
    intro b hb
    simp only [toks, List.mem_map] at hb
    obtain ⟨a, ha, rfl⟩ := hb
    have e : a.1 = "xsi:type".toList := by
      simp only [typeAttrs] at ha
      split at ha
      · simp only [List.mem_singleton] at ha; subst ha; rfl
      · cases ha
    simp only [e, type_name h hn (hT a ha e).1]
    refine ⟨?_, by decide, .inr (by simp [notFeatures])⟩
    intro e
    apply h.idAttribute
    rw [← e]; simp
  rw [hstep, handle_ref h hod (s := t) (hA.objects) (cls_im h hB.looks ho) hp hr hconc _ hclass, hskip, hattrs, Option.bind_some]
  have hLog := log_child h hA.wf ho hp hsv hr hct hx hin hmem hnew hbefore
  have hentry : entryAt g o p (k o p.2) x = .obj x := by simp only [entryAt]; rw [if_pos (.inl ⟨hct, hin⟩)]
  have hset := set_object h hA.wf ho hp hsv hr hx
    { t with
        objs := t.objs ++ [{ cls := g.cls x, slot := slots env g (log ++ [.obj x]) (begin' env g opt doc (bump k o p.2) x) x }]
        ids := newIds g x t.objs.length t.ids
        refs := t.refs ++ (env.features (g.cls x)).zipIdx.flatMap (pend env g opt doc t.objs.length x) }
    [{ cls := g.cls x, slot := slots env g (log ++ [.obj x]) (begin' env g opt doc (bump k o p.2) x) x }] (by simp [t, hobjs])
    (by
      intro n y hlt hn
      rw [hentry, himx]
      have := im_lt (hA.wf.seen o ho p hp hr hsv n y hn hlt)
      omega) none (.inl rfl)
  rw [hentry, himx] at hset
  have hJ : t.objs.length = log.length := hlen
  rw [hJ] at hset ⊢
  simp only [place, hset, Option.bind_eq_bind, Option.bind_some]
  have hxroot : root ≠ x := by
    rintro rfl
    have := h.container o hod p hp hr hct hsv.1 root (List.mem_of_getElem? hx) hin
    rw [h.top.1] at this; cases this
  have hcx : g.container x = some (o, p.2) := h.container o hod p hp hr hct hsv.1 x (List.mem_of_getElem? hx) hin
  have hobjs' := objs_snoc h hLog (bump k o p.2) (fun a ha => copy_begin h hnew ha)
  have hmod := modify_last (log.map (copyOf env g doc log (bump k o p.2)))
    ({ cls := g.cls x, slot := slots env g (log ++ [.obj x]) (begin' env g opt doc (bump k o p.2) x) x } : Copy D)
    (fun c => { c with container := some (im log (.obj o), p.2) })
  rw [List.length_map] at hmod
  refine ⟨_, rfl, hLog, ⟨?_, by simp, ?_, ?_⟩, ?_, ?_, ?_, ?_, ?_, ?_, ?_⟩
  · simp only [processObject, contain, hct, if_true, update, hmod, List.append_nil]
    rw [← hobjs']
    simp only [copyOf, hcx, Option.map_some]
    rw [im_snoc (.inl ho)]
  · simp only [processObject, contain, hct, if_true, update]
    rw [show t.roots = s.roots from rfl, hA.looks.roots]
    simp only [List.mem_append, List.mem_singleton, Entry.obj.injEq, hxroot, or_false]
    split
    · rename_i hm; rw [im_append hm]
    · rfl
  · intro hm y hy id hid
    simp only [processObject, contain, hct, if_true, update]
    have := (reading h hB).ids hm y hy id hid
    rw [hJ] at this
    rw [this]
    by_cases hy' : Entry.obj y ∈ log
    · rw [if_pos hy', if_pos (List.mem_append_left _ hy'), im_append hy']
    · rw [if_neg hy']
      by_cases e : x = y
      · subst e
        rw [if_pos rfl, if_pos (by simp), im_snoc (.inr rfl), himx]
      · rw [if_neg (by simpa using e), if_neg (by simp [hy', Ne.symm e]), if_neg (by simp)]
  · intro a q n y ha
    have ha' : Entry.proxy a q n y ∈ log := by simpa using ha
    have hax : a ≠ x := by rintro rfl; exact hnew (hA.wf.owner _ _ _ _ ha')
    have := hA.proxies a q n y ha'
    simp only [begin', hax, if_false, bump]
    split <;> omega
  · simp only [processObject, contain, hct, if_true, update]; exact hA.errors
  · simp only [processObject, contain, hct, if_true, update]; exact hA.builder
  · simp only [processObject, contain, hct, if_true, update]
    rw [refsOf_obj h hnew, ← hA.refs]
  · simp only [processObject, contain, hct, if_true, update, im_snoc (.inr rfl), himx]
    rw [show t.objects = s.objects from rfl, hA.objects]
  · simp only [processObject, contain, hct, if_true, update]
    rw [show t.types = s.types from rfl, hA.types]
  · simp only [processObject, contain, hct, if_true, update, t, hA.spaces]

/-- the start of an element for an object of another document -/
theorem start_href {s : Dec D} {log : List Entry} {k : Nat → Nat → Nat} {stk : List (Option Nat)} {tys : List Ty}
    {sp : List (List (Text × Text))} {o : Nat} (ho : Entry.obj o ∈ log)
    (hA : At env g opt root doc s log k (some (im log (.obj o)) :: stk) tys sp) {d : List String} (hn : GoodSpaces env g doc d sp.flatten)
    {p : Feature × Nat} (hp : p ∈ (env.features (g.cls o)).zipIdx) (hsv : Saved p.1) (hr : p.1.isReference = true)
    {x : Nat} (hx : (objects (g.slot o p.2))[k o p.2]? = some x)
    (hc : (p.1.containment = true ∧ ¬ Inside g x) ∨ (p.1.containment = false ∧ crossed g (g.slot o p.2) = true))
    (hT : ∀ a ∈ hrefAttrs env g doc p x, a.1 = "xsi:type".toList → "xsi" ∈ d ∧ ∃ c, Named env g doc c ∧ a.2 = qname env c ∧ env.ns.nsPrefix (env.pkg c) ∈ d) :
    ∃ s' i, step env g.manager opt s (.start ⟨[], p.1.name⟩ (toks sp.flatten (hrefAttrs env g doc p x))) = some s' ∧
      At env g opt root doc s' (log ++ [.proxy o p (k o p.2) x]) (bump k o p.2)
        (some i :: some (im log (.obj o)) :: stk) (.object :: tys) ([] :: sp) := by
  have hod := hA.wf.objs o ho
  have hobjs : s.objs = log.map (copyOf env g doc log k) := by simpa using hA.looks.objs
  have hlen : s.objs.length = log.length := by simp [hobjs]
  have hxm := List.mem_of_getElem? hx
  obtain ⟨-, -, hlit, hne, hres, hnamed⟩ := href_ok h hod hp hsv hxm hc
  have hconc := (h.known _ hnamed).concrete
  have hnew : Entry.proxy o p (k o p.2) x ∉ log := fun e => Nat.lt_irrefl _ (hA.proxies _ _ _ _ e)
  have himx : im log (.proxy o p (k o p.2) x) = log.length := List.idxOf_eq_length hnew
  have hinner : ∀ a ∈ hrefAttrs env g doc p x, InnerAttr a := by
    intro a ha
    simp only [hrefAttrs, List.mem_append, List.mem_singleton] at ha
    rcases ha with ha | rfl
    · split at ha
      · simp only [List.mem_singleton] at ha; subst ha; exact .inl rfl
      · cases ha
    · exact .inr ⟨show ':' ∉ "href".toList by decide, show "href".toList ≠ XMLLex.xmlns by decide⟩
  have hpre : prefixesOf (toks sp.flatten (hrefAttrs env g doc p x)) = [] :=
    prefixesOf_inner h hn _ hinner fun a ha e => (hT a ha e).1
  let t : Dec D := { s with spaces := [] :: s.spaces }
  have htsp : t.spaces.flatten = sp.flatten := by simp [t, hA.spaces]
  have hL : Looks env g root doc t log k [] none := ⟨hA.looks.objs, hA.looks.alone, hA.looks.roots, hA.looks.ids⟩
  have hJ : t.objs.length = log.length := hlen
  have hstep : step env g.manager opt s (.start ⟨[], p.1.name⟩ (toks sp.flatten (hrefAttrs env g doc p x))) =
      handleFeature env g.manager opt t p.1.name (toks sp.flatten (hrefAttrs env g doc p x)) := by
    simp only [step, startElement, hpre]
    rw [if_neg (by simp [hA.objects])]
  have hidh : "href".toList ≠ opt.idAttribute := by
    intro e
    apply h.idAttribute
    rw [← e]; simp
  have hhref : ∀ s1 : Dec D, handleAttributes env g.manager opt t.objs.length s1 (toks sp.flatten [("href".toList, env.relativize (url env g doc x))]) =
      some (update s1 t.objs.length fun c => { c with proxy := some (url env g doc x) }) := by
    intro s1
    simp only [toks, List.map_cons, List.map_nil]
    rw [attributeName_plain h _ (show ':' ∉ "href".toList by decide), handleAttributes, if_neg hidh, if_pos rfl]
    simp only [XMLLex.readText_literal hlit, Option.getD_some, handleProxy, hres, Option.bind_eq_bind, Option.bind_some]
    rfl
  have hclass : env.isAbstract (hrefCls env g p x) = false ∧ ((xsiType (toks sp.flatten (hrefAttrs env g doc p x)) = [] ∧ p.1.type = hrefCls env g p x) ∨
      (xsiType (toks sp.flatten (hrefAttrs env g doc p x)) ≠ [] ∧
        ∃ pk, env.factory (spaceOf t (splitQName (xsiType (toks sp.flatten (hrefAttrs env g doc p x)))).1) = some pk ∧
          env.classifier pk (splitQName (xsiType (toks sp.flatten (hrefAttrs env g doc p x)))).2 = some (hrefCls env g p x))) ∧
      ∀ s1 : Dec D, handleAttributes env g.manager opt t.objs.length s1 (toks sp.flatten (hrefAttrs env g doc p x)) =
        some (update s1 t.objs.length fun c => { c with proxy := some (url env g doc x) }) := by
    by_cases ht : p.1.type ≠ g.cls x ∧ env.isAbstract p.1.type = true
    · have e : hrefAttrs env g doc p x = ("xsi:type".toList, qname env (g.cls x)) :: [("href".toList, env.relativize (url env g doc x))] := by
        simp only [hrefAttrs]; rw [if_pos ht]; rfl
      have ec : hrefCls env g p x = g.cls x := by simp only [hrefCls]; rw [if_pos ht]
      rw [e] at hT ⊢
      rw [ec]
      obtain ⟨hxsi, c, hc, e1, hd⟩ := hT _ (List.mem_cons_self ..) rfl
      have hd := typed_prefix h hnamed hc e1 hd
      have hq := legal_ne (qname_legal h hnamed)
      have := xsiType_first h hn hxsi _ (literal_legal (qname_legal h hnamed)) hq [("href".toList, env.relativize (url env g doc x))]
      rw [this]
      refine ⟨hconc, .inr ⟨hq, _, type_class h hn hnamed hd htsp⟩, ?_⟩
      intro s1
      rw [← hhref s1]
      have := skip_attributes h (s := s1) (j := t.objs.length) (toks sp.flatten [("xsi:type".toList, qname env (g.cls x))])
        (toks sp.flatten [("href".toList, env.relativize (url env g doc x))]) (by
          intro b hb
          simp only [toks, List.map_cons, List.map_nil, List.mem_singleton] at hb
          subst hb
          simp only [type_name h hn hxsi]
          refine ⟨?_, by decide, .inr (by simp [notFeatures])⟩
          intro e
          apply h.idAttribute
          rw [← e]; simp)
      exact this
    · have e : hrefAttrs env g doc p x = [("href".toList, env.relativize (url env g doc x))] := by
        simp only [hrefAttrs]; rw [if_neg ht]; rfl
      have ec : hrefCls env g p x = p.1.type := by simp only [hrefCls]; rw [if_neg ht]
      rw [e, ec]
      refine ⟨?_, .inl ⟨xsiType_plain h _ _ ?_, rfl⟩, hhref⟩
      · by_cases e1 : p.1.type = g.cls x
        · rw [e1]; exact hconc
        · cases ha : env.isAbstract p.1.type with
          | false => rfl
          | true => exact absurd ⟨e1, ha⟩ ht
      · intro a ha
        simp only [List.mem_singleton] at ha
        subst ha
        exact show ':' ∉ "href".toList by decide
  obtain ⟨hcon, hcl, hat⟩ := hclass
  rw [hstep, handle_ref h hod (s := t) hA.objects (cls_im h hL ho) hp hr hcon _ hcl, hat, Option.bind_some]
  have hLog := log_proxy h hA.wf ho hp hsv hr hx hc hnew
  have hentry : entryAt g o p (k o p.2) x = .proxy o p (k o p.2) x := by
    simp only [entryAt]
    rw [if_neg]
    rintro (e | e)
    · rcases hc with hc | hc
      · exact hc.2 e.2
      · rw [e.1] at hc; cases hc.1
    · rcases hc with hc | hc
      · rw [e.1] at hc; cases hc.1
      · rw [e.2] at hc; cases hc.2
  have hupd : update { t with objs := t.objs ++ [{ cls := hrefCls env g p x }] } t.objs.length
      (fun c => { c with proxy := some (url env g doc x) }) =
      { t with objs := log.map (copyOf env g doc log k) ++ [{ cls := hrefCls env g p x, proxy := some (url env g doc x) }] } := by
    simp only [update, modify_last]
    simp only [t, hobjs]
  have hset := set_object h hA.wf ho hp hsv hr hx
    { t with objs := log.map (copyOf env g doc log k) ++ [{ cls := hrefCls env g p x, proxy := some (url env g doc x) }] }
    [{ cls := hrefCls env g p x, proxy := some (url env g doc x) }] rfl
    (by
      intro n y hlt hn
      rw [hentry, himx]
      have := im_lt (hA.wf.seen o ho p hp hr hsv n y hn hlt)
      omega) none (.inl rfl)
  rw [hentry, himx] at hset
  rw [hupd, hJ]
  simp only [place, hset, Option.bind_eq_bind, Option.bind_some]
  have hobjs' := objs_snoc h hLog (bump k o p.2) (fun a ha => rfl)
  have hmod := modify_last (log.map (copyOf env g doc log (bump k o p.2)))
    ({ cls := hrefCls env g p x, proxy := some (url env g doc x) } : Copy D)
    (fun c => { c with container := some (im log (.obj o), p.2) })
  rw [List.length_map] at hmod
  have hrest : contain { t with objs := log.map (copyOf env g doc log (bump k o p.2)) ++ [{ cls := hrefCls env g p x, proxy := some (url env g doc x) }] }
      (im log (.obj o)) p.2 p.1 log.length = { t with objs := (log ++ [Entry.proxy o p (k o p.2) x]).map (copyOf env g doc (log ++ [Entry.proxy o p (k o p.2) x]) (bump k o p.2)) } := by
    rw [← hobjs']
    simp only [contain]
    split
    · rename_i hct
      simp only [update, hmod, copyOf, hct, if_true]
      rw [im_snoc (.inl ho)]
    · rename_i hct
      simp only [copyOf, hct, if_false, Bool.false_eq_true]
  rw [hrest]
  refine ⟨_, log.length, rfl, hLog, ⟨by simp [processObject], by simp, ?_, ?_⟩, ?_, ?_, ?_, ?_, ?_, ?_, ?_⟩
  · simp only [processObject]
    rw [show t.roots = s.roots from rfl, hA.looks.roots]
    simp only [List.mem_append, List.mem_singleton, reduceCtorEq, or_false]
    split
    · rename_i hm; rw [im_append hm]
    · rfl
  · intro hm y hy id hid
    simp only [processObject]
    rw [show t.ids = s.ids from rfl, hA.looks.ids hm y hy id hid]
    simp only [List.mem_append, List.mem_singleton, reduceCtorEq, or_false, if_false]
    split
    · rename_i hm; rw [im_append hm]
    · rfl
  · intro a q n y ha
    simp only [List.mem_append, List.mem_singleton] at ha
    simp only [bump]
    rcases ha with ha | ha
    · have := hA.proxies a q n y ha
      split <;> omega
    · cases ha
      simp
  · exact hA.errors
  · exact hA.builder
  · simp only [processObject]
    rw [refsOf_proxy h, ← hA.refs]
  · simp only [processObject]
    rw [show t.objects = s.objects from rfl, hA.objects]
  · simp only [processObject]
    rw [show t.types = s.types from rfl, hA.types]
  · simp only [processObject, t, hA.spaces]

omit h in
/-- the end of an element without text -/
theorem stop_at {s : Dec D} {log : List Entry} {k : Nat → Nat → Nat} {y : Option Nat} {stk : List (Option Nat)} {ty : Ty} {tys : List Ty}
    {q : List (Text × Text)} {sp : List (List (Text × Text))} (hA : At env g opt root doc s log k (y :: stk) (ty :: tys) (q :: sp)) (hsp : sp ≠ [])
    (n : Name) : ∃ s', step env g.manager opt s (.stop n) = some s' ∧ At env g opt root doc s' log k stk tys sp := by
  refine ⟨{ s with objects := stk, types := tys, builder := none, spaces := sp }, ?_, hA.wf,
    ⟨hA.looks.objs, hA.looks.alone, hA.looks.roots, hA.looks.ids⟩, hA.proxies, hA.errors, rfl, hA.refs, rfl, rfl, rfl⟩
  simp only [step, endElement, hA.builder, hA.objects, hA.types, hA.spaces, List.tail_cons, Option.bind_eq_bind, Option.bind_some]
  exact if_neg hsp

/-- an element for an element of a list of data -/
theorem read_data {s : Dec D} {log : List Entry} {k : Nat → Nat → Nat} {stk : List (Option Nat)} {tys : List Ty}
    {sp : List (List (Text × Text))} {o : Nat} (ho : Entry.obj o ∈ log)
    (hA : At env g opt root doc s log k (some (im log (.obj o)) :: stk) tys sp) (hsp : sp ≠ [])
    {p : Feature × Nat} (hp : p ∈ (env.features (g.cls o)).zipIdx) (hsv : Saved p.1) (hr : p.1.isReference = false) (hm : p.1.many = true)
    {v : D} (hv : (values (g.slot o p.2))[k o p.2]? = some v) (n : Name) (rest : List Token) :
    ∃ s', run env g.manager opt s (.start ⟨[], p.1.name⟩ [] :: ((if env.toText p.1.type v = [] then [] else [.text (env.toText p.1.type v)]) ++
        .stop n :: rest)) = run env g.manager opt s' rest ∧
      At env g opt root doc s' log (bump k o p.2) (some (im log (.obj o)) :: stk) tys sp := by
  have hod := hA.wf.objs o ho
  have hobjs : s.objs = log.map (copyOf env g doc log k) := by simpa using hA.looks.objs
  have hcls := cls_im h hA.looks ho
  have hslot := slot_im h hA.looks ho hp
  have hfrom := (h.single o hod p hp hsv v (List.mem_of_getElem? hv)).1
  let s1 : Dec D := { s with builder := some [], types := .feature p.2 p.1 :: s.types, objects := none :: s.objects, spaces := [] :: s.spaces }
  have h1 : step env g.manager opt s (.start ⟨[], p.1.name⟩ []) = some s1 := by
    simp only [step, startElement]
    rw [if_neg (by simp [hA.objects])]
    have hcls' : clsOf { s with spaces := prefixesOf [] :: s.spaces } (im log (.obj o)) = g.cls o := hcls
    simp only [handleFeature, hA.objects]
    simp only [clsOf] at hcls'
    simp only [clsOf, hcls', findFeature_eq env _ (h.features o hod).1 p hp, hr, Bool.false_eq_true, if_false]
    simp only [s1, hA.objects]
    rfl
  let s2 : Dec D := { s1 with builder := some (env.toText p.1.type v) }
  have h2 : ∀ r, run env g.manager opt s1 ((if env.toText p.1.type v = [] then [] else [.text (env.toText p.1.type v)]) ++ r) = run env g.manager opt s2 r := by
    intro r
    split
    · rename_i e
      simp only [s2, e]
      rfl
    · simp only [List.cons_append, List.nil_append, run, step, s1, s2, Option.map_some, Option.bind_some]
  have hval : valueOf g log o p (k o p.2 + 1) = some (.datas (datasOf (valueOf g log o p (k o p.2)) ++ [some v])) := by
    have htake : (values (g.slot o p.2)).take (k o p.2 + 1) = (values (g.slot o p.2)).take (k o p.2) ++ [v] := by
      rw [List.take_add_one, hv]; rfl
    simp only [valueOf, if_pos hsv, hr, hm, if_true, Bool.false_eq_true, if_false, htake]
    rw [if_neg (by simp)]
    congr 2
    rw [List.map_append]
    congr 1
    split
    · rename_i e
      simp only [List.isEmpty_iff] at e
      rw [e]; rfl
    · rfl
  have hput := put_objs (env := env) (g := g) (doc := doc) (k := k) hA.wf.nodup ho hp
    { s with objects := s.objects, types := s.types, builder := some (env.toText p.1.type v), spaces := [] :: s.spaces } [] (by simp [hobjs])
    (some (.datas (datasOf (valueOf g log o p (k o p.2)) ++ [some v]))) hval.symm
  let s3 : Dec D := { s with objs := log.map (copyOf env g doc log (bump k o p.2)), builder := none }
  have h3 : step env g.manager opt s2 (.stop n) = some s3 := by
    simp only [step, endElement, s2, s1, List.headD_cons, List.head?_cons, List.tail_cons, endText, if_true, hA.objects, List.headD_cons,
      setText, hm, Bool.false_eq_true, if_false]
    have hslot' : slotOf { s with objects := s.objects, types := s.types, builder := some (env.toText p.1.type v), spaces := [] :: s.spaces }
        (im log (.obj o)) p.2 = valueOf g log o p (k o p.2) := hslot
    simp only [hA.objects] at hslot' hput
    rw [hslot', hfrom, hput]
    simp only [Option.bind_eq_bind, Option.bind_some, List.tail_cons, hA.spaces, List.append_nil, s3, hA.objects]
    exact if_neg hsp
  refine ⟨s3, ?_, ?_⟩
  · rw [run, h1, Option.bind_some, h2, run, h3, Option.bind_some]
  · refine ⟨log_bump h hA.wf hp (by rw [hr]; simp), ⟨by simp [s3], by simp, hA.looks.roots, hA.looks.ids⟩, ?_, hA.errors, rfl, hA.refs, hA.objects,
      hA.types, hA.spaces⟩
    intro a q m y ha
    have := hA.proxies a q m y ha
    simp only [bump]
    split <;> omega

end

end Verif.XMLCodec
