import Verif.Proofs.XMLCodecFragment

/-!
# What the encoder writes
-/

namespace Verif.XMLCodec

open Verif.XMLString (Text Call escape)
open Verif.XMLString.Spec (Forest calls)
open Verif.XMLLex (Name LegalName Literal inRange)
open Spec

variable {D : Type}

/-! ## Prefixes -/

/-- the name of a class with its prefix -/
def qname (env : Env D) (c : Nat) : Text := (env.ns.nsPrefix (env.pkg c)).toList ++ ':' :: env.name c

/-- what is known about prefixes while saving -/
structure GoodEnc (env : Env D) (g : Graph D) (doc : List Nat) (st : Enc) : Prop where
  errors : st.errors = 0
  packages : ∀ p q, st.prefixes.packages p = some q → q = env.ns.nsPrefix p ∧ q ∈ st.declared
  uris : ∀ u, u ≠ XMLPrefix.xsiURI → st.prefixes.uriToPrefixes u = []
  bound : ∀ q u, st.prefixes.prefixesToURI q = some u →
    (q = "xsi" ∧ u = XMLPrefix.xsiURI) ∨ ∃ c, Named env g doc c ∧ q = env.ns.nsPrefix (env.pkg c) ∧ u = env.ns.nsURI (env.pkg c)
  declared : ∀ q ∈ st.declared, (st.prefixes.prefixesToURI q).isSome

theorem mem_addPrefix {l : List String} {p q : String} : q ∈ addPrefix l p ↔ q = p ∨ q ∈ l := by
  simp only [addPrefix]
  split
  · rename_i h
    constructor
    · exact .inr
    · rintro (rfl | h')
      · exact h
      · exact h'
  · simp [or_comm]

section
variable {env : Env D} {g : Graph D} {opt : Opt} {root : Nat} {doc : List Nat}
variable (h : Savable env g opt root doc)
include h

theorem classQName_eq {st : Enc} (hg : GoodEnc env g doc st) {c : Nat} (hc : Named env g doc c) :
    ∃ st', classQName env st c = some (st', qname env c) ∧ GoodEnc env g doc st' ∧ env.ns.nsPrefix (env.pkg c) ∈ st'.declared ∧
      ∀ q ∈ st.declared, q ∈ st'.declared := by
  have hk := h.known c hc
  have hne : env.ns.nsPrefix (env.pkg c) ≠ "" := by
    intro e
    have := legal_ne hk.pre.1
    rw [e] at this; exact this rfl
  have hnm : env.name c ≠ [] := legal_ne hk.name.1
  have e1 : ∀ q : String, q = env.ns.nsPrefix (env.pkg c) →
      (if q = "" then env.name c else if env.name c = [] then q.toList else q.toList ++ ':' :: env.name c) = qname env c := by
    intro q e
    rw [e, if_neg hne, if_neg hnm]; rfl
  simp only [classQName]
  cases hp : st.prefixes.packages (env.pkg c) with
  | some q =>
    obtain ⟨hq, hd⟩ := hg.packages _ _ hp
    refine ⟨{ st with declared := addPrefix st.declared q }, ?_, ⟨hg.errors, ?_, hg.uris, hg.bound, ?_⟩, ?_, ?_⟩
    · simp only [XMLPrefix.getPrefix, hp, Option.map_some, e1 q hq]
    · intro p q' hq'
      exact ⟨(hg.packages p q' hq').1, mem_addPrefix.2 (.inr (hg.packages p q' hq').2)⟩
    · intro q' hq'
      rcases mem_addPrefix.1 hq' with rfl | hq'
      · exact hg.declared _ hd
      · exact hg.declared _ hq'
    · rw [← hq]; exact mem_addPrefix.2 (.inl rfl)
    · exact fun q' hq' => mem_addPrefix.2 (.inr hq')
  | none =>
    have hu := hg.uris _ hk.uri.2
    have hget : XMLPrefix.getPrefix env.ns 1 st.prefixes (env.pkg c) false =
        some ({ st.prefixes with
          prefixesToURI := XMLPrefix.put st.prefixes.prefixesToURI (env.ns.nsPrefix (env.pkg c)) (some (env.ns.nsURI (env.pkg c)))
          packages := XMLPrefix.put st.prefixes.packages (env.pkg c) (some (env.ns.nsPrefix (env.pkg c))) }, env.ns.nsPrefix (env.pkg c)) := by
      simp only [XMLPrefix.getPrefix, hp, hu, List.find?_nil]
      simp only [Bool.false_eq_true, and_false, if_false]
      cases hb : st.prefixes.prefixesToURI (env.ns.nsPrefix (env.pkg c)) with
      | none => simp
      | some u =>
        rcases hg.bound _ _ hb with ⟨e, -⟩ | ⟨c', hc', e, rfl⟩
        · have := hk.reserved.1
          rw [e] at this; simp at this
        · have := h.prefixes c c' hc hc' e
          simp [this]
    refine ⟨{ st with
        prefixes := { st.prefixes with
          prefixesToURI := XMLPrefix.put st.prefixes.prefixesToURI (env.ns.nsPrefix (env.pkg c)) (some (env.ns.nsURI (env.pkg c)))
          packages := XMLPrefix.put st.prefixes.packages (env.pkg c) (some (env.ns.nsPrefix (env.pkg c))) }
        declared := addPrefix st.declared (env.ns.nsPrefix (env.pkg c)) }, ?_, ⟨hg.errors, ?_, hg.uris, ?_, ?_⟩, mem_addPrefix.2 (.inl rfl),
        fun q' hq' => mem_addPrefix.2 (.inr hq')⟩
    · rw [hget]
      simp only [Option.map_some, e1 _ rfl]
    · intro p q hq
      simp only [XMLPrefix.put] at hq
      split at hq
      · rename_i e
        cases hq
        exact ⟨by rw [e], mem_addPrefix.2 (.inl rfl)⟩
      · exact ⟨(hg.packages p q hq).1, mem_addPrefix.2 (.inr (hg.packages p q hq).2)⟩
    · intro q u hq
      simp only [XMLPrefix.put] at hq
      split at hq
      · rename_i e
        cases hq
        exact .inr ⟨c, hc, e, rfl⟩
      · exact hg.bound q u hq
    · intro q hq
      simp only [XMLPrefix.put]
      split
      · rfl
      · rename_i e
        rcases mem_addPrefix.1 hq with hq | hq
        · exact absurd hq e
        · exact hg.declared q hq

theorem saveTypeAttribute_eq {st : Enc} (hg : GoodEnc env g doc st) {c : Nat} (hc : Named env g doc c) :
    ∃ st', saveTypeAttribute env st c = some (st', [.addAttribute "xsi:type".toList (qname env c)]) ∧ GoodEnc env g doc st' ∧
      env.ns.nsPrefix (env.pkg c) ∈ st'.declared ∧ "xsi" ∈ st'.declared ∧ ∀ q ∈ st.declared, q ∈ st'.declared := by
  obtain ⟨st1, e, hg1, hp, hsub⟩ := classQName_eq h hg hc
  refine ⟨{ st1 with prefixes := XMLPrefix.declareXsi st1.prefixes, declared := addPrefix st1.declared XMLPrefix.xsiNS }, ?_,
    ⟨hg1.errors, ?_, ?_, ?_, ?_⟩, mem_addPrefix.2 (.inr hp), mem_addPrefix.2 (.inl rfl), fun q hq => mem_addPrefix.2 (.inr (hsub q hq))⟩
  · simp only [saveTypeAttribute, e, Option.map_some]
  · intro p q hq
    have := hg1.packages p q hq
    exact ⟨this.1, mem_addPrefix.2 (.inr this.2)⟩
  · intro u hu
    simp only [XMLPrefix.declareXsi, XMLPrefix.put, if_neg hu]
    exact hg1.uris u hu
  · intro q u hq
    simp only [XMLPrefix.declareXsi, XMLPrefix.put] at hq
    split at hq
    · rename_i e
      cases hq
      exact .inl ⟨e, rfl⟩
    · exact hg1.bound q u hq
  · intro q hq
    simp only [XMLPrefix.declareXsi, XMLPrefix.put]
    split
    · rfl
    · rename_i e
      rcases mem_addPrefix.1 hq with hq | hq
      · exact absurd hq e
      · exact hg1.declared q hq

end

/-! ## Attributes and elements of an object -/

/-- the objects of the value are not all in the document -/
def crossed (g : Graph D) (v : Option (Val D)) : Bool := (objects v).any fun x => decide (Foreign g x)

/-- the attributes of a feature, with raw values -/
noncomputable def attrs (env : Env D) (g : Graph D) (doc : List Nat) (o : Nat) (p : Feature × Nat) : List (Text × Text) :=
  match saveKind p.1 with
  | .dataSingle => (values (g.slot o p.2)).map fun v => (p.1.name, escape (env.toText p.1.type v))
  | .dataNillable => (values (g.slot o p.2)).map fun v => (p.1.name, escape (env.toText p.1.type v))
  | .dataMany => if (g.slot o p.2).isSome ∧ values (g.slot o p.2) = [] then [(p.1.name, [])] else []
  | .hrefSingle _ => if crossed g (g.slot o p.2) ∨ objects (g.slot o p.2) = [] then []
      else [(p.1.name, join ' ' ((objects (g.slot o p.2)).map fun x => '#' :: frag env g doc x))]
  | .hrefMany _ => if crossed g (g.slot o p.2) ∨ objects (g.slot o p.2) = [] then []
      else [(p.1.name, join ' ' ((objects (g.slot o p.2)).map fun x => '#' :: frag env g doc x))]
  | _ => []

/-- what is written as an element -/
inductive Item (D : Type) where
  | data (p : Feature × Nat) (v : D)
  | href (p : Feature × Nat) (x : Nat)
  | child (p : Feature × Nat) (x : Nat)

/-- the elements of a feature -/
def items (g : Graph D) (o : Nat) (p : Feature × Nat) : List (Item D) :=
  match saveKind p.1 with
  | .dataMany => (values (g.slot o p.2)).map (.data p)
  | .containSingle _ => (objects (g.slot o p.2)).map fun x => if Inside g x then .child p x else .href p x
  | .containMany _ => (objects (g.slot o p.2)).map fun x => if Inside g x then .child p x else .href p x
  | .hrefSingle _ => if crossed g (g.slot o p.2) then (objects (g.slot o p.2)).map (.href p) else []
  | .hrefMany _ => if crossed g (g.slot o p.2) then (objects (g.slot o p.2)).map (.href p) else []
  | _ => []

/-- the feature is written as elements, if any -/
def isElem (g : Graph D) (o : Nat) (p : Feature × Nat) : Bool :=
  (g.slot o p.2).isSome && match saveKind p.1 with
  | .dataMany => !(values (g.slot o p.2)).isEmpty
  | .containSingle _ => true
  | .containMany _ => true
  | .hrefSingle _ => crossed g (g.slot o p.2)
  | .hrefMany _ => crossed g (g.slot o p.2)
  | _ => false

theorem saved_kind {f : Feature} : saveKind f ≠ .transient ↔ Saved f := by
  unfold saveKind Saved
  cases f.transient <;> cases f.isReference <;> cases f.containment <;> cases f.container <;> cases f.many <;>
    cases f.unsettable <;> cases f.serializable <;> simp

theorem kind_contain {f : Feature} (h : Saved f) (h1 : f.isReference = true) (h2 : f.containment = true) :
    saveKind f = (if f.many then .containMany f.unsettable else .containSingle f.unsettable) := by
  unfold saveKind; rw [h.1, h1, h2]; simp

theorem kind_href {f : Feature} (h : Saved f) (h1 : f.isReference = true) (h2 : f.containment = false) :
    saveKind f = (if f.many then .hrefMany f.unsettable else .hrefSingle f.unsettable) := by
  have := h.2.1 h1
  rw [h2] at this
  unfold saveKind; rw [h.1, h1, h2]; simp_all

theorem kind_data {f : Feature} (h : Saved f) (h1 : f.isReference = false) :
    saveKind f = (if f.many then .dataMany else if f.unsettable then .dataNillable else .dataSingle) := by
  unfold saveKind; rw [h.1, h1, h.2.2 h1]; simp

section
variable {env : Env D} {g : Graph D} {opt : Opt} {root : Nat} {doc : List Nat}
variable (h : Savable env g opt root doc)
include h

omit h in
theorem crossed_iff (v : Option (Val D)) : crossed g v = true ↔ ∃ x ∈ objects v, Foreign g x := by
  simp [crossed]

theorem doc_not_foreign {x : Nat} (hx : x ∈ doc) : ¬ Foreign g x := by
  simp only [Foreign, h.proxy x hx, h.res x hx]; simp

omit h in
theorem resKind_foreign {x : Nat} (hf : Foreign g x) : resKind g (some x) = .cross := by
  simp only [resKind]
  rcases hf with e | ⟨e1, e2⟩
  · rw [if_pos (by simpa [Option.isSome_iff_ne_none] using e)]
  · split
    · rfl
    · rw [if_neg (by simp [e1, e2])]

theorem resKind_doc {x : Nat} (hx : x ∈ doc) : resKind g (some x) = .same := by
  simp [resKind, h.proxy x hx, h.res x hx]

theorem resKinds_eq (l : List Nat) (hl : ∀ x ∈ l, x ∈ doc ∨ Foreign g x) :
    resKinds g (l.map some) = if l.any (fun x => decide (Foreign g x)) then .cross else .same := by
  induction l with
  | nil => rfl
  | cons x l ih =>
    have ih := ih (fun y hy => hl y (by simp [hy]))
    rw [List.map_cons, resKinds]
    rcases hl x (by simp) with hx | hx
    · have := doc_not_foreign h hx
      rw [resKind_doc h hx]
      simp only [List.any_cons, this, decide_false, Bool.false_or]
      exact ih
    · rw [resKind_foreign hx]
      simp [hx]

theorem mapM_idRef (m : Nat) (hm : doc.length ≤ m) (l : List Nat) (hl : ∀ x ∈ l, x ∈ doc) :
    ((l.map some).mapM fun (o : Option Nat) => o.bind (idRef env g m)) = some (l.map fun x => '#' :: frag env g doc x) := by
  induction l with
  | nil => rfl
  | cons x l ih =>
    rw [List.map_cons, List.mapM_cons, ih (fun y hy => hl y (by simp [hy]))]
    simp [idRef, frag_eq h (hl x (by simp)) hm]

theorem todo_eq (m : Nat) (hm : doc.length ≤ m) {o : Nat} (ho : o ∈ doc) {p : Feature × Nat} (hp : p ∈ (env.features (g.cls o)).zipIdx) :
    todo env g m o p.2 p.1 = some (if isElem g o p then .element
      else .attributes ((attrs env g doc o p).map fun a => .addAttribute a.1 a.2)) := by
  cases hs : g.slot o p.2 with
  | none =>
    have hv : values (none : Option (Val D)) = [] := rfl
    have hob : objects (none : Option (Val D)) = [] := rfl
    simp only [todo, hs, isElem, attrs, hv, hob]
    cases saveKind p.1 <;> simp
  | some v =>
    by_cases hsv : Saved p.1
    · have hf := (h.fits o ho p hp hsv v hs).1
      cases hr : p.1.isReference with
      | false =>
        have hk := kind_data hsv hr
        cases v with
        | data v =>
          obtain ⟨v, rfl⟩ := Option.ne_none_iff_exists'.1 hf.2.2
          rw [hf.2.1] at hk
          simp only [Bool.false_eq_true, if_false] at hk
          cases hu : p.1.unsettable with
          | false => rw [hu] at hk; simp [todo, hs, hk, isElem, attrs, values, saveDataSingle]
          | true => rw [hu] at hk; simp [todo, hs, hk, isElem, attrs, values, saveDataSingle, isNil]
        | datas l =>
          rw [hf.2.1] at hk
          simp only [if_true] at hk
          have hl := values_datas (D := D) hf.2.2
          have he : l.isEmpty = (values (some (Val.datas l : Val D))).isEmpty := by
            conv => lhs; rw [hl]
            simp
          simp only [todo, hs, hk, isElem, attrs, isEmpty, he]
          cases hvv : values (some (Val.datas l : Val D)) <;> simp
        | obj x => rw [hf.1] at hr; cases hr
        | objs l => rw [hf.1] at hr; cases hr
      | true =>
        cases hc : p.1.containment with
        | true =>
          have hk := kind_contain hsv hr hc
          cases v with
          | data v => rw [hf.1] at hr; cases hr
          | datas l => rw [hf.1] at hr; cases hr
          | obj x =>
            rw [hf.2.1] at hk
            simp only [Bool.false_eq_true, if_false] at hk
            simp [todo, hs, hk, isElem]
          | objs l =>
            rw [hf.2.1] at hk
            simp only [if_true] at hk
            cases hu : p.1.unsettable with
            | false => rw [hu] at hk; simp [todo, hs, hk, isElem]
            | true =>
              rw [hu] at hk
              have := h.nonempty o ho p hp hr hu hsv
              rw [hs] at this
              have hne : l ≠ [] := fun e => this (by rw [e])
              have : l.isEmpty = false := by simpa using hne
              simp [todo, hs, hk, isElem, isEmpty, this]
        | false =>
          have hk := kind_href hsv hr hc
          have href := h.referenced o ho p hp hc hsv
          cases v with
          | data v => rw [hf.1] at hr; cases hr
          | datas l => rw [hf.1] at hr; cases hr
          | obj x =>
            obtain ⟨x, rfl⟩ := Option.ne_none_iff_exists'.1 hf.2.2
            rw [hf.2.1] at hk
            simp only [Bool.false_eq_true, if_false] at hk
            rw [hs] at href
            have hx := href x (by simp [objects])
            rcases hx with hx | hx
            · have hn := doc_not_foreign h hx
              have hcr : crossed g (some (Val.obj (some x) : Val D)) = false := by simp [crossed, objects, hn]
              simp [todo, hs, hk, isElem, attrs, hcr, isNil, asObject, resKind_doc h hx, saveIDRefSingle, idRef, frag_eq h hx hm, objects, join]
            · have hcr : crossed g (some (Val.obj (some x) : Val D)) = true := by simp [crossed, objects, hx]
              simp [todo, hs, hk, isElem, hcr, isNil, asObject, resKind_foreign hx]
          | objs l =>
            rw [hf.2.1] at hk
            simp only [if_true] at hk
            have hl := objects_objs (D := D) hf.2.2.1
            rw [hs] at href
            have he : elements (some (Val.objs l : Val D)) = (objects (some (Val.objs l : Val D))).map some := hl
            have hempty : isEmpty (some (Val.objs l : Val D)) = some (objects (some (Val.objs l : Val D))).isEmpty := by
              simp only [isEmpty]; conv => lhs; rw [hl]
              simp
            have hrk := resKinds_eq h _ href
            have hu : (if p.1.unsettable then isEmpty (some (Val.objs l : Val D)) else some false) = some false := by
              cases hu : p.1.unsettable with
              | false => rfl
              | true =>
                have := h.nonempty o ho p hp hr hu hsv
                rw [hs] at this
                have hne : l ≠ [] := fun e => this (by rw [e])
                simp [isEmpty, hne]
            simp only [todo, hs, hk, isElem, attrs, hu, resKindMany, he, saveIDRefMany]
            rw [hrk]
            change _ = some (if (true && crossed g _) = true then _ else _)
            cases hcr : crossed g (some (Val.objs l : Val D)) with
            | true =>
              have : (objects (some (Val.objs l : Val D))) ≠ [] := by
                intro e; simp [crossed, e] at hcr
              have h2 : ((objects (some (Val.objs l : Val D))).any fun x => decide (Foreign g x)) = true := hcr
              rw [h2]; simp [this]
            | false =>
              have h2 : ((objects (some (Val.objs l : Val D))).any fun x => decide (Foreign g x)) = false := hcr
              rw [h2]
              by_cases hnil : objects (some (Val.objs l : Val D)) = []
              · simp [hnil]
              · have hall : ∀ x ∈ objects (some (Val.objs l : Val D)), x ∈ doc := by
                  intro x hx
                  rcases href x hx with hx' | hx'
                  · exact hx'
                  · simp only [List.any_eq_false, decide_eq_true_eq] at h2
                    exact absurd hx' (h2 x hx)
                have := mapM_idRef h m hm _ hall
                simp [hnil, this]
    · have hk : saveKind p.1 = .transient := by
        cases hk : saveKind p.1 with
        | transient => rfl
        | _ => exact absurd (saved_kind.1 (by rw [hk]; simp)) hsv
      simp [todo, hs, hk, isElem, attrs]

end

end Verif.XMLCodec
