import Verif.Proofs.XMLCodecForest

/-!
# The document that the encoder writes, and its tokens
-/

namespace Verif.XMLCodec

open Verif.XMLString (Text Call escape)
open Verif.XMLString.Spec (Forest calls render withNamespaces)
open Verif.XMLLex (Name Token LegalName Literal inRange Readable NoDecls NotDecl Reads ReadsAttribute readText declared attributeName elementName
  rawName)
open Spec

variable {D : Type}

theorem literal_facts {t : Text} (h : Literal t) : '"' ∉ t ∧ '<' ∉ t ∧ (readText t).isSome := by
  refine ⟨fun e => (h _ e).2.2.1 rfl, fun e => (h _ e).2.1 rfl, by rw [XMLLex.readText_literal h]; rfl⟩

theorem literal_legal {t : Text} (h : LegalName t) : Literal t := by
  intro c hc
  have := nameChar_facts (h.2.1 c hc)
  exact ⟨this.1, this.2.1, this.2.2.1, this.2.2.2.1, this.2.2.2.2.1⟩

theorem escape_chars (t : Text) : '"' ∉ escape t ∧ '<' ∉ escape t := by
  have key : ∀ x ∈ escape t, x ≠ '"' ∧ x ≠ '<' := by
    intro x hx
    simp only [escape, List.mem_flatMap] at hx
    obtain ⟨c, -, hx⟩ := hx
    split at hx
    · revert x; decide
    · split at hx
      · revert x; decide
      · split at hx
        · revert x; decide
        · split at hx
          · revert x; decide
          · split at hx
            · revert x; decide
            · split at hx
              · revert x; decide
              · simp only [List.mem_singleton] at hx
                subst hx
                exact ⟨by assumption, by assumption⟩
  exact ⟨fun e => (key _ e).1 rfl, fun e => (key _ e).2 rfl⟩

theorem readText_content {t : Text} (h : Content t) : readText t = some t := by
  unfold readText
  rw [XMLLex.unescape_literal t (fun c hc => ⟨(h.1 c hc).1, (h.1 c hc).2.2.1⟩)]
  simp only [Option.filter_some, List.all_eq_true]
  rw [if_pos (fun c hc => (h.1 c hc).2.2.2)]

theorem notDecl_plain {t : Text} (h : ':' ∉ t) (hx : t ≠ XMLLex.xmlns) : NotDecl t := by
  unfold NotDecl
  rw [rawName_plain t h]
  exact ⟨show ([] : Text) ≠ XMLLex.xmlns by decide, fun e => hx e.2⟩

theorem type_legal : LegalName "xsi:type".toList ∧ NotDecl "xsi:type".toList :=
  ⟨⟨⟨'x', "si:type".toList, rfl, by decide⟩, by decide, by decide⟩, by unfold NotDecl; decide⟩

theorem href_legal : LegalName "href".toList ∧ NotDecl "href".toList :=
  ⟨⟨⟨'h', "ref".toList, rfl, by decide⟩, by decide, by decide⟩, by unfold NotDecl; decide⟩

section
variable {env : Env D} {g : Graph D} {opt : Opt} {root : Nat} {doc : List Nat}
variable (h : Savable env g opt root doc)
include h

theorem qname_legal {c : Nat} (hc : Named env g doc c) : LegalName (qname env c) := by
  have hk := h.known c hc
  exact legal_prefixed hk.pre.1 hk.pre.2 hk.name.1 hk.name.2

/-- the attribute can be written and read -/
def GoodAttr (a : Text × Text) : Prop :=
  (LegalName a.1 ∧ '"' ∉ a.2 ∧ '<' ∉ a.2 ∧ (readText a.2).isSome) ∧ NotDecl a.1

theorem good_type {c : Nat} (hc : Named env g doc c) : GoodAttr ("xsi:type".toList, qname env c) := by
  exact ⟨⟨type_legal.1, literal_facts (literal_legal (qname_legal h hc))⟩, type_legal.2⟩

theorem good_href {o : Nat} (ho : o ∈ doc) {p : Feature × Nat} (hp : p ∈ (env.features (g.cls o)).zipIdx) (hsv : Saved p.1) {x : Nat}
    (hx : x ∈ objects (g.slot o p.2))
    (hc : (p.1.containment = true ∧ ¬ Inside g x) ∨ (p.1.containment = false ∧ crossed g (g.slot o p.2) = true)) :
    ∀ a ∈ hrefAttrs env g doc p x, GoodAttr a := by
  obtain ⟨h1, h2, h3, h4, h5, h6⟩ := href_ok h ho hp hsv hx hc
  intro a ha
  simp only [hrefAttrs, List.mem_append, List.mem_singleton] at ha
  rcases ha with ha | rfl
  · split at ha
    · simp only [List.mem_singleton] at ha
      subst ha
      exact good_type h h6
    · simp at ha
  · exact ⟨⟨href_legal.1, literal_facts h3⟩, href_legal.2⟩

theorem ids_eq {x : Nat} (hx : x ∈ doc) : (g.manager = false ∧ idAttrs g opt x = []) ∨
    (g.manager = true ∧ ∃ id, g.id x = some id ∧ ProperID id ∧ idAttrs g opt x = [(opt.idAttribute, id)]) := by
  cases hm : g.manager with
  | false => left; exact ⟨rfl, by simp [idAttrs, hm]⟩
  | true =>
    right
    obtain ⟨id, hid, hp⟩ := (h.managed hm).2.2.1 x hx
    have : opt.idAttribute ≠ [] := legal_ne (h.managed hm).1.1
    exact ⟨rfl, id, hid, hp, by simp [idAttrs, hm, this, hid]⟩

theorem good_id {x : Nat} (hx : x ∈ doc) : ∀ a ∈ idAttrs g opt x, GoodAttr a := by
  rcases ids_eq h hx with ⟨-, e⟩ | ⟨hm, id, -, hp, e⟩
  · simp [e]
  · rw [e]
    intro a ha
    simp only [List.mem_singleton] at ha
    subst ha
    refine ⟨⟨(h.managed hm).1.1, literal_facts hp.2.1⟩, notDecl_plain (h.managed hm).1.2.1 ?_⟩
    intro e
    apply h.idAttribute
    simp only at e
    rw [e]; decide

theorem good_type' {o : Nat} (ho : o ∈ doc) {p : Feature × Nat} (hp : p ∈ (env.features (g.cls o)).zipIdx) (hsv : Saved p.1) {x : Nat}
    (hx : x ∈ objects (g.slot o p.2)) : ∀ a ∈ typeAttrs env g p x, GoodAttr a := by
  intro a ha
  simp only [typeAttrs] at ha
  split at ha
  · simp only [List.mem_singleton] at ha
    subst ha
    exact good_type h ⟨o, ho, .inr ⟨p, hp, hsv, x, hx, rfl⟩⟩
  · simp at ha

theorem refs_doc {o : Nat} (ho : o ∈ doc) {p : Feature × Nat} (hp : p ∈ (env.features (g.cls o)).zipIdx) (hsv : Saved p.1)
    (hc : p.1.containment = false) (hcr : ¬ crossed g (g.slot o p.2) = true) : ∀ x ∈ objects (g.slot o p.2), x ∈ doc := by
  intro x hx
  rcases h.referenced o ho p hp hc hsv x hx with hx' | hx'
  · exact hx'
  · exact absurd ((crossed_iff _).2 ⟨x, hx, hx'⟩) hcr

theorem literal_refs {l : List Nat} (hl : ∀ x ∈ l, x ∈ doc) : Literal (join ' ' (l.map fun x => '#' :: frag env g doc x)) := by
  intro c hc
  rcases mem_join hc with rfl | ⟨t, ht, hc⟩
  · decide
  · obtain ⟨x, hx, rfl⟩ := List.mem_map.1 ht
    rcases List.mem_cons.1 hc with rfl | hc
    · decide
    · exact (frag_chars h (hl x hx)).1 c hc

/-- an attribute of a feature: data, an empty list of data, or references -/
theorem attr_cases {o : Nat} (ho : o ∈ doc) {p : Feature × Nat} (hp : p ∈ (env.features (g.cls o)).zipIdx) :
    attrs env g doc o p = [] ∨
    (Saved p.1 ∧ p.1.isReference = false ∧ p.1.many = false ∧ ∃ v, g.slot o p.2 = some (.data (some v)) ∧
      attrs env g doc o p = [(p.1.name, escape (env.toText p.1.type v))]) ∨
    (Saved p.1 ∧ p.1.isReference = false ∧ p.1.many = true ∧ values (g.slot o p.2) = [] ∧ attrs env g doc o p = [(p.1.name, [])]) ∨
    (Saved p.1 ∧ p.1.isReference = true ∧ p.1.containment = false ∧ crossed g (g.slot o p.2) = false ∧ objects (g.slot o p.2) ≠ [] ∧
      attrs env g doc o p = [(p.1.name, join ' ' ((objects (g.slot o p.2)).map fun x => '#' :: frag env g doc x))]) := by
  by_cases hsv : Saved p.1
  · cases hr : p.1.isReference with
    | false =>
      have hk := kind_data hsv hr
      cases hm : p.1.many with
      | false =>
        have e : attrs env g doc o p = (values (g.slot o p.2)).map fun v => (p.1.name, escape (env.toText p.1.type v)) := by
          cases hu : p.1.unsettable <;> simp [attrs, hk, hm, hu]
        cases hs : g.slot o p.2 with
        | none => left; rw [e, hs]; rfl
        | some v =>
          have hf := (h.fits o ho p hp hsv v hs).1
          cases v with
          | data v =>
            obtain ⟨v, rfl⟩ := Option.ne_none_iff_exists'.1 hf.2.2
            right; left
            exact ⟨hsv, rfl, rfl, v, rfl, by rw [e, hs]; rfl⟩
          | datas l => rw [hf.2.1] at hm; cases hm
          | obj x => rw [hf.1] at hr; cases hr
          | objs l => rw [hf.1] at hr; cases hr
      | true =>
        have e : attrs env g doc o p = if (g.slot o p.2).isSome ∧ values (g.slot o p.2) = [] then [(p.1.name, [])] else [] := by
          simp [attrs, hk, hm]
        by_cases hv : (g.slot o p.2).isSome = true ∧ values (g.slot o p.2) = []
        · right; right; left
          exact ⟨hsv, rfl, rfl, hv.2, by rw [e, if_pos hv]⟩
        · left; rw [e, if_neg hv]
    | true =>
      cases hc : p.1.containment with
      | true =>
        left
        have hk := kind_contain hsv hr hc
        cases hm : p.1.many <;> simp [attrs, hk, hm]
      | false =>
        have hk := kind_href hsv hr hc
        have e : attrs env g doc o p = if crossed g (g.slot o p.2) = true ∨ objects (g.slot o p.2) = [] then []
            else [(p.1.name, join ' ' ((objects (g.slot o p.2)).map fun x => '#' :: frag env g doc x))] := by
          cases hm : p.1.many <;> simp [attrs, hk, hm]
        by_cases hv : crossed g (g.slot o p.2) = true ∨ objects (g.slot o p.2) = []
        · left; rw [e, if_pos hv]
        · right; right; right
          rw [not_or] at hv
          exact ⟨hsv, rfl, rfl, by simpa using hv.1, hv.2, by rw [e, if_neg (by simp [hv])]⟩
  · left
    have hk : saveKind p.1 = .transient := by
      cases hk : saveKind p.1 with
      | transient => rfl
      | _ => exact absurd (saved_kind.1 (by rw [hk]; simp)) hsv
    simp [attrs, hk]

theorem good_attrs {o : Nat} (ho : o ∈ doc) : ∀ a ∈ allAttrs env g doc o, GoodAttr a := by
  intro a ha
  simp only [allAttrs, List.mem_flatMap] at ha
  obtain ⟨p, hp, ha⟩ := ha
  have hf := (h.features o ho).2 p.1 (feature_mem h hp)
  have hn : NotDecl p.1.name := notDecl_plain hf.1.2.1 hf.2.2.1
  have hl := hf.1.1
  rcases attr_cases h ho hp with e | ⟨hsv, hr, hm, v, hs, e⟩ | ⟨hsv, hr, hm, hv, e⟩ | ⟨hsv, hr, hc, hcr, hne, e⟩
  · rw [e] at ha; simp at ha
  · rw [e, List.mem_singleton] at ha
    subst ha
    have hv := (h.single o ho p hp hsv v (by rw [hs]; simp [values])).2.1 hm
    exact ⟨⟨hl, (escape_chars _).1, (escape_chars _).2, by rw [XMLLex.readText_escape hv]; rfl⟩, hn⟩
  · rw [e, List.mem_singleton] at ha
    subst ha
    exact ⟨⟨hl, by simp, by simp, show (readText []).isSome = true by decide⟩, hn⟩
  · rw [e, List.mem_singleton] at ha
    subst ha
    exact ⟨⟨hl, literal_facts (literal_refs h (refs_doc h ho hp hsv hc (by simp [hcr])))⟩, hn⟩

theorem child_mem {o : Nat} (ho : o ∈ doc) {p : Feature × Nat} (hp : p ∈ (env.features (g.cls o)).zipIdx) {x : Nat}
    (hit : Item.child p x ∈ items g o p) : x ∈ doc := children_mem h ho (by
  rw [← children_items, List.mem_filterMap]
  exact ⟨.child p x, by simp only [allItems, List.mem_flatMap]; exact ⟨p, hp, hit⟩, rfl⟩)

theorem valid_all {x : Nat} (hx : x ∈ doc) : ∀ it ∈ allItems env g x, Valid env g doc it := by
  intro it hit
  simp only [allItems, List.mem_flatMap] at hit
  obtain ⟨q, hq, hit⟩ := hit
  exact ⟨x, hx, q, hq, hit⟩

theorem readable_items {its : List (Item D)} {F : Forest} {l : List Nat} (hW : Writes env g opt doc its F l) :
    (∀ it ∈ its, Valid env g doc it) → Readable F ∧ NoDecls F ∧ XMLString.Spec.Named F := by
  induction hW with
  | nil => intro _; exact ⟨trivial, trivial, trivial⟩
  | data p v rest F l _ ih =>
    intro hv
    obtain ⟨r1, r2, r3⟩ := ih (fun it hit => hv it (by simp [hit]))
    obtain ⟨o, ho, p', hp', hit⟩ := hv (.data p v) (by simp)
    rcases item_cases hit with ⟨v', hv', e, hsv, hr, hm⟩ | ⟨x, -, e, -⟩ | ⟨x, -, e, -⟩
    · cases e
      have hf := (h.features o ho).2 p.1 (feature_mem h hp')
      have hc := (h.single o ho p hp' hsv v hv').2.2 hm
      exact ⟨⟨hf.1.1, fun e => (hc.1 _ e).2.1 rfl, hc.2, by rw [readText_content hc]; rfl, r1⟩, r2, r3⟩
    · cases e
    · cases e
  | href p x rest F l _ ih =>
    intro hv
    obtain ⟨r1, r2, r3⟩ := ih (fun it hit => hv it (by simp [hit]))
    obtain ⟨o, ho, p', hp', hit⟩ := hv (.href p x) (by simp)
    rcases item_cases hit with ⟨v, -, e, -⟩ | ⟨x', hx', e, hsv, -, hc⟩ | ⟨v, -, e, -⟩
    · cases e
    · cases e
      have hf := (h.features o ho).2 p.1 (feature_mem h hp')
      have hg := good_href h ho hp' hsv hx' hc
      exact ⟨⟨hf.1.1, fun a ha => (hg a ha).1, trivial, r1⟩, ⟨fun a ha => (hg a ha).2, trivial, r2⟩, legal_ne hf.1.1, trivial, r3⟩
    · cases e
  | child p x rest F1 F2 l1 l2 hW1 _ ih1 ih2 =>
    intro hv
    obtain ⟨r1, r2, r3⟩ := ih2 (fun it hit => hv it (by simp [hit]))
    obtain ⟨o, ho, p', hp', hit⟩ := hv (.child p x) (by simp)
    rcases item_cases hit with ⟨v, -, e, -⟩ | ⟨v, -, e, -⟩ | ⟨x', hx', e, hsv, hr, hc, hin⟩
    · cases e
    · cases e
    · cases e
      have hxd := child_mem h ho hp' hit
      obtain ⟨q1, q2, q3⟩ := ih1 (valid_all h hxd)
      have hf := (h.features o ho).2 p.1 (feature_mem h hp')
      have hg : ∀ a ∈ typeAttrs env g p x ++ idAttrs g opt x ++ allAttrs env g doc x, GoodAttr a := by
        intro a ha
        simp only [List.mem_append] at ha
        rcases ha with (ha | ha) | ha
        · exact good_type' h ho hp' hsv hx' a ha
        · exact good_id h hxd a ha
        · exact good_attrs h hxd a ha
      exact ⟨⟨hf.1.1, fun a ha => (hg a ha).1, q1, r1⟩, ⟨fun a ha => (hg a ha).2, q2, r2⟩, legal_ne hf.1.1, q3, r3⟩

/-! ## The document -/

omit h in
theorem inOrder_root {root : Nat} {doc : List Nat} (ho : InOrder env g [root] doc) :
    ∃ l, doc = root :: l ∧ InOrder env g (children env g root) l := by
  generalize e : [root] = os at ho
  cases ho with
  | nil => cases e
  | cons o os l l' h1 h2 =>
    cases e
    cases h2
    exact ⟨l, by simp, h1⟩

theorem encode_eq (n : Nat) (hn : doc.length ≤ n) : ∃ st F l, doc = root :: l ∧ Writes env g opt doc (allItems env g root) F l ∧
    GoodEnc env g doc st ∧ Typed env g doc st.declared F ∧ env.ns.nsPrefix (env.pkg (g.cls root)) ∈ st.declared ∧
    encode env g opt n = some (header ++ '\n' :: render 0 (.elem (qname env (g.cls root))
      (namespaces st ++ (idAttrs g opt root ++ allAttrs env g doc root)) (short env g root) F .nil), 0) := by
  obtain ⟨l, hdoc, ho⟩ := inOrder_root h.order
  have hroot : root ∈ doc := by simp [hdoc]
  obtain ⟨F, hW⟩ := writes_exists (opt := opt) (doc := doc) ho (allItems env g root) (children_items env g root)
  have hnm : Named env g doc (g.cls root) := ⟨root, hroot, .inl rfl⟩
  have hg0 : GoodEnc env g doc {} := by
    constructor
    · rfl
    · intro p q hq; cases hq
    · intro u _; rfl
    · intro q u hq; cases hq
    · intro q hq; cases hq
  obtain ⟨st1, e1, hg1, hp1, -⟩ := classQName_eq h hg0 hnm
  obtain ⟨n', rfl⟩ : ∃ n', n = n' + 1 := ⟨n - 1, by rw [hdoc] at hn; simp at hn; omega⟩
  obtain ⟨st2, e2, hg2, hd2, ht2⟩ := save_items h hW (valid_all h hroot) (n' + 1) n' hn (by rw [hdoc] at hn; simp at hn; omega) st1 hg1
  obtain ⟨r1, r2, r3⟩ := readable_items h hW (valid_all h hroot)
  refine ⟨st2, F, l, hdoc, hW, hg2, ht2, hd2 _ hp1, ?_⟩
  have hid : saveElementID g opt root = (idAttrs g opt root).map (fun a => Call.addAttribute a.1 a.2) := by
    simp only [saveElementID, idAttrs]
    cases (if (g.manager && decide (opt.idAttribute ≠ [])) = true then g.id root else none) <;> rfl
  have hs : (short env g root && F.isNil) = short env g root := by
    cases hsh : short env g root with
    | false => rfl
    | true =>
      rw [short_nil h hW]
      have : allItems env g root = [] := by
        simp only [allItems, List.flatMap_eq_nil_iff]
        intro q hq
        apply items_nil
        simp only [short, Bool.not_eq_true', List.any_eq_false] at hsh
        simpa using hsh q hq
      simp [this]
  have hcalls : saveTop env g opt (n' + 1) root = some (st2, calls (.elem (qname env (g.cls root))
      (idAttrs g opt root ++ allAttrs env g doc root) (short env g root) F .nil)) := by
    simp only [saveTop, Option.bind_eq_bind, e1, Option.bind_some, saveFeatures_eq h (n' + 1) n' hn hroot, e2, Option.map_some, calls, hs, hid]
    simp [List.map_append, List.append_assoc]
  simp only [encode, h.roots, hcalls, Option.bind_eq_bind, Option.bind_some]
  have hnamed : XMLString.Spec.Named (.elem (qname env (g.cls root)) (idAttrs g opt root ++ allAttrs env g doc root) (short env g root) F .nil) :=
    ⟨legal_ne (qname_legal h hnm), r3, trivial⟩
  rw [XMLString.document_eq _ hnamed]
  simp only [withNamespaces, if_true, Option.bind_some, hg2.errors]

/-! ## Namespaces -/

theorem lookup_functional {l : List (Text × Text)} {k v : Text} (hf : ∀ kv ∈ l, kv.1 = k → kv.2 = v) (hm : ∃ kv ∈ l, kv.1 = k) :
    l.lookup k = some v := by
  induction l with
  | nil => obtain ⟨_, hm, -⟩ := hm; simp at hm
  | cons a l ih =>
    obtain ⟨k', v'⟩ := a
    rw [List.lookup_cons]
    by_cases e : k' = k
    · have := hf (k', v') (by simp) e
      simp only at this
      subst e this
      simp
    · have : (k == k') = false := by simpa using fun e' => e e'.symm
      rw [this]
      apply ih (fun kv hkv => hf kv (by simp [hkv]))
      obtain ⟨kv, hkv, e'⟩ := hm
      rcases List.mem_cons.1 hkv with rfl | hkv
      · exact absurd e' e
      · exact ⟨kv, hkv, e'⟩

theorem lookup_none {l : List (Text × Text)} {k : Text} (hf : ∀ kv ∈ l, kv.1 ≠ k) : l.lookup k = none := by
  rw [List.lookup_eq_none_iff]
  intro p hp
  simpa using fun e => hf p hp e.symm

/-- the namespaces of the document: the last one first -/
def spaces (st : Enc) : List (Text × Text) :=
  ((st.declared.insertionSort (· ≤ ·)).map fun p => (p.toList, ((st.prefixes.prefixesToURI p).getD "").toList)).reverse ++
    [("xmi".toList, xmiURI)]

/-- the tokens of attributes -/
def toks (ns : List (Text × Text)) (l : List (Text × Text)) : List (Name × Text) :=
  l.map fun a => (attributeName ns a.1, (readText a.2).getD [])

omit h in
theorem reads_toks {ns : List (Text × Text)} {l : List (Text × Text)} {as : List (Name × Text)}
    (hr : List.Forall₂ (ReadsAttribute (attributeName ns)) l as) : as = toks ns l := by
  induction hr with
  | nil => rfl
  | cons ha _ ih =>
    rename_i a b _ _ _
    simp only [toks, List.map_cons]
    rw [ha.2, ← ha.1, ih]
    rfl

omit h in
theorem declare_append (ns : List (Text × Text)) (a b : List (Name × Text)) : XMLLex.declare ns (a ++ b) = XMLLex.declare (XMLLex.declare ns a) b := by
  induction a generalizing ns with
  | nil => rfl
  | cons x a ih =>
    rw [List.cons_append, XMLLex.declare, XMLLex.declare]
    split
    · exact ih _
    · split
      · exact ih _
      · exact ih _

/-- what is known about a declared prefix -/
theorem prefix_facts {st : Enc} (hg : GoodEnc env g doc st) {q : String} (hq : q ∈ st.declared) :
    ∃ u, st.prefixes.prefixesToURI q = some u ∧ LegalName q.toList ∧ ':' ∉ q.toList ∧ Literal u.toList ∧ q ≠ "xmi" ∧ q ≠ "xmlns" ∧ q ≠ "xml" ∧
      q ≠ "href" ∧ q.toList ≠ opt.idAttribute ∧ (q = "xsi" → u = XMLPrefix.xsiURI) ∧
      ∀ c, Named env g doc c → q = env.ns.nsPrefix (env.pkg c) → u = env.ns.nsURI (env.pkg c) := by
  obtain ⟨u, hu⟩ := Option.isSome_iff_exists.1 (hg.declared q hq)
  rcases hg.bound q u hu with ⟨rfl, rfl⟩ | ⟨c, hc, rfl, rfl⟩
  · refine ⟨_, hu, ⟨⟨'x', "si".toList, rfl, by decide⟩, by decide, by decide⟩, by decide, ?_, by decide, by decide, by decide, by decide, ?_,
      fun _ => rfl, ?_⟩
    · unfold Literal; decide
    · intro e
      apply h.idAttribute
      rw [← e]; simp
    · intro c hc e
      have := (h.known c hc).reserved.1
      rw [← e] at this; simp at this
  · have hk := h.known c hc
    have hr := hk.reserved.1
    simp only [List.mem_cons, List.not_mem_nil, or_false, not_or] at hr
    refine ⟨_, hu, hk.pre.1, hk.pre.2, hk.uri.1, hr.2.1, hr.2.2.1, hr.2.2.2.1, hr.2.2.2.2, hk.reserved.2, fun e => absurd e hr.1, ?_⟩
    intro c' hc' e
    rw [h.prefixes c c' hc hc' e]

theorem toList_inj {a b : String} (e : a.toList = b.toList) : a = b := String.toList_inj.1 e

theorem rawName_xmlns {q : String} (hl : LegalName q.toList) (hc : ':' ∉ q.toList) :
    rawName ("xmlns:".toList ++ q.toList) = ⟨XMLLex.xmlns, q.toList⟩ := by
  have := rawName_prefixed "xmlns".toList q.toList (by decide) hc (by decide) (legal_ne hl)
  exact this

theorem mem_sorted {st : Enc} {q : String} : q ∈ st.declared.insertionSort (· ≤ ·) ↔ q ∈ st.declared :=
  (List.perm_insertionSort _ _).mem_iff

theorem declare_decls (ns : List (Text × Text)) (l : List (Text × Text)) (he : ∀ a ∈ l, a.1 ≠ [] ∧ ':' ∉ a.1) (hlit : ∀ a ∈ l, Literal a.2) :
    XMLLex.declare ns (l.map fun a => (rawName ("xmlns:".toList ++ a.1), (readText a.2).getD [])) = l.reverse ++ ns := by
  induction l generalizing ns with
  | nil => rfl
  | cons a l ih =>
    have e : rawName ("xmlns:".toList ++ a.1) = ⟨XMLLex.xmlns, a.1⟩ :=
      rawName_prefixed "xmlns".toList a.1 (by decide) (he a (by simp)).2 (by decide) (he a (by simp)).1
    rw [List.map_cons, XMLLex.declare, e, if_pos rfl, ih _ (fun b hb => he b (by simp [hb])) (fun b hb => hlit b (by simp [hb])),
      XMLLex.readText_literal (hlit a (by simp))]
    simp

theorem namespaces_eq {st : Enc} (hg : GoodEnc env g doc st) : namespaces st = ("xmi:version".toList, "2.0".toList) ::
    ("xmlns:xmi".toList, xmiURI) :: ((spaces st).reverse.tail).map (fun a => ("xmlns:".toList ++ a.1, a.2)) := by
  simp only [namespaces, spaces, List.reverse_append, List.reverse_reverse, List.reverse_cons, List.reverse_nil, List.nil_append,
    List.singleton_append, List.tail_cons, List.map_map]
  congr 2
  apply List.map_congr_left
  intro q hq
  rw [mem_sorted h] at hq
  obtain ⟨u, -, hl, -⟩ := prefix_facts h hg hq
  have : q ≠ "" := by
    rintro rfl
    exact legal_ne hl rfl
  simp [this]

theorem spaces_facts {st : Enc} (hg : GoodEnc env g doc st) : ∀ a ∈ spaces st, LegalName a.1 ∧ ':' ∉ a.1 ∧ Literal a.2 ∧ a.1 ≠ "xmlns".toList ∧
    a.1 ≠ "xml".toList ∧ a.1 ≠ "href".toList ∧ a.1 ≠ opt.idAttribute := by
  intro a ha
  simp only [spaces, List.mem_append, List.mem_reverse, List.mem_map, List.mem_singleton] at ha
  rcases ha with ⟨q, hq, rfl⟩ | rfl
  · rw [mem_sorted h] at hq
    obtain ⟨u, hu, hl, hc, hlit, h1, h2, h3, h4, h5, -⟩ := prefix_facts h hg hq
    refine ⟨hl, hc, by simp [hu, hlit], fun e => h2 (toList_inj h e), fun e => h3 (toList_inj h e), fun e => h4 (toList_inj h e), h5⟩
  · refine ⟨⟨⟨'x', "mi".toList, rfl, by decide⟩, by decide, by decide⟩, by decide, ?_, by decide, by decide, by decide, ?_⟩
    · unfold Literal; decide
    · intro e
      apply h.idAttribute
      rw [← e]; decide

theorem spaces_reverse (st : Enc) : ∃ l, spaces st = l ++ [("xmi".toList, xmiURI)] ∧ (spaces st).reverse.tail = l.reverse :=
  ⟨_, rfl, by simp [spaces]⟩

theorem declared_eq {st : Enc} (hg : GoodEnc env g doc st) (l : List (Text × Text)) (hl : ∀ a ∈ l, NotDecl a.1) :
    declared (namespaces st ++ l) = spaces st := by
  obtain ⟨l', e1, e2⟩ := spaces_reverse h st
  have hf := spaces_facts h hg
  unfold declared
  rw [namespaces_eq h hg, e2]
  simp only [List.cons_append, List.map_cons, List.map_append, List.map_map]
  have n1 : rawName "xmi:version".toList = ⟨"xmi".toList, "version".toList⟩ := by decide
  have n2 : rawName "xmlns:xmi".toList = ⟨XMLLex.xmlns, "xmi".toList⟩ := by decide
  rw [XMLLex.declare, n1, if_neg (by decide), if_neg (by decide), XMLLex.declare, n2, if_pos rfl, declare_append]
  have e3 := declare_decls h [("xmi".toList, xmiURI)] l'.reverse (fun a ha => by
    have := hf a (by rw [e1]; simp at ha; simp [ha])
    exact ⟨legal_ne this.1, this.2.1⟩) (fun a ha => (hf a (by rw [e1]; simp at ha; simp [ha])).2.2.1)
  have e4 : (readText xmiURI).getD [] = xmiURI := by
    rw [XMLLex.readText_literal (by unfold Literal; decide)]; rfl
  rw [e4]
  have e5 : XMLLex.declare [("xmi".toList, xmiURI)] (l'.reverse.map ((fun a => (rawName a.1, (readText a.2).getD [])) ∘ fun a => ("xmlns:".toList ++ a.1, a.2))) =
      l' ++ [("xmi".toList, xmiURI)] := by
    rw [List.reverse_reverse] at e3
    exact e3
  rw [e5, e1]
  apply XMLLex.declare_none
  intro a ha
  simp only [List.mem_map] at ha
  obtain ⟨b, hb, rfl⟩ := ha
  exact hl b hb

theorem attributeName_plain (ns : List (Text × Text)) {s : Text} (hs : ':' ∉ s) : attributeName ns s = ⟨[], s⟩ := by
  unfold attributeName
  rw [rawName_plain s hs]
  simp [XMLLex.translate]

theorem elementName_plain {ns : List (Text × Text)} (hn : ns.lookup [] = none) {s : Text} (hs : ':' ∉ s) : elementName ns s = ⟨[], s⟩ := by
  unfold elementName
  rw [rawName_plain s hs]
  simp only [XMLLex.translate, hn]
  split
  · rfl
  · split
    · rename_i e; exact absurd (show ([] : Text) = "xml".toList from e) (by decide)
    · split <;> rfl

/-- what is known about namespaces while reading: those of names and those of the decoder -/
structure GoodSpaces (env : Env D) (g : Graph D) (doc : List Nat) (d : List String) (ns : List (Text × Text)) : Prop where
  default : ns.lookup [] = none
  xmi : ns.lookup "xmi".toList = some xmiURI
  xsi : "xsi" ∈ d → ns.lookup "xsi".toList = some xsiURI
  package : ∀ c, Named env g doc c → env.ns.nsPrefix (env.pkg c) ∈ d →
    ns.lookup (env.ns.nsPrefix (env.pkg c)).toList = some (env.ns.nsURI (env.pkg c)).toList

theorem goodSpaces {st : Enc} (hg : GoodEnc env g doc st) : GoodSpaces env g doc st.declared (spaces st) := by
  have hmem : ∀ q, q ∈ st.declared → ∃ kv ∈ spaces st, kv.1 = q.toList := by
    intro q hq
    refine ⟨(q.toList, ((st.prefixes.prefixesToURI q).getD "").toList), ?_, rfl⟩
    simp only [spaces, List.mem_append, List.mem_reverse, List.mem_map]
    exact .inl ⟨q, (mem_sorted h).2 hq, rfl⟩
  have hval : ∀ q u, q ∈ st.declared → st.prefixes.prefixesToURI q = some u → q ≠ "xmi" → ∀ kv ∈ spaces st, kv.1 = q.toList → kv.2 = u.toList := by
    intro q u hq hu hne kv hkv e
    simp only [spaces, List.mem_append, List.mem_reverse, List.mem_map, List.mem_singleton] at hkv
    rcases hkv with ⟨q', hq', rfl⟩ | rfl
    · have := toList_inj h e
      subst this
      simp [hu]
    · exact absurd (toList_inj h e).symm hne
  constructor
  · apply lookup_none h
    intro kv hkv
    exact legal_ne (spaces_facts h hg kv hkv).1
  · apply lookup_functional h
    · intro kv hkv e
      simp only [spaces, List.mem_append, List.mem_reverse, List.mem_map, List.mem_singleton] at hkv
      rcases hkv with ⟨q', hq', rfl⟩ | rfl
      · rw [mem_sorted h] at hq'
        obtain ⟨u, -, -, -, -, h1, -⟩ := prefix_facts h hg hq'
        exact absurd (toList_inj h e) h1
      · rfl
    · exact ⟨("xmi".toList, xmiURI), by simp [spaces], rfl⟩
  · intro hx
    obtain ⟨u, hu, -, -, -, h1, -, -, -, -, h2, -⟩ := prefix_facts h hg hx
    have := h2 rfl
    subst this
    exact lookup_functional h (hval _ _ hx hu h1) (hmem _ hx)
  · intro c hc hd
    obtain ⟨u, hu, -, -, -, h1, -, -, -, -, -, h2⟩ := prefix_facts h hg hd
    have := h2 c hc rfl
    subst this
    exact lookup_functional h (hval _ _ hd hu h1) (hmem _ hd)

end

end Verif.XMLCodec
