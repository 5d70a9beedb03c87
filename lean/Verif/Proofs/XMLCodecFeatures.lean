import Verif.Proofs.XMLCodecAttributes

/-!
# All the attributes of an object
-/

namespace Verif.XMLCodec

open Verif.XMLString (Text escape)
open Verif.XMLLex (Name LegalName Literal attributeName readText)
open Spec

variable {D : Type}

theorem notFeature_plain (s : Text) : (⟨[], s⟩ : Name) ∉ notFeatures := by
  have h1 : ([] : Text) ≠ xsiURI := by decide
  have h2 : ([] : Text) ≠ xmiURI := by decide
  simp [notFeatures, h1, h2]

theorem setSlot_self {c : Copy D} {i : Nat} {v : Option (Val D)} (hv : v = c.slot i) : setSlot c i v = c := by
  subst hv
  simp only [setSlot]
  congr 1
  funext j
  split
  · rename_i e; rw [e]
  · rfl

section
variable {env : Env D} {g : Graph D} {opt : Opt} {root : Nat} {doc : List Nat}
variable (h : Savable env g opt root doc)
include h

/-- a feature that is not written is not set while the attributes are read -/
theorem attr_none {x : Nat} (hx : x ∈ doc) {p : Feature × Nat} (hp : p ∈ (env.features (g.cls x)).zipIdx) (ha : attrs env g doc x p = [])
    (log : List Entry) (j : Nat) : valueOf g log x p (vis g opt doc x p) = none ∧ pend env g opt doc j x p = [] := by
  by_cases hsv : Saved p.1
  · by_cases hr : p.1.isReference = true
    · by_cases hi : isRef g x p = true
      · have hob : objects (g.slot x p.2) = [] := by
          obtain ⟨h1, h2, h3, h4⟩ := (isRef_iff h).1 hi
          have hk := kind_href h1 h2 h3
          have e : attrs env g doc x p = if crossed g (g.slot x p.2) = true ∨ objects (g.slot x p.2) = [] then []
              else [(p.1.name, join ' ' ((objects (g.slot x p.2)).map fun x => '#' :: frag env g doc x))] := by
            cases hm : p.1.many <;> simp [attrs, hk, hm]
          rw [e] at ha
          split at ha
          · rename_i e; rcases e with e | e
            · rw [h4] at e; cases e
            · exact e
          · cases ha
        constructor
        · simp [valueOf, hsv, hr, hob]
        · simp [pend, hi, hob]
      · constructor
        · simp [valueOf, hsv, hr, vis, hi]
        · simp [pend, hi]
    · have hi : isRef g x p = false := by simp [isRef, hr]
      refine ⟨?_, by simp [pend, hi]⟩
      cases hm : p.1.many with
      | true => simp [valueOf, hsv, hr, hm, vis, hi]
      | false =>
        simp only [valueOf, hsv, hr, hm, if_true, Bool.false_eq_true, if_false]
        have hr : p.1.isReference = false := by simpa using hr
        have hk := kind_data hsv hr
        have e : attrs env g doc x p = (values (g.slot x p.2)).map fun v => (p.1.name, escape (env.toText p.1.type v)) := by
          cases hu : p.1.unsettable <;> simp [attrs, hk, hm, hu]
        cases hs : g.slot x p.2 with
        | none => rfl
        | some v =>
          have hf := (h.fits x hx p hp hsv v hs).1
          cases v with
          | data v =>
            obtain ⟨v, rfl⟩ := Option.ne_none_iff_exists'.1 hf.2.2
            rw [e, hs] at ha
            cases ha
          | datas l => rw [hf.2.1] at hm; cases hm
          | obj x => rw [hf.1] at hr; cases hr
          | objs l => rw [hf.1] at hr; cases hr
  · have hi : isRef g x p = false := by simp [isRef, hsv]
    exact ⟨by simp [valueOf, hsv], by simp [pend, hi]⟩

/-- the attribute of a feature is read -/
theorem step_feature {s : Dec D} {j x : Nat} (hx : x ∈ doc) (hcls : clsOf s j = g.cls x) {p : Feature × Nat}
    (hp : p ∈ (env.features (g.cls x)).zipIdx) (v : Text) (rest : List (Name × Text)) :
    handleAttributes env g.manager opt j s ((⟨[], p.1.name⟩, v) :: rest) =
      (if p.1.isReference then setValueFromId env g.manager opt s j p.2 p.1 v else some (setText env s j p.2 p.1 v true)).bind
        fun s => handleAttributes env g.manager opt j s rest := by
  have hf := (h.features x hx).2 p.1 (feature_mem h hp)
  rw [handleAttributes]
  simp only
  rw [if_neg hf.2.2.2, if_neg hf.2.1, if_pos ⟨hf.2.2.1, show ([] : Text) ≠ XMLLex.xmlns by decide, notFeature_plain _⟩]
  simp only [setAttributeValue, splitQName_plain _ hf.1.2.1, hcls, findFeature_eq env _ (h.features x hx).1 p hp]
  rfl

theorem read_feature {t : Dec D} {log : List Entry} {k : Nat → Nat → Nat} {x : Nat} {ids : List (Text × Nat)}
    (hR : Reading env g root doc t log k x ids) (ns : List (Text × Text)) (refs : List Ref) {p : Feature × Nat}
    (hp : p ∈ (env.features (g.cls x)).zipIdx) (c : Copy D) (hcls : c.cls = g.cls x) (hc : c.container = none) (hs : c.slot p.2 = none)
    (rest : List (Name × Text)) :
    handleAttributes env g.manager opt t.objs.length (ext t c ids refs) (toks ns (attrs env g doc x p) ++ rest) =
      handleAttributes env g.manager opt t.objs.length
        (ext t (setSlot c p.2 (valueOf g (log ++ [.obj x]) x p (vis g opt doc x p))) ids (refs ++ pend env g opt doc t.objs.length x p)) rest := by
  have hf := (h.features x hR.mem).2 p.1 (feature_mem h hp)
  have hnm : attributeName ns p.1.name = ⟨[], p.1.name⟩ := attributeName_plain h ns hf.1.2.1
  rcases attr_cases h hR.mem hp with e | ⟨hsv, hr, hm, v, hv, e⟩ | ⟨hsv, hr, hm, hv, e⟩ | ⟨hsv, hr, hct, hcr, hne, e⟩
  · obtain ⟨e1, e2⟩ := attr_none h hR.mem hp e (log ++ [.obj x]) t.objs.length
    rw [e, e1, e2, setSlot_self hs.symm]
    simp [toks]
  · have hi : isRef g x p = false := by simp [isRef, hr]
    have h1 := h.single x hR.mem p hp hsv v (by rw [hv]; simp [values])
    rw [e]
    simp only [toks, List.map_cons, List.map_nil, List.cons_append, List.nil_append, hnm]
    rw [step_feature h hR.mem (by rw [cls_ext]; exact hcls) hp]
    simp only [hr, Bool.false_eq_true, if_false, Option.bind_some, setText, hm, putSlot_ext, XMLLex.readText_escape (h1.2.1 hm), Option.getD_some, h1.1]
    simp [valueOf, hsv, hr, hm, hv, pend, hi]
  · have hi : isRef g x p = false := by simp [isRef, hr]
    rw [e]
    simp only [toks, List.map_cons, List.map_nil, List.cons_append, List.nil_append, hnm]
    rw [step_feature h hR.mem (by rw [cls_ext]; exact hcls) hp]
    simp only [hr, Bool.false_eq_true, if_false, Option.bind_some, setText, hm, if_true]
    rw [setSlot_self]
    · simp [pend, hi]
    · rw [hs]
      simp [valueOf, hsv, hr, hm, hv]
  · have hi : isRef g x p = true := (isRef_iff h).2 ⟨hsv, hr, hct, hcr⟩
    have hd := ref_doc h hR.mem hp hi
    rw [e]
    simp only [toks, List.map_cons, List.map_nil, List.cons_append, List.nil_append, hnm]
    rw [step_feature h hR.mem (by rw [cls_ext]; exact hcls) hp]
    rw [XMLLex.readText_literal (literal_refs h hd)]
    simp only [hr, if_true, Option.getD_some, setValueFromId]
    rw [split_join ' ' _ (by simpa using hne) (by
      intro u hu
      obtain ⟨y, hy, rfl⟩ := List.mem_map.1 hu
      intro hc
      rcases List.mem_cons.1 hc with hc | hc
      · cases hc
      · exact (frag_chars h (hd y hy)).2 hc)]
    rw [setIds_eq h hR refs hp hi c hc hs]
    simp only [Option.bind_eq_bind, Option.bind_some]
    rw [if_neg (by simpa using hne)]
    rfl

theorem read_features {t : Dec D} {log : List Entry} {k : Nat → Nat → Nat} {x : Nat} {ids : List (Text × Nat)}
    (hR : Reading env g root doc t log k x ids) (ns : List (Text × Text)) (rest : List (Name × Text)) (ps : List (Feature × Nat))
    (hps : ∀ p ∈ ps, p ∈ (env.features (g.cls x)).zipIdx) (hnd : (ps.map (·.2)).Nodup) (refs : List Ref)
    (c : Copy D) (hcls : c.cls = g.cls x) (hc : c.container = none) (hs : ∀ p ∈ ps, c.slot p.2 = none) :
    handleAttributes env g.manager opt t.objs.length (ext t c ids refs) (toks ns (ps.flatMap (attrs env g doc x)) ++ rest) =
      handleAttributes env g.manager opt t.objs.length
        (ext t (ps.foldl (fun c p => setSlot c p.2 (valueOf g (log ++ [.obj x]) x p (vis g opt doc x p))) c) ids
          (refs ++ ps.flatMap (pend env g opt doc t.objs.length x))) rest := by
  induction ps generalizing c refs with
  | nil => simp [toks]
  | cons p ps ih =>
    have e : toks ns ((p :: ps).flatMap (attrs env g doc x)) ++ rest =
        toks ns (attrs env g doc x p) ++ (toks ns (ps.flatMap (attrs env g doc x)) ++ rest) := by
      simp [toks, List.map_append]
    rw [List.map_cons, List.nodup_cons] at hnd
    rw [e, read_feature h hR ns refs (hps p (by simp)) c hcls hc (hs p (by simp)),
      ih (fun q hq => hps q (by simp [hq])) hnd.2 _ (setSlot c p.2 (valueOf g (log ++ [Entry.obj x]) x p (vis g opt doc x p))) hcls hc (by
        intro q hq
        simp only [setSlot]
        rw [if_neg]
        · exact hs q (by simp [hq])
        · intro e
          exact hnd.1 (List.mem_map.2 ⟨q, hq, e⟩))]
    simp

omit h in
theorem fold_other (F : Feature × Nat → Option (Val D)) (ps : List (Feature × Nat)) (c : Copy D) (j : Nat) (hj : j ∉ ps.map (·.2)) :
    (ps.foldl (fun c p => setSlot c p.2 (F p)) c).slot j = c.slot j := by
  induction ps generalizing c with
  | nil => rfl
  | cons p ps ih =>
    simp only [List.map_cons, List.mem_cons, not_or] at hj
    rw [List.foldl_cons, ih _ hj.2]
    simp [setSlot, hj.1]

omit h in
theorem fold_slot (F : Feature × Nat → Option (Val D)) (ps : List (Feature × Nat)) (hnd : (ps.map (·.2)).Nodup) (c : Copy D)
    (p : Feature × Nat) (hp : p ∈ ps) : (ps.foldl (fun c p => setSlot c p.2 (F p)) c).slot p.2 = F p := by
  induction ps generalizing c with
  | nil => cases hp
  | cons q ps ih =>
    rw [List.map_cons, List.nodup_cons] at hnd
    rw [List.foldl_cons]
    rcases List.mem_cons.1 hp with rfl | hp
    · rw [fold_other _ _ _ _ hnd.1]
      simp [setSlot]
    · exact ih hnd.2 _ hp

omit h in
theorem fold_rest (F : Feature × Nat → Option (Val D)) (ps : List (Feature × Nat)) (c : Copy D) :
    ps.foldl (fun c p => setSlot c p.2 (F p)) c = { c with slot := (ps.foldl (fun c p => setSlot c p.2 (F p)) c).slot } := by
  induction ps generalizing c with
  | nil => rfl
  | cons p ps ih => rw [List.foldl_cons, ih]; rfl

omit h in
theorem zipIdx_snd_nodup {α : Type} (l : List α) : (l.zipIdx.map (·.2)).Nodup := by
  rw [List.zipIdx_map_snd]
  exact List.nodup_range'

/-- the IDs after the attribute with the ID -/
def newIds (g : Graph D) (x j : Nat) (ids : List (Text × Nat)) : List (Text × Nat) :=
  if g.manager then match g.id x with
    | some id => (id, j) :: ids
    | none => ids
  else ids

/-- attributes that are not for features are skipped -/
theorem skip_attributes {s : Dec D} {j : Nat} (l rest : List (Name × Text))
    (hl : ∀ a ∈ l, a.1.loc ≠ opt.idAttribute ∧ a.1.loc ≠ "href".toList ∧ (a.1.space = XMLLex.xmlns ∨ a.1 ∈ notFeatures)) :
    handleAttributes env g.manager opt j s (l ++ rest) = handleAttributes env g.manager opt j s rest := by
  induction l with
  | nil => rfl
  | cons a l ih =>
    obtain ⟨h1, h2, h3⟩ := hl a (by simp)
    rw [List.cons_append, handleAttributes, if_neg h1, if_neg h2, if_neg, Option.bind_eq_bind, Option.bind_some]
    · exact ih fun b hb => hl b (by simp [hb])
    · rintro ⟨-, e2, e3⟩
      exact h3.elim e2 e3

/-- what is known before an object is created -/
structure Before (env : Env D) (g : Graph D) (root : Nat) (doc : List Nat) (t : Dec D) (log : List Entry) (k : Nat → Nat → Nat) (x : Nat) : Prop where
  wf : Log env g doc log k
  looks : Looks env g root doc t log k [] none
  mem : x ∈ doc
  new : Entry.obj x ∉ log
  before : ∀ y, Entry.obj y ∈ log ↔ doc.idxOf y < doc.idxOf x

theorem reading {t : Dec D} {log : List Entry} {k : Nat → Nat → Nat} {x : Nat} (hB : Before env g root doc t log k x) :
    Reading env g root doc t log k x (newIds g x t.objs.length t.ids) := by
  have hobjs : t.objs = log.map (copyOf env g doc log k) := by simpa using hB.looks.objs
  refine ⟨hB.wf, hobjs, hB.looks.roots, ?_, hB.mem, hB.new, hB.before⟩
  intro hm y hy id hid
  obtain ⟨idx, hidx, -⟩ := (h.managed hm).2.2.1 x hB.mem
  simp only [newIds, hm, if_true, hidx]
  rw [List.lookup_cons]
  by_cases e : y = x
  · subst e
    rw [hid] at hidx
    cases hidx
    simp [hB.new, hobjs]
  · have : (id == idx) = false := by
      simp only [beq_eq_false_iff_ne]
      rintro rfl
      exact e ((h.managed hm).2.2.2 y hy x hB.mem (by rw [hid, hidx]))
    rw [this]
    simp only
    rw [hB.looks.ids hm y hy id hid]
    have : ¬ x = y := fun e' => e e'.symm
    simp [this]

/-- the attributes of a new object -/
theorem read_attributes {t : Dec D} {log : List Entry} {k : Nat → Nat → Nat} {x : Nat} (hB : Before env g root doc t log k x)
    (ns : List (Text × Text)) (k' : Nat → Nat → Nat) (hk : ∀ i, k' x i = start env g opt doc x i) :
    handleAttributes env g.manager opt t.objs.length { t with objs := t.objs ++ [{ cls := g.cls x }] }
        (toks ns (idAttrs g opt x ++ allAttrs env g doc x)) =
      some { t with
        objs := t.objs ++ [{ cls := g.cls x, slot := slots env g (log ++ [.obj x]) k' x }]
        ids := newIds g x t.objs.length t.ids
        refs := t.refs ++ (env.features (g.cls x)).zipIdx.flatMap (pend env g opt doc t.objs.length x) } := by
  have hR := reading h hB
  have hid : handleAttributes env g.manager opt t.objs.length { t with objs := t.objs ++ [{ cls := g.cls x }] }
        (toks ns (idAttrs g opt x ++ allAttrs env g doc x)) =
      handleAttributes env g.manager opt t.objs.length (ext t { cls := g.cls x } (newIds g x t.objs.length t.ids) t.refs)
        (toks ns (allAttrs env g doc x)) := by
    rcases ids_eq h hB.mem with ⟨hm, e⟩ | ⟨hm, id, hid, hp, e⟩
    · rw [e]
      simp [newIds, hm, ext]
    · rw [e]
      simp only [toks, List.cons_append, List.nil_append, List.map_cons]
      rw [attributeName_plain h ns (h.managed hm).1.2.1, XMLLex.readText_literal hp.2.1, handleAttributes, if_pos rfl]
      simp [newIds, hm, hid, ext]
  rw [hid]
  have := read_features h hR ns [] (env.features (g.cls x)).zipIdx (fun p hp => hp) (zipIdx_snd_nodup _) t.refs { cls := g.cls x } rfl rfl
    (fun _ _ => rfl)
  rw [List.append_nil] at this
  rw [show allAttrs env g doc x = (env.features (g.cls x)).zipIdx.flatMap (attrs env g doc x) from rfl, this, handleAttributes, fold_rest]
  simp only [ext]
  congr 4
  have : ((env.features (g.cls x)).zipIdx.foldl (fun c p => setSlot c p.2 (valueOf g (log ++ [.obj x]) x p (vis g opt doc x p)))
      ({ cls := g.cls x } : Copy D)).slot = slots env g (log ++ [.obj x]) k' x := by
    funext j
    simp only [slots]
    cases hj : (env.features (g.cls x))[j]? with
    | none =>
      rw [fold_other]
      · rw [List.zipIdx_map_snd, List.mem_range'_1]
        have := List.getElem?_eq_none_iff.1 hj
        omega
    | some f =>
      have := fold_slot (fun p => valueOf g (log ++ [.obj x]) x p (vis g opt doc x p)) _ (zipIdx_snd_nodup _) ({ cls := g.cls x } : Copy D) (f, j)
        (List.mem_zipIdx_iff_getElem?.2 hj)
      simp only at this
      rw [this, hk]
      simp only [start, hj]
  rw [this]

end

end Verif.XMLCodec
