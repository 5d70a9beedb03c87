import Verif.Proofs.XMLCodecTop

/-!
# What has been read is the document
-/

namespace Verif.XMLCodec

open Verif.XMLString (Text escape)
open Verif.XMLString.Spec (Forest render)
open Verif.XMLLex (Name Token LegalName Literal attributeName elementName readText Reads IsBlank NotDecl rawName declared)
open Spec

variable {D : Type}

theorem forall_zipIdx {α β : Type} {R : α → β → Prop} (l : List α) (f : α × Nat → β) (m : Nat)
    (hR : ∀ n x, l[n]? = some x → R x (f (x, m + n))) : List.Forall₂ R l ((l.zipIdx m).map f) := by
  induction l generalizing m with
  | nil => exact .nil
  | cons a l ih =>
    rw [List.zipIdx_cons, List.map_cons]
    refine .cons (hR 0 a rfl) (ih (m + 1) ?_)
    intro n x hx
    have := hR (n + 1) x (by simpa using hx)
    rwa [show m + (n + 1) = m + 1 + n by omega] at this

section
variable {env : Env D} {g : Graph D} {opt : Opt} {root : Nat} {doc : List Nat}
variable (h : Savable env g opt root doc)
include h

/-- the elements of a reference when all has been read -/
theorem refs_value {log : List Entry} {o : Nat} (ho : o ∈ doc) {p : Feature × Nat} (hp : p ∈ (env.features (g.cls o)).zipIdx) (hsv : Saved p.1)
    (hr : p.1.isReference = true) :
    referred (valueOf g log o p (objects (g.slot o p.2)).length) =
      (objects (g.slot o p.2)).zipIdx.map fun x => some (im log (entryAt g o p x.2 x.1)) := by
  have ht : (objects (g.slot o p.2)).zipIdx.take (objects (g.slot o p.2)).length = (objects (g.slot o p.2)).zipIdx :=
    List.take_of_length_le (by simp)
  simp only [valueOf, if_pos hsv, hr, if_true, ht]
  cases hm : p.1.many with
  | true =>
    simp only [if_true]
    split
    · rename_i e
      simp only [List.map_eq_nil_iff] at e
      rw [e]; rfl
    · simp only [referred, List.map_map]; rfl
  | false =>
    rcases single_object h ho hp hsv hr hm with e | ⟨x, e⟩ <;> rw [e] <;> simp [referred]

theorem same_value {s : Dec D} {log : List Entry} {k : Nat → Nat → Nat} {stk : List (Option Nat)} {tys : List Ty} {sp : List (List (Text × Text))}
    (hA : At env g opt root doc s log k stk tys sp) (hall : ∀ x ∈ doc, Entry.obj x ∈ log)
    (hk : ∀ o ∈ doc, ∀ p ∈ (env.features (g.cls o)).zipIdx, k o p.2 = if isRef g o p then (objects (g.slot o p.2)).length else (items g o p).length)
    {o : Nat} (ho : o ∈ doc) {p : Feature × Nat} (hp : p ∈ (env.features (g.cls o)).zipIdx) (hsv : Saved p.1) :
    SameValue env g s (fun x => im log (.obj x)) p.1 (g.slot o p.2) (valueOf g log o p (k o p.2)) := by
  have hko := hk o ho p hp
  have hobjs : s.objs = log.map (copyOf env g doc log k) := by simpa using hA.looks.objs
  cases hr : p.1.isReference with
  | true =>
    have hlen : k o p.2 = (objects (g.slot o p.2)).length := by
      rw [hko]
      split
      · rfl
      · rename_i hnr
        cases hc : p.1.containment with
        | true =>
          unfold items
          rw [kind_contain hsv hr hc]
          cases p.1.many <;> simp
        | false =>
          have hcr : crossed g (g.slot o p.2) = true := by
            cases e : crossed g (g.slot o p.2) with
            | true => rfl
            | false => exact absurd ((isRef_iff h).2 ⟨hsv, hr, hc, e⟩) hnr
          unfold items
          rw [kind_href hsv hr hc]
          cases p.1.many <;> simp [hcr]
    have hprox : ∀ n x, (objects (g.slot o p.2))[n]? = some x → entryAt g o p n x = .proxy o p n x →
        ((p.1.containment = true ∧ ¬ Inside g x) ∨ (p.1.containment = false ∧ crossed g (g.slot o p.2) = true)) →
        IsProxyOf env g s (fun x => im log (.obj x)) x (im log (entryAt g o p n x)) := by
      intro n x hx he hc
      have hin := hA.wf.seen o (hall o ho) p hp hr hsv n x hx (by rw [hlen]; exact (List.getElem?_eq_some_iff.1 hx).1)
      obtain ⟨h1, h2, -⟩ := href_ok h ho hp hsv (List.mem_of_getElem? hx) hc
      rw [he] at hin ⊢
      refine ⟨copyOf env g doc log k (.proxy o p n x), url env g doc x, ?_, rfl, h2, ?_⟩
      · rw [hobjs, List.getElem?_map, getElem_im hin]; rfl
      · intro e1 e2
        obtain ⟨hxd, eu⟩ := (url_eq h doc.length (Nat.le_refl _) h1).2.2 e1 e2
        refine ⟨_, eu, ?_⟩
        rw [sees h hA.looks hA.wf hxd, if_pos (hall x hxd)]
    unfold SameValue
    rw [hr, if_pos rfl, hlen, refs_value h ho hp hsv hr]
    apply forall_zipIdx
    intro n x hx
    rw [Nat.zero_add]
    refine ⟨_, rfl, ?_⟩
    cases hc : p.1.containment with
    | true =>
      rw [if_pos rfl]
      by_cases hi : Inside g x
      · left
        refine ⟨hi, ?_⟩
        simp only [entryAt]
        rw [if_pos (.inl ⟨hc, hi⟩)]
      · right
        refine ⟨hi, hprox n x hx ?_ (.inl ⟨hc, hi⟩)⟩
        simp only [entryAt]
        rw [if_neg]
        rintro (e | e)
        · exact hi e.2
        · rw [hc] at e; cases e.1
    | false =>
      rw [if_neg (by simp)]
      cases hcr : crossed g (g.slot o p.2) with
      | false =>
        left
        refine ⟨?_, ?_⟩
        · intro y hy hf
          have := (crossed_iff (g.slot o p.2)).2 ⟨y, hy, hf⟩
          rw [hcr] at this; cases this
        · simp only [entryAt]
          rw [if_pos (.inr ⟨hc, hcr⟩)]
      | true =>
        right
        refine ⟨(crossed_iff (g.slot o p.2)).1 hcr, hprox n x hx ?_ (.inr ⟨hc, hcr⟩)⟩
        simp only [entryAt]
        rw [if_neg]
        rintro (e | e)
        · rw [hc] at e; cases e.1
        · rw [hcr] at e; cases e.2
  | false =>
    unfold SameValue
    rw [hr, if_neg (by simp)]
    cases hm : p.1.many with
    | true =>
      rw [if_pos rfl]
      have hlen : k o p.2 = (values (g.slot o p.2)).length := by
        rw [hko, if_neg (by simp [isRef, hr])]
        unfold items
        rw [kind_data hsv hr, hm]
        simp
      simp only [valueOf, if_pos hsv, hr, hm, if_true, Bool.false_eq_true, if_false, hlen, List.take_length]
      split
      · rename_i e; simp only [List.isEmpty_iff] at e; rw [e]; rfl
      · rfl
    | false =>
      simp [valueOf, hsv, hr, hm]

/-- what has been read is the document -/
theorem same_document {s : Dec D} {log : List Entry} {k : Nat → Nat → Nat} {stk : List (Option Nat)} {tys : List Ty} {sp : List (List (Text × Text))}
    (hA : At env g opt root doc s log k stk tys sp) (hobjs : objsOf log = doc)
    (hk : ∀ o ∈ doc, ∀ p ∈ (env.features (g.cls o)).zipIdx, k o p.2 = if isRef g o p then (objects (g.slot o p.2)).length else (items g o p).length) :
    SameDocument env g root doc s (fun x => im log (.obj x)) := by
  have hall : ∀ x ∈ doc, Entry.obj x ∈ log := fun x hx => mem_objsOf.1 (by rw [hobjs]; exact hx)
  have ho : s.objs = log.map (copyOf env g doc log k) := by simpa using hA.looks.objs
  have hroot : root ∈ doc := by
    obtain ⟨l, hdoc, -⟩ := inOrder_root h.order
    simp [hdoc]
  refine ⟨hA.errors, ?_, ?_, ?_, ?_⟩
  · rw [hA.looks.roots, if_pos (hall root hroot)]
  · intro o ho o' ho' e
    have := im_inj (hall o ho) (hall o' ho') e
    cases this; rfl
  · intro o hod
    refine ⟨copyOf env g doc log k (.obj o), ?_, rfl, rfl, rfl, ?_⟩
    · rw [ho, List.getElem?_map, getElem_im (hall o hod)]; rfl
    · intro p hp hsv
      simp only [copyOf, slots_eq h log k hp]
      exact same_value h hA hall hk hod hp hsv
  · intro hm o hod id hid
    rw [hA.looks.ids hm o hod id hid, if_pos (hall o hod)]

theorem roundtrip (n : Nat) (hn : doc.length ≤ n) :
    ∃ t s copy, encode env g opt n = some (t, 0) ∧ decode env g.manager opt t = some s ∧ SameDocument env g root doc s copy := by
  obtain ⟨st, F, l, hdoc, hW, hg, hT, hd, he⟩ := encode_eq h n hn
  have hroot : root ∈ doc := by simp [hdoc]
  have hnamed : Named env g doc (g.cls root) := ⟨root, hroot, .inl rfl⟩
  obtain ⟨hR, hND, -⟩ := readable_items h hW (valid_all h hroot)
  have hxmlns : LegalName "xmlns".toList := ⟨⟨'x', "mlns".toList, rfl, by decide⟩, by decide, by decide⟩
  have hga : ∀ a ∈ idAttrs g opt root ++ allAttrs env g doc root, GoodAttr a := by
    intro a ha
    rcases List.mem_append.1 ha with ha | ha
    · exact good_id h hroot a ha
    · exact good_attrs h hroot a ha
  have hread : XMLLex.Readable (.elem (qname env (g.cls root)) (namespaces st ++ (idAttrs g opt root ++ allAttrs env g doc root))
      (short env g root) F .nil) := by
    refine ⟨qname_legal h hnamed, ?_, hR, trivial⟩
    intro a ha
    rcases List.mem_append.1 ha with ha | ha
    · rw [namespaces_eq h hg] at ha
      rcases List.mem_cons.1 ha with rfl | ha
      · refine ⟨⟨⟨'x', "mi:version".toList, rfl, by decide⟩, by decide, by decide⟩, literal_facts ?_⟩
        unfold Literal; decide
      · rcases List.mem_cons.1 ha with rfl | ha
        · refine ⟨⟨⟨'x', "mlns:xmi".toList, rfl, by decide⟩, by decide, by decide⟩, literal_facts ?_⟩
          unfold Literal; decide
        · simp only [List.mem_map] at ha
          obtain ⟨b, hb, rfl⟩ := ha
          have hb' : b ∈ spaces st := List.mem_reverse.1 (List.mem_of_mem_tail hb)
          have hf := spaces_facts h hg b hb'
          exact ⟨legal_prefixed hxmlns (by decide) hf.1 hf.2.1, literal_facts hf.2.2.1⟩
    · exact (hga a ha).1
  obtain ⟨ts, bs, hparse, hbs, hreads⟩ := XMLLex.parse_document "xml version=\"1.0\" encoding=\"UTF-8\"".toList (by decide) _ _ _ _ hread hND
  rw [declared_eq h hg _ (fun a ha => (hga a ha).2)] at hreads
  obtain ⟨ws, cs, ws', rest, as, hts, hws, hws', has, hcs, hrest⟩ := hreads
  cases hrest
  have := reads_toks has
  subst this
  obtain ⟨s1, e1, hA1⟩ := start_root h hg hdoc hd
  have hsp : [spaces st].flatten = spaces st := by simp
  obtain ⟨s2, es, k2, e2, hA2, ho2, hk2, hl2, -⟩ := run_items h hW (o := root) (pre := []) (post := []) (log := [.obj root]) (d := st.declared) (ts := cs)
    (rest := ws' ++ .stop (elementName (spaces st) (qname env (g.cls root))) :: bs) (by simp) (by simp) (by
      intro q hq
      simp only [begin', if_true, start_eq h hq, count]
      simp) (by simp [objsOf, hdoc]) hA1 (by rw [hsp]; exact goodSpaces h hg) (by simp) hT (by rw [hsp]; exact hcs)
  have hobjs : objsOf ([Entry.obj root] ++ es) = doc := by rw [objsOf_append, ho2, hdoc]; rfl
  let s3 : Dec D := { s2 with objects := [], types := [], builder := none, spaces := [] }
  have hA3 : At env g opt root doc s3 ([Entry.obj root] ++ es) k2 [] [] [] :=
    ⟨hA2.wf, ⟨hA2.looks.objs, hA2.looks.alone, hA2.looks.roots, hA2.looks.ids⟩, hA2.proxies, hA2.errors, rfl, hA2.refs, rfl, rfl, rfl⟩
  have hkall : ∀ o ∈ doc, ∀ p ∈ (env.features (g.cls o)).zipIdx, k2 o p.2 = vis g opt doc o p + count p (allItems env g o) := by
    intro o ho p hp
    rw [hdoc] at ho
    rcases List.mem_cons.1 ho with rfl | ho
    · exact hk2 p hp
    · exact hl2 o ho p hp
  obtain ⟨s4, k4, e4, hA4, hk4⟩ := refs_all h hA3 hobjs hkall
  have estop : step env g.manager opt s2 (.stop (elementName (spaces st) (qname env (g.cls root)))) = some s4 := by
    simp only [step, endElement, hA2.builder, hA2.objects, hA2.types, hA2.spaces, List.tail_cons, Option.bind_eq_bind, Option.bind_some]
    rw [← hA3.refs] at e4
    exact (if_pos trivial).trans e4
  refine ⟨_, s4, _, he, ?_, same_document h hA4 hobjs hk4⟩
  have hparse' : XMLLex.parse (header ++ '\n' :: XMLString.Spec.render 0 (.elem (qname env (g.cls root))
      (namespaces st ++ (idAttrs g opt root ++ allAttrs env g doc root)) (short env g root) F .nil)) = some (.inst :: (ts ++ bs)) := by
    rw [← hparse]
    congr 1
  rw [decode, hparse', Option.bind_some, run]
  simp only [step, Option.bind_some]
  rw [hts, List.append_assoc, run_blank _ _ _ _ rfl _ _ hws, List.cons_append, run, e1, Option.bind_some]
  simp only [List.append_assoc, List.cons_append, List.nil_append]
  rw [e2, run_blank _ _ _ _ hA2.builder _ _ hws', run, estop, Option.bind_some]
  have := run_blank env g.manager opt s4 hA4.builder bs [] hbs
  rw [List.append_nil] at this
  rw [this]
  rfl

end

end Verif.XMLCodec
