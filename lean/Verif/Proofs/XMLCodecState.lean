import Verif.Proofs.XMLCodecDocument

/-!
# What the decoder has read so far
-/

namespace Verif.XMLCodec

open Verif.XMLString (Text)
open Verif.XMLLex (Name LegalName Literal)
open Spec

variable {D : Type}

instance (f : Feature) : Decidable (Saved f) := by unfold Saved; infer_instance

/-- what is created while reading: the copy of an object; the proxy for the element `n` of a feature, which is `x` -/
inductive Entry where
  | obj (x : Nat)
  | proxy (o : Nat) (p : Feature × Nat) (n x : Nat)
deriving DecidableEq

/-- the position of an entry -/
def im (log : List Entry) (e : Entry) : Nat := log.idxOf e

/-- the entry that is put into a feature for its element `n`, which is `x` -/
def entryAt (g : Graph D) (o : Nat) (p : Feature × Nat) (n x : Nat) : Entry :=
  if (p.1.containment = true ∧ Inside g x) ∨ (p.1.containment = false ∧ crossed g (g.slot o p.2) = false) then .obj x else .proxy o p n x

/-- the value of a feature when `k` elements have been read -/
def valueOf (g : Graph D) (log : List Entry) (o : Nat) (p : Feature × Nat) (k : Nat) : Option (Val D) :=
  if Saved p.1 then
    if p.1.isReference then
      let l := ((objects (g.slot o p.2)).zipIdx.take k).map fun x => im log (entryAt g o p x.2 x.1)
      if l = [] then none else if p.1.many then some (.objs (l.map some)) else some (.obj l.head?)
    else if p.1.many then
      let l := (values (g.slot o p.2)).take k
      if l.isEmpty then none else some (.datas (l.map some))
    else g.slot o p.2
  else none

/-- the values of an object -/
def slots (env : Env D) (g : Graph D) (log : List Entry) (k : Nat → Nat → Nat) (o : Nat) (i : Nat) : Option (Val D) :=
  match (env.features (g.cls o))[i]? with
  | some f => valueOf g log o (f, i) (k o i)
  | none => none

/-- the class of a proxy -/
def hrefCls (env : Env D) (g : Graph D) (p : Feature × Nat) (x : Nat) : Nat :=
  if p.1.type ≠ g.cls x ∧ env.isAbstract p.1.type then g.cls x else p.1.type

/-- what has been created for an entry -/
noncomputable def copyOf (env : Env D) (g : Graph D) (doc : List Nat) (log : List Entry) (k : Nat → Nat → Nat) : Entry → Copy D
  | .obj x => { cls := g.cls x, slot := slots env g log k x, proxy := none, container := (g.container x).map fun c => (im log (.obj c.1), c.2) }
  | .proxy o p _ x =>
    { cls := hrefCls env g p x, slot := fun _ => none, proxy := some (url env g doc x),
      container := if p.1.containment then some (im log (.obj o), p.2) else none }

/-- what is known about the entries, in the order of their creation, and the number of elements read of each feature -/
structure Log (env : Env D) (g : Graph D) (doc : List Nat) (log : List Entry) (k : Nat → Nat → Nat) : Prop where
  nodup : log.Nodup
  objs : ∀ x, Entry.obj x ∈ log → x ∈ doc
  up : ∀ x, Entry.obj x ∈ log → ∀ c i, g.container x = some (c, i) → Entry.obj c ∈ log
  attached : ∀ o, Entry.obj o ∈ log → ∀ p ∈ (env.features (g.cls o)).zipIdx, p.1.isReference = true → p.1.containment = true →
    p.1.transient = false → ∀ (n x : Nat), (objects (g.slot o p.2))[n]? = some x → Inside g x → (Entry.obj x ∈ log ↔ n < k o p.2)
  seen : ∀ o, Entry.obj o ∈ log → ∀ p ∈ (env.features (g.cls o)).zipIdx, p.1.isReference = true → Saved p.1 → ∀ (n x : Nat),
    (objects (g.slot o p.2))[n]? = some x → n < k o p.2 → entryAt g o p n x ∈ log
  owner : ∀ o p n x, Entry.proxy o p n x ∈ log → Entry.obj o ∈ log

/-- The objects of the decoder are those of the entries, and `ext`, which are nowhere yet.  `cur` is the object being created. -/
structure Looks (env : Env D) (g : Graph D) (root : Nat) (doc : List Nat) (s : Dec D) (log : List Entry) (k : Nat → Nat → Nat)
    (ext : List (Copy D)) (cur : Option Nat) : Prop where
  objs : s.objs = log.map (copyOf env g doc log k) ++ ext
  alone : ∀ c ∈ ext, c.container = none
  roots : s.roots = if Entry.obj root ∈ log then [im log (.obj root)] else []
  ids : g.manager = true → ∀ y ∈ doc, ∀ id, g.id y = some id → s.ids.lookup id =
    if Entry.obj y ∈ log then some (im log (.obj y)) else if cur = some y then some log.length else none

theorem im_lt {log : List Entry} {e : Entry} (he : e ∈ log) : im log e < log.length := List.idxOf_lt_length_iff.2 he

theorem getElem_im {log : List Entry} {e : Entry} (he : e ∈ log) : log[im log e]? = some e := by
  rw [List.getElem?_eq_getElem (im_lt he)]
  simp [im]

theorem im_append {log : List Entry} {e : Entry} (he : e ∈ log) (l : List Entry) : im (log ++ l) e = im log e :=
  List.idxOf_append_of_mem he

theorem im_inj {log : List Entry} {e e' : Entry} (he : e ∈ log) (he' : e' ∈ log) (hi : im log e = im log e') : e = e' := by
  have h1 := getElem_im he
  rw [hi, getElem_im he'] at h1
  exact (Option.some.inj h1).symm

theorem elements_value {g : Graph D} {log : List Entry} {o : Nat} {p : Feature × Nat} {k : Nat} (hsv : Saved p.1) (hr : p.1.isReference = true)
    (hm : p.1.many = true) :
    elements (valueOf g log o p k) = ((objects (g.slot o p.2)).zipIdx.take k).map fun x => some (im log (entryAt g o p x.2 x.1)) := by
  simp only [valueOf, if_pos hsv, hr, if_true, hm]
  split
  · rename_i e
    simp only [List.map_eq_nil_iff] at e
    rw [e]; rfl
  · simp only [elements, List.map_map]; rfl

section
variable {env : Env D} {g : Graph D} {opt : Opt} {root : Nat} {doc : List Nat}
variable (h : Savable env g opt root doc)
include h

theorem slots_eq (log : List Entry) (k : Nat → Nat → Nat) {o : Nat} {p : Feature × Nat} (hp : p ∈ (env.features (g.cls o)).zipIdx) :
    slots env g log k o p.2 = valueOf g log o p (k o p.2) := by
  have hi := List.mem_zipIdx_iff_getElem?.1 hp
  simp only [slots, hi]

theorem at_im {s : Dec D} {log : List Entry} {k : Nat → Nat → Nat} {ext : List (Copy D)} {cur : Option Nat}
    (hs : Looks env g root doc s log k ext cur) {e : Entry} (he : e ∈ log) : s.objs[im log e]? = some (copyOf env g doc log k e) := by
  rw [hs.objs, List.getElem?_append_left (by simpa using im_lt he), List.getElem?_map, getElem_im he]
  rfl

theorem cls_im {s : Dec D} {log : List Entry} {k : Nat → Nat → Nat} {ext : List (Copy D)} {cur : Option Nat}
    (hs : Looks env g root doc s log k ext cur) {x : Nat} (he : Entry.obj x ∈ log) : clsOf s (im log (.obj x)) = g.cls x := by
  simp only [clsOf, at_im h hs he, copyOf]

theorem slot_im {s : Dec D} {log : List Entry} {k : Nat → Nat → Nat} {ext : List (Copy D)} {cur : Option Nat}
    (hs : Looks env g root doc s log k ext cur) {x : Nat} (he : Entry.obj x ∈ log) {p : Feature × Nat}
    (hp : p ∈ (env.features (g.cls x)).zipIdx) : slotOf s (im log (.obj x)) p.2 = valueOf g log x p (k x p.2) := by
  simp only [slotOf, at_im h hs he, copyOf, slots_eq h log k hp]

/-- an element of a feature with a single value is the only one -/
theorem single_object {o : Nat} (ho : o ∈ doc) {p : Feature × Nat} (hp : p ∈ (env.features (g.cls o)).zipIdx) (hsv : Saved p.1)
    (hr : p.1.isReference = true) (hm : p.1.many = false) : objects (g.slot o p.2) = [] ∨ ∃ x, objects (g.slot o p.2) = [x] := by
  cases hs : g.slot o p.2 with
  | none => left; rfl
  | some v =>
    have hf := (h.fits o ho p hp hsv v hs).1
    cases v with
    | data v => rw [hf.1] at hr; cases hr
    | datas l => rw [hf.1] at hr; cases hr
    | obj x =>
      obtain ⟨x, rfl⟩ := Option.ne_none_iff_exists'.1 hf.2.2
      right; exact ⟨x, rfl⟩
    | objs l => rw [hf.2.1] at hm; cases hm

theorem nodup_objects {o : Nat} (ho : o ∈ doc) {p : Feature × Nat} (hp : p ∈ (env.features (g.cls o)).zipIdx) (hsv : Saved p.1)
    (hr : p.1.isReference = true) : (objects (g.slot o p.2)).Nodup := by
  cases hm : p.1.many with
  | false =>
    rcases single_object h ho hp hsv hr hm with e | ⟨x, e⟩ <;> rw [e] <;> simp
  | true =>
    cases hs : g.slot o p.2 with
    | none => simp [objects]
    | some v =>
      have hf := (h.fits o ho p hp hsv v hs).1
      cases v with
      | data v => rw [hf.1] at hr; cases hr
      | datas l => rw [hf.1] at hr; cases hr
      | obj x => rw [hf.2.1] at hm; cases hm
      | objs l =>
        have hl := objects_objs (D := D) hf.2.2.1
        have hn := hf.2.2.2
        rw [hl] at hn
        exact List.Nodup.of_map _ hn

theorem eid_slots (hmg : g.manager = false) (log : List Entry) (k : Nat → Nat → Nat) {x : Nat} (hx : x ∈ doc) :
    eid env (g.cls x) (slots env g log k x) = eid env (g.cls x) (g.slot x) := by
  unfold eid
  cases hi : (env.features (g.cls x)).findIdx? (fun f => !f.isReference && f.isID) with
  | none => rfl
  | some i =>
    obtain ⟨hlt, hp, -⟩ := List.findIdx?_eq_some_iff_getElem.1 hi
    have hf : (env.features (g.cls x))[i]? = some (env.features (g.cls x))[i] := List.getElem?_eq_getElem hlt
    simp only [Bool.and_eq_true, Bool.not_eq_true'] at hp
    have hu := (h.unmanaged hmg).2.1 x hx _ (List.getElem_mem hlt) hp.2 hp.1
    have : slots env g log k x i = g.slot x i := by
      simp only [slots, hf, valueOf, if_pos hu.1, hp.1, hu.2, Bool.false_eq_true, if_false]
    simp only [this]

theorem length_objects {o : Nat} (ho : o ∈ doc) {p : Feature × Nat} (hp : p ∈ (env.features (g.cls o)).zipIdx) (hsv : Saved p.1) :
    (objects (g.slot o p.2)).length < 2 ^ 63 := by
  cases hs : g.slot o p.2 with
  | none => simp [objects]
  | some v => exact (h.fits o ho p hp hsv v hs).2

theorem forSegment_eq {s : Dec D} {log : List Entry} {k : Nat → Nat → Nat} {ext : List (Copy D)} {cur : Option Nat}
    (hs : Looks env g root doc s log k ext cur) (hl : Log env g doc log k) {c x : Nat} {p : Feature × Nat} (hc : Entry.obj c ∈ log)
    (hp : p ∈ (env.features (g.cls c)).zipIdx) (h1 : p.1.isReference = true) (h2 : p.1.containment = true) (h3 : p.1.transient = false)
    (hx : x ∈ objects (g.slot c p.2)) (hin : Inside g x) :
    forSegment env s (im log (.obj c)) (seg p.1 (objects (g.slot c p.2)) x) = if Entry.obj x ∈ log then .obj (im log (.obj x)) else .nil := by
  have hcd := hl.objs c hc
  have hsv := saved_contain h h1 h2 h3
  have hn := (h.features c hcd).1
  have hid := ((h.features c hcd).2 p.1 (feature_mem h hp)).1
  have hent : ∀ n, entryAt g c p n x = .obj x := by
    intro n
    rw [entryAt, if_pos (.inl ⟨h2, hin⟩)]
  have hff := findFeature_eq env (g.cls c) hn p hp
  have hidx : (objects (g.slot c p.2))[(objects (g.slot c p.2)).idxOf x]? = some x := by
    rw [List.getElem?_eq_getElem (List.idxOf_lt_length_iff.2 hx)]; simp
  have hatt := hl.attached c hc p hp h1 h2 h3 _ x hidx hin
  unfold forSegment
  rw [if_neg (by simp [seg])]
  cases hm : p.1.many with
  | true =>
    have hlt := List.idxOf_lt_length_iff.2 hx
    have e0 : seg p.1 (objects (g.slot c p.2)) x = ('@' :: p.1.name) ++ '.' :: itoa ((objects (g.slot c p.2)).idxOf x) := by
      simp [seg, hm]
    have hlast : ((seg p.1 (objects (g.slot c p.2)) x).getLast?.map XMLLex.isDigit).getD false = true := by
      have hne := itoa_ne ((objects (g.slot c p.2)).idxOf x)
      rw [e0, List.getLast?_append, List.getLast?_cons, List.getLast?_eq_getLast hne]
      simp only [Option.getD_some, Option.some_or, Option.map_some]
      exact itoa_digits _ _ (List.getLast_mem hne)
    have hli : lastIndex '.' (seg p.1 (objects (g.slot c p.2)) x) = some ('@' :: p.1.name).length := by
      rw [e0]
      exact lastIndex_append _ _ _ (fun e => (isDigit_not (itoa_digits _ _ e)).2.2.1 rfl)
    have hdrop : (seg p.1 (objects (g.slot c p.2)) x).drop (('@' :: p.1.name).length + 1) = itoa ((objects (g.slot c p.2)).idxOf x) := by
      rw [e0, ← List.drop_drop, List.drop_left]; rfl
    have htake : ((seg p.1 (objects (g.slot c p.2)) x).take ('@' :: p.1.name).length).drop 1 = p.1.name := by
      rw [e0, List.take_left]; rfl
    simp only [hlast, if_true, hli, hdrop, htake, cls_im h hs hc, hff, hm, slot_im h hs hc hp, elements_value hsv h1 hm,
      atoi_itoa _ (Nat.lt_trans hlt (length_objects h hcd hp hsv))]
    by_cases hlog : Entry.obj x ∈ log
    · have hk := hatt.1 hlog
      rw [if_pos (by simp; omega), if_neg (by omega), if_pos hlog]
      have : (((objects (g.slot c p.2)).zipIdx.take (k c p.2)).map fun x => some (im log (entryAt g c p x.2 x.1)))[
          ((((objects (g.slot c p.2)).idxOf x : Nat) : Int)).toNat]? = some (some (im log (.obj x))) := by
        rw [Int.toNat_natCast, List.getElem?_map, List.getElem?_take, if_pos hk, List.getElem?_zipIdx, hidx]
        simp [hent]
      rw [this]
    · have hk : ¬ ((objects (g.slot c p.2)).idxOf x < k c p.2) := fun e => hlog (hatt.2 e)
      rw [if_neg (by simp; omega), if_neg hlog]
  | false =>
    have e0 : seg p.1 (objects (g.slot c p.2)) x = '@' :: p.1.name := by simp [seg, hm]
    have hli : lastIndex '.' (seg p.1 (objects (g.slot c p.2)) x) = none := by
      rw [e0]
      apply lastIndex_none
      simp only [List.mem_cons, not_or]
      exact ⟨by decide, hid.2.2⟩
    have hli' : (if ((seg p.1 (objects (g.slot c p.2)) x).getLast?.map XMLLex.isDigit).getD false = true
        then lastIndex '.' (seg p.1 (objects (g.slot c p.2)) x) else none) = none := by rw [hli]; simp
    have hdrop : (seg p.1 (objects (g.slot c p.2)) x).drop 1 = p.1.name := by rw [e0]; rfl
    simp only [hli', hdrop, cls_im h hs hc, hff, slot_im h hs hc hp]
    have hob : objects (g.slot c p.2) = [x] := by
      rcases single_object h hcd hp hsv h1 hm with e | ⟨y, e⟩
      · rw [e] at hx; simp at hx
      · rw [e] at hx ⊢; simp at hx; rw [hx]
    have hidx0 : (objects (g.slot c p.2)).idxOf x = 0 := by rw [hob]; simp
    rw [hidx0] at hatt
    simp only [valueOf, if_pos hsv, h1, if_true, hm, hob]
    by_cases hlog : Entry.obj x ∈ log
    · have hk := hatt.1 hlog
      obtain ⟨m, hm'⟩ : ∃ m, k c p.2 = m + 1 := ⟨k c p.2 - 1, by omega⟩
      simp [hm', hlog, hent, asObject]
    · have hk : k c p.2 = 0 := by
        have : ¬ (0 < k c p.2) := fun e => hlog (hatt.2 e)
        omega
      simp [hk, hlog, asObject]

omit h in
theorem follow_append (s : Dec D) (a : List Text) (b : Text) (r : Ret) : follow env s r (a ++ [b]) = follow env s (follow env s r a) [b] := by
  induction a generalizing r with
  | nil => cases r <;> rfl
  | cons t a ih =>
    cases r with
    | obj o => simp only [List.cons_append, follow]; exact ih _
    | nil => rfl
    | panic => rfl

theorem follow_chain {s : Dec D} {log : List Entry} {k : Nat → Nat → Nat} {ext : List (Copy D)} {cur : Option Nat}
    (hs : Looks env g root doc s log k ext cur) (hl : Log env g doc log k) {d y : Nat} {segs : List Text}
    (hc : Chain env g root doc d y segs) :
    follow env s (objectForRoot env g.manager s []) segs = if Entry.obj y ∈ log then .obj (im log (.obj y)) else .nil := by
  induction hc with
  | root =>
    have : objectForRoot env g.manager s [] = if Entry.obj root ∈ log then .obj (im log (.obj root)) else .nil := by
      simp only [objectForRoot, hs.roots]
      by_cases hlog : Entry.obj root ∈ log <;> simp [hlog]
    rw [this]
    split <;> rfl
  | step d c segs p x _ hcd hp h1 h2 h3 hx hin ih =>
    rw [follow_append, ih]
    by_cases hlog : Entry.obj c ∈ log
    · rw [if_pos hlog]
      rw [follow.eq_1, forSegment_eq h hs hl hlog hp h1 h2 h3 hx hin]
      split <;> rfl
    · rw [if_neg hlog, if_neg]
      · rfl
      · intro e
        exact hlog (hl.up x e c p.2 (h.container c hcd p hp h1 h2 h3 x hx hin))

theorem root_attached {y : Nat} (hy : y ∈ doc) (hne : y ≠ root) : (g.container y).isSome := by
  obtain ⟨d, segs, -, hc⟩ := chain_mem h hy
  cases hc with
  | root => exact absurd rfl hne
  | step d c segs p x _ hcd hp h1 h2 h3 hx hin => rw [h.container c hcd p hp h1 h2 h3 _ hx hin]; rfl

/-- a fragment leads to the object if it has been read -/
theorem sees {s : Dec D} {log : List Entry} {k : Nat → Nat → Nat} {ext : List (Copy D)} {cur : Option Nat}
    (hs : Looks env g root doc s log k ext cur) (hl : Log env g doc log k) {y : Nat} (hy : y ∈ doc) :
    getEObject env g.manager s (frag env g doc y) = if Entry.obj y ∈ log then .obj (im log (.obj y))
      else if g.manager = true ∧ cur = some y then .obj log.length else .nil := by
  have key := frag_case h hy
  generalize frag env g doc y = t at key
  cases key with
  | id _ hm hid hp =>
    unfold getEObject
    rw [if_neg hp.2.2.2.1, if_neg hp.2.2.2.2]
    simp only [objectByID, hm, if_true, hs.ids hm y hy t hid, true_and]
    by_cases hlog : Entry.obj y ∈ log
    · simp [hlog]
    · by_cases hcur : cur = some y <;> simp [hlog, hcur]
  | eid _ hm hid hne he =>
    have hp := (h.unmanaged hm).2.2.1 y hy t hid hne
    unfold getEObject
    rw [if_neg hp.2.2.2.1, if_neg hp.2.2.2.2]
    simp only [hm, Bool.false_eq_true, false_and, if_false, objectByID]
    have huniq := (h.unmanaged hm).2.2.2
    have hpos : ∀ j, hasEID env s t j = true ↔ log[j]? = some (.obj y) := by
      intro j
      unfold hasEID
      by_cases hj : j < log.length
      · have e1 : s.objs[j]? = some (copyOf env g doc log k log[j]) := by
          rw [hs.objs, List.getElem?_append_left (by simpa using hj), List.getElem?_map, List.getElem?_eq_getElem hj]; rfl
        have e2 : log[j]? = some log[j] := List.getElem?_eq_getElem hj
        simp only [e1, e2]
        have hmem : log[j] ∈ log := List.getElem_mem hj
        generalize hlj : log[j] = e at hmem
        cases e with
        | proxy o p n x =>
          simp only [copyOf, Option.some.injEq, reduceCtorEq, iff_false, Bool.and_eq_true, decide_eq_true_eq, not_and]
          intro _ e
          apply hne
          rw [of_decide_eq_true e]
          unfold eid
          split
          · rfl
          · split
            · rename_i e' _; cases e'
            · rfl
        | obj x =>
          have hxd := hl.objs x hmem
          simp only [copyOf, eid_slots h hm log k hxd, Option.some.injEq, Entry.obj.injEq, Bool.and_eq_true, decide_eq_true_eq]
          constructor
          · rintro ⟨-, e⟩
            rcases eid_cases h x with e' | e'
            · rw [e'] at e; exact absurd e hne
            · rw [← e] at e'
              exact huniq x hxd y hy t e' hid hne
          · rintro rfl
            refine ⟨?_, he.symm⟩
            by_cases hxr : x = root
            · subst hxr
              rw [hs.roots, if_pos hmem]
              have : j = im log (.obj x) := by
                have := getElem_im hmem
                have h1 : (log[j]? = log[im log (.obj x)]?) := by rw [e2, hlj, this]
                exact (List.getElem?_inj hj hl.nodup).1 h1
              simp [this]
            · have := root_attached h hxd hxr
              simp [this]
      · have e2 : log[j]? = none := List.getElem?_eq_none (by omega)
        rw [e2]
        simp only [reduceCtorEq, iff_false, Bool.not_eq_true]
        cases e1 : s.objs[j]? with
        | none => rfl
        | some c =>
          have hc : c ∈ ext := by
            rw [hs.objs, List.getElem?_append_right (by simpa using hj)] at e1
            exact List.mem_of_getElem? e1
          have hr : j ∉ s.roots := by
            rw [hs.roots]
            split
            · rename_i hm'
              simp only [List.mem_singleton]
              have := im_lt hm'
              omega
            · simp
          simp [hs.alone c hc, hr]
    by_cases hlog : Entry.obj y ∈ log
    · rw [if_pos hlog]
      have : (List.range s.objs.length).find? (hasEID env s t) = some (im log (.obj y)) := by
        rw [List.find?_range_eq_some]
        refine ⟨(hpos _).2 (getElem_im hlog), ?_, ?_⟩
        · rw [List.mem_range, hs.objs]
          have := im_lt hlog
          simp; omega
        · intro j hj
          rw [Bool.not_eq_true', ← Bool.not_eq_true, hpos]
          intro e
          have h1 : log[j]? = log[im log (.obj y)]? := by rw [e, getElem_im hlog]
          have := (List.getElem?_inj (Nat.lt_trans hj (im_lt hlog)) hl.nodup).1 h1
          omega
      simp only [this]
    · rw [if_neg hlog]
      have : (List.range s.objs.length).find? (hasEID env s t) = none := by
        rw [List.find?_eq_none]
        intro j _ e
        exact hlog (List.mem_of_getElem? ((hpos j).1 e))
      simp only [this]
  | path d segs hm he hc =>
    have hsegs : ∀ t ∈ ([] : Text) :: segs, '/' ∉ t := by
      intro t ht
      rcases List.mem_cons.1 ht with rfl | ht
      · simp
      · intro hk
        rcases chain_chars h hc t ht _ hk with e | e
        · cases e
        · exact (nameChar_facts e).2.2.2.2.2.2 rfl
    have hsp : split '/' ('/' :: join '/' ([] :: segs)) = [] :: [] :: segs := by
      rw [split, if_pos rfl, split_join _ _ (by simp) hsegs]
    unfold getEObject
    rw [if_pos (by simp), hsp]
    simp only [List.drop_succ_cons, List.drop_zero, objectByPath, hm, Bool.false_eq_true, false_and, if_false]
    have := follow_chain h hs hl hc
    rw [hm] at this
    exact this

end

end Verif.XMLCodec
