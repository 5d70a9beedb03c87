import Verif.Proofs.XMLCodecState

/-!
# Reading the attributes of an object
-/

namespace Verif.XMLCodec

open Verif.XMLString (Text escape)
open Verif.XMLLex (Name LegalName Literal attributeName readText)
open Spec

variable {D : Type}

/-- `y` can be found while `o` is being read -/
def visible (g : Graph D) (doc : List Nat) (o y : Nat) : Bool := decide (doc.idxOf y < doc.idxOf o ∨ (g.manager = true ∧ y = o))

/-- the feature is read from an attribute with references -/
def isRef (g : Graph D) (o : Nat) (p : Feature × Nat) : Bool :=
  decide (Saved p.1) && p.1.isReference && !p.1.containment && !crossed g (g.slot o p.2)

/-- the number of elements that are set while the attributes are read -/
def vis (g : Graph D) (opt : Opt) (doc : List Nat) (o : Nat) (p : Feature × Nat) : Nat :=
  if isRef g o p && !opt.deferred then ((objects (g.slot o p.2)).takeWhile (visible g doc o)).length else 0

/-- the same, by position of the feature -/
def start (env : Env D) (g : Graph D) (opt : Opt) (doc : List Nat) (o i : Nat) : Nat :=
  match (env.features (g.cls o))[i]? with
  | some f => vis g opt doc o (f, i)
  | none => 0

/-- the references that are left for later -/
noncomputable def pend (env : Env D) (g : Graph D) (opt : Opt) (doc : List Nat) (j : Nat) (o : Nat) (p : Feature × Nat) : List Ref :=
  if isRef g o p then ((objects (g.slot o p.2)).zipIdx.drop (vis g opt doc o p)).map fun x => ⟨j, p.2, p.1, frag env g doc x.1, x.2⟩ else []

/-- the decoder with an object that is nowhere yet -/
def ext (t : Dec D) (c : Copy D) (ids : List (Text × Nat)) (refs : List Ref) : Dec D :=
  { t with objs := t.objs ++ [c], ids := ids, refs := refs }

/-- a feature is set -/
def setSlot (c : Copy D) (i : Nat) (v : Option (Val D)) : Copy D := { c with slot := fun j => if j = i then v else c.slot j }

theorem modify_last {α : Type} (l : List α) (c : α) (h : α → α) : (l ++ [c]).modify l.length h = l ++ [h c] := by
  apply List.ext_getElem?
  intro i
  rw [List.getElem?_modify]
  by_cases hi : i < l.length
  · rw [List.getElem?_append_left hi, List.getElem?_append_left hi]
    have : l.length ≠ i := by omega
    simp [this]
  · by_cases e : i = l.length
    · subst e; simp
    · rw [List.getElem?_append_right (by omega), List.getElem?_append_right (by omega)]
      have h1 : i - l.length ≠ 0 := by omega
      obtain ⟨m, hm⟩ : ∃ m, i - l.length = m + 1 := ⟨i - l.length - 1, by omega⟩
      simp [hm]

theorem putSlot_ext (t : Dec D) (c : Copy D) (ids : List (Text × Nat)) (refs : List Ref) (i : Nat) (v : Option (Val D)) :
    putSlot (ext t c ids refs) t.objs.length i v = ext t (setSlot c i v) ids refs := by
  simp only [putSlot, update, ext, modify_last]
  rfl

theorem cls_ext (t : Dec D) (c : Copy D) (ids : List (Text × Nat)) (refs : List Ref) : clsOf (ext t c ids refs) t.objs.length = c.cls := by
  simp [clsOf, ext]

theorem slot_ext (t : Dec D) (c : Copy D) (ids : List (Text × Nat)) (refs : List Ref) (i : Nat) :
    slotOf (ext t c ids refs) t.objs.length i = c.slot i := by
  simp [slotOf, ext]

theorem dropWhile_pairwise {P : Nat → Bool} {l : List Nat} (h : l.Pairwise fun a b => P b = true → P a = true) :
    ∀ y ∈ l.dropWhile P, P y = false := by
  induction l with
  | nil => simp
  | cons a l ih =>
    intro y hy
    rw [List.pairwise_cons] at h
    cases hP : P a with
    | true => rw [List.dropWhile_cons_of_pos hP] at hy; exact ih h.2 y hy
    | false =>
      rw [List.dropWhile_cons_of_neg (by simp [hP])] at hy
      rcases List.mem_cons.1 hy with rfl | hy
      · exact hP
      · cases hy' : P y with
        | false => rfl
        | true => rw [h.1 y hy hy'] at hP; cases hP

theorem mem_takeWhile (P : Nat → Bool) (l : List Nat) : ∀ y ∈ l.takeWhile P, P y = true := by
  induction l with
  | nil => simp
  | cons a l ih =>
    intro y hy
    cases hP : P a with
    | false => rw [List.takeWhile_cons_of_neg (by simp [hP])] at hy; cases hy
    | true =>
      rw [List.takeWhile_cons_of_pos hP] at hy
      rcases List.mem_cons.1 hy with rfl | hy
      · exact hP
      · exact ih y hy

section
variable {env : Env D} {g : Graph D} {opt : Opt} {root : Nat} {doc : List Nat}
variable (h : Savable env g opt root doc)
include h

theorem isRef_iff {o : Nat} {p : Feature × Nat} : isRef g o p = true ↔
    Saved p.1 ∧ p.1.isReference = true ∧ p.1.containment = false ∧ crossed g (g.slot o p.2) = false := by
  simp only [isRef, Bool.and_eq_true, decide_eq_true_eq, Bool.not_eq_true']
  constructor
  · rintro ⟨⟨⟨a, b⟩, c⟩, d⟩; exact ⟨a, b, c, d⟩
  · rintro ⟨a, b, c, d⟩; exact ⟨⟨⟨a, b⟩, c⟩, d⟩

theorem vis_le (o : Nat) (p : Feature × Nat) : vis g opt doc o p ≤ (objects (g.slot o p.2)).length := by
  unfold vis
  split
  · exact (List.takeWhile_sublist _).length_le
  · omega

theorem entry_ref {o : Nat} {p : Feature × Nat} (hr : isRef g o p = true) (n y : Nat) : entryAt g o p n y = .obj y := by
  obtain ⟨-, -, h3, h4⟩ := (isRef_iff h).1 hr
  rw [entryAt, if_pos (.inr ⟨h3, h4⟩)]

theorem ref_doc {o : Nat} (ho : o ∈ doc) {p : Feature × Nat} (hp : p ∈ (env.features (g.cls o)).zipIdx) (hr : isRef g o p = true) :
    ∀ y ∈ objects (g.slot o p.2), y ∈ doc := by
  obtain ⟨h1, h2, h3, h4⟩ := (isRef_iff h).1 hr
  exact refs_doc h ho hp h1 h3 (by simp [h4])

/-- the references that are left cannot be found yet -/
theorem rest_invisible {o : Nat} (ho : o ∈ doc) {p : Feature × Nat} (hp : p ∈ (env.features (g.cls o)).zipIdx) (hr : isRef g o p = true)
    (hd : opt.deferred = false) : ∀ y ∈ (objects (g.slot o p.2)).dropWhile (visible g doc o), visible g doc o y = false := by
  obtain ⟨h1, h2, h3, h4⟩ := (isRef_iff h).1 hr
  apply dropWhile_pairwise
  have := h.backward hd o ho p hp h3 h1 (by
    intro x hx hf
    have := (crossed_iff (g := g) (g.slot o p.2)).2 ⟨x, hx, hf⟩
    rw [h4] at this; cases this)
  refine this.imp ?_
  intro a b hab
  simpa [visible] using hab

/-- the state while the attributes of `x` are read -/
structure Reading (env : Env D) (g : Graph D) (root : Nat) (doc : List Nat) (t : Dec D) (log : List Entry) (k : Nat → Nat → Nat) (x : Nat)
    (ids : List (Text × Nat)) : Prop where
  wf : Log env g doc log k
  objs : t.objs = log.map (copyOf env g doc log k)
  roots : t.roots = if Entry.obj root ∈ log then [im log (.obj root)] else []
  ids : g.manager = true → ∀ y ∈ doc, ∀ id, g.id y = some id → ids.lookup id =
    if Entry.obj y ∈ log then some (im log (.obj y)) else if some x = some y then some log.length else none
  mem : x ∈ doc
  new : Entry.obj x ∉ log
  before : ∀ y, Entry.obj y ∈ log ↔ doc.idxOf y < doc.idxOf x

theorem Reading.length {t : Dec D} {log : List Entry} {k : Nat → Nat → Nat} {x : Nat} {ids : List (Text × Nat)}
    (hR : Reading env g root doc t log k x ids) : t.objs.length = log.length := by rw [hR.objs]; simp

/-- what a fragment leads to -/
theorem sees_reading {t : Dec D} {log : List Entry} {k : Nat → Nat → Nat} {x : Nat} {ids : List (Text × Nat)}
    (hR : Reading env g root doc t log k x ids) {c : Copy D} (hc : c.container = none) (refs : List Ref) {y : Nat} (hy : y ∈ doc) :
    getEObject env g.manager (ext t c ids refs) (frag env g doc y) =
      if visible g doc x y then .obj (im (log ++ [.obj x]) (.obj y)) else .nil := by
  have hL : Looks env g root doc (ext t c ids refs) log k [c] (some x) :=
    ⟨by simp [ext, hR.objs], by simpa using hc, hR.roots, hR.ids⟩
  rw [sees h hL hR.wf hy]
  by_cases hlog : Entry.obj y ∈ log
  · have : visible g doc x y = true := by simp [visible, (hR.before y).1 hlog]
    rw [if_pos hlog, if_pos this, im_append hlog]
  · have hn : ¬ doc.idxOf y < doc.idxOf x := fun e => hlog ((hR.before y).2 e)
    rw [if_neg hlog]
    by_cases hm : g.manager = true ∧ y = x
    · obtain ⟨hm, rfl⟩ := hm
      rw [if_pos ⟨hm, rfl⟩, if_pos (by simp [visible, hm])]
      congr 1
      simp only [im]
      rw [List.idxOf_append_of_notMem hlog]
      simp
    · have : visible g doc x y = false := by simp only [visible, decide_eq_false_iff_not, not_or]; exact ⟨hn, hm⟩
      rw [this, if_neg]
      · rfl
      · rintro ⟨hm', e⟩
        exact hm ⟨hm', (Option.some.inj e).symm⟩

theorem frag_token (y : Nat) : ('#' ∈ '#' :: frag env g doc y ∧ ('#' :: frag env g doc y).head? ≠ some '#') = False ∧
    ('#' ∉ '#' :: frag env g doc y ∧ ':' ∈ '#' :: frag env g doc y) = False := by
  constructor <;> simp

/-- references that cannot be found are left for later -/
theorem setIds_rest {t : Dec D} {log : List Entry} {k : Nat → Nat → Nat} {x : Nat} {ids : List (Text × Nat)}
    (hR : Reading env g root doc t log k x ids) {c : Copy D} (hc : c.container = none) (refs0 : List Ref) (p : Feature × Nat) (l : List Nat)
    (hl : ∀ y ∈ l, y ∈ doc) (hv : opt.deferred = true ∨ ∀ y ∈ l, visible g doc x y = false) (n : Nat) (refs : List Ref) :
    setIds env g.manager opt t.objs.length p.2 p.1 (ext t c ids refs0) [] n refs (l.map fun y => '#' :: frag env g doc y) =
      some (ext t c ids refs0, n + l.length, refs ++ (l.zipIdx n).map fun y => ⟨t.objs.length, p.2, p.1, frag env g doc y.1, y.2⟩) := by
  induction l generalizing n refs with
  | nil => simp [setIds]
  | cons y l ih =>
    have ih := ih (fun z hz => hl z (by simp [hz])) (by
      rcases hv with hv | hv
      · exact .inl hv
      · exact .inr fun z hz => hv z (by simp [hz]))
    rw [List.map_cons, setIds, if_neg (by simp), if_neg (by simp)]
    simp only [List.mem_cons, true_or, if_true, List.tail_cons]
    have e : n + (y :: l).length = n + 1 + l.length := by simp; omega
    by_cases hdf : opt.deferred = true
    · rw [if_pos hdf, ih, e, List.zipIdx_cons]
      simp
    · have hv := hv.resolve_left hdf
      rw [if_neg hdf, sees_reading h hR hc refs0 (hl y (by simp)), hv y (by simp), if_neg (by simp)]
      simp only
      rw [ih, e, List.zipIdx_cons]
      simp

/-- references that can be found are set -/
theorem setIds_many {t : Dec D} {log : List Entry} {k : Nat → Nat → Nat} {x : Nat} {ids : List (Text × Nat)}
    (hR : Reading env g root doc t log k x ids) (refs0 : List Ref) (p : Feature × Nat) (hm : p.1.many = true) (hct : p.1.containment = false)
    (hd : opt.deferred = false) (l : List Nat) (hl : ∀ y ∈ l, y ∈ doc) (hv : ∀ y ∈ l, visible g doc x y = true) (n : Nat) (refs : List Ref)
    (ts : List Text) (a : List Nat) (ha : ∀ y ∈ a, visible g doc x y = true) (hnd : (a ++ l).Nodup) (c : Copy D) (hc : c.container = none)
    (hs : elements (c.slot p.2) = a.map fun y => some (im (log ++ [.obj x]) (.obj y))) :
    setIds env g.manager opt t.objs.length p.2 p.1 (ext t c ids refs0) [] n refs ((l.map fun y => '#' :: frag env g doc y) ++ ts) =
      setIds env g.manager opt t.objs.length p.2 p.1 (ext t (if l = [] then c else setSlot c p.2 (some (.objs ((a ++ l).map fun y =>
        some (im (log ++ [.obj x]) (.obj y)))))) ids refs0) [] (n + l.length) refs ts := by
  induction l generalizing n a c with
  | nil => simp
  | cons y l ih =>
    have hmem : ∀ z, visible g doc x z = true → Entry.obj z ∈ log ++ [.obj x] := by
      intro z hz
      simp only [visible, decide_eq_true_eq] at hz
      rcases hz with hz | ⟨-, rfl⟩
      · exact List.mem_append_left _ ((hR.before z).2 hz)
      · simp
    rw [List.map_cons, List.cons_append, setIds, if_neg (by simp), if_neg (by simp)]
    simp only [List.mem_cons, true_or, if_true, List.tail_cons]
    rw [if_neg (by simp [hd]), sees_reading h hR hc refs0 (hl y (by simp)), hv y (by simp), if_pos rfl]
    simp only
    have hnot : some (im (log ++ [Entry.obj x]) (.obj y)) ∉ elements (c.slot p.2) := by
      rw [hs, List.mem_map]
      rintro ⟨z, hz, e⟩
      have := im_inj (hmem z (ha z hz)) (hmem y (hv y (by simp))) (Option.some.inj e)
      cases this
      rw [List.nodup_append] at hnd
      exact hnd.2.2 y hz y (by simp) rfl
    have hset : setObject (ext t c ids refs0) t.objs.length p.2 p.1 (im (log ++ [Entry.obj x]) (.obj y)) none =
        some (ext t (setSlot c p.2 (some (.objs ((a ++ [y]).map fun y => some (im (log ++ [.obj x]) (.obj y)))))) ids refs0) := by
      simp only [setObject, hm, if_true, slot_ext, if_neg hnot, contain, hct, Bool.false_eq_true, if_false, putSlot_ext]
      rw [hs, List.map_append]
      rfl
    rw [hset]
    simp only [Option.bind_eq_bind, Option.bind_some]
    rw [ih (fun z hz => hl z (by simp [hz])) (fun z hz => hv z (by simp [hz])) (n + 1) (a ++ [y]) (by
        intro z hz
        rcases List.mem_append.1 hz with hz | hz
        · exact ha z hz
        · simp only [List.mem_singleton] at hz; subst hz; exact hv z (by simp)) (by simpa using hnd)
      (setSlot c p.2 (some (.objs ((a ++ [y]).map fun y => some (im (log ++ [Entry.obj x]) (.obj y)))))) hc (by simp [setSlot, elements])]
    have e : n + (y :: l).length = n + 1 + l.length := by simp; omega
    rw [e, if_neg (by simp : (y :: l) ≠ [])]
    congr 2
    by_cases hln : l = []
    · subst hln
      simp
    · rw [if_neg hln]
      simp only [setSlot, List.append_assoc, List.cons_append, List.nil_append]
      congr 1
      funext j
      split <;> rfl

/-- `setIds` for the references that an attribute has -/
theorem setIds_eq {t : Dec D} {log : List Entry} {k : Nat → Nat → Nat} {x : Nat} {ids : List (Text × Nat)}
    (hR : Reading env g root doc t log k x ids) (refs0 : List Ref) {p : Feature × Nat} (hp : p ∈ (env.features (g.cls x)).zipIdx)
    (hr : isRef g x p = true) (c : Copy D) (hc : c.container = none) (hs : c.slot p.2 = none) :
    setIds env g.manager opt t.objs.length p.2 p.1 (ext t c ids refs0) [] 0 [] ((objects (g.slot x p.2)).map fun y => '#' :: frag env g doc y) =
      some (ext t (setSlot c p.2 (valueOf g (log ++ [.obj x]) x p (vis g opt doc x p))) ids refs0, (objects (g.slot x p.2)).length,
        pend env g opt doc t.objs.length x p) := by
  obtain ⟨h1, h2, h3, h4⟩ := (isRef_iff h).1 hr
  have hd := ref_doc h hR.mem hp hr
  have hnd := nodup_objects h hR.mem hp h1 h2
  have hself : ∀ v, v = c.slot p.2 → setSlot c p.2 v = c := by
    rintro v rfl
    simp only [setSlot]
    congr 1
    funext j
    split
    · rename_i e; rw [e]
    · rfl
  have hpend : pend env g opt doc t.objs.length x p = (((objects (g.slot x p.2)).drop (vis g opt doc x p)).zipIdx (vis g opt doc x p)).map
      fun y => ⟨t.objs.length, p.2, p.1, frag env g doc y.1, y.2⟩ := by
    simp only [pend, hr, if_true]
    congr 1
    apply List.ext_getElem?
    intro i
    simp only [List.getElem?_drop, List.getElem?_zipIdx]
    cases (objects (g.slot x p.2))[vis g opt doc x p + i]? <;> simp
  cases hdf : opt.deferred with
  | true =>
    have hv0 : vis g opt doc x p = 0 := by simp [vis, hdf]
    rw [setIds_rest h hR hc refs0 p _ hd (.inl hdf)]
    rw [hpend, hv0, hself]
    · simp
    · rw [hs]
      simp [valueOf, h1, h2]
  | false =>
    have hv0 : vis g opt doc x p = ((objects (g.slot x p.2)).takeWhile (visible g doc x)).length := by simp [vis, hdf, hr]
    have hinv := rest_invisible h hR.mem hp hr hdf
    have hsplit : objects (g.slot x p.2) = (objects (g.slot x p.2)).takeWhile (visible g doc x) ++ (objects (g.slot x p.2)).dropWhile (visible g doc x) :=
      List.takeWhile_append_dropWhile.symm
    have hvis : ∀ y ∈ (objects (g.slot x p.2)).takeWhile (visible g doc x), visible g doc x y = true := mem_takeWhile _ _
    have htw : (objects (g.slot x p.2)).take (vis g opt doc x p) = (objects (g.slot x p.2)).takeWhile (visible g doc x) := by
      rw [hv0]
      exact (List.prefix_iff_eq_take.1 (List.takeWhile_prefix _)).symm
    have hdw : (objects (g.slot x p.2)).drop (vis g opt doc x p) = (objects (g.slot x p.2)).dropWhile (visible g doc x) := by
      have := List.take_append_drop (vis g opt doc x p) (objects (g.slot x p.2))
      rw [htw] at this
      conv at this => rhs; rw [hsplit]
      exact List.append_cancel_left this
    have hval : ((objects (g.slot x p.2)).zipIdx.take (vis g opt doc x p)).map (fun y => im (log ++ [.obj x]) (entryAt g x p y.2 y.1)) =
        ((objects (g.slot x p.2)).takeWhile (visible g doc x)).map (fun y => im (log ++ [.obj x]) (.obj y)) := by
      rw [← htw]
      apply List.ext_getElem?
      intro i
      simp only [List.getElem?_map, List.getElem?_take]
      split
      · rw [List.getElem?_zipIdx]
        cases (objects (g.slot x p.2))[i]? with
        | none => rfl
        | some y => simp [entry_ref h hr]
      · rfl
    rw [hpend, hdw]
    cases hm : p.1.many with
    | true =>
      conv => lhs; rw [hsplit]
      rw [List.map_append]
      rw [setIds_many h hR refs0 p hm h3 hdf _ (fun y hy => hd y ((List.takeWhile_sublist _).mem hy)) hvis 0 [] _ [] (by simp)
        (by rw [List.nil_append]; exact hnd.sublist (List.takeWhile_sublist _)) c hc (by rw [hs]; rfl)]
      rw [setIds_rest h hR (by split <;> exact hc) refs0 p _ (fun y hy => hd y ((List.dropWhile_sublist _).mem hy)) (.inr hinv)]
      have hlen : (objects (g.slot x p.2)).length = 0 + ((objects (g.slot x p.2)).takeWhile (visible g doc x)).length +
          ((objects (g.slot x p.2)).dropWhile (visible g doc x)).length := by
        have := congrArg List.length hsplit
        rw [List.length_append] at this
        omega
      rw [← hlen, hv0, Nat.zero_add, List.nil_append]
      congr 3
      simp only [valueOf, h1, h2, hm, if_true]
      rw [← hv0, hval]
      by_cases hnil : (objects (g.slot x p.2)).takeWhile (visible g doc x) = []
      · rw [hnil]
        simp only [if_true, List.map_nil]
        rw [hself _ hs.symm]
      · rw [if_neg hnil, if_neg (by simpa using hnil)]
        simp only [List.map_map]
        rfl
    | false =>
      rcases single_object h hR.mem hp h1 h2 hm with e | ⟨y, e⟩
      · rw [e, List.map_nil, setIds, hself _ (by rw [hs]; simp [valueOf, h1, h2, e])]
        simp
      · rw [e]
        have hyd : y ∈ doc := hd y (by rw [e]; simp)
        cases hvy : visible g doc x y with
        | true =>
          have hv1 : vis g opt doc x p = 1 := by rw [hv0, e]; simp [hvy]
          rw [List.map_cons, List.map_nil, setIds, if_neg (by simp), if_neg (by simp)]
          simp only [List.mem_cons, true_or, if_true, List.tail_cons]
          rw [if_neg (by simp [hdf]), sees_reading h hR hc refs0 hyd, hvy, if_pos rfl]
          simp only [setObject, hm, Bool.false_eq_true, if_false, contain, h3, putSlot_ext, Option.bind_eq_bind, Option.bind_some, setIds]
          congr 3
          · congr 1
            simp [valueOf, h1, h2, hm, e, hv1, entry_ref h hr]
          · simp [hvy]
        | false =>
          have hv1 : vis g opt doc x p = 0 := by rw [hv0, e]; simp [hvy]
          rw [setIds_rest h hR hc refs0 p [y] (by simpa using hyd) (.inr (by simpa using hvy)), hv1, hself]
          · simp [hvy]
          · rw [hs]; simp [valueOf, h1, h2]

end

end Verif.XMLCodec
