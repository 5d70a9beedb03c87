import Verif.Proofs.XMLCodecSave

/-!
# The elements that the encoder writes
-/

namespace Verif.XMLCodec

open Verif.XMLString (Text Call escape)
open Verif.XMLString.Spec (Forest calls)
open Verif.XMLLex (Name LegalName Literal inRange)
open Spec

variable {D : Type}

/-- the URI of an object -/
noncomputable def url (env : Env D) (g : Graph D) (doc : List Nat) (x : Nat) : Text :=
  match g.proxy x with
  | some u => u
  | none =>
    match g.res x with
    | none => []
    | some 0 => g.uri 0 ++ '#' :: frag env g doc x
    | some r => g.uri r ++ '#' :: g.fragment x

/-- attributes of a reference to another document -/
noncomputable def hrefAttrs (env : Env D) (g : Graph D) (doc : List Nat) (p : Feature × Nat) (x : Nat) : List (Text × Text) :=
  (if p.1.type ≠ g.cls x ∧ env.isAbstract p.1.type then [("xsi:type".toList, qname env (g.cls x))] else []) ++
    [("href".toList, env.relativize (url env g doc x))]

def typeAttrs (env : Env D) (g : Graph D) (p : Feature × Nat) (x : Nat) : List (Text × Text) :=
  if p.1.type ≠ g.cls x ∧ p.1.type ≠ env.eObject then [("xsi:type".toList, qname env (g.cls x))] else []

def idAttrs (g : Graph D) (opt : Opt) (x : Nat) : List (Text × Text) :=
  match (if g.manager && opt.idAttribute ≠ [] then g.id x else none) with
  | some id => [(opt.idAttribute, id)]
  | none => []

noncomputable def allAttrs (env : Env D) (g : Graph D) (doc : List Nat) (x : Nat) : List (Text × Text) :=
  (env.features (g.cls x)).zipIdx.flatMap (attrs env g doc x)

def allItems (env : Env D) (g : Graph D) (x : Nat) : List (Item D) := (env.features (g.cls x)).zipIdx.flatMap (items g x)

def short (env : Env D) (g : Graph D) (x : Nat) : Bool := !((env.features (g.cls x)).zipIdx.any (isElem g x))

/-- the elements written for items, and the objects that they contain -/
inductive Writes (env : Env D) (g : Graph D) (opt : Opt) (doc : List Nat) : List (Item D) → Forest → List Nat → Prop
  | nil : Writes env g opt doc [] .nil []
  | data (p : Feature × Nat) (v : D) (rest : List (Item D)) (F : Forest) (l : List Nat) : Writes env g opt doc rest F l →
      Writes env g opt doc (.data p v :: rest) (.content p.1.name (env.toText p.1.type v) F) l
  | href (p : Feature × Nat) (x : Nat) (rest : List (Item D)) (F : Forest) (l : List Nat) : Writes env g opt doc rest F l →
      Writes env g opt doc (.href p x :: rest) (.elem p.1.name (hrefAttrs env g doc p x) true .nil F) l
  | child (p : Feature × Nat) (x : Nat) (rest : List (Item D)) (F1 F2 : Forest) (l1 l2 : List Nat) :
      Writes env g opt doc (allItems env g x) F1 l1 → Writes env g opt doc rest F2 l2 →
      Writes env g opt doc (.child p x :: rest)
        (.elem p.1.name (typeAttrs env g p x ++ idAttrs g opt x ++ allAttrs env g doc x) (short env g x) F1 F2) (x :: (l1 ++ l2))

/-- the objects that items contain -/
def childOf : Item D → Option Nat
  | .child _ x => some x
  | _ => none

theorem filterMap_items (g : Graph D) (o : Nat) (p : Feature × Nat) : (items g o p).filterMap childOf =
    if p.1.isReference = true ∧ p.1.containment = true ∧ p.1.transient = false then (objects (g.slot o p.2)).filter (fun x => decide (Inside g x))
    else [] := by
  have key : ∀ l : List Nat, (l.map fun x => if Inside g x then Item.child (D := D) p x else .href p x).filterMap childOf =
      l.filter (fun x => decide (Inside g x)) := by
    intro l
    induction l with
    | nil => rfl
    | cons x l ih =>
      rw [List.map_cons]
      by_cases hx : Inside g x
      · rw [if_pos hx, List.filterMap_cons_some (f := childOf) (b := x) rfl, ih, List.filter_cons_of_pos (by simpa using hx)]
      · rw [if_neg hx, List.filterMap_cons_none rfl, ih, List.filter_cons_of_neg (by simpa using hx)]
  have key2 : ∀ l : List Nat, (l.map (Item.href (D := D) p)).filterMap childOf = [] := by
    intro l
    induction l with
    | nil => rfl
    | cons x l ih => rw [List.map_cons, List.filterMap_cons_none rfl, ih]
  have key3 : ∀ l : List D, (l.map (Item.data p)).filterMap childOf = [] := by
    intro l
    induction l with
    | nil => rfl
    | cons x l ih => rw [List.map_cons, List.filterMap_cons_none rfl, ih]
  unfold items saveKind
  cases p.1.transient <;> cases p.1.isReference <;> cases p.1.containment <;> cases p.1.container <;> cases p.1.many <;>
    cases p.1.unsettable <;> cases p.1.serializable <;> simp only [key, key3, if_true, if_false, Bool.false_eq_true,
      Bool.true_eq_false, and_true, and_false, true_and, false_and, Bool.not_true, Bool.not_false, reduceIte, List.filterMap_nil] <;>
    (split <;> simp only [key2, List.filterMap_nil])

theorem children_items (env : Env D) (g : Graph D) (o : Nat) : (allItems env g o).filterMap childOf = children env g o := by
  simp only [allItems, children]
  induction (env.features (g.cls o)).zipIdx with
  | nil => rfl
  | cons p l ih => rw [List.flatMap_cons, List.filterMap_append, ih, filterMap_items, List.flatMap_cons]

theorem writes_exists {env : Env D} {g : Graph D} {opt : Opt} {doc : List Nat} {os l : List Nat} (h : InOrder env g os l) :
    ∀ its : List (Item D), its.filterMap childOf = os → ∃ F, Writes env g opt doc its F l := by
  induction h with
  | nil =>
    intro its
    induction its with
    | nil => intro _; exact ⟨_, .nil⟩
    | cons it its ih =>
      intro e
      cases it with
      | data p v =>
        obtain ⟨F, hF⟩ := ih (by rw [← e]; rfl)
        exact ⟨_, .data p v its F _ hF⟩
      | href p x =>
        obtain ⟨F, hF⟩ := ih (by rw [← e]; rfl)
        exact ⟨_, .href p x its F _ hF⟩
      | child p x => simp [childOf] at e
  | cons o os l l' _ _ ih1 ih2 =>
    intro its
    induction its with
    | nil => intro e; simp at e
    | cons it its ih =>
      intro e
      cases it with
      | data p v =>
        obtain ⟨F, hF⟩ := ih (by rw [← e]; rfl)
        exact ⟨_, .data p v its F _ hF⟩
      | href p x =>
        obtain ⟨F, hF⟩ := ih (by rw [← e]; rfl)
        exact ⟨_, .href p x its F _ hF⟩
      | child p x =>
        rw [List.filterMap_cons_some (f := childOf) (b := x) rfl] at e
        obtain ⟨rfl, e'⟩ := List.cons.inj e
        obtain ⟨F1, h1⟩ := ih1 (allItems env g x) (children_items env g x)
        obtain ⟨F2, h2⟩ := ih2 its e'
        exact ⟨_, .child p x its F1 F2 l l' h1 h2⟩

/-! ## The encoder -/

theorem each_append {α : Type} (hh : Enc → α → Option (Enc × List Call)) (st : Enc) (a b : List α) :
    each hh st (a ++ b) = (each hh st a).bind fun r => (each hh r.1 b).map fun q => (q.1, r.2 ++ q.2) := by
  induction a generalizing st with
  | nil =>
    simp only [List.nil_append, each, Option.bind_some]
    cases each hh st b <;> simp
  | cons x a ih =>
    simp only [List.cons_append, each, Option.bind_eq_bind]
    cases hh st x with
    | none => rfl
    | some r =>
      simp only [Option.bind_some, ih]
      cases each hh r.1 a with
      | none => rfl
      | some q =>
        simp only [Option.bind_some]
        cases each hh q.1 b <;> simp

theorem each_single {α : Type} (hh : Enc → α → Option (Enc × List Call)) (st : Enc) (x : α) : each hh st [x] = hh st x := by
  simp only [each, Option.bind_eq_bind]
  cases hh st x <;> simp

theorem each_congr {α : Type} {h1 h2 : Enc → α → Option (Enc × List Call)} (l : List α) (e : ∀ st, ∀ x ∈ l, h1 st x = h2 st x) (st : Enc) :
    each h1 st l = each h2 st l := by
  induction l generalizing st with
  | nil => rfl
  | cons x l ih =>
    have ih := ih (fun st y hy => e st y (by simp [hy]))
    simp only [each, e st x (by simp), ih]

theorem each_flatMap {α β : Type} (hh : Enc → β → Option (Enc × List Call)) (f : α → List β) (l : List α) (st : Enc) :
    each hh st (l.flatMap f) = each (fun st x => each hh st (f x)) st l := by
  induction l generalizing st with
  | nil => rfl
  | cons x l ih =>
    rw [List.flatMap_cons, each_append]
    simp only [each, Option.bind_eq_bind, ih]
    cases each hh st (f x) with
    | none => rfl
    | some r =>
      simp only [Option.bind_some]
      cases each (fun st x => each hh st (f x)) r.1 l <;> rfl

theorem each_map {α β : Type} (hh : Enc → β → Option (Enc × List Call)) (f : α → β) (l : List α) (st : Enc) :
    each hh st (l.map f) = each (fun st x => hh st (f x)) st l := by
  induction l generalizing st with
  | nil => rfl
  | cons x l ih => simp only [List.map_cons, each, ih]

/-- what is done for an item -/
def saveItem (env : Env D) (g : Graph D) (opt : Opt) (m n : Nat) (st : Enc) : Item D → Option (Enc × List Call)
  | .data p v => some (st, [.addContent p.1.name (env.toText p.1.type v)])
  | .href p x => saveHRef env g m st x p.1
  | .child p x => do
    let (st, t) ← if p.1.type ≠ g.cls x ∧ p.1.type ≠ env.eObject then saveTypeAttribute env st (g.cls x) else some (st, [])
    let (st, c) ← saveFeatures env g opt m n st x
    some (st, .startElement p.1.name :: t ++ saveElementID g opt x ++ c)

theorem saveItem_child (env : Env D) (g : Graph D) (opt : Opt) (m n : Nat) (st : Enc) (p : Feature × Nat) (x : Nat) :
    saveItem env g opt m n st (.child p x) =
      (if p.1.type ≠ g.cls x ∧ p.1.type ≠ env.eObject then saveTypeAttribute env st (g.cls x) else some (st, [])).bind fun r =>
        (saveFeatures env g opt m n r.1 x).map fun q => (q.1, .startElement p.1.name :: r.2 ++ saveElementID g opt x ++ q.2) := by
  simp only [saveItem, Option.bind_eq_bind]
  split
  · cases saveTypeAttribute env st (g.cls x) with
    | none => rfl
    | some r =>
      simp only [Option.bind_some]
      cases saveFeatures env g opt m n r.1 x <;> rfl
  · simp only [Option.bind_some]
    cases saveFeatures env g opt m n st x <;> rfl

theorem items_nil {g : Graph D} {o : Nat} {p : Feature × Nat} (h : isElem g o p = false) : items g o p = [] := by
  simp only [isElem] at h
  have e1 : objects (none : Option (Val D)) = [] := rfl
  simp only [items]
  cases hs : g.slot o p.2 with
  | none =>
    have e2 : values (none : Option (Val D)) = [] := rfl
    simp only [e1, e2]
    cases saveKind p.1 <;> simp
  | some v =>
    rw [hs] at h
    revert h
    cases saveKind p.1 <;> simp +contextual

theorem attrs_nil {env : Env D} {g : Graph D} {doc : List Nat} {o : Nat} {p : Feature × Nat} (h : isElem g o p = true) :
    attrs env g doc o p = [] := by
  simp only [isElem, Bool.and_eq_true] at h
  obtain ⟨-, h⟩ := h
  simp only [attrs]
  revert h
  cases saveKind p.1 <;> simp
  · intro h1 _; exact h1
  · intro h; simp [h]
  · intro h; simp [h]

theorem flatMap_filter {α β : Type} (f : α → List β) (q : α → Bool) (l : List α) (h : ∀ x ∈ l, q x = false → f x = []) :
    (l.filter q).flatMap f = l.flatMap f := by
  induction l with
  | nil => rfl
  | cons x l ih =>
    have ih := ih (fun y hy => h y (by simp [hy]))
    cases hq : q x with
    | true => rw [List.filter_cons_of_pos hq, List.flatMap_cons, ih, List.flatMap_cons]
    | false => rw [List.filter_cons_of_neg (by simp [hq]), ih, List.flatMap_cons, h x (by simp) hq]; rfl

section
variable {env : Env D} {g : Graph D} {opt : Opt} {root : Nat} {doc : List Nat}
variable (h : Savable env g opt root doc)
include h

theorem mapM_todo (m : Nat) (hm : doc.length ≤ m) {o : Nat} (ho : o ∈ doc) (l : List (Feature × Nat))
    (hl : ∀ p ∈ l, p ∈ (env.features (g.cls o)).zipIdx) :
    (l.mapM fun p => (todo env g m o p.2 p.1).map fun t => (p, t)) = some (l.map fun p => (p, if isElem g o p then Todo.element
      else .attributes ((attrs env g doc o p).map fun a => .addAttribute a.1 a.2))) := by
  induction l with
  | nil => rfl
  | cons p l ih =>
    rw [List.mapM_cons, ih (fun q hq => hl q (by simp [hq])), todo_eq h m hm ho (hl p (by simp))]
    rfl

theorem contained_items {m n : Nat} {o : Nat} (ho : o ∈ doc) {p : Feature × Nat} (hp : p ∈ (env.features (g.cls o)).zipIdx)
    (hsv : Saved p.1) (st : Enc) (x : Nat) (hx : x ∈ objects (g.slot o p.2)) (hc : p.1.containment = true) :
    (if (g.direct x).isSome ∨ (g.proxy x).isSome then saveHRef env g m st x p.1
      else do
        let (st, t) ← if p.1.type ≠ g.cls x ∧ p.1.type ≠ env.eObject then saveTypeAttribute env st (g.cls x) else some (st, [])
        let (st, c) ← saveFeatures env g opt m n st x
        some (st, .startElement p.1.name :: t ++ saveElementID g opt x ++ c)) =
    saveItem env g opt m n st (if Inside g x then .child p x else .href p x) := by
  by_cases hi : Inside g x
  · rw [if_pos hi, if_neg (by simp [hi.1, hi.2])]; rfl
  · rw [if_neg hi, if_pos]
    · rfl
    · simp only [Inside] at hi
      cases hd : g.direct x with
      | some r => simp
      | none =>
        cases hpx : g.proxy x with
        | some u => simp
        | none => exact absurd ⟨hpx, hd⟩ hi

theorem saveFeatures_eq (m n : Nat) (hm : doc.length ≤ m) {o : Nat} (ho : o ∈ doc) (st : Enc) :
    saveFeatures env g opt m (n + 1) st o = (each (saveItem env g opt m n) st (allItems env g o)).map fun r =>
      (r.1, (allAttrs env g doc o).map (fun a => Call.addAttribute a.1 a.2) ++ r.2 ++ [if short env g o then .endEmptyElement else .endElement]) := by
  rw [saveFeatures]
  simp only [Option.bind_eq_bind, mapM_todo h m hm ho _ (fun p hp => hp), Option.bind_some]
  have ha : ((env.features (g.cls o)).zipIdx.map fun p => (p, if isElem g o p then Todo.element
      else .attributes ((attrs env g doc o p).map fun a => .addAttribute a.1 a.2))).flatMap
        (fun t => t.2.calls) =
      (allAttrs env g doc o).map (fun a => Call.addAttribute a.1 a.2) := by
    simp only [allAttrs]
    induction (env.features (g.cls o)).zipIdx with
    | nil => rfl
    | cons p l ih =>
      rw [List.map_cons, List.flatMap_cons, ih, List.flatMap_cons, List.map_append]
      congr 1
      cases he : isElem g o p with
      | true => simp [attrs_nil he, Todo.calls]
      | false => simp [Todo.calls]
  have hes : ((env.features (g.cls o)).zipIdx.map fun p => (p, if isElem g o p then Todo.element
      else .attributes ((attrs env g doc o p).map fun a => .addAttribute a.1 a.2))).filterMap
        (fun t => if t.2 = .element then some t.1 else none) =
      (env.features (g.cls o)).zipIdx.filter (isElem g o) := by
    induction (env.features (g.cls o)).zipIdx with
    | nil => rfl
    | cons p l ih =>
      cases he : isElem g o p with
      | true => rw [List.map_cons, List.filterMap_cons_some (b := p) (by simp [he]), ih, List.filter_cons_of_pos he]
      | false => rw [List.map_cons, List.filterMap_cons_none (by simp [he]), ih, List.filter_cons_of_neg (by simp [he])]
  have hall : ((env.features (g.cls o)).zipIdx.filter (isElem g o)).flatMap (items g o) = allItems env g o :=
    flatMap_filter _ _ _ (fun p _ he => items_nil he)
  rw [ha, hes]
  have hmem : ∀ p ∈ (env.features (g.cls o)).zipIdx.filter (isElem g o), p ∈ (env.features (g.cls o)).zipIdx ∧ isElem g o p = true := by
    intro p hp; exact List.mem_filter.1 hp
  have hshort : short env g o = true ↔ (env.features (g.cls o)).zipIdx.filter (isElem g o) = [] := by
    simp [short, List.filter_eq_nil_iff]
  generalize (env.features (g.cls o)).zipIdx.filter (isElem g o) = es at hall hmem hshort
  by_cases he : es = []
  · rw [if_pos he]
    have hs := hshort.2 he
    subst he
    rw [← hall, hs]
    simp [each]
  · rw [if_neg he]
    have hs : short env g o = false := by
      cases hh : short env g o with
      | false => rfl
      | true => exact absurd (hshort.1 hh) he
    rw [hs, ← hall, each_flatMap]
    rw [each_congr (h2 := fun st x => each (saveItem env g opt m n) st (items g o x)) es ?_ st]
    · cases each (fun st x => each (saveItem env g opt m n) st (items g o x)) st es <;> simp
    · intro st p hp
      obtain ⟨hp, hel⟩ := hmem p hp
      have hsv : Saved p.1 := by
        rw [← saved_kind]; intro e
        simp [isElem, e] at hel
      cases hs : g.slot o p.2 with
      | none => simp [isElem, hs] at hel
      | some v =>
        have hf := (h.fits o ho p hp hsv v hs).1
        cases hr : p.1.isReference with
        | false =>
          have hk := kind_data hsv hr
          cases v with
          | data v =>
            rw [hf.2.1] at hk
            exfalso
            cases hu : p.1.unsettable <;> rw [hu] at hk <;> simp [isElem, hk] at hel
          | datas l =>
            rw [hf.2.1] at hk
            simp only [if_true] at hk
            simp only [hk, items, hs, datasOf]
            have hl := values_datas (D := D) hf.2.2
            conv => lhs; rw [hl]
            rw [each_map, each_map]
            rfl
          | obj x => rw [hf.1] at hr; cases hr
          | objs l => rw [hf.1] at hr; cases hr
        | true =>
          cases hc : p.1.containment with
          | true =>
            have hk := kind_contain hsv hr hc
            cases v with
            | data v => rw [hf.1] at hr; cases hr
            | datas l => rw [hf.1] at hr; cases hr
            | obj x =>
              obtain ⟨x, rfl⟩ := Option.ne_none_iff_exists'.1 hf.2.2
              rw [hf.2.1] at hk
              simp only [Bool.false_eq_true, if_false] at hk
              have := contained_items h (m := m) (n := n) ho hp hsv st x (by rw [hs]; simp [objects]) hc
              simp only [hk, items, hs, objects, isNil, asObject, List.map_cons, List.map_nil, each_single, Bool.and_false, Bool.false_eq_true, if_false]
              exact this
            | objs l =>
              rw [hf.2.1] at hk
              simp only [if_true] at hk
              have hl := objects_objs (D := D) hf.2.2.1
              simp only [hk, items, hs]
              have he : elements (some (Val.objs l : Val D)) = (objects (some (Val.objs l : Val D))).map some := hl
              rw [he, each_map, each_map]
              apply each_congr
              intro st x hx
              exact contained_items h (m := m) (n := n) ho hp hsv st x (by rw [hs]; exact hx) hc
          | false =>
            have hk := kind_href hsv hr hc
            cases v with
            | data v => rw [hf.1] at hr; cases hr
            | datas l => rw [hf.1] at hr; cases hr
            | obj x =>
              obtain ⟨x, rfl⟩ := Option.ne_none_iff_exists'.1 hf.2.2
              rw [hf.2.1] at hk
              simp only [Bool.false_eq_true, if_false] at hk
              have hcr : crossed g (some (Val.obj (some x) : Val D)) = true := by
                simpa [isElem, hk, hs] using hel
              simp only [hk, items, hs, hcr, if_true, isNil, asObject, Bool.and_false, Bool.false_eq_true, if_false, objects, List.map_cons,
                List.map_nil, each_single, saveItem]
            | objs l =>
              rw [hf.2.1] at hk
              simp only [if_true] at hk
              have hl := objects_objs (D := D) hf.2.2.1
              have hcr : crossed g (some (Val.objs l : Val D)) = true := by
                simpa [isElem, hk, hs] using hel
              simp only [hk, items, hs, hcr, if_true]
              have he : elements (some (Val.objs l : Val D)) = (objects (some (Val.objs l : Val D))).map some := hl
              rw [he, each_map, each_map]
              rfl

end

/-! ## What items are -/

/-- the feature of an item -/
def Item.feature : Item D → Feature × Nat
  | .data p _ => p
  | .href p _ => p
  | .child p _ => p

/-- an item of an object of the document -/
def Valid (env : Env D) (g : Graph D) (doc : List Nat) (it : Item D) : Prop :=
  ∃ o ∈ doc, ∃ p ∈ (env.features (g.cls o)).zipIdx, it ∈ items g o p

theorem item_cases {g : Graph D} {o : Nat} {p : Feature × Nat} {it : Item D} (hi : it ∈ items g o p) :
    (∃ v ∈ values (g.slot o p.2), it = .data p v ∧ Saved p.1 ∧ p.1.isReference = false ∧ p.1.many = true) ∨
    (∃ x ∈ objects (g.slot o p.2), it = .href p x ∧ Saved p.1 ∧ p.1.isReference = true ∧
      ((p.1.containment = true ∧ ¬ Inside g x) ∨ (p.1.containment = false ∧ crossed g (g.slot o p.2) = true))) ∨
    (∃ x ∈ objects (g.slot o p.2), it = .child p x ∧ Saved p.1 ∧ p.1.isReference = true ∧ p.1.containment = true ∧ Inside g x) := by
  have hsv : Saved p.1 := by
    rw [← saved_kind]; intro e
    simp [items, e] at hi
  cases hr : p.1.isReference with
  | false =>
    left
    have hk := kind_data hsv hr
    cases hm : p.1.many with
    | false => exfalso; cases hu : p.1.unsettable <;> simp [items, hk, hm, hu] at hi
    | true =>
      simp only [items, hk, hm, if_true, List.mem_map] at hi
      obtain ⟨v, hv, rfl⟩ := hi
      exact ⟨v, hv, rfl, hsv, rfl, rfl⟩
  | true =>
    right
    cases hc : p.1.containment with
    | true =>
      have hk := kind_contain hsv hr hc
      have : ∃ x ∈ objects (g.slot o p.2), (if Inside g x then Item.child p x else .href p x) = it := by
        cases hm : p.1.many <;> simp only [items, hk, hm, if_true, Bool.false_eq_true, if_false, List.mem_map] at hi <;> exact hi
      obtain ⟨x, hx, rfl⟩ := this
      by_cases hin : Inside g x
      · right
        exact ⟨x, hx, by rw [if_pos hin], hsv, rfl, rfl, hin⟩
      · left
        exact ⟨x, hx, by rw [if_neg hin], hsv, rfl, .inl ⟨rfl, hin⟩⟩
    | false =>
      left
      have hk := kind_href hsv hr hc
      have : crossed g (g.slot o p.2) = true ∧ ∃ x ∈ objects (g.slot o p.2), Item.href p x = it := by
        cases hcr : crossed g (g.slot o p.2) <;> cases hm : p.1.many <;>
          simp [items, hk, hm, hcr] at hi <;> exact ⟨rfl, hi⟩
      obtain ⟨hcr, x, hx, rfl⟩ := this
      exact ⟨x, hx, rfl, hsv, rfl, .inr ⟨rfl, hcr⟩⟩

section
variable {env : Env D} {g : Graph D} {opt : Opt} {root : Nat} {doc : List Nat}
variable (h : Savable env g opt root doc)
include h

theorem url_eq (m : Nat) (hm : doc.length ≤ m) {x : Nat} (hx : x ∈ doc ∨ Foreign g x) :
    getHRef env g m x = some (env.relativize (url env g doc x)) ∧ (Literal (g.fragment x) → HasURI g x (url env g doc x)) ∧
      (g.proxy x = none → g.res x = some 0 → x ∈ doc ∧ url env g doc x = g.uri 0 ++ '#' :: frag env g doc x) := by
  cases hp : g.proxy x with
  | some u =>
    refine ⟨by simp [getHRef, url, hp], fun _ => .inl (by simp [url, hp]), by simp⟩
  | none =>
    cases hr : g.res x with
    | none =>
      rcases hx with hx | hx
      · rw [h.res x hx] at hr; cases hr
      · rcases hx with e | ⟨e, -⟩
        · exact absurd hp e
        · exact absurd hr e
    | some r =>
      cases r with
      | zero =>
        have hd : x ∈ doc := by
          rcases hx with hx | hx
          · exact hx
          · rcases hx with e | ⟨-, e⟩
            · exact absurd hp e
            · exact absurd hr e
        refine ⟨by simp [getHRef, url, hp, hr, frag_eq h hd hm], fun _ => .inr ⟨hp, 0, frag env g doc x, hr, by simp, (frag_chars h hd).1,
          by simp [url, hp, hr]⟩, fun _ _ => ⟨hd, by simp [url, hp, hr]⟩⟩
      | succ r =>
        refine ⟨by simp [getHRef, url, hp, hr], fun hl => .inr ⟨hp, r + 1, g.fragment x, hr, by simp, hl, by simp [url, hp, hr]⟩, ?_⟩
        intro _ e; cases e

theorem href_ok {o : Nat} (ho : o ∈ doc) {p : Feature × Nat} (hp : p ∈ (env.features (g.cls o)).zipIdx) (hsv : Saved p.1) {x : Nat}
    (hx : x ∈ objects (g.slot o p.2))
    (hc : (p.1.containment = true ∧ ¬ Inside g x) ∨ (p.1.containment = false ∧ crossed g (g.slot o p.2) = true)) :
    (x ∈ doc ∨ Foreign g x) ∧ HasURI g x (url env g doc x) ∧ Literal (env.relativize (url env g doc x)) ∧
      env.relativize (url env g doc x) ≠ [] ∧ env.resolve (env.relativize (url env g doc x)) = some (url env g doc x) ∧ Named env g doc (g.cls x) := by
  have h1 : x ∈ doc ∨ Foreign g x := by
    rcases hc with ⟨hc, hn⟩ | ⟨hc, -⟩
    · rcases h.contained o ho p hp hc hsv x hx with hi | hf
      · exact absurd hi hn
      · exact .inr hf
    · exact h.referenced o ho p hp hc hsv x hx
  have h2 := (url_eq h doc.length (Nat.le_refl _) h1).2.1 (h.fragments o ho p hp hsv x hx)
  have h3 := h.uris o ho p hp hsv x hx _ h2
  exact ⟨h1, h2, h3.1, h3.2.1, h3.2.2, ⟨o, ho, .inr ⟨p, hp, hsv, x, hx, rfl⟩⟩⟩

/-! ## The forest is written -/

/-- the names of types in the elements have prefixes that are declared -/
def Typed (env : Env D) (g : Graph D) (doc : List Nat) (d : List String) : Forest → Prop
  | .elem _ attributes _ children next =>
    (∀ a ∈ attributes, a.1 = "xsi:type".toList → "xsi" ∈ d ∧ ∃ c, Named env g doc c ∧ a.2 = qname env c ∧ env.ns.nsPrefix (env.pkg c) ∈ d) ∧
      Typed env g doc d children ∧ Typed env g doc d next
  | .content _ _ next => Typed env g doc d next
  | _ => True

omit h in
theorem Typed.mono {d d' : List String} (hd : ∀ q ∈ d, q ∈ d') {F : Forest} (hF : Typed env g doc d F) : Typed env g doc d' F := by
  induction F with
  | nil => trivial
  | elem name attributes s c n ih1 ih2 =>
    refine ⟨?_, ih1 hF.2.1, ih2 hF.2.2⟩
    intro a ha e
    obtain ⟨h1, c, h2, h3, h4⟩ := hF.1 a ha e
    exact ⟨hd _ h1, c, h2, h3, hd _ h4⟩
  | group _ _ _ _ => trivial
  | nilElem _ _ _ => trivial
  | content name t n ih => exact ih hF

theorem attrs_name {o : Nat} {p : Feature × Nat} {a : Text × Text} (ha : a ∈ attrs env g doc o p) : a.1 = p.1.name := by
  simp only [attrs] at ha
  split at ha
  · simp only [List.mem_map] at ha; obtain ⟨v, -, rfl⟩ := ha; rfl
  · simp only [List.mem_map] at ha; obtain ⟨v, -, rfl⟩ := ha; rfl
  · split at ha
    · simp at ha; rw [ha]
    · simp at ha
  · split at ha
    · simp at ha
    · simp at ha; rw [ha]
  · split at ha
    · simp at ha
    · simp at ha; rw [ha]
  · simp at ha

theorem feature_mem {o : Nat} {p : Feature × Nat} (hp : p ∈ (env.features (g.cls o)).zipIdx) : p.1 ∈ env.features (g.cls o) := by
  obtain ⟨f, i⟩ := p
  exact (List.mem_zipIdx' hp).2 ▸ List.getElem_mem _

theorem identifier_ne {t : Text} (ht : Identifier t) : t ≠ "xsi:type".toList := by
  rintro rfl
  exact ht.2.1 (by decide)

theorem saveHRef_eq (m : Nat) (hm : doc.length ≤ m) {o : Nat} (ho : o ∈ doc) {p : Feature × Nat} (hp : p ∈ (env.features (g.cls o)).zipIdx)
    (hsv : Saved p.1) {x : Nat} (hx : x ∈ objects (g.slot o p.2))
    (hc : (p.1.containment = true ∧ ¬ Inside g x) ∨ (p.1.containment = false ∧ crossed g (g.slot o p.2) = true)) {st : Enc}
    (hg : GoodEnc env g doc st) :
    ∃ st', saveHRef env g m st x p.1 = some (st', .startElement p.1.name :: (hrefAttrs env g doc p x).map (fun a => .addAttribute a.1 a.2) ++
        [.endEmptyElement]) ∧ GoodEnc env g doc st' ∧ (∀ q ∈ st.declared, q ∈ st'.declared) ∧
      (∀ a ∈ hrefAttrs env g doc p x, a.1 = "xsi:type".toList →
        "xsi" ∈ st'.declared ∧ ∃ c, Named env g doc c ∧ a.2 = qname env c ∧ env.ns.nsPrefix (env.pkg c) ∈ st'.declared) := by
  obtain ⟨h1, h2, h3, h4, h5, h6⟩ := href_ok h ho hp hsv hx hc
  simp only [saveHRef, (url_eq h m hm h1).1, Option.bind_eq_bind, Option.bind_some, if_neg h4, hrefAttrs]
  have hne : "href".toList ≠ "xsi:type".toList := by decide
  by_cases ht : p.1.type ≠ g.cls x ∧ env.isAbstract p.1.type = true
  · obtain ⟨st', e, hg', d1, d2, d3⟩ := saveTypeAttribute_eq h hg h6
    refine ⟨st', ?_, hg', d3, ?_⟩
    · simp only [if_pos ht, e, Option.bind_some]; simp
    · intro a ha e
      simp only [if_pos ht, List.cons_append, List.nil_append, List.mem_cons, List.not_mem_nil, or_false] at ha
      rcases ha with rfl | rfl
      · exact ⟨d2, g.cls x, h6, rfl, d1⟩
      · exact absurd e hne
  · refine ⟨st, ?_, hg, fun q hq => hq, ?_⟩
    · simp only [if_neg ht, Option.bind_some]; simp
    · intro a ha e
      simp only [if_neg ht, List.nil_append, List.mem_singleton] at ha
      subst ha
      exact absurd e hne

theorem short_nil {its : List (Item D)} {F : Forest} {l : List Nat} (hW : Writes env g opt doc its F l) : F.isNil = its.isEmpty := by
  cases hW <;> rfl

theorem save_items {its : List (Item D)} {F : Forest} {l : List Nat} (hW : Writes env g opt doc its F l) :
    (∀ it ∈ its, Valid env g doc it) → ∀ (m n : Nat), doc.length ≤ m → l.length ≤ n → ∀ st, GoodEnc env g doc st →
    ∃ st', each (saveItem env g opt m n) st its = some (st', calls F) ∧ GoodEnc env g doc st' ∧ (∀ q ∈ st.declared, q ∈ st'.declared) ∧
      Typed env g doc st'.declared F := by
  induction hW with
  | nil => intro _ m n _ _ st hg; exact ⟨st, rfl, hg, fun q hq => hq, trivial⟩
  | data p v rest F l _ ih =>
    intro hv m n hm hn st hg
    obtain ⟨st', e, hg', hd, ht⟩ := ih (fun it hit => hv it (by simp [hit])) m n hm hn st hg
    refine ⟨st', ?_, hg', hd, ht⟩
    simp [each, saveItem, e, calls]
  | href p x rest F l _ ih =>
    intro hv m n hm hn st hg
    obtain ⟨o, ho, p', hp', hit⟩ := hv (.href p x) (by simp)
    rcases item_cases hit with ⟨v, -, e, -⟩ | ⟨x', hx', e, hsv, -, hc⟩ | ⟨v, -, e, -⟩
    · cases e
    · cases e
      obtain ⟨st1, e1, hg1, hd1, ht1⟩ := saveHRef_eq h m hm ho hp' hsv hx' hc hg
      obtain ⟨st', e, hg', hd, ht⟩ := ih (fun it hit => hv it (by simp [hit])) m n hm hn st1 hg1
      refine ⟨st', ?_, hg', fun q hq => hd q (hd1 q hq), ?_, trivial, ht⟩
      · simp [each, saveItem, e1, e, calls, XMLString.Spec.Forest.isNil]
      · intro a ha e
        obtain ⟨q1, c, q2, q3, q4⟩ := ht1 a ha e
        exact ⟨hd _ q1, c, q2, q3, hd _ q4⟩
    · cases e
  | child p x rest F1 F2 l1 l2 hW1 _ ih1 ih2 =>
    intro hv m n hm hn st hg
    obtain ⟨o, ho, p', hp', hit⟩ := hv (.child p x) (by simp)
    rcases item_cases hit with ⟨v, -, e, -⟩ | ⟨v, -, e, -⟩ | ⟨x', hx', e, hsv, hr, hc, hin⟩
    · cases e
    · cases e
    · cases e
      have hxd : x ∈ doc := children_mem h ho (by
        rw [← children_items, List.mem_filterMap]
        exact ⟨.child p x, by simp only [allItems, List.mem_flatMap]; exact ⟨p, hp', hit⟩, rfl⟩)
      have hnm : Named env g doc (g.cls x) := ⟨x, hxd, .inl rfl⟩
      obtain ⟨n', rfl⟩ : ∃ n', n = n' + 1 := ⟨n - 1, by simp at hn; omega⟩
      have hty : ∃ st1, (if p.1.type ≠ g.cls x ∧ p.1.type ≠ env.eObject then saveTypeAttribute env st (g.cls x) else some (st, [])) =
          some (st1, (typeAttrs env g p x).map (fun a => .addAttribute a.1 a.2)) ∧ GoodEnc env g doc st1 ∧ (∀ q ∈ st.declared, q ∈ st1.declared) ∧
          (∀ a ∈ typeAttrs env g p x, "xsi" ∈ st1.declared ∧ ∃ c, Named env g doc c ∧ a.2 = qname env c ∧ env.ns.nsPrefix (env.pkg c) ∈ st1.declared) := by
        simp only [typeAttrs]
        split
        · obtain ⟨st1, e, hg', d1, d2, d3⟩ := saveTypeAttribute_eq h hg hnm
          refine ⟨st1, e, hg', d3, ?_⟩
          intro a ha
          simp only [List.mem_singleton] at ha
          subst ha
          exact ⟨d2, _, hnm, rfl, d1⟩
        · exact ⟨st, rfl, hg, fun q hq => hq, by simp⟩
      obtain ⟨st1, e1, hg1, hd1, ht1⟩ := hty
      obtain ⟨st2, e2, hg2, hd2, ht2⟩ := ih1 (by
        intro it hit
        simp only [allItems, List.mem_flatMap] at hit
        obtain ⟨q, hq, hit⟩ := hit
        exact ⟨x, hxd, q, hq, hit⟩) m n' hm (by simp at hn; omega) st1 hg1
      obtain ⟨st3, e3, hg3, hd3, ht3⟩ := ih2 (fun it hit => hv it (by simp [hit])) m (n' + 1) hm (by simp at hn; omega) st2 hg2
      refine ⟨st3, ?_, hg3, fun q hq => hd3 q (hd2 q (hd1 q hq)), ?_, ht2.mono hd3, ht3⟩
      · have hid : saveElementID g opt x = (idAttrs g opt x).map (fun a => Call.addAttribute a.1 a.2) := by
          simp only [saveElementID, idAttrs]
          cases (if (g.manager && decide (opt.idAttribute ≠ [])) = true then g.id x else none) <;> rfl
        have hs : (short env g x && F1.isNil) = short env g x := by
          cases hsh : short env g x with
          | false => rfl
          | true =>
            rw [short_nil h hW1]
            have : allItems env g x = [] := by
              simp only [allItems, List.flatMap_eq_nil_iff]
              intro q hq
              apply items_nil
              simp only [short, Bool.not_eq_true', List.any_eq_false] at hsh
              simpa using hsh q hq
            simp [this]
        simp only [each, saveItem_child, Option.bind_eq_bind]
        rw [e1]
        simp only [Option.bind_some, saveFeatures_eq h m n' hm hxd, e2, Option.map_some, e3, calls, hs, hid]
        simp [List.map_append, List.append_assoc]
      · intro a ha e
        simp only [List.mem_append] at ha
        rcases ha with (ha | ha) | ha
        · obtain ⟨q1, c, q2, q3, q4⟩ := ht1 a ha
          exact ⟨hd3 _ (hd2 _ q1), c, q2, q3, hd3 _ (hd2 _ q4)⟩
        · exfalso
          simp only [idAttrs] at ha
          split at ha
          · rename_i id hid
            simp only [List.mem_singleton] at ha
            subst ha
            split at hid
            · rename_i hmg
              simp only [Bool.and_eq_true] at hmg
              exact identifier_ne h (h.managed hmg.1).1 e
            · cases hid
          · simp at ha
        · exfalso
          simp only [allAttrs, List.mem_flatMap] at ha
          obtain ⟨q, hq, ha⟩ := ha
          rw [attrs_name h ha] at e
          exact identifier_ne h ((h.features x hxd).2 q.1 (feature_mem h hq)).1 e

end

end Verif.XMLCodec
