import Verif.Proofs.XMLCodecLoad

/-!
# The decoder reads all the elements
-/

namespace Verif.XMLCodec

open Verif.XMLString (Text escape)
open Verif.XMLString.Spec (Forest)
open Verif.XMLLex (Name Token LegalName Literal attributeName elementName readText Reads IsBlank NotDecl rawName)
open Spec

variable {D : Type}

/-- how many of the items are of the feature -/
def count (p : Feature × Nat) (l : List (Item D)) : Nat := (l.filter fun it => decide (it.feature = p)).length

theorem count_append (p : Feature × Nat) (a b : List (Item D)) : count p (a ++ b) = count p a + count p b := by simp [count]

theorem count_one (p : Feature × Nat) (it : Item D) : count p [it] = if it.feature = p then 1 else 0 := by
  unfold count
  by_cases e : it.feature = p <;> simp [e]

theorem item_feature {g : Graph D} {o : Nat} {p : Feature × Nat} {it : Item D} (hi : it ∈ items g o p) : it.feature = p := by
  rcases item_cases hi with ⟨v, -, rfl, -⟩ | ⟨v, -, rfl, -⟩ | ⟨v, -, rfl, -⟩ <;> rfl

theorem filter_items (g : Graph D) (o : Nat) (p : Feature × Nat) (l : List (Feature × Nat)) (hl : l.Nodup) :
    (l.flatMap (items g o)).filter (fun it => decide (it.feature = p)) = if p ∈ l then items g o p else [] := by
  induction l with
  | nil => rfl
  | cons q l ih =>
    rw [List.nodup_cons] at hl
    rw [List.flatMap_cons, List.filter_append, ih hl.2]
    by_cases e : p = q
    · subst e
      rw [if_neg hl.1, if_pos (List.mem_cons_self ..), List.append_nil, List.filter_eq_self]
      intro it hit
      simpa using item_feature hit
    · have : (items g o q).filter (fun it => decide (it.feature = p)) = [] := by
        rw [List.filter_eq_nil_iff]
        intro it hit
        rw [item_feature hit]
        simpa using fun e' => e e'.symm
      rw [this, List.nil_append]
      simp [e]

theorem zipIdx_nodup {α : Type} (l : List α) : l.zipIdx.Nodup := List.Nodup.of_map _ (zipIdx_snd_nodup l)

/-- an item is found among those of its feature -/
theorem item_at {env : Env D} {g : Graph D} {o : Nat} {pre rest : List (Item D)} {it : Item D} (e : allItems env g o = pre ++ it :: rest) :
    it.feature ∈ (env.features (g.cls o)).zipIdx ∧ (items g o it.feature)[count it.feature pre]? = some it := by
  have hm : it ∈ allItems env g o := by rw [e]; simp
  simp only [allItems, List.mem_flatMap] at hm
  obtain ⟨q, hq, hit⟩ := hm
  have := item_feature hit
  subst this
  refine ⟨hq, ?_⟩
  have hf := filter_items g o it.feature _ (zipIdx_nodup (env.features (g.cls o)))
  rw [if_pos hq] at hf
  rw [← hf]
  show ((allItems env g o).filter _)[_]? = _
  rw [e, List.filter_append, List.filter_cons_of_pos (by simp)]
  rw [List.getElem?_append_right (by simp [count])]
  simp [count]

theorem count_all {env : Env D} {g : Graph D} {o : Nat} {p : Feature × Nat} (hp : p ∈ (env.features (g.cls o)).zipIdx) :
    count p (allItems env g o) = (items g o p).length := by
  have hf := filter_items g o p _ (zipIdx_nodup (env.features (g.cls o)))
  rw [if_pos hp] at hf
  rw [count, allItems, hf]

/-- the value of an item -/
theorem item_value {g : Graph D} {o : Nat} {p : Feature × Nat} {n : Nat} {it : Item D} (hi : (items g o p)[n]? = some it) :
    (∀ v, it = .data p v → (values (g.slot o p.2))[n]? = some v) ∧
    (∀ x, it = .href p x → (objects (g.slot o p.2))[n]? = some x) ∧
    (∀ x, it = .child p x → (objects (g.slot o p.2))[n]? = some x) := by
  have key : ∀ l : List Nat, (l.map fun x => if Inside g x then Item.child (D := D) p x else .href p x)[n]? = some it →
      ∃ x, l[n]? = some x ∧ (it = .child p x ∨ it = .href p x) := by
    intro l hl
    rw [List.getElem?_map, Option.map_eq_some_iff] at hl
    obtain ⟨x, hx, e⟩ := hl
    refine ⟨x, hx, ?_⟩
    split at e
    · exact .inl e.symm
    · exact .inr e.symm
  have key2 : ∀ l : List Nat, (l.map (Item.href (D := D) p))[n]? = some it → ∃ x, l[n]? = some x ∧ (it = .child p x ∨ it = .href p x) := by
    intro l hl
    rw [List.getElem?_map, Option.map_eq_some_iff] at hl
    obtain ⟨x, hx, e⟩ := hl
    exact ⟨x, hx, .inr e.symm⟩
  have fin : (∃ x, (objects (g.slot o p.2))[n]? = some x ∧ (it = .child p x ∨ it = .href p x)) →
      (∀ v, it = .data p v → (values (g.slot o p.2))[n]? = some v) ∧
      (∀ x, it = .href p x → (objects (g.slot o p.2))[n]? = some x) ∧
      (∀ x, it = .child p x → (objects (g.slot o p.2))[n]? = some x) := by
    rintro ⟨x, hx, rfl | rfl⟩
    · refine ⟨by simp, by simp, ?_⟩
      intro y e; cases e; exact hx
    · refine ⟨by simp, ?_, by simp⟩
      intro y e; cases e; exact hx
  unfold items at hi
  split at hi
  · rw [List.getElem?_map, Option.map_eq_some_iff] at hi
    obtain ⟨v, hv, rfl⟩ := hi
    refine ⟨?_, by simp, by simp⟩
    intro w e; cases e; exact hv
  · exact fin (key _ hi)
  · exact fin (key _ hi)
  · split at hi
    · exact fin (key2 _ hi)
    · simp at hi
  · split at hi
    · exact fin (key2 _ hi)
    · simp at hi
  · simp at hi

section
variable {env : Env D} {g : Graph D} {opt : Opt} {root : Nat} {doc : List Nat}
variable (h : Savable env g opt root doc)
include h

omit h in
theorem before_idx {log : List Entry} {x : Nat} {rest : List Nat} (hn : doc.Nodup) (e : doc = objsOf log ++ x :: rest) :
    Entry.obj x ∉ log ∧ ∀ y, Entry.obj y ∈ log ↔ doc.idxOf y < doc.idxOf x := by
  have hx : x ∉ objsOf log := by
    rw [e, List.nodup_append] at hn
    intro hx
    exact hn.2.2 x hx x (by simp) rfl
  have hi : doc.idxOf x = (objsOf log).length := by
    rw [e, List.idxOf_append_of_notMem hx]; simp
  refine ⟨fun hm => hx (mem_objsOf.2 hm), ?_⟩
  intro y
  rw [← mem_objsOf, hi]
  constructor
  · intro hy
    rw [e, List.idxOf_append_of_mem hy]
    exact List.idxOf_lt_length_iff.2 hy
  · intro hy
    by_cases hm : y ∈ objsOf log
    · exact hm
    · rw [e, List.idxOf_append_of_notMem hm] at hy
      omega

omit h in
theorem objsOf_append (a b : List Entry) : objsOf (a ++ b) = objsOf a ++ objsOf b := by simp [objsOf]

omit h in
/-- an item is of a feature that is not set while the attributes are read -/
theorem item_vis {o : Nat} {p : Feature × Nat} {it : Item D} (hi : it ∈ items g o p) : vis g opt doc o p = 0 := by
  have : isRef g o p = false := by
    rcases item_cases hi with ⟨v, -, -, hsv, hr, hm⟩ | ⟨x, -, -, hsv, hr, hc⟩ | ⟨x, -, -, hsv, hr, hc, -⟩
    · simp [isRef, hr]
    · rcases hc with hc | hc
      · simp [isRef, hc.1]
      · simp [isRef, hc.2]
    · simp [isRef, hc]
  simp [vis, this]

theorem name_plain {o : Nat} (ho : o ∈ doc) {p : Feature × Nat} (hp : p ∈ (env.features (g.cls o)).zipIdx) : ':' ∉ p.1.name :=
  ((h.features o ho).2 _ (feature_mem h hp)).1.2.1

theorem run_items {its : List (Item D)} {F : Forest} {l : List Nat} (hW : Writes env g opt doc its F l) :
    ∀ {o : Nat} {pre : List (Item D)} {post : List Nat} {s : Dec D} {log : List Entry} {k : Nat → Nat → Nat} {stk : List (Option Nat)}
      {tys : List Ty} {sp : List (List (Text × Text))} {d : List String} {ts rest : List Token},
      Entry.obj o ∈ log → allItems env g o = pre ++ its →
      (∀ p ∈ (env.features (g.cls o)).zipIdx, k o p.2 = vis g opt doc o p + count p pre) →
      doc = objsOf log ++ (l ++ post) →
      At env g opt root doc s log k (some (im log (.obj o)) :: stk) tys sp → GoodSpaces env g doc d sp.flatten → sp ≠ [] →
      Typed env g doc d F → Reads (elementName sp.flatten) (attributeName sp.flatten) F ts →
      ∃ s' e k', run env g.manager opt s (ts ++ rest) = run env g.manager opt s' rest ∧
        At env g opt root doc s' (log ++ e) k' (some (im log (.obj o)) :: stk) tys sp ∧ objsOf e = l ∧
        (∀ p ∈ (env.features (g.cls o)).zipIdx, k' o p.2 = vis g opt doc o p + count p (allItems env g o)) ∧
        (∀ y ∈ l, ∀ p ∈ (env.features (g.cls y)).zipIdx, k' y p.2 = vis g opt doc y p + count p (allItems env g y)) ∧
        (∀ y, y ≠ o → y ∉ l → k' y = k y) := by
  induction hW with
  | nil =>
    intro o pre post s log k stk tys sp d ts rest ho e hk hd hA hn hsp hT hR
    cases hR
    refine ⟨s, [], k, rfl, by simpa using hA, rfl, ?_, by simp, by simp⟩
    rw [e, List.append_nil]; exact hk
  | data p v its F l _ ih =>
    intro o pre post s log k stk tys sp d ts rest ho e hk hd hA hn hsp hT hR
    obtain ⟨hp, hat⟩ := item_at e
    simp only [Item.feature] at hp hat
    have hod := hA.wf.objs o ho
    have hmem := List.mem_of_getElem? hat
    have hv := (item_value hat).1 v rfl
    rw [show count p pre = k o p.2 by rw [hk p hp, item_vis hmem]; omega] at hv
    obtain ⟨v', hv', e', hsv, hr, hm⟩ : ∃ v' ∈ values (g.slot o p.2), Item.data p v = .data p v' ∧ Saved p.1 ∧ p.1.isReference = false ∧ p.1.many = true := by
      rcases item_cases hmem with h1 | ⟨x, -, e', -⟩ | ⟨x, -, e', -⟩
      · exact h1
      · cases e'
      · cases e'
    cases e'
    obtain ⟨ws, rest', x, hx, rfl, hws, hR'⟩ := hR
    have hct := ((h.single o hod p hp hsv v hv').2.2) hm
    rw [readText_content hct] at hx
    cases hx
    obtain ⟨s1, e1, hA1⟩ := read_data h ho hA hsp hp hsv hr hm hv (elementName sp.flatten p.1.name) (rest' ++ rest)
    obtain ⟨s', es, k', e2, hA2, ho2, hk2, hl2, hk3⟩ := ih (o := o) (pre := pre ++ [.data p v]) (post := post) (rest := rest) ho (by simp [e]) (by
      intro q hq
      rw [count_append, count_one q (Item.data p v)]
      simp only [bump]
      by_cases eq : p = q
      · subst eq; simp [hk p hq, Item.feature]; omega
      · rw [if_neg (fun e' => eq (zip_inj hp hq e'.2.symm)), hk q hq]; simp [Item.feature, eq]) hd hA1 hn hsp hT hR'
    refine ⟨s', es, k', ?_, hA2, ho2, hk2, hl2, ?_⟩
    · rw [List.append_assoc, run_blank _ _ _ _ hA.builder _ _ hws, elementName_plain h hn.default (name_plain h hod hp), ← e2, ← e1]
      rw [elementName_plain h hn.default (name_plain h hod hp)]
      simp
    · intro y hy hyl
      rw [hk3 y hy hyl]
      funext j
      simp [bump, hy]
  | href p x its F l _ ih =>
    intro o pre post s log k stk tys sp d ts rest ho e hk hd hA hn hsp hT hR
    obtain ⟨hp, hat⟩ := item_at e
    simp only [Item.feature] at hp hat
    have hod := hA.wf.objs o ho
    have hmem := List.mem_of_getElem? hat
    have hv := (item_value hat).2.1 x rfl
    rw [show count p pre = k o p.2 by rw [hk p hp, item_vis hmem]; omega] at hv
    obtain ⟨x', hv', e', hsv, hr, hc⟩ : ∃ x' ∈ objects (g.slot o p.2), Item.href (D := D) p x = .href p x' ∧ Saved p.1 ∧ p.1.isReference = true ∧
        ((p.1.containment = true ∧ ¬ Inside g x') ∨ (p.1.containment = false ∧ crossed g (g.slot o p.2) = true)) := by
      rcases item_cases hmem with ⟨x, -, e', -⟩ | h1 | ⟨x, -, e', -⟩
      · cases e'
      · exact h1
      · cases e'
    cases e'
    obtain ⟨ws, cs, ws', rest', as, rfl, hws, hws', has, hcs, hR'⟩ := hR
    cases hcs
    have := reads_toks has
    subst this
    obtain ⟨s1, i, e1, hA1⟩ := start_href h ho hA hn hp hsv hr hv hc hT.1
    obtain ⟨s2, e2, hA2⟩ := stop_at hA1 hsp (elementName sp.flatten p.1.name)
    rw [← im_append ho [.proxy o p (k o p.2) x]] at hA2
    obtain ⟨s', es, k', e3, hA3, ho3, hk3, hl3, hk4⟩ := ih (o := o) (pre := pre ++ [.href p x]) (post := post) (rest := rest) (by simp [ho]) (by simp [e]) (by
      intro q hq
      rw [count_append, count_one q (Item.href (D := D) p x)]
      simp only [bump]
      by_cases eq : p = q
      · subst eq; simp [hk p hq, Item.feature]; omega
      · rw [if_neg (fun e' => eq (zip_inj hp hq e'.2.symm)), hk q hq]; simp [Item.feature, eq]) (by rw [objsOf_proxy]; exact hd) hA2 hn hsp hT.2.2 hR'
    rw [im_append ho] at hA3
    refine ⟨s', .proxy o p (k o p.2) x :: es, k', ?_, by simpa using hA3, ?_, hk3, hl3, ?_⟩
    · rw [List.append_assoc, run_blank _ _ _ _ hA.builder _ _ hws, elementName_plain h hn.default (name_plain h hod hp), ← e3]
      rw [List.cons_append, run, e1, Option.bind_some]
      simp only [List.nil_append, List.append_assoc]
      rw [run_blank _ _ _ _ hA1.builder _ _ hws', List.cons_append, run]
      rw [elementName_plain h hn.default (name_plain h hod hp)] at e2
      rw [e2, Option.bind_some]
    · rw [← ho3]; simp [objsOf]
    · intro y hy hyl
      rw [hk4 y hy hyl]
      funext j
      simp [bump, hy]
  | child p x its F1 F2 l1 l2 _ _ ih1 ih2 =>
    intro o pre post s log k stk tys sp d ts rest ho e hk hd hA hn hsp hT hR
    obtain ⟨hp, hat⟩ := item_at e
    simp only [Item.feature] at hp hat
    have hod := hA.wf.objs o ho
    have hmem := List.mem_of_getElem? hat
    have hv := (item_value hat).2.2 x rfl
    rw [show count p pre = k o p.2 by rw [hk p hp, item_vis hmem]; omega] at hv
    obtain ⟨x', hv', e', hsv, hr, hct, hin⟩ : ∃ x' ∈ objects (g.slot o p.2), Item.child (D := D) p x = .child p x' ∧ Saved p.1 ∧ p.1.isReference = true ∧
        p.1.containment = true ∧ Inside g x' := by
      rcases item_cases hmem with ⟨x, -, e', -⟩ | ⟨x, -, e', -⟩ | h1
      · cases e'
      · cases e'
      · exact h1
    cases e'
    obtain ⟨ws, cs, ws', rest', as, rfl, hws, hws', has, hcs, hR'⟩ := hR
    have := reads_toks has
    subst this
    have hxd : x ∈ doc := by rw [hd]; simp
    obtain ⟨hnew, hbefore⟩ := before_idx h.nodup (by simpa using hd)
    have hox : o ≠ x := by rintro rfl; exact hnew ho
    have hol : o ∉ l1 ∧ o ∉ l2 ∧ x ∉ l1 ∧ x ∉ l2 ∧ ∀ y ∈ l1, y ∉ l2 := by
      have hnd := h.nodup
      rw [hd, List.nodup_append] at hnd
      obtain ⟨-, h2, h3⟩ := hnd
      have ho' := mem_objsOf.2 ho
      simp only [List.cons_append, List.nodup_cons, List.nodup_append, List.mem_append, not_or] at h2
      refine ⟨fun hl => h3 o ho' o (by simp [hl]) rfl, fun hl => h3 o ho' o (by simp [hl]) rfl, h2.1.1.1, h2.1.1.2, ?_⟩
      intro y hy hy2
      exact h2.2.1.2.2 y hy y hy2 rfl
    obtain ⟨s1, e1, hA1⟩ := start_child h ho hA hn hp hsv hr hct hv hin hxd hnew hbefore
      (fun a ha => hT.1 a (by simp [ha]))
    have hxl : Entry.obj x ∈ log ++ [.obj x] := by simp
    obtain ⟨s2, es1, k2, e2, hA2, ho2, hk2, hl2, hk3⟩ := ih1 (o := x) (pre := []) (post := l2 ++ post)
      (rest := ws' ++ .stop (elementName sp.flatten p.1.name) :: (rest' ++ rest)) hxl (by simp) (by
        intro q hq
        simp only [begin', if_true, start_eq h hq, count]
        simp) (by rw [objsOf_obj, hd]; simp) hA1 hn (by simp) hT.2.1 hcs
    obtain ⟨s3, e3, hA3⟩ := stop_at hA2 hsp (elementName sp.flatten p.1.name)
    have hol2 : Entry.obj o ∈ log ++ [Entry.obj x] ++ es1 := by simp [ho]
    have him : im log (.obj o) = im (log ++ [Entry.obj x] ++ es1) (.obj o) := by rw [List.append_assoc, im_append ho]
    rw [him] at hA3
    obtain ⟨s', es2, k', e4, hA4, ho4, hk4, hl4, hk5⟩ := ih2 (o := o) (pre := pre ++ [.child p x]) (post := post) (rest := rest) hol2 (by simp [e]) (by
      intro q hq
      rw [count_append, count_one q (Item.child (D := D) p x)]
      rw [hk3 o hox hol.1]
      simp only [begin', if_neg hox, bump]
      by_cases eq : p = q
      · subst eq; simp [hk p hq, Item.feature]; omega
      · rw [if_neg (fun e' => eq (zip_inj hp hq e'.2.symm)), hk q hq]; simp [Item.feature, eq]) (by
        rw [objsOf_append, objsOf_obj, ho2, hd]; simp) hA3 hn hsp hT.2.2 hR'
    rw [← him] at hA4
    refine ⟨s', .obj x :: (es1 ++ es2), k', ?_, by simpa using hA4, ?_, hk4, ?_, ?_⟩
    · rw [List.append_assoc, run_blank _ _ _ _ hA.builder _ _ hws, elementName_plain h hn.default (name_plain h hod hp), ← e4]
      rw [List.cons_append, run, e1, Option.bind_some]
      rw [elementName_plain h hn.default (name_plain h hod hp)] at e2 e3
      simp only [List.append_assoc, List.cons_append]
      rw [e2, run_blank _ _ _ _ hA2.builder _ _ hws', run, e3, Option.bind_some]
    · rw [← ho2, ← ho4]; simp [objsOf]
    · intro y hy q hq
      rcases List.mem_cons.1 hy with rfl | hy
      · rw [hk5 y (Ne.symm hox) hol.2.2.2.1, hk2 q hq]
      · rcases List.mem_append.1 hy with hy | hy
        · rw [hk5 y (by rintro rfl; exact hol.1 hy) (hol.2.2.2.2 y hy), hl2 y hy q hq]
        · exact hl4 y hy q hq
    · intro y hy hyl
      simp only [List.mem_cons, List.mem_append, not_or] at hyl
      rw [hk5 y hy hyl.2.2, hk3 y hyl.1 hyl.2.1]
      funext j
      simp [begin', bump, hy, hyl.1]

end

end Verif.XMLCodec
