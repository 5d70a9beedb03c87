import Verif.Proofs.ReflectUnset
/-!
# Lemmas for C73: `EIsSet`, and what a read changes
-/

namespace Verif.Reflect
open Spec

section
variable {E : Env} {s : El} {id : Nat} {d : Decl} {v : Val}

theorem isset_of {x : Val} (h : valueOf (eGet E s id false) = .ok v) (hget : valueOf (eGet E s id false) = .ok x)
    (his : answer (eIsSet E s id) = .ok (decide (x ≠ d.default))) :
    answer (eIsSet E s id) = .ok (decide (v ≠ d.default)) := by
  rw [hget] at h
  cases h
  exact his

theorem is_int (i j : Int) : Res.ok (decide (i ≠ j)) = Res.ok (decide (Val.int i ≠ .int j)) := by simp
theorem is_str (i j : String) : Res.ok (decide (i ≠ j)) = Res.ok (decide (Val.str i ≠ .str j)) := by simp
theorem is_list (o : Option (List Nat)) :
    Res.ok (listIsSet o) = Res.ok (decide (Val.list none (o.getD []) ≠ .list none [])) := by
  cases o with
  | none => rfl
  | some l => cases l <;> simp [listIsSet]
theorem is_ref (o : Option Nat) : Res.ok o.isSome = Res.ok (decide (shown (ofRef o) ≠ .nil)) := by
  cases o <;> simp [shown, ofRef]
theorem is_type (o : Option Nat) : Res.ok o.isSome = Res.ok (decide (shown (ofType o) ≠ .nil)) := by
  cases o <;> simp [shown, ofType]
theorem is_any (w : Val) : Res.ok (decide (w ≠ .nil)) = Res.ok (decide (shown w ≠ .nil)) := by
  cases w <;> simp [shown]

theorem isset_container (hd : d.default = .nil) (h : valueOf (eGet E s id false) = .ok v)
    (hget : eGet E s id false = containerGet s id) (his : eIsSet E s id = containerIsSet s id) :
    answer (eIsSet E s id) = .ok (decide (v ≠ d.default)) := by
  rw [hget, containerGet] at h
  rw [his, containerIsSet, hd]
  cases hc : getContainer s id with
  | ok c =>
    simp only [hc, Res.bind, valueOf, Res.map, Res.ok.injEq] at h
    subst h
    cases c <;> simp [Res.bind, answer, Res.map, shown, ofRef]
  | panic => simp [hc, Res.bind, valueOf, Res.map] at h
  | endless => simp [hc, Res.bind, valueOf, Res.map] at h

end

macro "rd" hk:ident : tactic => `(tactic| (unfold eGet; rw [$hk:ident]; rfl))
macro "is" hk:ident t:term : tactic => `(tactic| (unfold eIsSet; rw [$hk:ident]; exact $t))

set_option maxHeartbeats 4000000 in
/-- `EIsSet` tells whether the value shown is the default. -/
theorem isset_outcome (E : Env) (s : El) (id : Nat) (d : Decl) (v : Val) (h : (declared s.kind)[id]? = some d)
    (hn : d.name ∉ ["literal", "classifierID", "eAttributeType", "eReferenceType", "eIDAttribute"])
    (hm : d.many = true → d.changeable = true) (hv : valueOf (eGet E s id false) = .ok v) :
    answer (eIsSet E s id) = .ok (decide (v ≠ d.default)) := by
  have hid := declared_lt h
  have hlt := upTo25 hid (count_le _)
  generalize hk : s.kind = k at h hid
  cases k <;> simp only [featureCount] at hid <;> split25 hlt <;> (try omega) <;>
    (have e := Option.some.inj (show some _ = some d from h)
     subst e) <;>
    first
    | exact absurd (by decide) hn
    | exact absurd (hm rfl) (by decide)
    | exact isset_of hv (by rd hk) (by is hk (is_true _))
    | exact isset_of hv (by rd hk) (by is hk (is_false _))
    | exact isset_of hv (by rd hk) (by is hk (is_int _ _))
    | exact isset_of hv (by rd hk) (by is hk (is_str _ _))
    | exact isset_of hv (by unfold eGet; rw [hk]; exact value_getList _ _) (by is hk (is_list _))
    | exact isset_of hv (by rd hk) (by is hk (is_ref _))
    | exact isset_of hv (by rd hk) (by is hk (is_type _))
    | exact isset_of hv (by rd hk) (by is hk (is_any _))
    | exact isset_container rfl hv (by rd hk) (by unfold eIsSet; rw [hk]; rfl)

/-! ## What a read changes -/

section
variable {E : Env} {s t : El} {v : Val}

theorem same_of_eq (h : t = s) (j : Nat) : valueOf (eGet E t j false) = valueOf (eGet E s j false) := by rw [h]

theorem container_same {i : Nat} (h : containerGet s i = .ok (v, t)) : t = s := by
  unfold containerGet at h
  cases hc : getContainer s i <;> simp [hc, Res.bind] at h
  exact h.2.symm

theorem attributeType_same (h : ((attributeType E s false).bind fun r => .ok (Val.obj r.1, r.2)) = .ok (v, t)) :
    t = s := by
  simp only [attributeType, Bool.false_eq_true, ↓reduceIte] at h
  cases hr : s.refs .eType with
  | none => simp [hr, Res.bind] at h
  | some o =>
    simp only [hr] at h
    split at h <;> simp [Res.bind] at h
    exact h.2.symm

theorem list_same {f : ListField} (h : getList s f = .ok (v, t)) (j : Nat) (hj : j < featureCount s.kind) :
    valueOf (eGet E t j false) = valueOf (eGet E s j false) := by
  unfold getList at h
  cases hl : s.lists f with
  | some l =>
    simp only [hl, Res.ok.injEq, Prod.mk.injEq] at h
    rw [h.2]
  | none =>
    simp only [hl, Res.ok.injEq, Prod.mk.injEq] at h
    rw [← h.2]
    refine (value_congr E s _ j (by rfl) hj fun g _ => ?_).symm
    cases g with
    | l g =>
      by_cases c : g = f
      · subst c; simp [Agree, hl]
      · simp [Agree, c]
    | _ => simp [Agree]

theorem pure_at (k : Kind) (i : Nat) (f : Field) (hs : s.kind = k) (ht : t.kind = k)
    (sole : (List.range 25).all (fun j => j == i || !(reads k j).contains f) = true)
    (agree : ∀ g : Field, g ≠ f → Agree s t g)
    (same : valueOf (eGet E t i false) = valueOf (eGet E s i false)) (j : Nat) (hj : j < featureCount s.kind) :
    valueOf (eGet E t j false) = valueOf (eGet E s j false) := by
  by_cases c : j = i
  · rw [c]; exact same
  · refine (value_congr E s t j (hs.trans ht.symm) hj fun g hg => agree g fun e => ?_).symm
    simp only [List.all_eq_true, List.mem_range] at sole
    have := sole j (Nat.lt_of_lt_of_le hj (count_le _))
    rw [hs, e] at hg
    simp [c, hg] at this

theorem computed_same (i : Nat) (hk : s.kind = .eClass)
    (sole : (List.range 25).all (fun j => j == i || !(reads .eClass j).contains (.computed i)) = true)
    (hget : ∀ u : El, u.kind = .eClass → eGet E u i false = computedGet E u i)
    (h : computedGet E s i = .ok (v, t)) (j : Nat) (hj : j < featureCount s.kind) :
    valueOf (eGet E t j false) = valueOf (eGet E s j false) := by
  unfold computedGet at h
  cases hc : s.computed i with
  | some l =>
    simp only [hc, Res.ok.injEq, Prod.mk.injEq] at h
    rw [h.2]
  | none =>
    simp only [hc, Res.ok.injEq, Prod.mk.injEq] at h
    rw [← h.2]
    refine pure_at .eClass i (.computed i) hk (by exact hk) sole ?_ ?_ j hj
    · intro g hg
      cases g <;> simp only [Agree] <;> simp_all
    · rw [hget _ (by exact hk), hget _ (by exact hk), value_computed, value_computed]
      simp [hc]

theorem idAttribute_same (hk : s.kind = .eClass)
    (h : idAttributeGet E s = .ok (v, t)) (j : Nat) (hj : j < featureCount s.kind) :
    valueOf (eGet E t j false) = valueOf (eGet E s j false) := by
  have hget : ∀ u : El, u.kind = .eClass → eGet E u 24 false = idAttributeGet E u := by
    intro u hu; unfold eGet; rw [hu]; rfl
  unfold idAttributeGet at h
  cases hc : s.idAttribute with
  | some l =>
    simp only [hc, Res.ok.injEq, Prod.mk.injEq] at h
    rw [h.2]
  | none =>
    simp only [hc, Res.ok.injEq, Prod.mk.injEq] at h
    rw [← h.2]
    refine pure_at .eClass 24 .idAttribute hk (by exact hk) (by decide) ?_ ?_ j hj
    · intro g hg
      cases g <;> simp only [Agree] <;> simp_all
    · rw [hget _ (by exact hk), hget _ (by exact hk), value_idAttribute, value_idAttribute]
      cases hi : E.idAttribute <;> simp [hc]

theorem classifierID_same (k : Kind) (hk : s.kind = k)
    (sole : (List.range 25).all (fun j => j == 7 || !(reads k j).contains (.i .classifierID)) = true)
    (hget : ∀ u : El, u.kind = k → eGet E u 7 false = (getClassifierID E u).bind fun r => .ok (.int r.1, r.2))
    (h : ((getClassifierID E s).bind fun r => .ok (Val.int r.1, r.2)) = .ok (v, t)) (j : Nat)
    (hj : j < featureCount s.kind) : valueOf (eGet E t j false) = valueOf (eGet E s j false) := by
  unfold getClassifierID at h
  by_cases c : s.ints .classifierID = -1
  · rw [if_pos c] at h
    cases hc : getContainer s 6 with
    | panic => simp [hc, Res.bind] at h
    | endless => simp [hc, Res.bind] at h
    | ok p =>
      simp only [hc, Res.bind, Res.ok.injEq, Prod.mk.injEq] at h
      rw [← h.2]
      refine pure_at k 7 (.i .classifierID) hk (by exact hk) sole ?_ ?_ j hj
      · intro g hg
        cases g <;> simp only [Agree] <;> simp_all
      · rw [hget _ (by exact hk), hget _ (by exact hk)]
        have hg : ∀ f : IntField → Int, getContainer { s with ints := f } 6 = .ok p := fun f => hc
        cases p with
        | none => simp [getClassifierID, c, hc, hg, Res.bind, valueOf, Res.map]
        | some p =>
          by_cases c2 : E.position p = -1
          · simp [getClassifierID, c, hc, hg, Res.bind, valueOf, Res.map, c2]
          · simp [getClassifierID, c, hc, Res.bind, valueOf, Res.map, c2]
  · rw [if_neg c] at h
    simp only [Res.bind, Res.ok.injEq, Prod.mk.injEq] at h
    rw [h.2]

theorem referenceType_same (hk : s.kind = .eReference)
    (h : Res.ok (ofRef (referenceType E s false).1, (referenceType E s false).2) = .ok (v, t)) (j : Nat)
    (hj : j < featureCount s.kind) : valueOf (eGet E t j false) = valueOf (eGet E s j false) := by
  have hget : ∀ u : El, u.kind = .eReference →
      eGet E u 22 false = .ok (ofRef (referenceType E u false).1, (referenceType E u false).2) := by
    intro u hu; unfold eGet; rw [hu]; rfl
  have h : (referenceType E s false).2 = t := (Prod.mk.inj (Res.ok.inj h)).2
  rw [← h]
  cases h1 : s.refs .eReferenceType with
  | some c => exact same_of_eq (by simp [referenceType, h1]) j
  | none =>
    cases h2 : s.refs .eType with
    | none => exact same_of_eq (by simp [referenceType, h1, h2]) j
    | some o =>
      by_cases c : E.isClass o = true
      · have e : (referenceType E s false).2 = putRef s .eReferenceType (some o) := by
          simp [referenceType, h1, h2, c]
        rw [e]
        refine pure_at .eReference 22 (.r .eReferenceType) hk (by exact hk) (by decide) ?_ ?_ j hj
        · intro g hg
          cases g <;> simp only [Agree, putRef] <;> simp_all
        · rw [hget _ (by exact hk), hget _ (by exact hk)]
          simp [referenceType, h1, h2, c, putRef, valueOf, Res.map]
      · exact same_of_eq (by simp [referenceType, h1, h2, c]) j

theorem of_ok {w : Val} {u : El} (h : Res.ok (w, u) = .ok (v, t)) : t = u := (Prod.mk.inj (Res.ok.inj h)).2.symm

end

set_option maxHeartbeats 4000000 in
/-- `EGet` without resolution changes nothing that `EGet` shows. -/
theorem read_same (E : Env) (s t : El) (id : Nat) (d : Decl) (v : Val) (h : (declared s.kind)[id]? = some d)
    (hn : d.name ≠ "container") (hm : d.name = "defaultValue" → d.changeable = false)
    (hv : eGet E s id false = .ok (v, t)) (j : Nat) (hj : j < featureCount s.kind) :
    valueOf (eGet E t j false) = valueOf (eGet E s j false) := by
  have hid := declared_lt h
  have hlt := upTo25 hid (count_le _)
  generalize hk : s.kind = k at h hid
  unfold eGet at hv
  rw [hk] at hv
  cases k <;> simp only [featureCount] at hid <;> split25 hlt <;> (try omega) <;>
    (have e := Option.some.inj (show some _ = some d from h)
     subst e) <;>
    first
    | exact absurd rfl hn
    | exact absurd (hm rfl) (by decide)
    | exact list_same hv j hj
    | exact same_of_eq (container_same hv) j
    | exact same_of_eq (attributeType_same hv) j
    | exact computed_same _ hk (by decide) (by intro u hu; unfold eGet; rw [hu]; rfl) hv j hj
    | exact idAttribute_same hk hv j hj
    | exact classifierID_same _ hk (by decide) (by intro u hu; unfold eGet; rw [hu]; rfl) hv j hj
    | exact referenceType_same hk hv j hj
    | exact same_of_eq (of_ok hv) j

/-! ## What a read returns -/

set_option maxHeartbeats 4000000 in
/-- `EGet` and `EIsSet` of a declared feature return. -/
theorem get_returns (E : Env) (s : El) (id : Nat) (d : Decl) (h : (declared s.kind)[id]? = some d)
    (hr : d.name = "eContainingClass" ∨ d.name = "ePackage" ∨ d.name = "eModelElement" ∨ d.name = "eEnum" ∨
      d.name = "eOperation" ∨ d.name = "eSuperPackage" → ¬ Removed s id)
    (hc : d.name = "classifierID" → ¬ Removed s 6)
    (ha : d.name ≠ "eAttributeType") (r : Bool) :
    (∃ (v : Val) (t : El), eGet E s id r = .ok (v, t)) ∧ ∃ (b : Bool) (t : El), eIsSet E s id = .ok (b, t) := by
  have hid := declared_lt h
  have hlt := upTo25 hid (count_le _)
  have container : ∀ i : Nat, ¬ Removed s i →
      (∃ (v : Val) (t : El), containerGet s i = .ok (v, t)) ∧ ∃ (b : Bool) (t : El), containerIsSet s i = .ok (b, t) := by
    intro i hr
    unfold containerGet containerIsSet getContainer
    by_cases c : s.containerFeatureID = (i : Int)
    · cases hc : s.container with
      | none => exact absurd ⟨hc, c⟩ hr
      | some c' => simp [c, Res.bind]
    · simp [c, Res.bind]
  have cid : ¬ Removed s 6 → ∃ (v : Val) (t : El),
      ((getClassifierID E s).bind fun r => Res.ok (Val.int r.1, r.2)) = .ok (v, t) := by
    intro hr
    unfold getClassifierID getContainer
    by_cases c : s.containerFeatureID = 6
    · cases hc : s.container with
      | none => exact absurd ⟨hc, c⟩ hr
      | some c' => by_cases c2 : s.ints .classifierID = -1 <;> simp [c, c2, Res.bind]
    · by_cases c2 : s.ints .classifierID = -1 <;> simp [c, c2, Res.bind]
  have list : ∀ f : ListField, ∃ (v : Val) (t : El), getList s f = .ok (v, t) := by
    intro f; unfold getList; cases s.lists f <;> simp
  have computed : ∀ i : Nat, ∃ (v : Val) (t : El), computedGet E s i = .ok (v, t) := by
    intro f; unfold computedGet; cases s.computed f <;> simp
  have ida : ∃ (v : Val) (t : El), idAttributeGet E s = .ok (v, t) := by
    unfold idAttributeGet; cases s.idAttribute <;> simp
  have proxy : ∀ (i : Nat) (f : RefField), ∃ (v : Val) (t : El), getProxy E s i f r = .ok (v, t) := by
    intro i f; unfold getProxy; cases r <;> simp [getRef]
  generalize hk : s.kind = k at h hid
  unfold eGet eIsSet
  rw [hk]
  cases k <;> simp only [featureCount] at hid <;> split25 hlt <;> (try omega) <;>
    (have e := Option.some.inj (show some _ = some d from h)
     subst e) <;>
    first
    | exact absurd rfl ha
    | exact ⟨⟨_, _, rfl⟩, _, _, rfl⟩
    | exact ⟨list _, _, _, rfl⟩
    | exact ⟨computed _, _, _, rfl⟩
    | exact ⟨ida, _, _, rfl⟩
    | exact ⟨proxy _ _, _, _, rfl⟩
    | exact ⟨cid (hc rfl), _, _, rfl⟩
    | exact container _ (hr (by decide))

set_option maxHeartbeats 4000000 in
/-- `EGet` with resolution. -/
theorem resolve_outcome (E : Env) (s : El) (id : Nat) (d : Decl) (o : Nat) (h : (declared s.kind)[id]? = some d)
    (hn : d.name = "eType" ∨ d.name = "eOpposite" ∨ d.name = "eClassifier" ∨ d.name = "eRawType")
    (hv : valueOf (eGet E s id false) = .ok (.obj o)) :
    ∃ t : El, eGet E s id true = .ok (.obj (E.resolve o), t) ∧
      valueOf (eGet E t id false) = .ok (.obj (E.resolve o)) ∧ Frame s t (writes s.kind id) ∧
      t.log = s.log ++ (if s.listening = true ∧ E.resolve o ≠ o
        then [⟨.resolve, id, .obj o, .obj (E.resolve o)⟩] else []) := by
  have hid := declared_lt h
  have hlt := upTo25 hid (count_le _)
  have go : ∀ f : RefField, writes s.kind id = [.r f] →
      (∀ u : El, u.kind = s.kind → ∀ r : Bool, eGet E u id r = getProxy E u id f r) →
      ∃ t : El, eGet E s id true = .ok (.obj (E.resolve o), t) ∧
      valueOf (eGet E t id false) = .ok (.obj (E.resolve o)) ∧ Frame s t (writes s.kind id) ∧
      t.log = s.log ++ (if s.listening = true ∧ E.resolve o ≠ o
        then [⟨.resolve, id, .obj o, .obj (E.resolve o)⟩] else []) := by
    intro f hw hg
    have hf : s.refs f = some o := by
      rw [hg s rfl] at hv
      cases hr : s.refs f with
      | none => simp [getProxy, getRef, hr, valueOf, Res.map, shown, ofRef] at hv
      | some p => simp [getProxy, getRef, hr, valueOf, Res.map, shown, ofRef] at hv; rw [hv]
    refine ⟨(getResolved E s id f).2, ?_, ?_, ?_, ?_⟩
    · rw [hg s rfl]
      simp [getProxy, resolved_val, hf, ofRef]
    · rw [hg _ (by unfold getResolved; simp only [hf]; split <;> simp [putRef])]
      unfold getResolved
      simp only [hf]
      split <;> simp_all [getProxy, getRef, valueOf, Res.map, shown, ofRef, putRef]
    · unfold getResolved
      simp only [hf]
      split
      · refine ⟨by simp [putRef], fun g hg => ?_⟩
        rw [hw] at hg
        rw [agree_notify]
        cases g <;> simp only [Agree, putRef] <;> simp_all
      · exact ⟨rfl, fun g _ => agree_refl s g⟩
    · unfold getResolved
      simp only [hf]
      split
      · rename_i c; simp [notify_log, putRef, c]
      · rename_i c; simp only [Classical.not_not] at c; simp [c]
  generalize hk : s.kind = k at h hid go
  cases k <;> simp only [featureCount] at hid <;> split25 hlt <;> (try omega) <;>
    (have e := Option.some.inj (show some _ = some d from h)
     subst e) <;>
    first
    | exact absurd hn (by decide)
    | exact go _ rfl (by intro u hu r; unfold eGet; rw [hu]; rfl)

set_option maxHeartbeats 4000000 in
/-- `ESet` of the list `EGet` returns empties it. -/
theorem self_outcome (E : Env) (s t : El) (id : Nat) (d : Decl) (w : Val) (r : Bool)
    (h : (declared s.kind)[id]? = some d) (hm : d.many = true) (hc : d.changeable = true)
    (hv : eGet E s id r = .ok (w, t)) :
    ∃ u : El, eSet E t id w = .ok u ∧ valueOf (eGet E u id false) = .ok (.list none []) := by
  have hid := declared_lt h
  have hlt := upTo25 hid (count_le _)
  have go : ∀ f : ListField, (∀ u : El, u.kind = s.kind → ∀ r : Bool, eGet E u id r = getList u f) →
      (∀ (u : El) (v : Val), u.kind = s.kind → eSet E u id v = setList u f v) →
      ∃ u : El, eSet E t id w = .ok u ∧ valueOf (eGet E u id false) = .ok (.list none []) := by
    intro f hg hs
    rw [hg s rfl] at hv
    obtain ⟨l, rfl, ht⟩ : ∃ l : List Nat, w = .list (some f) l ∧ t.kind = s.kind := by
      unfold getList at hv
      cases hl : s.lists f with
      | some l => simp only [hl, Res.ok.injEq, Prod.mk.injEq] at hv; exact ⟨l, hv.1.symm, by rw [hv.2]⟩
      | none => simp only [hl, Res.ok.injEq, Prod.mk.injEq] at hv; exact ⟨[], hv.1.symm, by rw [← hv.2]⟩
    refine ⟨_, by rw [hs t _ ht]; rfl, ?_⟩
    rw [hg _ (by exact ht), value_getList]
    simp [addAll]
  generalize hk : s.kind = k at h hid go
  cases k <;> simp only [featureCount] at hid <;> split25 hlt <;> (try omega) <;>
    (have e := Option.some.inj (show some _ = some d from h)
     subst e) <;>
    first
    | exact absurd hm (by decide)
    | exact absurd hc (by decide)
    | exact go _ (by intro u hu r; unfold eGet; rw [hu]; rfl) (by intro u v hu; unfold eSet; rw [hu]; rfl)

/-! ## Sequences of writes -/

def keepsContainer (k : Kind) : Bool :=
  (List.range 25).all fun i =>
    match (declared k)[i]? with
    | some d => !d.changeable || irregular.contains d.name || !(writes k i).contains .container
    | none => true

theorem keepsContainer_all (k : Kind) : keepsContainer k = true := by cases k <;> decide +kernel

theorem container_kept {E : Env} {s t : El} {id : Nat} {d : Decl} {v : Val} (h : (declared s.kind)[id]? = some d)
    (hc : d.changeable = true) (hn : d.name ∉ irregular) (ha : After E s t id d v) (hr : ¬ Removed s 16) :
    ¬ Removed t 16 := by
  have hk := keepsContainer_all s.kind
  simp only [keepsContainer, List.all_eq_true, List.mem_range] at hk
  have hk := hk id (lt25 h)
  rw [h] at hk
  simp only [hc, Bool.not_true, Bool.false_or, Bool.or_eq_true, List.contains_iff_mem, hn, false_or] at hk
  have := ha.2.2.2 .container (by simpa using hk)
  simp only [Agree] at this
  simpa only [Removed, ← this.1, ← this.2] using hr

theorem one_write {E : Env} {s : El} {w : Write} (h : Regular s.kind [w]) (hr : ¬ Removed s 16) :
    ∃ (t : El) (d : Decl) (v : Val), (declared s.kind)[w.id]? = some d ∧ d.changeable = true ∧ d.name ∉ irregular ∧
      (∀ ws : List Write, writeAll E s (w :: ws) = writeAll E t ws) ∧ last s.kind w.id [w] = some v ∧
      After E s t w.id d v := by
  obtain ⟨d, hd, hc, hn, hf⟩ := h w (by simp)
  have ne : ∀ x : String, x ∈ irregular → d.name ≠ x := fun x hx e => hn (by rw [e]; exact hx)
  cases w with
  | set i v =>
    obtain ⟨t, a1, a2, _⟩ := set_outcome E s i d v hd hc (hf v rfl) (ne _ (by decide))
      (fun e => absurd e (ne _ (by decide))) (fun _ => hr) (fun e => absurd e (ne _ (by decide)))
      (fun e => absurd e (ne _ (by decide)))
      (fun e => e.elim (fun e => absurd e (ne _ (by decide))) (fun e => absurd e (ne _ (by decide))))
    exact ⟨t, d, v, hd, hc, hn, by intro ws; simp [writeAll, a1, Res.bind], by simp [last, Write.id], a2⟩
  | unset i =>
    obtain ⟨t, a1, a2, _⟩ := unset_outcome E s i d hd hc (by
      intro hm
      simp only [List.mem_cons, List.not_mem_nil, or_false] at hm
      rcases hm with e | e | e | e | e <;> exact ne _ (by decide) e) (fun _ => hr)
    have hd' : (declared s.kind)[i]? = some d := hd
    exact ⟨t, d, d.default, hd, hc, hn, by intro ws; simp [writeAll, a1, Res.bind],
      by simp [last, Write.id, hd'], a2⟩

theorem shows_unique {E : Env} {s : El} {id : Nat} {v w : Val} (h : Shows E s id v) : Shows E s id w ↔ w = v := by
  rw [shows_iff] at *
  rw [h]
  simp only [Res.ok.injEq]
  exact eq_comm

theorem last_cons (k : Kind) (id : Nat) (w : Write) (ws : List Write) :
    last k id (w :: ws) = (last k id ws).or (last k id [w]) := by
  simp only [last]
  cases last k id ws <;> rfl

theorem last_other (k : Kind) (id : Nat) (w : Write) (h : w.id ≠ id) : last k id [w] = none := by
  cases w <;> simp [last, Write.id] at h ⊢ <;> intro e <;> exact absurd e h

theorem writeAll_shows (E : Env) (ws : List Write) (s : El) (h : Regular s.kind ws) (hr : ¬ Removed s 16) :
    ∃ t : El, writeAll E s ws = .ok t ∧ t.kind = s.kind ∧
      ∀ (id : Nat) (d : Decl) (v : Val), (declared s.kind)[id]? = some d →
        (∀ w ∈ ws, ∀ dw : Decl, (declared s.kind)[w.id]? = some dw → (d.name, dw.name) ∉ computedFrom) →
        (Shows E t id v ↔ match last s.kind id ws with
          | some x => v = x
          | none => Shows E s id v) := by
  induction ws generalizing s with
  | nil => exact ⟨s, rfl, rfl, fun _ _ _ _ _ => by simp [last]⟩
  | cons w ws ih =>
    obtain ⟨s1, dw, x, b1, b2, b3, b4, b5, b6⟩ := one_write (E := E) (w := w)
      (fun y hy => h y (by simp at hy; simp [hy])) hr
    have hk : s1.kind = s.kind := b6.2.2.1
    have hreg : Regular s1.kind ws := by rw [hk]; exact fun y hy => h y (by simp [hy])
    obtain ⟨t, c1, c2, c3⟩ := ih s1 hreg (container_kept b1 b2 b3 b6 hr)
    refine ⟨t, by rw [b4]; exact c1, c2.trans hk, ?_⟩
    intro id d v hd hcf
    rw [hk] at c3
    rw [c3 id d v hd (fun y hy => hcf y (by simp [hy])), last_cons]
    cases hl : last s.kind id ws with
    | some y => simp
    | none =>
      simp only [Option.none_or]
      by_cases c : w.id = id
      · rw [← c, b5]
        simp only
        exact shows_unique ((shows_iff E s1 _ x).mpr b6.1)
      · rw [last_other _ _ _ c]
        simp only
        exact frame_shows b6.2.2 b1 hd b2 (fun e => c e.symm) (hcf w (by simp) dw b1)
          (fun e => b3 (by rw [e]; decide)) v

/-! ## The default value of a feature -/

theorem default_outcome (E : Env) (s : El) (t f : Nat) (v : Val) (hk : s.kind = .eAttribute ∨ s.kind = .eReference)
    (ht : s.refs .eType = some t) (hd : E.isDataType (E.resolve t) = true) (hf : E.factory (E.resolve t) = some f)
    (hs : E.serializable (E.resolve t) = true) (hl : E.toString f (E.resolve t) v ≠ "")
    (hp : E.resolve (E.resolve t) = E.resolve t) :
    ∃ u : El, eSet E s 13 v = .ok u ∧
      valueOf (eGet E u 13 false) = .ok (shown (E.fromString f (E.resolve t) (E.toString f (E.resolve t) v))) ∧
      valueOf (eGet E u 12 false) = .ok (.str (E.toString f (E.resolve t) v)) := by
  have hset : eSet E s 13 v = setDefaultValue E s v := by
    unfold eSet
    rcases hk with hk | hk <;> rw [hk] <;> rfl
  have hget : ∀ u : El, u.kind = s.kind → eGet E u 13 false = .ok (getDefaultValue E u) ∧
      eGet E u 12 false = getStr u .defaultValueLiteral := by
    intro u hu
    unfold eGet
    rcases hk with hk | hk <;> rw [hu, hk] <;> exact ⟨rfl, rfl⟩
  have hr : (getResolved E s 8 .eType).1 = some (E.resolve t) := by rw [resolved_val, ht]; rfl
  have hr2 : (getResolved E s 8 .eType).2.kind = s.kind ∧
      (getResolved E s 8 .eType).2.refs .eType = some (E.resolve t) := by
    unfold getResolved
    simp only [ht]
    split
    · simp [putRef]
    · rename_i c
      simp only [Classical.not_not] at c
      simp [ht, c]
  rw [hset, setDefaultValue]
  simp only [hr, hd, ↓reduceIte, hf, setStr, Res.bind]
  refine ⟨_, rfl, ?_, ?_⟩
  · rw [(hget _ (by simpa using hr2.1)).1]
    have hg : ∀ u : El, u.refs .eType = some (E.resolve t) → getResolved E u 8 .eType = (some (E.resolve t), u) := by
      intro u hu
      simp [getResolved, hu, hp]
    rw [getDefaultValue, hg _ (by simpa using hr2.2)]
    simp [hl, hd, hf, hs, valueOf, Res.map]
  · rw [(hget _ (by simpa using hr2.1)).2]
    simp [getStr, valueOf, Res.map, shown]

end Verif.Reflect
