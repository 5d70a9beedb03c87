import Verif.Proofs.BinaryFeatures
import Mathlib.Data.List.Perm.Subperm

/-! Proofs for C22: what is valid can be written. -/

namespace Verif.Binary

open Spec

variable {D : Type}

section
variable {env : Env D} {g : Graph D} {opt : Opt} {objects : List Nat}
  {enc : Enc → Option Nat → Check → Option (Enc × List (Tok D))}

/-- the classes of a package are different classifiers of it -/
def Slots (env : Env D) (st : Enc) : Prop :=
  ∀ p : Nat, (st.classes p).Nodup ∧ ∀ c ∈ st.classes p, c ∈ env.classifiers p

/-- the number of objects that are not written yet -/
def todo (objects : List Nat) (st : Enc) : Nat := objects.countP fun o => decide (o ∉ st.objs)

theorem countP_mono (l : List Nat) (p q : Nat → Bool) (h : ∀ x ∈ l, p x = true → q x = true) : l.countP p ≤ l.countP q := by
  induction l with
  | nil => simp
  | cons a l ih =>
    have := ih (fun x hx => h x (by simp [hx]))
    have := h a (by simp)
    simp only [List.countP_cons]
    split <;> split <;> grind

theorem countP_strict (l : List Nat) (p q : Nat → Bool) (h : ∀ x ∈ l, p x = true → q x = true) (a : Nat) (ha : a ∈ l)
    (h1 : q a = true) (h2 : p a = false) : l.countP p < l.countP q := by
  induction l with
  | nil => simp at ha
  | cons b l ih =>
    have hm := countP_mono l p q (fun x hx => h x (by simp [hx]))
    have hb := h b (by simp)
    have hi := ih (fun x hx => h x (by simp [hx]))
    simp only [List.mem_cons] at ha
    simp only [List.countP_cons]
    rcases ha with rfl | ha
    · simp [h1, h2]; omega
    · have := hi ha
      split <;> split <;> grind

theorem todo_mono {st st' : Enc} (h : st.objs <+: st'.objs) : todo objects st' ≤ todo objects st := by
  apply countP_mono
  intro x _ hx
  simp only [decide_eq_true_eq] at hx ⊢
  intro hm
  exact hx (h.subset hm)

/-- the writer of an object succeeds if at most `m` objects are missing -/
def Total (env : Env D) (objects : List Nat) (enc : Enc → Option Nat → Check → Option (Enc × List (Tok D))) (m : Nat) : Prop :=
  ∀ (st : Enc) (o : Option Nat) (check : Check), Slots env st → (∀ x : Nat, o = some x → x ∈ objects) → todo objects st < m →
    ∃ (st' : Enc) (ts : List (Tok D)), enc st o check = some (st', ts) ∧ Slots env st' ∧ st.objs <+: st'.objs

theorem objects_total {m : Nat} (ht : Total env objects enc m) (check : Check) (l : List (Option Nat)) (st : Enc)
    (hs : Slots env st) (hl : ∀ x : Nat, some x ∈ l → x ∈ objects) (hm : todo objects st < m) :
    ∃ (st' : Enc) (ts : List (Tok D)), encodeObjects enc check st l = some (st', ts) ∧ Slots env st' ∧ st.objs <+: st'.objs := by
  induction l generalizing st with
  | nil => exact ⟨st, [], rfl, hs, List.prefix_refl _⟩
  | cons o l ih =>
    obtain ⟨st1, t1, h1, h2, h3⟩ := ht st o check hs (fun x hx => hl x (by simp [hx])) hm
    obtain ⟨st2, t2, k1, k2, k3⟩ := ih st1 h2 (fun x hx => hl x (by simp [hx])) (Nat.lt_of_le_of_lt (todo_mono h3) hm)
    exact ⟨st2, t1 ++ t2, by simp [encodeObjects, h1, k1], k2, h3.trans k3⟩

theorem value_total {m : Nat} (ht : Total env objects enc m) (st : Enc) (f : Feature) (v : Val Nat D)
    (hs : Slots env st) (hf : Fits env g objects f v) (hm : todo objects st < m) (hk : kindOf f ≠ .objectContainer) :
    ∃ (st' : Enc) (ts : List (Tok D)), encodeValue env enc st f (kindOf f) v = some (st', ts) ∧ Slots env st' ∧
      st.objs <+: st'.objs := by
  have one : ∀ (x : Nat) (check : Check), x ∈ objects → ∃ (st' : Enc) (ts : List (Tok D)),
      enc st (some x) check = some (st', ts) ∧ Slots env st' ∧ st.objs <+: st'.objs :=
    fun x check hx => ht st (some x) check hs (by simp; exact hx) hm
  have many : ∀ (l : List (Option Nat)) (check : Check), (∀ x : Nat, some x ∈ l → x ∈ objects) →
      ∃ (st' : Enc) (ts : List (Tok D)), (encodeObjects enc check st l).map (fun r => (r.1, .int l.length :: r.2)) = some (st', ts) ∧
        Slots env st' ∧ st.objs <+: st'.objs := by
    intro l check hl
    obtain ⟨st', ts, h1, h2, h3⟩ := objects_total ht check l st hs hl hm
    exact ⟨st', .int l.length :: ts, by simp [h1], h2, h3⟩
  cases v with
  | obj o =>
    obtain ⟨h1, h2, x, rfl, h3, h4⟩ := hf
    simp only [kindOf, h1, if_true] at hk ⊢
    cases hcm : f.containment <;> cases hc : f.container <;> cases hmn : f.many <;> cases hrp : f.resolveProxies <;>
      simp only [hcm, hc, hmn, hrp, Bool.false_eq_true, if_true, if_false] at h2 hk ⊢ <;> first | exact one x _ h3 | simp at h2 hk
  | objs l =>
    obtain ⟨h1, h2, h3, h4⟩ := hf
    simp only [kindOf, h1, if_true]
    have hl := fun x hx => (h4 x hx).1
    cases hcm : f.containment <;> cases hc : f.container <;> cases hrp : f.resolveProxies <;>
      simp only [hcm, hc, h2, hrp, Bool.false_eq_true, if_true, if_false] at h3 ⊢ <;> first | exact many l _ hl | simp at h3
  | data v =>
    obtain ⟨h1, h2, h3⟩ := hf
    have hkd : kindOf f = .enum ∨ kindOf f = .data ∨ ∃ t : Basic, kindOf f = .basic t := by
      simp only [kindOf, h1, h2, Bool.false_eq_true, if_false]
      split
      · exact .inl rfl
      · exact .inr (basicOf_cases _)
    rcases hkd with e | e | ⟨t, e⟩
    · rw [e]
      simp only [encodeValue]
      split
      · exact ⟨st, _, rfl, hs, List.prefix_refl _⟩
      · exact ⟨{ st with enums := st.enums ++ [env.toText f.dataType v] }, _, rfl, hs, List.prefix_refl _⟩
    · rw [e]
      exact ⟨st, _, rfl, hs, List.prefix_refl _⟩
    · rw [e] at h3
      simp only at h3
      rw [e]
      exact ⟨st, [.val t v], by simp [encodeValue, h3], hs, List.prefix_refl _⟩
  | datas l =>
    obtain ⟨h1, h2, h3⟩ := hf
    simp only [kindOf, h1, h2, Bool.false_eq_true, if_false, if_true]
    exact ⟨st, _, rfl, hs, List.prefix_refl _⟩

theorem features_total {m : Nat} (hv : Valid env g objects) (ht : Total env objects enc m) (check : Check) (o c : Nat)
    (ho : o ∈ objects) (hc : c = g.cls o) (fs : List Feature) (i0 : Nat) (st : Enc) (hs : Slots env st) (hm : todo objects st < m)
    (hall : ∀ j : Nat, fs[j]? = (env.features c)[i0 + j]?) :
    ∃ (st' : Enc) (ts : List (Tok D)), encodeFeatures env g opt enc check o c i0 fs st = some (st', ts) ∧ Slots env st' ∧
      st.objs <+: st'.objs := by
  induction fs generalizing i0 st with
  | nil => exact ⟨st, [], rfl, hs, List.prefix_refl _⟩
  | cons f fs ih =>
    have hf0 : (env.features c)[i0]? = some f := by simpa using (hall 0).symm
    have hall' : ∀ j : Nat, fs[j]? = (env.features c)[i0 + 1 + j]? := by
      intro j
      have := hall (j + 1)
      simp only [List.getElem?_cons_succ] at this
      rw [this]
      congr 1
      omega
    simp only [encodeFeatures]
    split
    · rename_i hw
      have h1 : ∃ (st1 : Enc) (t1 : List (Tok D)), encodeFeature env g enc o c i0 f st = some (st1, t1) ∧ Slots env st1 ∧
          st.objs <+: st1.objs := by
        cases hslot : g.slot o i0 with
        | none => exact ⟨st, [], by simp [encodeFeature, hslot], hs, List.prefix_refl _⟩
        | some v =>
          have hfits := hv.slots o ho i0 f (by rw [← hc]; exact hf0) v hslot
          have hfeat := (hv.feature o ho f (by rw [← hc]; exact List.mem_of_getElem? hf0)).2.2
          have hkind : kindOf f ≠ .objectContainer := by
            intro hk
            have hr : f.isReference = true := by
              cases hr : f.isReference
              · simp only [kindOf, hr, Bool.false_eq_true, if_false] at hk
                split at hk
                · simp at hk
                · split at hk
                  · simp at hk
                  · rcases basicOf_cases f.typeName with h | ⟨t, h⟩ <;> simp [h] at hk
              · rfl
            simp only [kindOf, hr, if_true] at hk
            have hcc : f.container = true ∧ f.resolveProxies = false := by
              cases hcm : f.containment <;> cases hc : f.container <;> cases hmn : f.many <;> cases hrp : f.resolveProxies <;>
                simp [hcm, hc, hmn, hrp] at hk ⊢
            have h2 := hfeat hcc.1
            have h3 : ¬ (f.xmlName = "xmlns:prefix" ∨ f.xmlName = "xsi:schemaLocation") := by
              rcases h2.2 with h | h
              · rw [hcc.2] at h; simp at h
              · exact h
            have hx : (f.xmlName == "xmlns:prefix" || f.xmlName == "xsi:schemaLocation") = false := by
              simpa [not_or] using h3
            have h4 := hw.1
            simp [isTransient, hx, hr, hcc] at h4
          obtain ⟨st1, t1, k1, k2, k3⟩ := value_total ht (markNamed st c i0) f v hs hfits hm hkind
          refine ⟨st1, .int (i0 + 1) :: (if f.name ≠ "" ∧ st.named c i0 = false then [.str f.name] else []) ++ t1, ?_, k2, k3⟩
          simp only [encodeFeature, hslot]
          change (encodeValue env enc (markNamed st c i0) f (kindOf f) v).map _ = _
          rw [k1]
          rfl
      obtain ⟨st1, t1, k1, k2, k3⟩ := h1
      obtain ⟨st2, t2, l1, l2, l3⟩ := ih (i0 + 1) st1 k2 (Nat.lt_of_le_of_lt (todo_mono k3) hm) hall'
      exact ⟨st2, t1 ++ t2, by simp [k1, l1], l2, k3.trans l3⟩
    · exact ih (i0 + 1) st hs hm hall'

theorem class_total (st : Enc) (c : Nat) (hs : Slots env st) (hc : c ∈ env.classifiers (env.pkg c)) :
    ∃ (st' : Enc) (ts : List (Tok D)), encodeClass env st c = some (st', ts) ∧ Slots env st' ∧ st'.objs = st.objs := by
  simp only [encodeClass]
  split
  · exact ⟨st, _, rfl, hs, rfl⟩
  · rename_i hm
    have hlt : (st.classes (env.pkg c)).length < (env.classifiers (env.pkg c)).length := by
      have hnd : (c :: st.classes (env.pkg c)).Nodup := List.nodup_cons.2 ⟨hm, (hs _).1⟩
      have hsub : (c :: st.classes (env.pkg c)) ⊆ env.classifiers (env.pkg c) := by
        intro x hx
        rcases List.mem_cons.1 hx with rfl | hx
        · exact hc
        · exact (hs _).2 x hx
      have := (List.subperm_of_subset hnd hsub).length_le
      simp only [List.length_cons] at this
      omega
    rw [if_pos hlt]
    refine ⟨_, _, rfl, ?_, ?_⟩
    · intro p
      simp only
      split
      · rename_i hp
        subst hp
        constructor
        · exact List.nodup_append.2 ⟨(hs _).1, by simp, by intro a ha b hb; simp at hb; rintro rfl; exact hm (hb ▸ ha)⟩
        · intro x hx
          rcases List.mem_append.1 hx with hx | hx
          · exact (hs _).2 x hx
          · simp at hx; subst hx; exact hc
      · exact hs p
    · simp only [encodePackage]
      split
      · rfl
      · simp only [encodeURI]
        split
        · rfl
        · split <;> rfl

theorem object_total (hv : Valid env g objects) (n : Nat) : Total env objects (encodeObject env g opt (n + 1)) (n + 1) := by
  induction n with
  | zero =>
    intro st o check hs hx hm
    cases o with
    | none => exact ⟨st, [.int (-1)], rfl, hs, List.prefix_refl _⟩
    | some x =>
      have hmem : x ∈ st.objs := by
        have h0 : todo objects st = 0 := by omega
        simp only [todo, List.countP_eq_zero, decide_eq_true_eq, not_not] at h0
        exact h0 x (hx x rfl)
      exact ⟨st, [.int (st.objs.idxOf x)], by simp [encodeObject, hmem], hs, List.prefix_refl _⟩
  | succ n ih =>
    intro st o check hs hx hm
    cases o with
    | none => exact ⟨st, [.int (-1)], rfl, hs, List.prefix_refl _⟩
    | some x =>
      have hxo := hx x rfl
      by_cases hmem : x ∈ st.objs
      · exact ⟨st, [.int (st.objs.idxOf x)], by simp [encodeObject, hmem], hs, List.prefix_refl _⟩
      · obtain ⟨st1, t1, k1, k2, k3⟩ := class_total { st with objs := st.objs ++ [x] } (g.cls x) hs (hv.member x hxo)
        have hpre : st.objs <+: st1.objs := by rw [k3]; exact List.prefix_append _ _
        have hlt : todo objects st1 < n + 1 := by
          have : todo objects st1 < todo objects st := by
            apply countP_strict objects _ _ _ x hxo
            · simpa using hmem
            · simp [k3]
            · intro y _ hy
              simp only [k3, decide_eq_true_eq] at hy ⊢
              intro h
              exact hy (List.mem_append_left _ h)
          omega
        obtain ⟨st2, t2, l1, l2, l3⟩ := features_total (opt := opt) hv ih check x (g.cls x) hxo rfl (env.features (g.cls x)) 0 st1 k2
          hlt (by simp)
        rw [encodeObject, if_neg hmem]
        simp only [k1, l1]
        split
        · rename_i u hu
          refine ⟨_, _, rfl, ?_, ?_⟩
          · cases u with
            | none => exact k2
            | some u => simp only [encodeURI]; split <;> exact k2
          · cases u with
            | none => exact hpre
            | some u => simp only [encodeURI]; split <;> exact hpre
        · exact ⟨st2, _, rfl, l2, hpre.trans l3⟩

end

end Verif.Binary
