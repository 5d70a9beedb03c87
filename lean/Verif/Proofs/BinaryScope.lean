import Verif.Spec.BinaryScope
import Verif.Proofs.BinaryObjects

/-!
# Proofs for C102
-/

namespace Verif.Binary.Scope

open Verif.Binary.Spec

variable {D : Type} {env : Env D} {g g' : Graph D} {opt : Opt} {T : Nat → Prop}

theorem reference_same {o : Nat} (h : SameOutside g g' o) (check : Check) : reference g' opt o check = reference g opt o check := by
  cases check with
  | nothing => rfl
  | container => rfl
  | directResource =>
    simp only [reference, h.proxy, h.direct, h.fragment]
    cases g.proxy o with
    | some u => rfl
    | none =>
      cases hd : g.direct o with
      | none => rfl
      | some r => simp [h.uri r (.inr hd)]
  | resource =>
    simp only [reference, h.proxy, h.res, h.fragment]
    cases g.proxy o with
    | some u => rfl
    | none =>
      cases hd : g.res o with
      | none => rfl
      | some r => simp [h.uri r (.inl hd)]

/-- the object is written in the same way -/
def Ok (g g' : Graph D) (opt : Opt) (T : Nat → Prop) (o : Nat) (check : Check) : Prop :=
  SameOutside g g' o ∧ (T o ∨ reference g opt o check ≠ none)

theorem objects_same {enc enc' : Enc → Option Nat → Check → Option (Enc × List (Tok D))} (check : Check)
    (l : List (Option Nat)) : ∀ st : Enc, (∀ (st : Enc) (o : Option Nat), o ∈ l → enc' st o check = enc st o check) →
      encodeObjects enc' check st l = encodeObjects enc check st l := by
  induction l with
  | nil => intro st _; rfl
  | cons o l ih =>
    intro st h
    simp only [encodeObjects, h st o (by simp)]
    cases enc st o check with
    | none => rfl
    | some r => simp only [ih r.1 (fun st o ho => h st o (by simp [ho]))]

theorem value_same {enc enc' : Enc → Option Nat → Check → Option (Enc × List (Tok D))}
    (henc : ∀ (st : Enc) (o : Nat) (check : Check), Ok g g' opt T o check → enc' st (some o) check = enc st (some o) check)
    (hnone : ∀ (st : Enc) (check : Check), enc' st none check = enc st none check)
    (st : Enc) (f : Feature) (v : Val Nat D) (hout : ∀ o : Nat, Holds v o → SameOutside g g' o)
    (hc : f.containment = true → ∀ o : Nat, Holds v o → T o ∨ f.resolveProxies = true ∧ (g.proxy o ≠ none ∨ g.direct o ≠ none))
    (hr : f.containment = false → (f.container = true → f.resolveProxies = true) → ∀ o : Nat, Holds v o →
      T o ∨ f.resolveProxies = true ∧ (g.proxy o ≠ none ∨ ∃ r : Nat, g.res o = some r ∧ (r ≠ opt.resource ∨ opt.root ≠ none ∧ opt.inRoot o = false))) :
    encodeValue env enc' st f (kindOf f) v = encodeValue env enc st f (kindOf f) v := by
  have direct : ∀ o : Nat, (g.proxy o ≠ none ∨ g.direct o ≠ none) → reference g opt o .directResource ≠ none := by
    intro o h
    simp only [reference]
    cases hp : g.proxy o with
    | some u => simp
    | none =>
      cases hd : g.direct o with
      | some r => simp
      | none => simp [hp, hd] at h
  have resource : ∀ o : Nat, (g.proxy o ≠ none ∨ ∃ r : Nat, g.res o = some r ∧ (r ≠ opt.resource ∨ opt.root ≠ none ∧ opt.inRoot o = false)) →
      reference g opt o .resource ≠ none := by
    intro o h
    simp only [reference]
    cases hp : g.proxy o with
    | some u => simp
    | none =>
      rcases h with h | ⟨r, h, h'⟩
      · exact absurd hp h
      · simp [h, h']
  -- the check of a kind
  have ok : ∀ (check : Check), (check = .nothing → f.resolveProxies = false) →
      (check = .directResource → f.containment = true) →
      (check = .resource → f.containment = false ∧ (f.container = true → f.resolveProxies = true)) →
      (check = .nothing → f.containment = false → f.container = false) → check ≠ .container →
      ∀ o : Nat, Holds v o → Ok g g' opt T o check := by
    intro check h1 h2 h3 h4 h5 o ho
    refine ⟨hout o ho, ?_⟩
    cases check with
    | container => exact absurd rfl h5
    | nothing =>
      have hp := h1 rfl
      cases hcont : f.containment with
      | true =>
        rcases hc hcont o ho with h | h
        · exact .inl h
        · simp [hp] at h
      | false =>
        rcases hr hcont (by simp [h4 rfl hcont]) o ho with h | h
        · exact .inl h
        · simp [hp] at h
    | directResource =>
      rcases hc (h2 rfl) o ho with h | h
      · exact .inl h
      · exact .inr (direct o h.2)
    | resource =>
      rcases hr (h3 rfl).1 (h3 rfl).2 o ho with h | h
      · exact .inl h
      · exact .inr (resource o h.2)
  have hobjs : ∀ (check : Check) (l : List (Option Nat)), v = .objs l → (∀ o : Nat, Holds v o → Ok g g' opt T o check) → ∀ st : Enc,
      encodeObjects enc' check st l = encodeObjects enc check st l := by
    intro check l hv hl st
    refine objects_same check l st ?_
    intro st o ho
    cases o with
    | none => exact hnone st check
    | some x => exact henc st x check (hl x (by subst hv; exact ho))
  have hobj : ∀ (check : Check) (x : Nat), v = .obj (some x) → (∀ o : Nat, Holds v o → Ok g g' opt T o check) →
      enc' st (some x) check = enc st (some x) check := by
    intro check x hv hl
    exact henc st x check (hl x (by subst hv; rfl))
  unfold kindOf
  cases hf1 : f.isReference with
  | false =>
    simp only [Bool.false_eq_true, if_false]
    split
    · cases v <;> rfl
    · split
      · cases v <;> rfl
      · rcases basicOf_cases f.typeName with h | ⟨t, h⟩ <;> rw [h] <;> cases v <;> rfl
  | true =>
    cases hf2 : f.containment <;> cases hf3 : f.container <;> cases hf4 : f.resolveProxies <;>
    cases hf5 : f.many <;> simp only [if_true, if_false, Bool.false_eq_true] <;>
    (cases hv : v with
      | data d => rfl
      | datas d => rfl
      | obj x =>
        cases x with
        | none => rfl
        | some x =>
          first
          | rfl
          | (simp only [encodeValue]; exact hobj _ x hv (ok _ (by simp [*]) (by simp [*]) (by simp [*]) (by simp [*]) (by simp)))
      | objs l =>
        first
        | rfl
        | (simp only [encodeValue]; rw [hobjs _ l hv (ok _ (by simp [*]) (by simp [*]) (by simp [*]) (by simp [*]) (by simp))]))

theorem kept_of (f : Feature) (h : isTransient opt.namespaces f = false) : isKept opt f := by
  simp only [isTransient] at h
  by_cases hn : (opt.namespaces && (f.xmlName == "xmlns:prefix" || f.xmlName == "xsi:schemaLocation")) = true
  · right
    simpa using hn
  · left
    simp only [hn] at h
    cases hr : f.isReference <;> simp [hr] at h
    · exact h
    · exact h.1

theorem features_same {enc enc' : Enc → Option Nat → Check → Option (Enc × List (Tok D))} (hw : Within env g opt T) (ha : SameWithin T g g')
    (henc : ∀ (st : Enc) (o : Nat) (check : Check), Ok g g' opt T o check → enc' st (some o) check = enc st (some o) check)
    (hnone : ∀ (st : Enc) (check : Check), enc' st none check = enc st none check)
    (check : Check) (x : Nat) (hx : T x) (fs : List Feature) : ∀ (i : Nat) (st : Enc), (env.features (g.cls x)).drop i = fs →
      encodeFeatures env g' opt enc' check x (g.cls x) i fs st = encodeFeatures env g opt enc check x (g.cls x) i fs st := by
  induction fs with
  | nil => intro i st _; rfl
  | cons f fs ih =>
    intro i st hfs
    have hf : (env.features (g.cls x))[i]? = some f := by
      have := congrArg (fun l => l[0]?) hfs
      simpa using this
    have hrest : (env.features (g.cls x)).drop (i + 1) = fs := by
      have := congrArg List.tail hfs
      simpa using this
    simp only [encodeFeatures]
    by_cases hk : isTransient opt.namespaces f = false ∧ (check = .container ∨ kindOf f ≠ .objectContainerProxy)
    · rw [if_pos hk, if_pos hk]
      have hone : encodeFeature env g' enc' x (g.cls x) i f st = encodeFeature env g enc x (g.cls x) i f st := by
        simp only [encodeFeature, (ha.inside x hx).2.2 i]
        cases hs : g.slot x i with
        | none => rfl
        | some v =>
          have hkept := kept_of f hk.1
          simp only []
          rw [value_same henc hnone _ f v (fun o ho => ha.outside x i v o hx hs ho)
            (fun hc o ho => hw.contained x i f v o hx hf hkept hc hs ho)
            (fun hc hcr o ho => hw.referred x i f v o hx hf hkept hc hcr hs ho)]
      rw [hone]
      cases encodeFeature env g enc x (g.cls x) i f st with
      | none => rfl
      | some r => simp only [ih (i + 1) r.1 hrest]
    · rw [if_neg hk, if_neg hk]
      exact ih (i + 1) st hrest

theorem object_none (n : Nat) (st : Enc) (check : Check) : encodeObject env g' opt n st none check = encodeObject env g opt n st none check := by
  cases n <;> rfl

theorem object_same (hw : Within env g opt T) (ha : SameWithin T g g') (n : Nat) : ∀ (st : Enc) (o : Nat) (check : Check), Ok g g' opt T o check →
    encodeObject env g' opt n st (some o) check = encodeObject env g opt n st (some o) check := by
  induction n with
  | zero => intro st o check _; rfl
  | succ n ih =>
    intro st o check hok
    simp only [encodeObject]
    split
    · rfl
    · rw [hok.1.cls, reference_same hok.1]
      cases encodeClass env { st with objs := st.objs ++ [o] } (g.cls o) with
      | none => rfl
      | some r =>
        cases hr : reference g opt o check with
        | some u => rfl
        | none =>
          have hT : T o := by
            rcases hok.2 with h | h
            · exact h
            · exact absurd hr h
          simp only []
          rw [features_same hw ha ih (fun st check => object_none n st check) check o hT _ 0 r.1 (by simp)]
          simp only [encodeID, (ha.inside o hT).2.1]

theorem contents_same (hw : Within env g opt T) (ha : SameWithin T g g') (n : Nat) (contents : List (Option Nat))
    (hin : ∀ x : Nat, some x ∈ contents → T x) (st : Enc) :
    encodeObjects (encodeObject env g' opt n) .container st contents = encodeObjects (encodeObject env g opt n) .container st contents := by
  refine objects_same _ contents st ?_
  intro st o ho
  cases o with
  | none => exact object_none n st _
  | some x => exact object_same hw ha n st x _ ⟨(ha.inside x (hin x ho)).1, .inl (hin x ho)⟩

end Verif.Binary.Scope
