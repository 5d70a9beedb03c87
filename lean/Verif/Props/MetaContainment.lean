import Verif.Proofs.MetaContainmentOwner

/-!
# C74: containment between metamodel elements

`Reach kind w` says that `w` is a state a program can reach with objects of the given classes; `Spec` describes
what each call should do to the lists, without mentioning inverses.
-/

namespace Verif.Props

open Verif.MetaContainment

/-- In every reachable state an element that is in a containment feature has the owner of this feature as its
container, an element with a container is in a feature of it, no element is in two places or twice in one, and a
single-valued feature holds at most one.

Partial: entries moved from the details of one annotation to another break this, see `C74_details_violated`. -/
theorem C74_place_partial {kind : Nat → Kind} {w : World} (h : Reach kind w) :
    (∀ p s c, c ∈ w.held p s → w.container c = some p) ∧
    (∀ p c, w.container c = some p → ∃ s, c ∈ w.held p s) ∧
    (∀ p s q t c, c ∈ w.held p s → c ∈ w.held q t → q = p ∧ t = s) ∧
    (∀ p s, (w.held p s).Nodup) ∧
    (∀ p s, single s = true → (w.held p s).length ≤ 1) ∧
    (∀ p s c, c ∈ w.held p s → owns (kind p) s = true ∧ takes s (kind c) = true) := by
  obtain ⟨hI, hk⟩ := reach_inv h
  subst hk
  refine ⟨fun p s c hm => ((hI.mem p s c).1 hm).2.1, ?_, fun p s q t c h1 h2 => held_unique hI h1 h2, hI.nodup, hI.one,
    fun p s c hm => ⟨((hI.mem p s c).1 hm).1, hI.tk p s c hm⟩⟩
  intro p c hc
  obtain ⟨s, ho, hf⟩ := hI.slot p c hc
  exact ⟨s, (hI.mem p s c).2 ⟨ho, hc, hf⟩⟩

/-- Every call has exactly the specified effect on all places, and panics exactly when it should.

Partial: the same entries are excluded. -/
theorem C74_effect_partial {kind : Nat → Kind} {w : World} (h : Reach kind w) (op : Op) (ht : Typed kind op)
    (hd : KeepsDetails w.held op) : (step w op).map (fun v => v.held) = effect w.held op := by
  obtain ⟨hI, hk⟩ := reach_inv h
  subst hk
  rcases good hI ht hd with h | ⟨w', h1, _, _, h4⟩
  · rw [h.1, h.2]; rfl
  · rw [h1, h4]; rfl

/-- `GetEContainingClass`, `GetEPackage`, `GetEEnum`, `GetEOperation`, `GetESuperPackage` and `GetEModelElement`
give an object exactly when the element is in the feature on the other side of it.

Partial: they panic for elements that have been removed, see `C74_removed_violated`. -/
theorem C74_owner_partial {kind : Nat → Kind} {w : World} (h : Reach kind w) (c p : Nat) :
    getOwner w c = .object p ↔ ∃ s, twoWay s = true ∧ c ∈ w.held p s := by
  obtain ⟨hI, hk⟩ := reach_inv h
  subst hk
  have key : ∀ s, takes s (w.kind c) = true → twoWay s = true → ownerID (w.kind c) = some (endID s).toNat ∧
      0 ≤ endID s := by
    intro s ht hs
    cases s <;> simp [twoWay] at hs <;> simp [takes] at ht <;>
      first
      | (rcases ht with ht | ht | ht <;> simp [ht, ownerID, endID, inverseFeatureID])
      | (rcases ht with ht | ht <;> simp [ht, ownerID, endID, inverseFeatureID])
      | simp [ht, ownerID, endID, inverseFeatureID]
  have neg : ∀ s, twoWay s = false → endID s < 0 := by
    intro s hs
    cases s <;> simp [twoWay] at hs <;> simp [endID, inverseFeatureID, featureID]
  constructor
  · intro hg
    unfold getOwner at hg
    split at hg
    · simp at hg
    · rename_i i hi
      split at hg
      · rename_i hf
        split at hg
        · rename_i q hq
          simp at hg; subst hg
          obtain ⟨s, ho, hfs⟩ := hI.slot q c hq
          have hm : c ∈ w.held q s := (hI.mem q s c).2 ⟨ho, hq, hfs⟩
          refine ⟨s, ?_, hm⟩
          cases hs : twoWay s with
          | true => rfl
          | false =>
            have := neg s hs
            omega
        · simp at hg
      · simp at hg
  · rintro ⟨s, hs, hm⟩
    obtain ⟨ho, hc, hf⟩ := (hI.mem p s c).1 hm
    obtain ⟨h1, h2⟩ := key s (hI.tk p s c hm) hs
    unfold getOwner
    rw [h1]
    simp only [hf, hc, Int.toNat_of_nonneg h2, if_true]

/-- Whenever an element has been removed from a feature it knows the other side of, asking it for its owner panics
although it should answer that there is none. -/
theorem C74_removed_violated {kind : Nat → Kind} {w w' : World} (h : Reach kind w) {p c : Nat} {s : Slot}
    (hm : c ∈ w.held p s) (hs : twoWay s = true) (hr : step w (.remove p s c) = some w') :
    w'.container c = none ∧ getOwner w' c = .panics := by
  obtain ⟨hI, hk⟩ := reach_inv h
  have ht := hI.tk p s c hm
  simp only [step, remove, hm, if_true, Option.some.injEq] at hr
  rw [child_remove _ (by exact ht)] at hr
  subst hr
  refine ⟨setContainer_at .., ?_⟩
  unfold getOwner
  rw [setContainer_at, setContainer_cfid, setContainer_kind, assign_kind]
  cases s <;> simp [twoWay] at hs <;> simp [takes] at ht <;>
      first
      | (rcases ht with ht | ht | ht <;> simp [ht, ownerID, endID, inverseFeatureID])
      | (rcases ht with ht | ht <;> simp [ht, ownerID, endID, inverseFeatureID])
      | simp [ht, ownerID, endID, inverseFeatureID]

/-- A factory replaced by `SetEFactoryInstance` panics when asked for its package; replaced by `SetEPackage` of the
new factory it answers `nil`. -/
theorem C74_factory_violated {kind : Nat → Kind} {w : World} (h : Reach kind w) {p old new : Nat}
    (hp : kind p = .ePackage) (hn : kind new = .eFactory) (ho : w.held p .eFactoryInstance = [old]) (hne : new ≠ old) :
    getOwner (setRef w p .eFactoryInstance (some new)) old = .panics ∧
    getOwner (setEPackage w new (some p)) old = .nothing := by
  obtain ⟨hI, hk⟩ := reach_inv h
  subst hk
  have hmo : old ∈ w.held p .eFactoryInstance := by rw [ho]; simp
  have hko := hI.tk _ _ _ hmo
  have hkn : takes .eFactoryInstance (w.kind new) = true := by rw [hn]; rfl
  have hnm : new ∉ w.held p .eFactoryInstance := by rw [ho]; simpa using hne
  have hd := not_details (c := new) (s := .eFactoryInstance) hI hkn (.inl rfl)
  have how : owns (w.kind p) .eFactoryInstance = true := by rw [hp]; rfl
  have hold : w.kind old = .eFactory := by simpa [takes] using hko
  constructor
  · obtain ⟨e1, e2, e3, e4⟩ := enter (v := setContainer w old none 1) (l := w.held p .eFactoryInstance) hI rfl
        (setContainer_other _ _ _ hne).1 (setContainer_other _ _ _ hne).2
        (by rw [setContainer_held, put_self]) hnm hd
    have e5 : setRef w p .eFactoryInstance (some new) =
        assign (setContainer (removeFromContainer (setContainer w old none 1) new) new (some p) 1) p
          .eFactoryInstance [new] := by
      unfold setRef
      rw [ho]
      simp only [List.head?_cons, Option.some.injEq, Ne.symm hne, if_false]
      rw [child_remove _ hko, child_add _ (by exact hkn)]
      rfl
    unfold getOwner
    rw [e5, assign_kind, assign_cfid, assign_container, setContainer_kind, e1, hold,
      (setContainer_other _ _ _ (Ne.symm hne)).1, (setContainer_other _ _ _ (Ne.symm hne)).2, e2, e3, setContainer_at,
      setContainer_cfid]
    rfl
  · obtain ⟨e1, e2, e3, e4⟩ := enter (v := w) (l := w.held p .eFactoryInstance) hI rfl
        rfl rfl (put_self _).symm hnm hd
    have e5 : setEPackage w new (some p) =
        setContainer (assign (setContainer (removeFromContainer w new) old none (-5)) p .eFactoryInstance [new]) new
          (some p) 1 := by
      simp only [setEPackage, setOwner]
      rw [if_pos (by exact (owner_cond (c := new) hI how).2 hnm), factory_add _ (by rw [e1]; exact hp), e4, put_same, ho]
      rfl
    unfold getOwner
    rw [e5, (setContainer_other _ _ _ (Ne.symm hne)).2, setContainer_kind, assign_kind, setContainer_kind, e1, hold,
      assign_cfid, setContainer_cfid]
    rfl

/-- Setting the model element of an annotation does the same as adding the annotation to the annotations of this
element. -/
theorem C74_either_end {kind : Nat → Kind} {w : World} (h : Reach kind w) {c p : Nat} (hc : kind c = .eAnnotation)
    (hp : owns (kind p) .eAnnotations = true) :
    (setEModelElement w c (some p)).held = (add w p .eAnnotations c).held ∧
    (setEModelElement w c (some p)).container = (add w p .eAnnotations c).container := by
  obtain ⟨hI, hk⟩ := reach_inv h
  subst hk
  have ht1 : Typed w.kind (.setEModelElement c (some p)) := by
    refine ⟨by simp [takes, hc], ?_⟩
    intro x hx; simp at hx; subst hx; exact hp
  have ht2 : Typed w.kind (.add p .eAnnotations c) := ⟨hp, rfl, by simp [takes, hc]⟩
  have hd : KeepsDetails w.held (.add p .eAnnotations c) := by
    intro q hq
    exact absurd hq (not_details (s := .eAnnotations) hI (by simp [takes, hc]) (.inr rfl) q)
  have g1 := good hI ht1 trivial
  have g2 := good hI ht2 hd
  rcases g1 with ⟨g1, _⟩ | ⟨w1, s1, i1, k1, f1⟩
  · simp [step] at g1
  rcases g2 with ⟨g2, _⟩ | ⟨w2, s2, i2, k2, f2⟩
  · simp [step] at g2
  simp only [step, Option.some.injEq] at s1 s2
  subst s1; subst s2
  have hh : (setEModelElement w c (some p)).held = (add w p .eAnnotations c).held := by
    simp only [effect] at f1 f2
    rw [f1] at f2
    exact Option.some.inj f2
  refine ⟨hh, ?_⟩
  funext o
  have place : ∀ (u v : World), Inv u → Inv v → u.held = v.held → ∀ q, u.container o = some q → v.container o = some q := by
    intro u v iu iv e q hq
    obtain ⟨s, ho, hf⟩ := iu.slot q o hq
    have hm : o ∈ u.held q s := (iu.mem q s o).2 ⟨ho, hq, hf⟩
    rw [e] at hm
    exact ((iv.mem q s o).1 hm).2.1
  cases h1 : (setEModelElement w c (some p)).container o with
  | some q => exact (place _ _ i1 i2 hh q h1).symm
  | none =>
    cases h2 : (add w p .eAnnotations c).container o with
    | none => rfl
    | some q => rw [place _ _ i2 i1 hh.symm q h2] at h1; simp at h1

/-! ## Concrete cases -/

/-- Classes 0 and 2, an attribute 1, annotations 3 and 4, an entry 5, a package 6 with factories 7 and 8. -/
def kinds : Nat → Kind
  | 0 => .eClass
  | 1 => .eAttribute
  | 2 => .eClass
  | 3 => .eAnnotation
  | 4 => .eAnnotation
  | 5 => .eStringToStringMapEntry
  | 6 => .ePackage
  | 7 => .eFactory
  | _ => .eFactory

/-- The attribute is added to one class and then to the other. -/
def moved : World := add (add (fresh kinds) 0 .eStructuralFeatures 1) 2 .eStructuralFeatures 1

theorem moved_reach : Reach kinds moved := by
  refine Reach.step (op := .add 2 .eStructuralFeatures 1) (Reach.step (op := .add 0 .eStructuralFeatures 1) Reach.fresh
    ?_ ?_ rfl) ?_ ?_ rfl
  · exact ⟨rfl, rfl, rfl⟩
  · intro q hq; simp [fresh] at hq
  · exact ⟨rfl, rfl, rfl⟩
  · exact fun q hq => absurd hq (not_details' q)
where
  not_details' (q : Nat) : 1 ∉ (add (fresh kinds) 0 .eStructuralFeatures 1).held q .details := by
    simp [add, fresh, eInverseAdd, basicInverseAdd, assign, kinds, structuralFeatureAdd, endID, inverseFeatureID,
      enterContainer, removeFromContainer, setContainer]

example : moved.held 0 .eStructuralFeatures = [] ∧ moved.held 2 .eStructuralFeatures = [1] ∧
    moved.container 1 = some 2 ∧ getOwner moved 1 = .object 2 := by decide

example : getOwner moved 1 = .object 2 :=
  (C74_owner_partial moved_reach 1 2).2 ⟨.eStructuralFeatures, rfl, by decide⟩

example : getOwner (remove moved 2 .eStructuralFeatures 1) 1 = .panics :=
  (C74_removed_violated moved_reach (by decide) rfl rfl).2

/-- An entry added to the details of one annotation and then to those of another one. -/
def sharedEntry : World := add (add (fresh kinds) 3 .details 5) 4 .details 5

/-- The entry is then in the details of both, with the second as its container. -/
theorem C74_details_violated :
    sharedEntry.held 3 .details = [5] ∧ sharedEntry.held 4 .details = [5] ∧ sharedEntry.container 5 = some 4 := by
  decide

/-- Removing it from the first takes its container away although the second has it still. -/
theorem C74_details_removed_violated :
    (remove sharedEntry 3 .details 5).held 4 .details = [5] ∧ (remove sharedEntry 3 .details 5).container 5 = none := by
  decide

/-- A package with a factory. -/
def packaged : World := setRef (fresh kinds) 6 .eFactoryInstance (some 7)

theorem packaged_reach : Reach kinds packaged := by
  refine Reach.step (op := .setRef 6 .eFactoryInstance (some 7)) Reach.fresh ⟨rfl, rfl, ?_⟩ trivial rfl
  intro x hx; simp at hx; subst hx; rfl

example : getOwner (setRef packaged 6 .eFactoryInstance (some 8)) 7 = .panics ∧
    getOwner (setEPackage packaged 8 (some 6)) 7 = .nothing :=
  C74_factory_violated packaged_reach rfl rfl (by decide) (by decide)

example : (setEModelElement moved 3 (some 2)).held 2 .eAnnotations = [3] ∧
    (setEModelElement moved 3 (some 2)).held = (add moved 2 .eAnnotations 3).held :=
  ⟨by decide, (C74_either_end moved_reach rfl rfl).1⟩

end Verif.Props
