import Verif.Proofs.MetaContainmentOps

/-! `SetEModelElement`, `SetEPackage`, and the invariant. -/

namespace Verif.MetaContainment

variable {w v w' : World} {c p : Nat} {s : Slot}

theorem without_none (hI : Inv w) (hc : w.container c = none) : without w.held c = w.held := by
  funext q t
  apply List.erase_of_not_mem
  intro hm
  have := ((hI.mem q t c).1 hm).2.1
  rw [hc] at this; simp at this

/-- The container is set to `nil`. -/
theorem good_setOwner_none (hI : Inv w) (ht : takes s (w.kind c) = true)
    (hs : single s = true ∨ s = .eAnnotations) (own : Nat) :
    Inv (setOwner w c s own none) ∧ (setOwner w c s own none).kind = w.kind ∧
    (setOwner w c s own none).held = without w.held c := by
  unfold setOwner
  cases hc : w.container c with
  | none =>
    simp only [ne_eq, not_true_eq_false, false_and, or_self, if_false]
    exact ⟨hI, trivial, (without_none hI hc).symm⟩
  | some q =>
    simp only [ne_eq, reduceCtorEq, not_false_eq_true, true_or, if_true]
    obtain ⟨t, ho, hft⟩ := hI.slot q c hc
    have hm : c ∈ w.held q t := (hI.mem q t c).2 ⟨ho, hc, hft⟩
    have htd : t ≠ .details := by intro e; subst e; exact not_details hI ht hs q hm
    rw [leave_some w hc hft ho (hI.tk q t c hm) htd (fun h1 => single_eq (hI.one q t h1) hm)]
    have hh : put w.held q t ((w.held q t).erase c) = without w.held c := by
      funext q' t'
      simp only [put, without]
      split
      · rename_i e; rw [e.1, e.2]
      · rename_i e
        rw [List.erase_of_not_mem]
        exact fun hm' => e (held_unique hI hm hm')
    refine ⟨?_, rfl, hh⟩
    refine inv_left (p := q) (s := t) (l := (w.held q t).erase c) (gone := fun o => o = c) hI rfl rfl
      ((hI.nodup q t).erase c) ?_ ?_ ?_ ?_
    · intro o
      rw [(hI.nodup q t).mem_erase_iff]
      exact And.comm
    · intro h
      exact Nat.le_trans List.length_erase_le (hI.one q t h)
    · rintro o rfl
      exact ⟨hm, setContainer_at _ o none own⟩
    · intro o hno
      exact setContainer_other (assign w q t _) none own hno

theorem owner_cond (hI : Inv w) (ho : owns (w.kind p) s = true) :
    (w.container c ≠ some p ∨ ((some p : Option Nat) ≠ none ∧ w.cfid c ≠ endID s)) ↔ c ∉ w.held p s := by
  rw [hI.mem]
  simp [ho]
  by_cases h : w.container c = some p <;> simp [h]

theorem annotations_add (v : World) (ho : owns (v.kind p) .eAnnotations = true) :
    eInverseAdd v p c (featureID .eAnnotations : Int) = addWith v p .eAnnotations c := by
  simp only [eInverseAdd, featureID]
  unfold basicInverseAdd
  cases hk : v.kind p <;> rw [hk] at ho <;> simp [owns] at ho <;>
    simp [annotationAdd, operationAdd, modelElementAdd,
        structuralFeatureAdd, enumLiteralAdd, parameterAdd, classifierAdd, classAdd, enumAdd,
        packageAdd, factoryAdd]

theorem good_setEModelElement (hI : Inv w) (x : Option Nat) (ht : Typed w.kind (.setEModelElement c x)) :
    Good w (.setEModelElement c x) := by
  obtain ⟨hk, ho⟩ := ht
  right
  cases x with
  | none =>
    have := good_setOwner_none hI hk (.inr rfl) 3
    exact ⟨_, rfl, this.1, this.2.1, by rw [show (effect w.held (.setEModelElement c none)) = some (without w.held c) from rfl]; rw [← this.2.2]; rfl⟩
  | some p =>
    have ho := ho p rfl
    simp only [step, effect]
    by_cases hm : c ∈ w.held p .eAnnotations
    · have hcond := (not_congr (owner_cond (c := c) hI ho)).2 (by simpa using hm)
      refine ⟨w, ?_, hI, rfl, by simp [hm]⟩
      simp only [setEModelElement, setOwner]
      rw [if_neg (by exact hcond)]
    · have hcond := (owner_cond (c := c) hI ho).2 hm
      obtain ⟨e1, e2, e3, e4⟩ := enter (v := w) (p := p) (s := .eAnnotations) (l := w.held p .eAnnotations) hI rfl rfl
        rfl (put_self _).symm hm (not_details hI hk (.inr rfl))
      have e5 : setEModelElement w c (some p) =
          setContainer (addWith (removeFromContainer w c) p .eAnnotations c) c (some p) 3 := by
        simp only [setEModelElement, setOwner]
        rw [if_pos (by exact hcond), annotations_add _ (by rw [e1]; exact ho)]
        rfl
      have hh : (setEModelElement w c (some p)).held =
          put (without w.held c) p .eAnnotations (w.held p .eAnnotations ++ [c]) := by
        rw [e5, setContainer_held]
        unfold addWith
        rw [assign_held, e4, put_put, put_same]
      refine ⟨_, rfl, ?_, by rw [e5]; exact e1, by simp [hm, hh]⟩
      have hp : (w.held p .eAnnotations ++ [c]).Perm (c :: w.held p .eAnnotations) := List.perm_append_singleton ..
      refine inv_moved (gone := fun _ => False) hI ho hk hm (by rw [e5]; exact e1) hh
        (hp.nodup_iff.2 (List.nodup_cons.2 ⟨hm, hI.nodup p _⟩)) (fun o => by rw [hp.mem_iff]; simp) (by simp [single])
        (by rw [e5]; exact setContainer_at _ c (some p) 3) (by rw [e5]; exact setContainer_cfid _ c (some p) 3)
        (by simp) ?_
      intro o hoc _
      rw [e5]
      rw [(setContainer_other _ (some p) 3 hoc).1, (setContainer_other _ (some p) 3 hoc).2]
      unfold addWith
      rw [assign_container, assign_cfid, e2, e3]
      exact ⟨rfl, rfl⟩

theorem factory_add (v : World) (hk : v.kind p = .ePackage) :
    eInverseAdd v p c (featureID .eFactoryInstance : Int) =
      match (v.held p .eFactoryInstance).head? with
      | some old => assign (setContainer v old none (-5)) p .eFactoryInstance [c]
      | none => assign v p .eFactoryInstance [c] := by
  simp only [eInverseAdd, featureID]
  unfold basicInverseAdd
  rw [hk]
  simp [packageAdd, eInverseRemove]
  cases (v.held p .eFactoryInstance).head? <;> simp

theorem good_setEPackage (hI : Inv w) (x : Option Nat) (ht : Typed w.kind (.setEPackage c x)) :
    Good w (.setEPackage c x) := by
  obtain ⟨hk, ho⟩ := ht
  right
  cases x with
  | none =>
    have := good_setOwner_none (s := .eFactoryInstance) hI hk (.inl rfl) 1
    exact ⟨_, rfl, this.1, this.2.1, by rw [show (effect w.held (.setEPackage c none)) = some (without w.held c) from rfl]; rw [← this.2.2]; rfl⟩
  | some p =>
    have ho := ho p rfl
    have hone := hI.one p .eFactoryInstance rfl
    have hl := single_none hone
    have hpk : w.kind p = .ePackage := by
      cases h : w.kind p <;> rw [h] at ho <;> simp [owns] at ho <;> rfl
    simp only [step, effect]
    by_cases hm : c ∈ w.held p .eFactoryInstance
    · have hcond := (not_congr (owner_cond (c := c) hI ho)).2 (by simpa using hm)
      refine ⟨w, ?_, hI, rfl, ?_⟩
      · simp only [setEPackage, setOwner]
        rw [if_neg (by exact hcond)]
      · congr 1
        funext q t
        simp only [put, without]
        split
        · rename_i e; rw [e.1, e.2, single_eq hone hm]
        · rename_i e
          apply List.erase_of_not_mem
          intro hm'
          exact e (held_unique hI hm hm')
    · have hcond := (owner_cond (c := c) hI ho).2 hm
      obtain ⟨e1, e2, e3, e4⟩ := enter (v := w) (p := p) (s := .eFactoryInstance) (l := w.held p .eFactoryInstance) hI rfl
        rfl rfl (put_self _).symm hm (not_details hI hk (.inl rfl))
      have e6 : (removeFromContainer w c).held p .eFactoryInstance = w.held p .eFactoryInstance := by rw [e4, put_same]
      cases hold : (w.held p .eFactoryInstance).head? with
      | none =>
        have hnil : w.held p .eFactoryInstance = [] := by rw [hl, hold]; rfl
        have e5 : setEPackage w c (some p) =
            setContainer (assign (removeFromContainer w c) p .eFactoryInstance [c]) c (some p) 1 := by
          simp only [setEPackage, setOwner]
          rw [if_pos (by exact hcond), factory_add _ (by rw [e1]; exact hpk), e6, hold]
          rfl
        have hh : (setEPackage w c (some p)).held = put (without w.held c) p .eFactoryInstance [c] := by
          rw [e5, setContainer_held, assign_held, e4, put_put]
        refine ⟨_, rfl, ?_, by rw [e5]; exact e1, by rw [hh]⟩
        refine inv_moved (gone := fun _ => False) hI ho hk hm (by rw [e5]; exact e1) hh (by simp)
          (fun o => by rw [hnil]; simp) (by simp)
          (by rw [e5]; exact setContainer_at _ c (some p) 1) (by rw [e5]; exact setContainer_cfid _ c (some p) 1)
          (by simp) ?_
        intro o hoc _
        rw [e5, (setContainer_other _ (some p) 1 hoc).1, (setContainer_other _ (some p) 1 hoc).2,
          assign_container, assign_cfid, e2, e3]
        exact ⟨rfl, rfl⟩
      | some old =>
        have hmo : old ∈ w.held p .eFactoryInstance := by rw [hl, hold]; simp
        have e5 : setEPackage w c (some p) =
            setContainer (assign (setContainer (removeFromContainer w c) old none (-5)) p .eFactoryInstance [c]) c
              (some p) 1 := by
          simp only [setEPackage, setOwner]
          rw [if_pos (by exact hcond), factory_add _ (by rw [e1]; exact hpk), e6, hold]
          rfl
        have hh : (setEPackage w c (some p)).held = put (without w.held c) p .eFactoryInstance [c] := by
          rw [e5, setContainer_held, assign_held, setContainer_held, e4, put_put]
        refine ⟨_, rfl, ?_, by rw [e5]; exact e1, by rw [hh]⟩
        refine inv_moved (gone := fun o => o = old) hI ho hk hm (by rw [e5]; exact e1) hh (by simp)
          (fun o => by rw [hl, hold]; simp) (by simp)
          (by rw [e5]; exact setContainer_at _ c (some p) 1) (by rw [e5]; exact setContainer_cfid _ c (some p) 1)
          ?_ ?_
        · intro o hoc hoo
          have hoo : o = old := hoo
          subst hoo
          refine ⟨hmo, ?_⟩
          rw [e5, (setContainer_other _ (some p) 1 hoc).1, assign_container, setContainer_at]
        · intro o hoc hoo
          rw [e5, (setContainer_other _ (some p) 1 hoc).1, (setContainer_other _ (some p) 1 hoc).2,
            assign_container, assign_cfid, (setContainer_other _ none (-5) hoo).1,
            (setContainer_other _ none (-5) hoo).2, e2, e3]
          exact ⟨rfl, rfl⟩

theorem good (hI : Inv w) {op : Op} (ht : Typed w.kind op) (hd : KeepsDetails w.held op) : Good w op := by
  cases op with
  | insert p s i c => exact good_insert hI i ht hd
  | add p s c => exact good_add hI ht hd
  | setAt p s i c => exact good_setAt hI i ht hd
  | removeAt p s i => exact good_removeAt hI i
  | remove p s c => exact good_remove hI c
  | clear p s => exact good_clear hI
  | setRef p s x => exact good_setRef hI x ht
  | setEModelElement c x => exact good_setEModelElement hI x ht
  | setEPackage c x => exact good_setEPackage hI x ht

theorem reach_inv {kind : Nat → Kind} (h : Reach kind w) : Inv w ∧ w.kind = kind := by
  induction h with
  | fresh => exact ⟨inv_fresh kind, rfl⟩
  | step _ ht hd hs ih =>
    obtain ⟨hI, hk⟩ := ih
    rcases good hI (by rw [hk]; exact ht) hd with h | ⟨w', h1, h2, h3, _⟩
    · rw [h.1] at hs; simp at hs
    · rw [h1] at hs
      simp at hs
      subst hs
      exact ⟨h2, h3.trans hk⟩

end Verif.MetaContainment
