import Verif.Spec.MetaContainment

/-! Proofs about containment between metamodel elements. -/

namespace Verif.MetaContainment

theorem endID_inj {k : Kind} {s t : Slot} (hs : owns k s = true) (ht : owns k t = true) (h : endID s = endID t) :
    s = t := by
  cases s <;> cases t <;> first | rfl | (exact absurd h (by decide)) | (cases k <;> simp [owns] at hs ht)

/-- The world agrees on both ends. -/
structure Inv (w : World) : Prop where
  mem : ∀ p s c, c ∈ w.held p s ↔ owns (w.kind p) s = true ∧ w.container c = some p ∧ w.cfid c = endID s
  nodup : ∀ p s, (w.held p s).Nodup
  one : ∀ p s, single s = true → (w.held p s).length ≤ 1
  tk : ∀ p s c, c ∈ w.held p s → takes s (w.kind c) = true
  slot : ∀ p c, w.container c = some p → ∃ s, owns (w.kind p) s = true ∧ w.cfid c = endID s

theorem inv_fresh (kind : Nat → Kind) : Inv (fresh kind) := by
  refine ⟨?_, ?_, ?_, ?_, ?_⟩ <;> simp [fresh]

@[simp] theorem assign_kind (w p s l) : (assign w p s l).kind = w.kind := rfl
@[simp] theorem assign_container (w p s l) : (assign w p s l).container = w.container := rfl
@[simp] theorem assign_cfid (w p s l) : (assign w p s l).cfid = w.cfid := rfl
@[simp] theorem setContainer_kind (w c p f) : (setContainer w c p f).kind = w.kind := rfl
@[simp] theorem setContainer_held (w c p f) : (setContainer w c p f).held = w.held := rfl
theorem assign_held (w p s l) : (assign w p s l).held = put w.held p s l := rfl

theorem put_same (h : Lists) (p s l) : put h p s l p s = l := by simp [put]
theorem put_other (h : Lists) {p s q t} (l) (hne : ¬ (q = p ∧ t = s)) : put h p s l q t = h q t := by simp [put, hne]

/-- The element's end of a removal. -/
theorem child_remove (w : World) {c p : Nat} {s : Slot} (ht : takes s (w.kind c) = true) :
    eInverseRemove w c p (endID s) = setContainer w c none (endID s) := by
  cases s <;> simp only [endID, inverseFeatureID, featureID, eInverseRemove] <;>
    first
    | rfl
    | (simp only [takes, decide_eq_true_eq] at ht
       rcases ht with ht | ht | ht <;> simp [basicInverseRemove, ht, annotationRemove, operationRemove,
        structuralFeatureRemove, enumLiteralRemove, parameterRemove, classifierRemove, classRemove, enumRemove,
        packageRemove, factoryRemove])
    | (simp only [takes, decide_eq_true_eq] at ht
       rcases ht with ht | ht <;> simp [basicInverseRemove, ht, annotationRemove, operationRemove,
        structuralFeatureRemove, enumLiteralRemove, parameterRemove, classifierRemove, classRemove, enumRemove,
        packageRemove, factoryRemove])
    | (simp only [takes, decide_eq_true_eq] at ht
       simp [basicInverseRemove, ht, annotationRemove, operationRemove,
        structuralFeatureRemove, enumLiteralRemove, parameterRemove, classifierRemove, classRemove, enumRemove,
        packageRemove, factoryRemove])

/-- The element's end of an addition. -/
theorem child_add (w : World) {c p : Nat} {s : Slot} (ht : takes s (w.kind c) = true) :
    eInverseAdd w c p (endID s) = setContainer (removeFromContainer w c) c (some p) (endID s) := by
  cases s <;> simp only [endID, inverseFeatureID, featureID, eInverseAdd] <;>
    first
    | rfl
    | (simp only [takes, decide_eq_true_eq] at ht
       rcases ht with ht | ht | ht <;> simp [basicInverseAdd, ht, annotationAdd, operationAdd,
        structuralFeatureAdd, enumLiteralAdd, parameterAdd, classifierAdd, classAdd, enumAdd,
        packageAdd, factoryAdd, enterContainer])
    | (simp only [takes, decide_eq_true_eq] at ht
       rcases ht with ht | ht <;> simp [basicInverseAdd, ht, annotationAdd, operationAdd,
        structuralFeatureAdd, enumLiteralAdd, parameterAdd, classifierAdd, classAdd, enumAdd,
        packageAdd, factoryAdd, enterContainer])
    | (simp only [takes, decide_eq_true_eq] at ht
       simp [basicInverseAdd, ht, annotationAdd, operationAdd,
        structuralFeatureAdd, enumLiteralAdd, parameterAdd, classifierAdd, classAdd, enumAdd,
        packageAdd, factoryAdd, enterContainer])

/-- The container's end of a removal. -/
theorem parent_remove (w : World) {c p : Nat} {s : Slot} (ho : owns (w.kind p) s = true) (hd : s ≠ .details)
    (h1 : single s = true → w.held p s = [c]) :
    eInverseRemove w p c (featureID s : Int) = assign w p s ((w.held p s).erase c) := by
  have h0 : ¬ ((featureID s : Int) < 0) := by omega
  simp only [eInverseRemove, ge_iff_le, show (0 : Int) ≤ (featureID s : Int) by omega, if_true, Int.toNat_natCast]
  unfold basicInverseRemove
  cases hk : w.kind p <;> rw [hk] at ho <;> cases s <;> simp [owns] at ho <;> simp at hd <;>
    simp [annotationRemove, operationRemove, modelElementRemove, genericTypeRemove, typeParameterRemove,
        structuralFeatureRemove, enumLiteralRemove, parameterRemove, classifierRemove, classRemove, enumRemove,
        packageRemove, factoryRemove, removeWith, featureID] <;> simp [h1 rfl]

theorem opposite_of (w : World) {c : Nat} {s : Slot} (ht : takes s (w.kind c) = true) :
    if endID s ≥ 0 then oppositeID (w.kind c) (endID s).toNat = some (featureID s)
    else -1 - endID s = (featureID s : Int) := by
  cases s <;> simp only [endID, inverseFeatureID, featureID] <;> try rfl
  all_goals
    simp only [takes, decide_eq_true_eq] at ht
    first
    | (rcases ht with ht | ht | ht <;> simp [oppositeID, ht])
    | (rcases ht with ht | ht <;> simp [oppositeID, ht])
    | simp [oppositeID, ht]

/-- Leaving a container. -/
theorem leave_some (w : World) {c p : Nat} {s : Slot} (hc : w.container c = some p) (hf : w.cfid c = endID s)
    (ho : owns (w.kind p) s = true) (ht : takes s (w.kind c) = true) (hd : s ≠ .details)
    (h1 : single s = true → w.held p s = [c]) :
    removeFromContainer w c = assign w p s ((w.held p s).erase c) := by
  have := opposite_of w ht
  unfold removeFromContainer
  rw [hc, hf]
  simp only
  split at this
  · rename_i hge
    simp only [hge, if_true, this]
    exact parent_remove w ho hd h1
  · rename_i hge
    simp only [hge, if_false, this]
    exact parent_remove w ho hd h1

theorem leave_none (w : World) {c : Nat} (hc : w.container c = none) : removeFromContainer w c = w := by
  simp [removeFromContainer, hc]

end Verif.MetaContainment
