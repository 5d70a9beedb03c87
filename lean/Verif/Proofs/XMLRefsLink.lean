import Verif.Spec.XMLRefs
import Verif.Proofs.Graph

/-!
# A reference is set between objects that have room for it
-/

namespace Verif.XMLRefs

open Graph

variable {M : Meta} {cls : Nat → Nat} {w : World}

theorem get_eq (wf : WellFormed M) (hc : ∀ x, (w x).cls = cls x) {a r : Nat} (hr : r ∈ M.features (cls a)) :
    eGet M w a r = if M.isContainer r then (if (w a).cfid = (M.refs r).declId then (w a).container.toList else [])
      else ((w a).slots (M.refs r).declId).vals := by
  simp only [eGet, hc a, wf.featureID hr, Int.toNat_natCast]
  split
  · rfl
  · cases (w a).slots (M.refs r).declId <;> rfl

theorem get_setSlot (wf : WellFormed M) (hc : ∀ x, (w x).cls = cls x) {x s : Nat} (hs : s ∈ M.features (cls x)) (hn : M.isContainer s = false) (v : Slot)
    {y t : Nat} (ht : t ∈ M.features (cls y)) :
    eGet M (setSlot w x (M.refs s).declId v) y t = if y = x ∧ t = s then v.vals else eGet M w y t := by
  rw [get_eq wf (cls := cls) (by simp [hc]) ht]
  simp only [setSlot_cfid, setSlot_container, setSlot_slots]
  by_cases hyt : y = x ∧ t = s
  · obtain ⟨rfl, rfl⟩ := hyt
    simp [hn]
  · rw [if_neg hyt, get_eq wf hc ht]
    have : ¬ (y = x ∧ (M.refs t).declId = (M.refs s).declId) := by
      rintro ⟨rfl, he⟩
      exact hyt ⟨rfl, wf.inj ht hs he⟩
    rw [if_neg this]

/-- what a new value of the reference `r` of `a` adds to the references -/
def delta (M : Meta) (a r e x s : Nat) : List Nat :=
  if x = a ∧ s = r then [e] else if x = e ∧ (M.refs r).opposite = some s then [a] else []

theorem removeFromContainer_none {e : Nat} (h : (w e).container = none) : removeFromContainer M w e = some w := by
  simp only [removeFromContainer, h]
  split
  · split <;> rfl
  · rfl

/-- the ID of the other end -/
def codeOf (M : Meta) (r : Nat) : Int :=
  match (M.refs r).opposite with
  | some r' => (M.refs r').declId
  | none => -1 - (M.refs r).declId

theorem inverseAdd_effect (wf : WellFormed M) (hc : ∀ x, (w x).cls = cls x) {a r e : Nat} (hfit : Fits M cls r e)
    (hlink : (M.refs r).opposite ≠ none ∨ (M.refs r).containment = true) (hn : M.isContainer r = false)
    (hsh : ∀ s, s ∈ M.features (cls e) → M.isContainer s = false → Shape M s ((w e).slots (M.refs s).declId))
    (hopp : ∀ r', (M.refs r).opposite = some r' → (M.refs r).containment = false → (M.refs r').many = true ∨ eGet M w e r' = [])
    (hcont : (M.refs r).containment = true → (w e).container = none) :
    ∃ w1, inverseAdd M w e a (codeOf M r) = some w1 ∧ (∀ x, (w1 x).cls = cls x) ∧
      (∀ x s, s ∈ M.features (cls x) → eGet M w1 x s = eGet M w x s ++ if x = e ∧ (M.refs r).opposite = some s then [a] else []) ∧
      ∀ x, (w1 x).container = if (M.refs r).containment = true ∧ x = e then some a else (w x).container := by
  have hset : ∀ (w1 : World) (id : Int) (hid : ∀ s, s ∈ M.features (cls e) → M.isContainer s = true →
        (id = (M.refs s).declId ↔ (M.refs r).opposite = some s)) (_ : ∀ s, (M.refs r).opposite = some s → M.isContainer s = true),
      (w e).container = none → (M.refs r).containment = true → w1 = setContainer w e (some a) id → (∀ x, (w1 x).cls = cls x) ∧
      (∀ x s, s ∈ M.features (cls x) → eGet M w1 x s = eGet M w x s ++ if x = e ∧ (M.refs r).opposite = some s then [a] else []) ∧
      ∀ x, (w1 x).container = if (M.refs r).containment = true ∧ x = e then some a else (w x).container := by
    intro w1 id hid hic hco hct hw
    subst hw
    have hcl : ∀ x, (setContainer w e (some a) id x).cls = cls x := by simp [hc]
    refine ⟨hcl, ?_, ?_⟩
    · intro x s hs
      rw [get_eq wf hcl hs, get_eq wf hc hs]
      simp only [setContainer_cfid, setContainer_container, setContainer_slots]
      by_cases hx : x = e
      · subst hx
        cases hi : M.isContainer s with
        | true =>
          have := hid s hs hi
          by_cases ho : (M.refs r).opposite = some s
          · simp [ho, this.2 ho, hco]
          · have h2 : id ≠ (M.refs s).declId := fun hh => ho (this.1 hh)
            simp [ho, h2, hco]
        | false =>
          have : (M.refs r).opposite ≠ some s := by intro hh; rw [hic s hh] at hi; simp at hi
          simp [this]
      · simp [hx]
    · intro x
      simp only [setContainer_container, hct, true_and]
  cases ho : (M.refs r).opposite with
  | none =>
    have hct : (M.refs r).containment = true := by simpa [ho] using hlink
    have hcd : codeOf M r = -1 - (M.refs r).declId := by simp [codeOf, ho]
    refine ⟨setContainer w e (some a) (codeOf M r), ?_, ?_⟩
    · rw [inverseAdd, if_neg (by rw [hcd]; omega), removeFromContainer_none (hcont hct)]; rfl
    · have := hset _ (codeOf M r) (by intro s hs hi; rw [hcd, ho]; simp only [reduceCtorEq, iff_false]; omega) (by intro s hs; rw [ho] at hs; simp at hs) (hcont hct) hct rfl
      rw [ho] at this
      exact this
  | some r' =>
    have hr' := hfit r' ho
    have hcd : codeOf M r = (M.refs r').declId := by simp [codeOf, ho]
    have hic : M.isContainer r' = (M.refs r).containment := isContainer_opp (wf.opp r r' ho).1
    rw [hcd]
    simp only [inverseAdd, Int.natCast_nonneg, ge_iff_le, ↓reduceIte, hc e, wf.feature hr', Int.toNat_natCast, wf.featureID hr']
    cases hct : (M.refs r).containment with
    | true =>
      have hm : (M.refs r').many = false := (wf.cont r r' hct ho).2
      have := hset _ (M.refs r').declId (by
          intro s hs hi; rw [ho]
          constructor
          · intro h; rw [wf.inj hr' hs (by omega)]
          · intro h; injection h with h; rw [h]) (by intro s hs; rw [ho] at hs; injection hs with hs; rw [← hs, hic, hct]) (hcont hct) hct rfl
      rw [ho, hct] at this
      refine ⟨_, ?_, this⟩
      simp [hm, hic, hct, hcont hct]
    | false =>
      have hni : M.isContainer r' = false := by rw [hic, hct]
      have hsl := hsh r' hr' hni
      have hg : eGet M w e r' = ((w e).slots (M.refs r').declId).vals := by rw [get_eq wf hc hr']; simp [hni]
      cases hm : (M.refs r').many with
      | true =>
        simp only [Shape, hm, ↓reduceIte] at hsl
        have key : ∀ v : Slot, v.vals = eGet M w e r' ++ [a] → (∀ x, (setSlot w e (M.refs r').declId v x).cls = cls x) ∧
            (∀ x s, s ∈ M.features (cls x) → eGet M (setSlot w e (M.refs r').declId v) x s = eGet M w x s ++ if x = e ∧ some r' = some s then [a] else []) ∧
            ∀ x, (setSlot w e (M.refs r').declId v x).container = if False then some a else (w x).container := by
          intro v hv
          refine ⟨by simp [hc], ?_, by simp⟩
          intro x s hs
          rw [get_setSlot wf hc hr' hni v hs]
          by_cases hx : x = e ∧ s = r'
          · obtain ⟨rfl, rfl⟩ := hx; simp [hv]
          · have : ¬ (x = e ∧ some r' = some s) := by rintro ⟨h1, h2⟩; injection h2 with h2; exact hx ⟨h1, h2.symm⟩
            rw [if_neg hx, if_neg this, List.append_nil]
        rcases hsl with hsl | ⟨l, -, hsl⟩
        · refine ⟨setSlot w e (M.refs r').declId (.list [a]), by simp [hsl], ?_⟩
          have := key (.list [a]) (by rw [hg, hsl]; rfl)
          simpa using this
        · refine ⟨setSlot w e (M.refs r').declId (.list (l ++ [a])), by simp [hsl], ?_⟩
          have := key (.list (l ++ [a])) (by rw [hg, hsl]; rfl)
          simpa using this
      | false =>
        simp only [Shape, hm, Bool.false_eq_true, ↓reduceIte] at hsl
        have he : eGet M w e r' = [] := by rcases hopp r' ho hct with h | h; · rw [hm] at h; simp at h
                                           · exact h
        have hsn : (w e).slots (M.refs r').declId = .none := by
          rcases hsl with hsl | ⟨o, hsl⟩
          · exact hsl
          · rw [hg, hsl] at he; simp [Slot.vals] at he
        refine ⟨setSlot w e (M.refs r').declId (.obj a), by simp [hsn, hni], by simp [hc], ?_, by simp⟩
        intro x s hs
        rw [get_setSlot wf hc hr' hni _ hs]
        by_cases hx : x = e ∧ s = r'
        · obtain ⟨rfl, rfl⟩ := hx; simp [he, Slot.vals]
        · have : ¬ (x = e ∧ some r' = some s) := by rintro ⟨h1, h2⟩; injection h2 with h2; exact hx ⟨h1, h2.symm⟩
          rw [if_neg hx, if_neg this, List.append_nil]

/-- The objects are dynamic objects of a consistent graph, and the reference `r` of `a` gets the new value `e`. -/
theorem link (E : Env) (wf : WellFormed E.M) (hg : Good E.M cls w) {a r e : Nat} (hr : r ∈ E.M.features (cls a)) (hn : E.M.isContainer r = false)
    (hfit : Fits E.M cls r e) (hnew : e ∉ eGet E.M w a r) (hroom : (E.M.refs r).many = true ∨ eGet E.M w a r = [])
    (hopp : ∀ r', (E.M.refs r).opposite = some r' → (E.M.refs r).containment = false → (E.M.refs r').many = true ∨ eGet E.M w e r' = [])
    (hcont : (E.M.refs r).containment = true → (w e).container = none) :
    ∃ w', setValue E w a r e none = some w' ∧ Good E.M cls w' ∧
      (∀ x s, s ∈ E.M.features (cls x) → eGet E.M w' x s = eGet E.M w x s ++ delta E.M a r e x s) ∧
      ∀ x, (w' x).container = if (E.M.refs r).containment = true ∧ x = e then some a else (w x).container := by
  have hc := hg.cls_eq
  have hget : eGet E.M w a r = ((w a).slots (E.M.refs r).declId).vals := by rw [get_eq wf hc hr]; simp [hn]
  have hsl := hg.shape a r hr hn
  have hdel : ∀ (x s : Nat), delta E.M a r e x s =
      if x = a ∧ s = r then [e] else if x = e ∧ (E.M.refs r).opposite = some s then [a] else [] := fun _ _ => rfl
  have hne : ∀ r', (E.M.refs r).opposite = some r' → r' ≠ r := fun r' h => (wf.opp r r' h).2
  cases hm : (E.M.refs r).many with
  | true =>
    simp only [Shape, hm, ↓reduceIte] at hsl
    have hdata : eGet E.M w a r = ((w a).slots (E.M.refs r).declId).data := by
      rw [hget]; rcases hsl with h | ⟨l, -, h⟩ <;> rw [h] <;> rfl
    let w0 := setSlot w a (E.M.refs r).declId (.list (eGet E.M w a r ++ [e]))
    have hstep : setValue E w a r e none = listInverseAdds E.M a r w0 [e] := by
      simp only [setValue, hm, ↓reduceIte, listOp, hc a, wf.featureID hr, Int.toNat_natCast, ← hdata, hnew, w0]
      rw [if_neg (by omega)]
    have hc0 : ∀ x, (w0 x).cls = cls x := by simp [w0, hc]
    have hget0 : ∀ x s, s ∈ E.M.features (cls x) → eGet E.M w0 x s = if x = a ∧ s = r then eGet E.M w a r ++ [e] else eGet E.M w x s := by
      intro x s hs
      exact get_setSlot wf hc hr hn _ hs
    have hlist : setValue E w a r e none = listOp E.M w a r (.add e) := by simp [setValue, hm]
    have hfin : ∀ w' : World, setValue E w a r e none = some w' → Good E.M cls w' := by
      intro w' hw'
      rw [hlist] at hw'
      exact good_listOp wf hg hr hm hn (.add e) (by intro x hx; simp only [LOp.added, List.mem_singleton] at hx; rw [hx]; exact hfit) hw'
    by_cases hlink : (E.M.refs r).opposite ≠ none ∨ (E.M.refs r).containment = true
    · have hsh : ∀ s, s ∈ E.M.features (cls e) → E.M.isContainer s = false → Shape E.M s ((w0 e).slots (E.M.refs s).declId) := by
        intro s hs hsn
        simp only [w0, setSlot_slots]
        split
        · rename_i h
          have : s = r := wf.inj (c := cls a) (by rw [← h.1]; exact hs) hr h.2
          subst this
          simp only [Shape, hm, ↓reduceIte]
          right
          refine ⟨_, ?_, rfl⟩
          rw [List.nodup_append]
          refine ⟨?_, by simp, ?_⟩
          · rw [hget]; rcases hsl with h | ⟨l, hl, h⟩ <;> rw [h] <;> simp [Slot.vals]
            exact hl
          · intro x hx y hy; simp only [List.mem_singleton] at hy; rw [hy]; rintro rfl; exact hnew hx
        · exact hg.shape e s hs hsn
      obtain ⟨w1, e1, e2, e3, e4⟩ := inverseAdd_effect (w := w0) (a := a) wf hc0 hfit hlink hn hsh (by
        intro r' h1 h2
        rcases hopp r' h1 h2 with h | h
        · exact Or.inl h
        · right
          rw [hget0 e r' (hfit r' h1), if_neg (by rintro ⟨-, h'⟩; exact hne r' h1 h'), h]) (by intro h; simp only [w0, setSlot_container]; exact hcont h)
      have hcode : listInverseAdd E.M w0 a r e = inverseAdd E.M w0 e a (codeOf E.M r) := by
        simp only [listInverseAdd, codeOf]
        cases ho : (E.M.refs r).opposite with
        | none => rw [ho] at hlink; simp only [ne_eq, not_true_eq_false, false_or] at hlink; simp [hlink]
        | some r' => rfl
      have hres : setValue E w a r e none = some w1 := by
        rw [hstep]; simp [listInverseAdds, hcode, e1]
      refine ⟨w1, hres, hfin w1 hres, ?_, ?_⟩
      · intro x s hs
        rw [e3 x s hs, hget0 x s hs, hdel]
        by_cases h1 : x = a ∧ s = r
        · obtain ⟨rfl, rfl⟩ := h1
          have : ¬ (x = e ∧ (E.M.refs s).opposite = some s) := by rintro ⟨-, h⟩; exact hne s h rfl
          simp [this]
        · simp [h1]
      · intro x; rw [e4 x]; simp [w0]
    · have ho : (E.M.refs r).opposite = none := by
        cases h : (E.M.refs r).opposite with
        | none => rfl
        | some _ => exact absurd (Or.inl (by simp [h])) hlink
      have hct : (E.M.refs r).containment = false := by
        cases h : (E.M.refs r).containment with
        | false => rfl
        | true => exact absurd (Or.inr h) hlink
      have hres : setValue E w a r e none = some w0 := by
        rw [hstep]; simp [listInverseAdds, listInverseAdd, ho, hct]
      refine ⟨w0, hres, hfin w0 hres, ?_, by simp [w0, hct]⟩
      intro x s hs
      rw [hget0 x s hs, hdel]
      by_cases h1 : x = a ∧ s = r
      · obtain ⟨rfl, rfl⟩ := h1; simp
      · simp [h1, ho]
  | false =>
    simp only [Shape, hm, Bool.false_eq_true, ↓reduceIte] at hsl
    have he : eGet E.M w a r = [] := by rcases hroom with h | h; · rw [hm] at h; simp at h
                                        · exact h
    have hsn : (w a).slots (E.M.refs r).declId = .none := by
      rcases hsl with hsl | ⟨o, hsl⟩
      · exact hsl
      · rw [hget, hsl] at he; simp [Slot.vals] at he
    have hset : setValue E w a r e none = eSet E.M w a r (some e) := by simp [setValue, hm]
    obtain ⟨w', g1, g2⟩ := good_eSet wf hg hr hm (some e) (by intro x hx; injection hx with hx; rw [← hx]; exact hfit)
    refine ⟨w', by rw [hset, g1], by first | exact g2 | exact g2.1, ?_⟩
    simp only [eSet, hc a, wf.featureID hr, hn, Bool.false_eq_true, ↓reduceIte, Int.toNat_natCast, hsn] at g1
    rw [if_neg (by omega)] at g1
    have hfinal : ∀ w1 : World, (∀ x, (w1 x).cls = cls x) →
        (∀ x s, s ∈ E.M.features (cls x) → eGet E.M w1 x s = eGet E.M w x s ++ if x = e ∧ (E.M.refs r).opposite = some s then [a] else []) →
        (∀ x, (w1 x).container = if (E.M.refs r).containment = true ∧ x = e then some a else (w x).container) →
        w' = setSlot w1 a (E.M.refs r).declId (.obj e) →
        (∀ x s, s ∈ E.M.features (cls x) → eGet E.M w' x s = eGet E.M w x s ++ delta E.M a r e x s) ∧
        ∀ x, (w' x).container = if (E.M.refs r).containment = true ∧ x = e then some a else (w x).container := by
      intro w1 k1 k2 k3 k4
      subst k4
      refine ⟨?_, by simpa using k3⟩
      intro x s hs
      rw [get_setSlot wf k1 hr hn _ hs, k2 x s hs, hdel]
      by_cases h1 : x = a ∧ s = r
      · obtain ⟨rfl, rfl⟩ := h1; simp [he, Slot.vals]
      · simp [h1]
    by_cases hlink : (E.M.refs r).opposite ≠ none ∨ (E.M.refs r).containment = true
    · obtain ⟨w1, e1, e2, e3, e4⟩ := inverseAdd_effect (w := w) (a := a) wf hc hfit hlink hn (fun s hs hsn => hg.shape e s hs hsn) hopp hcont
      have hadd : addNew E.M w a r (some e) = some w1 := by
        rw [← e1]
        simp only [addNew, codeOf]
        cases ho : (E.M.refs r).opposite with
        | none => simp [hc a, wf.featureID hr]
        | some r' => simp [hc e, wf.featureID (hfit r' ho)]
      rw [if_pos hlink] at g1
      simp only [Slot.of, ne_eq, reduceCtorEq, not_false_eq_true, ↓reduceIte, Slot.object, removeOld, hadd, Option.bind_eq_bind, Option.bind_some,
        Option.some.injEq] at g1
      exact hfinal w1 e2 e3 e4 g1.symm
    · have ho : (E.M.refs r).opposite = none := by
        cases h : (E.M.refs r).opposite with
        | none => rfl
        | some _ => exact absurd (Or.inl (by simp [h])) hlink
      have hct : (E.M.refs r).containment = false := by
        cases h : (E.M.refs r).containment with
        | false => rfl
        | true => exact absurd (Or.inr h) hlink
      rw [if_neg hlink] at g1
      injection g1 with g1
      exact hfinal w hc (by simp [ho]) (by simp [hct]) g1.symm

end Verif.XMLRefs
