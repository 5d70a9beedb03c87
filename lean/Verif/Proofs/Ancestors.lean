import Verif.Proofs.Graph
import Verif.Spec.Ancestors
/-!
# Proofs about removing and looking upwards
-/

namespace Verif.Ancestors
open Verif.Graph Verif.Ancestors.Spec

variable {M : Meta} {cls : Nat → Nat} {w : World}

theorem find_none (fs : List Nat) (r : Nat) (h : r ∉ fs) : ∀ n i : Nat, Meta.find fs r i n = -1 := by
  intro n
  induction n with
  | zero => intro i; rfl
  | succ n ih =>
    intro i
    rw [Meta.find, if_neg (fun e => h (List.mem_of_getElem? e)), ih]

theorem featureID_none {c r : Nat} (h : r ∉ M.features c) : M.featureID c r = -1 := find_none _ _ h _ _

/-- What removal from the parent does, when the containing reference has no opposite. -/
theorem removeFromParent_eq (wf : WellFormed M) (hg : Good M cls w) {o c r : Nat} (hp : Points M cls w o c r)
    (hn : (M.refs r).opposite = none) :
    removeFromParent M w o = some (if (M.refs r).many
      then setContainer (setSlot w c (M.refs r).declId (.list (((w c).slots (M.refs r).declId).data.erase o))) o none (-1 - (M.refs r).declId)
      else setSlot (setContainer w o none (-1 - (M.refs r).declId)) c (M.refs r).declId .none) := by
  have hK : Holds M w c r o := (hg.own c r o hp.mem hp.cont).2 hp
  have hf : eContainmentFeature M w o = some r := by
    simp only [eContainmentFeature, hp.container, hp.cfid, hg.cls_eq, code, hn]
    rw [if_pos (by omega), show (-1 - (-1 - ((M.refs r).declId : Int))) = (M.refs r).declId by omega, wf.feature hp.mem]
  have hnc := wf.contNot hp.cont
  have hs := hg.shape c r hp.mem hnc
  have hid : M.featureID (w c).cls r = (M.refs r).declId := by rw [hg.cls_eq]; exact wf.featureID hp.mem
  have hneg : ¬ ((-1 : Int) - ((M.refs r).declId : Int) ≥ 0) := by omega
  have hneg' : ¬ (((M.refs r).declId : Int) < 0) := by omega
  simp only [removeFromParent, eContainer, hp.container, hf]
  cases hm : (M.refs r).many with
  | true =>
    simp only [if_true]
    simp only [Shape, hm, if_true] at hs
    simp only [Holds] at hK
    have hmem : o ∈ ((w c).slots (M.refs r).declId).data := by
      rcases hs with hs | ⟨l, -, hs⟩
      · rw [hs] at hK; simp [Slot.vals] at hK
      · rw [hs] at hK ⊢; simpa [Slot.vals, Slot.data] using hK
    simp only [listOp, hid, hneg', if_false, Int.toNat_natCast, hmem, if_true, listInverseRemoves,
      listInverseRemove, hn, hp.cont, inverseRemove, hneg, Option.bind_some]
  | false =>
    simp only [Bool.false_eq_true, if_false]
    simp only [Shape, hm, Bool.false_eq_true, if_false] at hs
    have hslot : (w c).slots (M.refs r).declId = .obj o := by
      simp only [Holds] at hK
      rcases hs with hs | ⟨x, hs⟩
      · rw [hs] at hK; simp [Slot.vals] at hK
      · rw [hs] at hK ⊢; simp [Slot.vals] at hK; rw [hK]
    simp only [eUnset, hid, hneg', if_false, hnc, Bool.false_eq_true, hn, hp.cont, or_true, if_true, Int.toNat_natCast,
      hslot, ne_eq, reduceCtorEq, not_false_eq_true, Slot.object, removeOld, inverseRemove, hneg, Option.map_some]

theorem erase_filter (l : List Nat) (h : l.Nodup) (o : Nat) : l.erase o = l.filter (· ≠ o) := by
  rw [h.erase_eq_filter]
  congr 1
  funext x
  by_cases hx : x = o <;> simp [hx]

theorem filter_self (l : List Nat) (o : Nat) (h : o ∉ l) : l.filter (· ≠ o) = l := by
  rw [List.filter_eq_self]
  intro x hx
  simp only [ne_eq, decide_eq_true_eq]
  rintro rfl
  exact h hx

theorem remove_without (wf : WellFormed M) (s : State) (hg : Good M cls s.graph) (hr : Rooted s) (o : Nat)
    (hn : ∀ r : Nat, eContainingFeature M s.graph o = some r → (M.refs r).opposite = none) :
    ∃ s' : State, remove M s o = some s' ∧ Without M cls s s' o := by
  -- the graph
  have graph : ∃ w' : World, removeFromParent M s.graph o = some w' ∧ eContainer w' o = none ∧
      (∀ a r : Nat, r ∈ M.features (cls a) → (M.refs r).containment = true →
        eGet M w' a r = (eGet M s.graph a r).filter (· ≠ o)) ∧
      (∀ a r : Nat, r ∈ M.features (cls a) → (M.refs r).containment = false →
        eGet M w' a r = eGet M s.graph a r) ∧
      (∀ p : Nat, p ≠ o → eContainer w' p = eContainer s.graph p ∧
        eContainingFeature M w' p = eContainingFeature M s.graph p) := by
    cases hc : eContainer s.graph o with
    | none =>
      refine ⟨s.graph, by simp [removeFromParent, hc], hc, ?_, fun _ _ _ _ => rfl, fun _ _ => ⟨rfl, rfl⟩⟩
      intro a r ha hcont
      rw [filter_self]
      intro hm
      have := ((hg.contained wf).1 a r o ha hcont).1 hm
      rw [hc] at this
      simp at this
    | some c =>
      obtain ⟨r, hp⟩ := hg.code o c hc
      have hrf := hp.feature wf hg
      have hno := hn r hrf
      refine ⟨_, removeFromParent_eq wf hg hp hno, ?_, ?_, ?_, ?_⟩
      · split <;> simp [eContainer, setContainer_container]
      · intro a t ha hct
        have hnt := wf.contNot hct
        have hidt : M.featureID (cls a) t = (M.refs t).declId := wf.featureID ha
        have hst := hg.shape a t ha hnt
        -- another slot does not hold the object
        have hother : ¬ (a = c ∧ t = r) → o ∉ eGet M s.graph a t := by
          intro hne hm
          have h2 := ((hg.contained wf).1 a t o ha hct).1 hm
          rw [hc, hrf] at h2
          simp only [Option.some.injEq] at h2
          exact hne ⟨h2.1.symm, h2.2.symm⟩
        by_cases hsame : a = c ∧ t = r
        · obtain ⟨rfl, rfl⟩ := hsame
          have hK : Holds M s.graph a t o := (hg.own a t o hp.mem hp.cont).2 hp
          cases hm : (M.refs t).many with
          | true =>
            simp only [Shape, hm, if_true] at hst
            simp only [Holds] at hK
            rcases hst with hst | ⟨l, hl, hst⟩
            · rw [hst] at hK; simp [Slot.vals] at hK
            · simp only [eGet, hnt, Bool.false_eq_true, if_false, if_true, setContainer_slots, setContainer_cls, setSlot_cls,
                hg.cls_eq, hidt, Int.toNat_natCast, setSlot_slots, and_self, hst, Slot.data]
              exact erase_filter l hl o
          | false =>
            simp only [Shape, hm, Bool.false_eq_true, if_false] at hst
            simp only [Holds] at hK
            rcases hst with hst | ⟨x, hst⟩
            · rw [hst] at hK; simp [Slot.vals] at hK
            · rw [hst] at hK
              simp only [Slot.vals, List.mem_singleton] at hK
              subst hK
              simp [eGet, hnt, setContainer_cls, setSlot_cls, hg.cls_eq, hidt, setSlot_slots, hst]
        · rw [filter_self _ _ (hother hsame)]
          have hslot : ¬ (a = c ∧ (M.refs t).declId = (M.refs r).declId) := by
            rintro ⟨rfl, he⟩
            exact hsame ⟨rfl, wf.inj ha hp.mem he⟩
          split <;>
            simp only [eGet, hnt, Bool.false_eq_true, if_false, setContainer_slots, setContainer_cls, setSlot_cls,
              hg.cls_eq, hidt, Int.toNat_natCast, setSlot_slots, if_neg hslot]
      · intro a t ha hct
        have hidt : M.featureID (cls a) t = (M.refs t).declId := wf.featureID ha
        have hslot : ¬ (a = c ∧ (M.refs t).declId = (M.refs r).declId) := by
          rintro ⟨rfl, he⟩
          have := wf.inj ha hp.mem he
          rw [this, hp.cont] at hct
          simp at hct
        cases hic : M.isContainer t with
        | false =>
          split <;>
            simp only [eGet, hic, Bool.false_eq_true, if_false, setContainer_slots, setContainer_cls, setSlot_cls,
              hg.cls_eq, hidt, Int.toNat_natCast, setSlot_slots, if_neg hslot]
        | true =>
          by_cases hao : a = o
          · subst hao
            have hcf : (s.graph a).cfid ≠ M.featureID (cls a) t := by
              rw [hp.cfid, hidt]
              simp only [code, hno]
              omega
            split <;>
              simp only [eGet, hic, if_true, setContainer_cls, setSlot_cls, setContainer_cfid, setSlot_cfid,
                setContainer_container, setSlot_container, hg.cls_eq, if_neg hcf, Option.toList_none, ite_self]
          · split <;>
              simp only [eGet, hic, if_true, setContainer_cls, setSlot_cls, setContainer_cfid, setSlot_cfid,
                setContainer_container, setSlot_container, if_neg hao]
      · intro p hpo
        split <;>
          simp only [eContainer, eContainingFeature, setContainer_cls, setSlot_cls, setContainer_cfid, setSlot_cfid,
            setContainer_container, setSlot_container, if_neg hpo, and_self]
  obtain ⟨w', h1, h2, h3, h4, h5⟩ := graph
  refine ⟨removeFromResource { s with graph := w' } o, by simp [remove, h1], ?_⟩
  have hgr : (removeFromResource { s with graph := w' } o).graph = w' := by
    simp only [removeFromResource]; split <;> rfl
  have hroots : ∀ r : Nat, (removeFromResource { s with graph := w' } o).contents r = (s.contents r).filter (· ≠ o) := by
    intro r
    simp only [removeFromResource]
    split
    · rename_i hres
      rw [filter_self]
      intro hm
      have := (hr r o).2.1 hm
      rw [hres] at this
      simp at this
    · rename_i r' hres
      simp only
      split
      · rename_i he
        rw [he]; exact erase_filter _ (hr r' o).1 o
      · rename_i he
        rw [filter_self]
        intro hm
        have := (hr r o).2.1 hm
        rw [hres] at this
        simp only [Option.some.injEq] at this
        exact he this.symm
  have hres : ∀ p : Nat, (removeFromResource { s with graph := w' } o).resource p = if p = o then none else s.resource p := by
    intro p
    simp only [removeFromResource]
    split
    · rename_i hres
      split
      · rename_i he; rw [he]; exact hres
      · rfl
    · rfl
  exact {
    container := by rw [hgr]; exact h2
    resource := by rw [hres]; simp
    nowhere := by
      intro a r ha hc hm
      rw [hgr, h3 a r ha hc] at hm
      simp at hm
    noRoot := by intro r hm; rw [hroots] at hm; simp at hm
    values := by intro a r ha hc; rw [hgr]; exact h3 a r ha hc
    others := by intro a r ha hc; rw [hgr]; exact h4 a r ha hc
    containers := by intro p hp; rw [hgr]; exact h5 p hp
    roots := hroots
    resources := by intro p hp; rw [hres, if_neg hp] }

/-- A removal when the containing reference has an opposite: it is that reference of the container that is unset. -/
theorem removeFromParent_opposite (wf : WellFormed M) (hg : Good M cls w) {o c r r' : Nat} (hp : Points M cls w o c r)
    (ho : (M.refs r).opposite = some r') : removeFromParent M w o = eUnset M w c r' := by
  have hf : eContainmentFeature M w o = some r' := by
    simp only [eContainmentFeature, hp.container, hp.cfid, hg.cls_eq, code, ho]
    rw [if_neg (by omega), wf.feature (hp.fits r' ho)]
  simp only [removeFromParent, eContainer, hp.container, hf, (wf.cont r r' hp.cont ho).2, Bool.false_eq_true, if_false]

/-! ### Upwards -/

theorem isAncestor_sound : ∀ (fuel : Nat) (a : Nat) (o : Nat) (b : Bool),
    isAncestor w (some a) fuel (some o) = some b → (b = true ↔ Inside w a o) := by
  intro fuel
  induction fuel with
  | zero => intro a o b h; simp [isAncestor] at h
  | succ fuel ih =>
    intro a o b h
    rw [isAncestor] at h
    by_cases he : some o = some a
    · rw [if_pos he] at h
      simp only [Option.some.injEq] at h he
      subst h; subst he
      simp [Inside.self]
    · rw [if_neg he] at h
      have hne : o ≠ a := fun e => he (by rw [e])
      cases hc : eContainer w o with
      | none =>
        rw [hc] at h
        cases fuel with
        | zero => simp [isAncestor] at h
        | succ fuel =>
          simp [isAncestor] at h
          subst h
          simp only [Bool.false_eq_true, false_iff]
          intro hi
          cases hi with
          | self => exact hne rfl
          | up _ c h2 h1 => rw [hc] at h2; simp at h2
      | some c =>
        rw [hc] at h
        rw [ih a c b h]
        constructor
        · exact fun hi => Inside.up o c hc hi
        · intro hi
          cases hi with
          | self => exact absurd rfl hne
          | up _ c' h2 h1 =>
            rw [hc] at h2
            simp only [Option.some.injEq] at h2
            rw [h2]; exact h1

theorem isAncestor_ends (x : Option Nat) {o : Nat} (h : Grounded w o) :
    ∃ n : Nat, ∀ m : Nat, n ≤ m → isAncestor w x m (some o) ≠ none := by
  induction h with
  | root o hc =>
    refine ⟨2, fun m hm => ?_⟩
    obtain ⟨k, rfl⟩ : ∃ k, m = k + 2 := ⟨m - 2, by omega⟩
    rw [isAncestor]
    split
    · simp
    · rw [hc]; simp [isAncestor]
  | up o c hc _ ih =>
    obtain ⟨n, hn⟩ := ih
    refine ⟨n + 1, fun m hm => ?_⟩
    obtain ⟨k, rfl⟩ : ∃ k, m = k + 1 := ⟨m - 1, by omega⟩
    rw [isAncestor]
    split
    · simp
    · rw [hc]; exact hn k (by omega)

theorem getAncestor_sound (k : Nat) : ∀ (fuel : Nat) (o : Nat) (x : Option Nat),
    getAncestor w k fuel (some o) = some x →
    match x with
    | some x => Inside w x o ∧ (w x).cls = k ∧ ∀ y : Nat, Inside w y o → (w y).cls = k → Inside w y x
    | none => ∀ y : Nat, Inside w y o → (w y).cls ≠ k := by
  intro fuel
  induction fuel with
  | zero => intro o x h; simp [getAncestor] at h
  | succ fuel ih =>
    intro o x h
    rw [getAncestor] at h
    by_cases he : (w o).cls = k
    · rw [if_pos he] at h
      simp only [Option.some.injEq] at h
      subst h
      exact ⟨Inside.self, he, fun y hy _ => hy⟩
    · rw [if_neg he] at h
      cases hc : eContainer w o with
      | none =>
        rw [hc] at h
        cases fuel with
        | zero => simp [getAncestor] at h
        | succ fuel =>
          simp [getAncestor] at h
          subst h
          intro y hy
          cases hy with
          | self => exact he
          | up _ c h2 h1 => rw [hc] at h2; simp at h2
      | some c =>
        rw [hc] at h
        have := ih c x h
        have hup : ∀ y : Nat, Inside w y o → (w y).cls = k → Inside w y c := by
          intro y hy hk
          cases hy with
          | self => exact absurd hk he
          | up _ c' h2 h1 =>
            rw [hc] at h2
            simp only [Option.some.injEq] at h2
            rw [h2]; exact h1
        cases x with
        | some x =>
          obtain ⟨h1, h2, h3⟩ := this
          exact ⟨Inside.up o c hc h1, h2, fun y hy hk => h3 y (hup y hy hk) hk⟩
        | none => exact fun y hy hk => this y (hup y hy hk) hk

theorem getAncestor_ends (k : Nat) {o : Nat} (h : Grounded w o) :
    ∃ n : Nat, ∀ m : Nat, n ≤ m → getAncestor w k m (some o) ≠ none := by
  induction h with
  | root o hc =>
    refine ⟨2, fun m hm => ?_⟩
    obtain ⟨j, rfl⟩ : ∃ j, m = j + 2 := ⟨m - 2, by omega⟩
    rw [getAncestor]
    split
    · simp
    · rw [hc]; simp [getAncestor]
  | up o c hc _ ih =>
    obtain ⟨n, hn⟩ := ih
    refine ⟨n + 1, fun m hm => ?_⟩
    obtain ⟨j, rfl⟩ : ∃ j, m = j + 1 := ⟨m - 1, by omega⟩
    rw [getAncestor]
    split
    · simp
    · rw [hc]; exact hn j (by omega)

/-- When the containers of an object go round, looking for something that is not among them has no end. -/
theorem isAncestor_cycle (a : Nat) (o : Nat) (hloop : ∀ x : Nat, Inside w x o → ∃ c : Nat, eContainer w x = some c)
    (hne : ¬ Inside w a o) : ∀ n : Nat, isAncestor w (some a) n (some o) = none := by
  intro n
  induction n generalizing o with
  | zero => rfl
  | succ n ih =>
    rw [isAncestor, if_neg (by
      intro e
      simp only [Option.some.injEq] at e
      subst e
      exact hne Inside.self)]
    obtain ⟨c, hc⟩ := hloop o Inside.self
    rw [hc]
    exact ih c (fun x hx => hloop x (Inside.up o c hc hx)) (fun h => hne (Inside.up o c hc h))

end Verif.Ancestors
