import Verif.Spec.Graph
import Verif.Proofs.EList

/-! # Proofs about object graphs -/

namespace Verif.Graph

variable {M : Meta} {cls : Nat → Nat} {w w' : World} {K : Nat → Nat → Nat → Prop}

@[simp] theorem setSlot_cls (w : World) (o id : Nat) (v : Slot) (x : Nat) : (setSlot w o id v x).cls = (w x).cls := by
  simp only [setSlot]; split <;> simp_all

@[simp] theorem setSlot_container (w : World) (o id : Nat) (v : Slot) (x : Nat) : (setSlot w o id v x).container = (w x).container := by
  simp only [setSlot]; split <;> simp_all

@[simp] theorem setSlot_cfid (w : World) (o id : Nat) (v : Slot) (x : Nat) : (setSlot w o id v x).cfid = (w x).cfid := by
  simp only [setSlot]; split <;> simp_all

theorem setSlot_slots (w : World) (o id : Nat) (v : Slot) (x i : Nat) :
    (setSlot w o id v x).slots i = if x = o ∧ i = id then v else (w x).slots i := by
  simp only [setSlot]; split <;> simp_all

@[simp] theorem setContainer_cls (w : World) (o : Nat) (c : Option Nat) (id : Int) (x : Nat) : (setContainer w o c id x).cls = (w x).cls := by
  simp only [setContainer]; split <;> simp_all

@[simp] theorem setContainer_slots (w : World) (o : Nat) (c : Option Nat) (id : Int) (x : Nat) :
    (setContainer w o c id x).slots = (w x).slots := by
  simp only [setContainer]; split <;> simp_all

theorem setContainer_container (w : World) (o : Nat) (c : Option Nat) (id : Int) (x : Nat) :
    (setContainer w o c id x).container = if x = o then c else (w x).container := by
  simp only [setContainer]; split <;> simp_all

theorem setContainer_cfid (w : World) (o : Nat) (c : Option Nat) (id : Int) (x : Nat) :
    (setContainer w o c id x).cfid = if x = o then id else (w x).cfid := by
  simp only [setContainer]; split <;> simp_all

/-- the objects in a slot -/
def Slot.vals : Slot → List Nat
  | .none => []
  | .obj o => [o]
  | .list l => l

def Holds (M : Meta) (w : World) (x s q : Nat) : Prop := q ∈ ((w x).slots (M.refs s).declId).vals

/-- slots of many valued references hold lists without duplicates, those of single ones objects -/
def Shape (M : Meta) (s : Nat) (v : Slot) : Prop :=
  if (M.refs s).many then v = .none ∨ ∃ l : List Nat, l.Nodup ∧ v = .list l else v = .none ∨ ∃ o, v = .obj o

/-- how the containing feature is encoded in the content -/
def code (M : Meta) (s : Nat) : Int :=
  match (M.refs s).opposite with
  | some s' => (M.refs s').declId
  | none => -1 - (M.refs s).declId

/-- `q` points to its container `x` and its containing feature `s` -/
structure Points (M : Meta) (cls : Nat → Nat) (w : World) (q x s : Nat) : Prop where
  container : (w q).container = some x
  cfid : (w q).cfid = code M s
  mem : s ∈ M.features (cls x)
  cont : (M.refs s).containment = true
  fits : Fits M cls s q

/-- The graph is consistent for the values `K`. -/
structure Inv (M : Meta) (cls : Nat → Nat) (w : World) (K : Nat → Nat → Nat → Prop) : Prop where
  cls_eq : ∀ x, (w x).cls = cls x
  shape : ∀ x s, s ∈ M.features (cls x) → M.isContainer s = false → Shape M s ((w x).slots (M.refs s).declId)
  own : ∀ x s q, s ∈ M.features (cls x) → (M.refs s).containment = true → (K x s q ↔ Points M cls w q x s)
  code : ∀ q x, (w q).container = some x → ∃ s, Points M cls w q x s
  fits : ∀ x s y s', s ∈ M.features (cls x) → (M.refs s).opposite = some s' → M.isContainer s = false →
    (M.refs s).containment = false → K x s y → s' ∈ M.features (cls y)
  bi : ∀ x s y s', s ∈ M.features (cls x) → s' ∈ M.features (cls y) → (M.refs s).opposite = some s' → M.isContainer s = false →
    (M.refs s).containment = false → (K x s y ↔ K y s' x)

/-- `K` are the values of the graph, but for the slots `B` -/
def Off (M : Meta) (cls : Nat → Nat) (w : World) (K : Nat → Nat → Nat → Prop) (B : Nat → Nat → Prop) : Prop :=
  ∀ x s q, s ∈ M.features (cls x) → M.isContainer s = false → ¬ B x s → (K x s q ↔ Holds M w x s q)

/-! ### Feature IDs -/

theorem WellFormed.feature (wf : WellFormed M) {c r : Nat} (h : r ∈ M.features c) : M.feature c (M.refs r).declId = some r := by
  simp only [Meta.feature]
  rw [if_neg (by omega)]
  simpa using wf.ids c r h

theorem WellFormed.featureID (wf : WellFormed M) {c r : Nat} (h : r ∈ M.features c) : M.featureID c r = (M.refs r).declId := by
  have h1 := wf.ids c r h
  have h2 := (List.getElem?_eq_some_iff.mp h1).1
  simp only [Meta.featureID]
  obtain ⟨n, hn⟩ : ∃ n, (M.features c).length - (M.refs r).declId = n + 1 := ⟨_, (Nat.succ_pred_eq_of_pos (by omega)).symm⟩
  rw [hn, Meta.find, if_pos h1]

theorem WellFormed.inj (wf : WellFormed M) {c r s : Nat} (hr : r ∈ M.features c) (hs : s ∈ M.features c)
    (h : (M.refs r).declId = (M.refs s).declId) : r = s := by
  have h1 := wf.ids c r hr
  have h2 := wf.ids c s hs
  rw [h, h2] at h1
  injection h1 with h1
  exact h1.symm

theorem WellFormed.contNot (wf : WellFormed M) {r : Nat} (h : (M.refs r).containment = true) : M.isContainer r = false := by
  simp only [Meta.isContainer]
  split
  · rename_i r' hr; exact (wf.cont r r' h hr).1
  · rfl

theorem isContainer_opp {r r' : Nat} (h : (M.refs r).opposite = some r') : M.isContainer r = (M.refs r').containment := by
  simp [Meta.isContainer, h]

theorem Points.unique (wf : WellFormed M) {q x s y t : Nat} (h1 : Points M cls w q x s) (h2 : Points M cls w q y t) : x = y ∧ s = t := by
  have hx : x = y := by have := h1.container; rw [h2.container] at this; injection this with this; exact this.symm
  subst hx
  refine ⟨rfl, ?_⟩
  have hc := h1.cfid
  rw [h2.cfid] at hc
  simp only [Graph.code] at hc
  have f1 := h1.fits
  have f2 := h2.fits
  simp only [Fits] at f1 f2
  split at hc
  · rename_i t' ht
    split at hc
    · rename_i s' hs
      have : t' = s' := wf.inj (f2 t' ht) (f1 s' hs) (by omega)
      subst this
      have a1 := (wf.opp t t' ht).1
      have a2 := (wf.opp s t' hs).1
      rw [a1] at a2
      injection a2 with a2
      exact a2.symm
    · omega
  · split at hc
    · omega
    · exact wf.inj h1.mem h2.mem (by omega)

theorem holds_setSlot (wf : WellFormed M) {o t : Nat} (ht : t ∈ M.features (cls o)) (v : Slot) {x s : Nat} (hs : s ∈ M.features (cls x)) (q : Nat) :
    Holds M (setSlot w o (M.refs t).declId v) x s q ↔ if x = o ∧ s = t then q ∈ v.vals else Holds M w x s q := by
  simp only [Holds, setSlot_slots]
  by_cases hx : x = o
  · subst hx
    by_cases hst : s = t
    · subst hst; simp
    · have : (M.refs s).declId ≠ (M.refs t).declId := fun he => hst (wf.inj hs ht he)
      simp [hst, this]
  · simp [hx]

/-! ### Removing from a slot -/

def Slot.erase (v : Slot) (o : Nat) : Slot :=
  match v with
  | .list l => .list (l.erase o)
  | _ => .none

theorem vals_erase {s o : Nat} {v : Slot} (hv : Shape M s v) (h : o ∈ v.vals) (q : Nat) : q ∈ (v.erase o).vals ↔ q ∈ v.vals ∧ q ≠ o := by
  simp only [Shape] at hv
  split at hv
  · rcases hv with rfl | ⟨l, hl, rfl⟩
    · simp [Slot.vals] at h
    · simp only [Slot.erase, Slot.vals]
      rw [hl.mem_erase_iff]
      exact And.comm
  · rcases hv with rfl | ⟨p, rfl⟩
    · simp [Slot.vals] at h
    · simp only [Slot.vals, List.mem_singleton] at h
      subst h
      simp [Slot.erase, Slot.vals]

theorem shape_erase {s o : Nat} {v : Slot} (hv : Shape M s v) : Shape M s (v.erase o) := by
  simp only [Shape] at hv ⊢
  split at hv
  · rename_i hm
    rw [if_pos hm]
    rcases hv with rfl | ⟨l, hl, rfl⟩
    · exact Or.inl rfl
    · exact Or.inr ⟨_, hl.erase _, rfl⟩
  · rename_i hm
    rw [if_neg hm]
    rcases hv with rfl | ⟨p, rfl⟩ <;> exact Or.inl rfl

theorem inverseRemove_slot (wf : WellFormed M) (h : Inv M cls w K) {x s o : Nat} (hs : s ∈ M.features (cls x)) (hn : M.isContainer s = false)
    (ho : Holds M w x s o) :
    inverseRemove M w x o (M.refs s).declId = some (setSlot w x (M.refs s).declId (((w x).slots (M.refs s).declId).erase o)) := by
  have hsh := h.shape x s hs hn
  simp only [inverseRemove]
  rw [if_pos (by omega), h.cls_eq x, wf.feature hs]
  simp only [Int.toNat_natCast, hn, Bool.false_eq_true, ↓reduceIte]
  simp only [Shape] at hsh
  simp only [Holds] at ho
  split at hsh
  · rename_i hm
    rw [if_pos hm]
    rcases hsh with he | ⟨l, -, he⟩
    · rw [he] at ho; simp [Slot.vals] at ho
    · rw [he]; rfl
  · rename_i hm
    rw [if_neg hm]
    rcases hsh with he | ⟨p, he⟩
    · rw [he] at ho; simp [Slot.vals] at ho
    · rw [he]; rfl

theorem removeFromContainer_spec (wf : WellFormed M) (h : Inv M cls w K) {B : Nat → Nat → Prop} (off : Off M cls w K B) (o : Nat)
    (hB : ∀ x s, Points M cls w o x s → ¬ B x s) :
    ∃ w', removeFromContainer M w o = some w' ∧ (∀ x, (w' x).cls = (w x).cls ∧ (w' x).container = (w x).container ∧ (w' x).cfid = (w x).cfid) ∧
      (∀ x s, s ∈ M.features (cls x) → M.isContainer s = false → Shape M s ((w' x).slots (M.refs s).declId)) ∧
      (∀ x s, s ∈ M.features (cls x) → B x s → (w' x).slots (M.refs s).declId = (w x).slots (M.refs s).declId) ∧
      (∀ x s q, s ∈ M.features (cls x) → (Holds M w' x s q ↔ Holds M w x s q ∧ ¬ (q = o ∧ Points M cls w o x s))) := by
  cases hc : (w o).container with
  | none =>
    have hno : ∀ x s, ¬ Points M cls w o x s := fun x s hp => by have := hp.container; rw [hc] at this; simp at this
    refine ⟨w, ?_, fun x => ⟨rfl, rfl, rfl⟩, h.shape, fun _ _ _ _ => rfl, fun x s q _ => by simp [hno]⟩
    simp only [removeFromContainer, hc]
    split
    · split <;> rfl
    · rfl
  | some x =>
    obtain ⟨s, hp⟩ := h.code o x hc
    have hn := wf.contNot hp.cont
    have hK : K x s o := (h.own x s o hp.mem hp.cont).2 hp
    have hH := (off x s o hp.mem hn (hB x s hp)).1 hK
    have hrem := inverseRemove_slot wf h hp.mem hn hH
    have hsh := h.shape x s hp.mem hn
    refine ⟨setSlot w x (M.refs s).declId (((w x).slots (M.refs s).declId).erase o), ?_, by simp, ?_, ?_, ?_⟩
    · rw [← hrem]
      simp only [removeFromContainer, hc, hp.cfid, Graph.code]
      cases ho : (M.refs s).opposite with
      | none =>
        simp only []
        rw [if_neg (by omega)]
        congr 1
        omega
      | some s' =>
        simp only []
        rw [if_pos (by omega), h.cls_eq o, wf.feature (hp.fits s' ho)]
        simp only [(wf.opp s s' ho).1]
    · intro y t ht hnt
      rw [setSlot_slots]
      split
      · rename_i hc'
        obtain ⟨rfl, he⟩ := hc'
        have := wf.inj ht hp.mem he
        subst this
        exact shape_erase hsh
      · exact h.shape y t ht hnt
    · intro y t ht hBt
      rw [setSlot_slots]
      split
      · rename_i hc'
        obtain ⟨rfl, he⟩ := hc'
        have := wf.inj ht hp.mem he
        subst this
        exact absurd hBt (hB _ _ hp)
      · rfl
    · intro y t q ht
      rw [holds_setSlot wf hp.mem _ ht]
      split
      · rename_i hc'
        obtain ⟨rfl, rfl⟩ := hc'
        rw [vals_erase hsh hH]
        simp [Holds, hp]
      · rename_i hc'
        have : ¬ Points M cls w o y t := fun hp2 => hc' (by obtain ⟨h1, h2⟩ := hp2.unique wf hp; exact ⟨h1, h2⟩)
        simp [this]

/-! ### The other end -/

theorem shape_setSlot (wf : WellFormed M) (h : ∀ x s, s ∈ M.features (cls x) → M.isContainer s = false → Shape M s ((w x).slots (M.refs s).declId))
    {o t : Nat} (ht : t ∈ M.features (cls o)) {v : Slot} (hv : Shape M t v) {x s : Nat} (hs : s ∈ M.features (cls x)) (hn : M.isContainer s = false) :
    Shape M s ((setSlot w o (M.refs t).declId v x).slots (M.refs s).declId) := by
  rw [setSlot_slots]
  split
  · rename_i hc
    obtain ⟨rfl, he⟩ := hc
    have := wf.inj hs ht he
    subst this
    exact hv
  · exact h x s hs hn

theorem points_congr {q x s : Nat} (h1 : (w' q).container = (w q).container) (h2 : (w' q).cfid = (w q).cfid) :
    Points M cls w' q x s ↔ Points M cls w q x s := by
  constructor
  · rintro ⟨a, b, c, d, e⟩; exact ⟨h1 ▸ a, h2 ▸ b, c, d, e⟩
  · rintro ⟨a, b, c, d, e⟩; exact ⟨h1 ▸ a, h2 ▸ b, c, d, e⟩

/-- `e.EInverseRemove(a, …)` when `e` is a value of the reference `r` of `a` for the other objects -/
theorem inverseRemove_link (wf : WellFormed M) {a r e : Nat} (hr : r ∈ M.features (cls a)) (hn : M.isContainer r = false)
    (hl : (M.refs r).containment = true ∨ (M.refs r).opposite ≠ none)
    (h : Inv M cls w K) (off : Off M cls w K fun x s => x = a ∧ s = r) (hK : K a r e) :
    ∃ w' K', inverseRemove M w e a (code M r) = some w' ∧ Inv M cls w' K' ∧ Off M cls w' K' (fun x s => x = a ∧ s = r) ∧
      (w' a).slots (M.refs r).declId = (w a).slots (M.refs r).declId ∧ ∀ q, K' a r q ↔ K a r q ∧ q ≠ e := by
  by_cases hc : (M.refs r).containment = true
  · have hp := (h.own a r e hr hc).1 hK
    have hrem : ∃ id, inverseRemove M w e a (code M r) = some (setContainer w e none id) := by
      simp only [code]
      cases ho : (M.refs r).opposite with
      | none =>
        simp only [inverseRemove]
        exact ⟨_, by rw [if_neg (by omega)]⟩
      | some r' =>
        have hr' := hp.fits r' ho
        obtain ⟨-, hm⟩ := wf.cont r r' hc ho
        have hco : M.isContainer r' = true := by rw [isContainer_opp (wf.opp r r' ho).1]; exact hc
        simp only [inverseRemove]
        rw [if_pos (by omega), h.cls_eq e, wf.feature hr']
        simp only [hm, hco, Bool.false_eq_true, ↓reduceIte]
        exact ⟨_, rfl⟩
    obtain ⟨id, hrem⟩ := hrem
    have hpe : ∀ q x s, Points M cls (setContainer w e none id) q x s ↔ q ≠ e ∧ Points M cls w q x s := by
      intro q x s
      by_cases hq : q = e
      · subst hq
        simp only [ne_eq, not_true_eq_false, false_and, iff_false]
        intro hp'
        have := hp'.container
        simp [setContainer_container] at this
      · rw [points_congr (w := w) (by simp [setContainer_container, hq]) (by simp [setContainer_cfid, hq])]
        simp [hq]
    refine ⟨_, fun x s q => K x s q ∧ ¬ ((M.refs s).containment = true ∧ q = e), hrem, ?_, ?_, by simp, ?_⟩
    · refine ⟨by simp [h.cls_eq], by simpa using h.shape, ?_, ?_, ?_, ?_⟩
      · intro x s q hs hcs
        rw [hpe, h.own x s q hs hcs]
        simp [hcs, and_comm]
      · intro q x hq
        rw [setContainer_container] at hq
        split at hq
        · simp at hq
        · rename_i hne
          obtain ⟨s, hs⟩ := h.code q x hq
          exact ⟨s, (hpe q x s).2 ⟨hne, hs⟩⟩
      · intro x s y s' hs ho hns hcs hk
        exact h.fits x s y s' hs ho hns hcs hk.1
      · intro x s y s' hs hs' ho hns hcs
        have : (M.refs s').containment = false := by rw [← isContainer_opp ho]; exact hns
        simp [hcs, this, h.bi x s y s' hs hs' ho hns hcs]
    · intro x s q hs hns hB
      have hh : Holds M (setContainer w e none id) x s q ↔ Holds M w x s q := by simp [Holds]
      rw [hh, ← off x s q hs hns hB]
      constructor
      · exact fun hk => hk.1
      · refine fun hk => ⟨hk, ?_⟩
        rintro ⟨hcs, rfl⟩
        have hp2 := (h.own x s q hs hcs).1 hk
        exact hB (hp2.unique wf hp)
    · intro q
      simp [hc]
  · have hcf : (M.refs r).containment = false := by simpa using hc
    obtain ⟨r', ho⟩ : ∃ r', (M.refs r).opposite = some r' := by
      rcases hl with hl | hl
      · exact absurd hl hc
      · exact Option.ne_none_iff_exists'.mp hl
    obtain ⟨ho', hne⟩ := wf.opp r r' ho
    have hr' := h.fits a r e r' hr ho hn hcf hK
    have hn' : M.isContainer r' = false := by rw [isContainer_opp ho']; exact hcf
    have hcf' : (M.refs r').containment = false := by rw [← isContainer_opp ho]; exact hn
    have hK' := (h.bi a r e r' hr hr' ho hn hcf).1 hK
    have hH := (off e r' a hr' hn' (fun hh => hne hh.2)).1 hK'
    have hrem := inverseRemove_slot wf h hr' hn' hH
    have hsh := h.shape e r' hr' hn'
    have hcode : code M r = (M.refs r').declId := by simp [code, ho]
    rw [hcode]
    refine ⟨_, fun x s q => K x s q ∧ ¬ (x = a ∧ s = r ∧ q = e) ∧ ¬ (x = e ∧ s = r' ∧ q = a), hrem, ?_, ?_, ?_, ?_⟩
    · refine ⟨by simp [h.cls_eq], fun x s hs hns => shape_setSlot wf h.shape hr' (shape_erase hsh) hs hns, ?_, ?_, ?_, ?_⟩
      · intro x s q hs hcs
        have h1 : s ≠ r := by rintro rfl; exact hc hcs
        have h2 : s ≠ r' := by rintro rfl; simp [hcf'] at hcs
        rw [points_congr (w := w) (by simp) (by simp)]
        simp [h1, h2, h.own x s q hs hcs]
      · intro q x hq
        simp only [setSlot_container] at hq
        obtain ⟨s, hs⟩ := h.code q x hq
        exact ⟨s, (points_congr (by simp) (by simp)).2 hs⟩
      · intro x s y s' hs hos hns hcs hk
        exact h.fits x s y s' hs hos hns hcs hk.1
      · intro x s y s' hs hs' hos hns hcs
        rw [h.bi x s y s' hs hs' hos hns hcs]
        have hos' := (wf.opp s s' hos).1
        have e1 : s = r ↔ s' = r' := by
          constructor
          · rintro rfl; rw [ho] at hos; injection hos with hos; exact hos.symm
          · rintro rfl; rw [ho'] at hos'; injection hos' with hos'; exact hos'.symm
        have e2 : s = r' ↔ s' = r := by
          constructor
          · rintro rfl; rw [ho'] at hos; injection hos with hos; exact hos.symm
          · rintro rfl; rw [ho] at hos'; injection hos' with hos'; exact hos'.symm
        rw [e1, e2]
        grind
    · intro x s q hs hns hB
      rw [holds_setSlot wf hr' _ hs]
      simp only [hB, false_and, not_false_eq_true, true_and]
      by_cases hx : x = e ∧ s = r'
      · obtain ⟨rfl, rfl⟩ := hx
        rw [if_pos ⟨rfl, rfl⟩, vals_erase hsh hH, off x s q hs hns hB]
        have hB' : ¬ (x = a ∧ s = r) := hB
        simp only [true_and]
        constructor
        · rintro ⟨k1, k2, k3⟩; exact ⟨k1, k3⟩
        · rintro ⟨k1, k3⟩; exact ⟨k1, fun hh => hB' ⟨hh.1, hh.2.1⟩, k3⟩
      · rw [if_neg hx, off x s q hs hns hB]
        grind
    · rw [setSlot_slots, if_neg]
      rintro ⟨rfl, he⟩
      exact hne (wf.inj hr hr' he).symm
    · intro q
      have : r ≠ r' := Ne.symm hne
      simp [this]

/-- `e.EInverseAdd(a, …)` when `e` is not yet a value of the reference `r` of `a` for the other objects -/
theorem inverseAdd_link (wf : WellFormed M) {a r e : Nat} (hr : r ∈ M.features (cls a)) (hn : M.isContainer r = false)
    (hl : (M.refs r).containment = true ∨ (M.refs r).opposite ≠ none) (hf : Fits M cls r e)
    (h : Inv M cls w K) (off : Off M cls w K fun x s => x = a ∧ s = r) (hK : ¬ K a r e) :
    ∃ w' K', inverseAdd M w e a (code M r) = some w' ∧ Inv M cls w' K' ∧ Off M cls w' K' (fun x s => x = a ∧ s = r) ∧
      (w' a).slots (M.refs r).declId = (w a).slots (M.refs r).declId ∧ ∀ q, K' a r q ↔ K a r q ∨ q = e := by
  by_cases hc : (M.refs r).containment = true
  · have hB : ∀ x s, Points M cls w e x s → ¬ (x = a ∧ s = r) := by
      rintro x s hp ⟨rfl, rfl⟩
      exact hK ((h.own x s e hr hc).2 hp)
    obtain ⟨w1, r1, r2, r3, r4, r5⟩ := removeFromContainer_spec wf h off e hB
    have hadd : inverseAdd M w e a (code M r) = some (setContainer w1 e (some a) (code M r)) := by
      have hcode : code M r = code M r := rfl
      conv at hcode => rhs; simp only [code]
      cases ho : (M.refs r).opposite with
      | none =>
        rw [ho] at hcode
        simp only at hcode
        rw [hcode]
        simp only [inverseAdd]
        rw [if_neg (by omega), r1]
        rfl
      | some r' =>
        rw [ho] at hcode
        simp only at hcode
        rw [hcode]
        have hr' := hf r' ho
        obtain ⟨-, hm⟩ := wf.cont r r' hc ho
        have hco : M.isContainer r' = true := by rw [isContainer_opp (wf.opp r r' ho).1]; exact hc
        simp only [inverseAdd]
        rw [if_pos (by omega), h.cls_eq e, wf.feature hr']
        simp only [hm, hco, Bool.false_eq_true, ↓reduceIte, wf.featureID hr']
        by_cases hcn : (w e).container = none
        · have : removeFromContainer M w e = some w := by
            simp only [removeFromContainer, hcn]
            split
            · split <;> rfl
            · rfl
          rw [this] at r1
          injection r1 with r1
          subst r1
          simp [hcn]
        · simp [hcn, r1]
    have hpe : ∀ q x s, q ≠ e → (Points M cls (setContainer w1 e (some a) (code M r)) q x s ↔ Points M cls w q x s) := by
      intro q x s hq
      exact points_congr (by simp [setContainer_container, hq, (r2 q).2.1]) (by simp [setContainer_cfid, hq, (r2 q).2.2])
    have hpa : Points M cls (setContainer w1 e (some a) (code M r)) e a r :=
      ⟨by simp [setContainer_container], by simp [setContainer_cfid], hr, hc, hf⟩
    refine ⟨_, fun x s q => if (M.refs s).containment = true ∧ q = e then x = a ∧ s = r else K x s q, hadd, ?_, ?_, ?_, ?_⟩
    · refine ⟨?_, ?_, ?_, ?_, ?_, ?_⟩
      · intro x; simp [(r2 x).1, h.cls_eq]
      · intro x s hs hns; simpa using r3 x s hs hns
      · intro x s q hs hcs
        by_cases hq : q = e
        · subst hq
          simp only [hcs, and_self, ↓reduceIte]
          constructor
          · rintro ⟨rfl, rfl⟩; exact hpa
          · intro hp; exact hp.unique wf hpa
        · simp only [hcs, hq, and_false, ↓reduceIte]
          rw [hpe q x s hq, h.own x s q hs hcs]
      · intro q x hq
        by_cases hqe : q = e
        · subst hqe
          rw [setContainer_container, if_pos rfl] at hq
          injection hq with hq
          subst hq
          exact ⟨r, hpa⟩
        · rw [setContainer_container, if_neg hqe, (r2 q).2.1] at hq
          obtain ⟨s, hs⟩ := h.code q x hq
          exact ⟨s, (hpe q x s hqe).2 hs⟩
      · intro x s y s' hs hos hns hcs hk
        simp only [hcs, Bool.false_eq_true, false_and, ↓reduceIte] at hk
        exact h.fits x s y s' hs hos hns hcs hk
      · intro x s y s' hs hs' hos hns hcs
        have : (M.refs s').containment = false := by rw [← isContainer_opp hos]; exact hns
        simp only [hcs, this, Bool.false_eq_true, false_and, ↓reduceIte]
        exact h.bi x s y s' hs hs' hos hns hcs
    · intro x s q hs hns hBx
      have hh : Holds M (setContainer w1 e (some a) (code M r)) x s q ↔ Holds M w1 x s q := by simp [Holds]
      rw [hh, r5 x s q hs, ← off x s q hs hns hBx]
      by_cases hq : q = e
      · subst hq
        by_cases hcs : (M.refs s).containment = true
        · simp only [hcs, and_self, ↓reduceIte, true_and]
          rw [h.own x s q hs hcs]
          constructor
          · exact fun hh => absurd hh hBx
          · rintro ⟨k1, k2⟩; exact absurd k1 k2
        · have : ¬ Points M cls w q x s := fun hp => hcs hp.cont
          simp [hcs, this]
      · simp [hq]
    · simp only [setContainer_slots]
      exact r4 a r hr ⟨rfl, rfl⟩
    · intro q
      simp only [hc, true_and, and_self]
      by_cases hq : q = e
      · simp [hq]
      · simp [hq]
  · have hcf : (M.refs r).containment = false := by simpa using hc
    obtain ⟨r', ho⟩ : ∃ r', (M.refs r).opposite = some r' := by
      rcases hl with hl | hl
      · exact absurd hl hc
      · exact Option.ne_none_iff_exists'.mp hl
    obtain ⟨ho', hne⟩ := wf.opp r r' ho
    have hr' := hf r' ho
    have hn' : M.isContainer r' = false := by rw [isContainer_opp ho']; exact hcf
    have hcf' : (M.refs r').containment = false := by rw [← isContainer_opp ho]; exact hn
    have hK' : ¬ K e r' a := fun hk => hK ((h.bi a r e r' hr hr' ho hn hcf).2 hk)
    have offe := off e r'
    have hoff : ∀ q, K e r' q ↔ Holds M w e r' q := fun q => off e r' q hr' hn' (fun hh => hne hh.2)
    have hsh := h.shape e r' hr' hn'
    have hcode : code M r = (M.refs r').declId := by simp [code, ho]
    have hsym : ∀ s s', (M.refs s).opposite = some s' → (s = r ↔ s' = r') ∧ (s = r' ↔ s' = r) := by
      intro s s' hos
      have hos' := (wf.opp s s' hos).1
      refine ⟨⟨?_, ?_⟩, ⟨?_, ?_⟩⟩
      · rintro rfl; rw [ho] at hos; injection hos with hos; exact hos.symm
      · rintro rfl; rw [ho'] at hos'; injection hos' with hos'; exact hos'.symm
      · rintro rfl; rw [ho'] at hos; injection hos with hos; exact hos.symm
      · rintro rfl; rw [ho] at hos'; injection hos' with hos'; exact hos'.symm
    rw [hcode]
    by_cases hm : (M.refs r').many = true
    · -- the other end is a list
      obtain ⟨l, hlv, hnd, hla, hadd⟩ : ∃ l : List Nat, (∀ q, q ∈ l ↔ K e r' q) ∧ l.Nodup ∧ a ∉ l ∧
          inverseAdd M w e a (M.refs r').declId = some (setSlot w e (M.refs r').declId (.list (l ++ [a]))) := by
        simp only [Shape, hm, ↓reduceIte] at hsh
        simp only [inverseAdd]
        rw [if_pos (by omega), h.cls_eq e, wf.feature hr']
        simp only [hm, ↓reduceIte, Int.toNat_natCast]
        rcases hsh with he | ⟨l, hnd, he⟩
        · exact ⟨[], by intro q; rw [hoff]; simp [Holds, he, Slot.vals], by simp, by simp, by rw [he]; rfl⟩
        · refine ⟨l, by intro q; rw [hoff]; simp [Holds, he, Slot.vals], hnd, ?_, by rw [he]⟩
          intro hal
          apply hK'
          rw [hoff]
          simpa [Holds, he, Slot.vals] using hal
      refine ⟨_, fun x s q => K x s q ∨ (x = a ∧ s = r ∧ q = e) ∨ (x = e ∧ s = r' ∧ q = a), hadd, ?_, ?_, ?_, ?_⟩
      · refine ⟨by simp [h.cls_eq], fun x s hs hns => shape_setSlot wf h.shape hr' ?_ hs hns, ?_, ?_, ?_, ?_⟩
        · simp only [Shape, hm, ↓reduceIte]
          exact Or.inr ⟨_, by simp [List.nodup_append, hnd]; exact fun b hb hba => hla (hba ▸ hb), rfl⟩
        · intro x s q hs hcs
          have h1 : s ≠ r := by rintro rfl; exact hc hcs
          have h2 : s ≠ r' := by rintro rfl; simp [hcf'] at hcs
          rw [points_congr (w := w) (by simp) (by simp)]
          simp [h1, h2, h.own x s q hs hcs]
        · intro q x hq
          simp only [setSlot_container] at hq
          obtain ⟨s, hs⟩ := h.code q x hq
          exact ⟨s, (points_congr (by simp) (by simp)).2 hs⟩
        · intro x s y s' hs hos hns hcs hk
          rcases hk with hk | ⟨rfl, rfl, rfl⟩ | ⟨rfl, rfl, rfl⟩
          · exact h.fits x s y s' hs hos hns hcs hk
          · rw [ho] at hos; injection hos with hos; subst hos; exact hr'
          · rw [ho'] at hos; injection hos with hos; subst hos; exact hr
        · intro x s y s' hs hs' hos hns hcs
          rw [h.bi x s y s' hs hs' hos hns hcs, (hsym s s' hos).1, (hsym s s' hos).2]
          grind
      · intro x s q hs hns hB
        rw [holds_setSlot wf hr' _ hs]
        by_cases hx : x = e ∧ s = r'
        · obtain ⟨rfl, rfl⟩ := hx
          rw [if_pos ⟨rfl, rfl⟩]
          simp only [Slot.vals, List.mem_append, List.mem_singleton, hlv, true_and]
          have hB' : ¬ (x = a ∧ s = r) := hB
          grind
        · rw [if_neg hx, ← off x s q hs hns hB]
          have hB' : ¬ (x = a ∧ s = r) := hB
          grind
      · rw [setSlot_slots, if_neg]
        rintro ⟨rfl, he⟩
        exact hne (wf.inj hr hr' he).symm
      · intro q
        have : r ≠ r' := Ne.symm hne
        simp [this]
    · -- the other end is single
      have hmf : (M.refs r').many = false := by simpa using hm
      obtain ⟨w1, s1, s2, s3, s4, s5⟩ : ∃ w1, inverseAdd M w e a (M.refs r').declId = some (setSlot w1 e (M.refs r').declId (.obj a)) ∧
          (∀ x, (w1 x).cls = (w x).cls ∧ (w1 x).container = (w x).container ∧ (w1 x).cfid = (w x).cfid) ∧
          (∀ x s, s ∈ M.features (cls x) → M.isContainer s = false → Shape M s ((w1 x).slots (M.refs s).declId)) ∧
          ((w1 a).slots (M.refs r).declId = (w a).slots (M.refs r).declId) ∧
          (∀ x s q, s ∈ M.features (cls x) → M.isContainer s = false → ¬ (x = a ∧ s = r) → (Holds M w1 x s q ↔ Holds M w x s q ∧ ¬ (s = r ∧ q = e))) := by
        simp only [inverseAdd]
        rw [if_pos (by omega), h.cls_eq e, wf.feature hr']
        simp only [hmf, hn', hcf', Bool.false_eq_true, ↓reduceIte, Int.toNat_natCast, ho']
        simp only [Shape, hmf, Bool.false_eq_true, ↓reduceIte] at hsh
        have hre : ∀ x s, s ∈ M.features (cls x) → M.isContainer s = false → ¬ (x = a ∧ s = r) → Holds M w x s e → s = r → K e r' x := by
          rintro x s hs hns hB hh rfl
          exact (h.bi x s e r' hs hr' ho hn hcf).1 ((off x s e hs hns hB).2 hh)
        rcases hsh with he | ⟨x0, he⟩
        · refine ⟨w, by rw [he]; rfl, fun x => ⟨rfl, rfl, rfl⟩, h.shape, rfl, ?_⟩
          intro x s q hs hns hB
          have : ¬ (s = r ∧ q = e ∧ Holds M w x s q) := by
            rintro ⟨hsr, rfl, hh⟩
            have := (hoff x).1 (hre x s hs hns hB hh hsr)
            simp [Holds, he, Slot.vals] at this
          grind
        · have hk0 : K e r' x0 := by rw [hoff]; simp [Holds, he, Slot.vals]
          have hx0 : r ∈ M.features (cls x0) := h.fits e r' x0 r hr' ho' hn' hcf' hk0
          have hk1 : K x0 r e := (h.bi x0 r e r' hx0 hr' ho hn hcf).2 hk0
          have hxa : x0 ≠ a := by rintro rfl; exact hK hk1
          have hB0 : ¬ (x0 = a ∧ r = r) := fun hh => hxa hh.1
          have hH0 := (off x0 r e hx0 hn hB0).1 hk1
          have hrem := inverseRemove_slot wf h hx0 hn hH0
          have hsh0 := h.shape x0 r hx0 hn
          refine ⟨setSlot w x0 (M.refs r).declId (((w x0).slots (M.refs r).declId).erase e), ?_, by simp, ?_, ?_, ?_⟩
          · rw [he]
            simp only [h.cls_eq x0, wf.featureID hx0, hrem, Option.map_some]
          · intro x s hs hns
            exact shape_setSlot wf h.shape hx0 (shape_erase hsh0) hs hns
          · rw [setSlot_slots, if_neg]
            rintro ⟨hh, -⟩
            exact hxa hh.symm
          · intro x s q hs hns hB
            rw [holds_setSlot wf hx0 _ hs]
            split
            · rename_i hc'
              obtain ⟨rfl, rfl⟩ := hc'
              rw [vals_erase hsh0 hH0]
              simp [Holds]
            · rename_i hc'
              have : ¬ (s = r ∧ q = e ∧ Holds M w x s q) := by
                rintro ⟨hsr, rfl, hh⟩
                have hkx := (hoff x).1 (hre x s hs hns hB hh hsr)
                simp [Holds, he, Slot.vals] at hkx
                exact hc' ⟨hkx, hsr⟩
              grind
      refine ⟨_, fun x s q => (x = a ∧ s = r ∧ q = e) ∨ (x = e ∧ s = r' ∧ q = a) ∨ (K x s q ∧ ¬ (s = r ∧ q = e) ∧ ¬ (s = r' ∧ x = e)), s1, ?_, ?_, ?_, ?_⟩
      · refine ⟨by simp [s2, h.cls_eq], fun x s hs hns => shape_setSlot wf s3 hr' ?_ hs hns, ?_, ?_, ?_, ?_⟩
        · simp [Shape, hmf]
        · intro x s q hs hcs
          have h1 : s ≠ r := by rintro rfl; exact hc hcs
          have h2 : s ≠ r' := by rintro rfl; simp [hcf'] at hcs
          rw [points_congr (w := w) (by simp [s2]) (by simp [s2])]
          simp [h1, h2, h.own x s q hs hcs]
        · intro q x hq
          simp only [setSlot_container, s2] at hq
          obtain ⟨s, hs⟩ := h.code q x hq
          exact ⟨s, (points_congr (by simp [s2]) (by simp [s2])).2 hs⟩
        · intro x s y s' hs hos hns hcs hk
          rcases hk with ⟨rfl, rfl, rfl⟩ | ⟨rfl, rfl, rfl⟩ | ⟨hk, -⟩
          · rw [ho] at hos; injection hos with hos; subst hos; exact hr'
          · rw [ho'] at hos; injection hos with hos; subst hos; exact hr
          · exact h.fits x s y s' hs hos hns hcs hk
        · intro x s y s' hs hs' hos hns hcs
          rw [h.bi x s y s' hs hs' hos hns hcs, (hsym s s' hos).1, (hsym s s' hos).2]
          grind
      · intro x s q hs hns hB
        rw [holds_setSlot wf hr' _ hs]
        have hB' : ¬ (x = a ∧ s = r) := hB
        by_cases hx : x = e ∧ s = r'
        · obtain ⟨rfl, rfl⟩ := hx
          rw [if_pos ⟨rfl, rfl⟩]
          simp only [Slot.vals, List.mem_singleton]
          grind
        · rw [if_neg hx, s5 x s q hs hns hB', ← off x s q hs hns hB]
          grind
      · rw [setSlot_slots, if_neg, s4]
        rintro ⟨rfl, he⟩
        exact hne (wf.inj hr hr' he).symm
      · intro q
        have : r ≠ r' := Ne.symm hne
        simp [this]
        by_cases hq : q = e
        · simp [hq]
        · simp [hq]

/-! ### Calls -/

theorem Inv.congr (h : Inv M cls w K) {K' : Nat → Nat → Nat → Prop} (wf : WellFormed M)
    (hk : ∀ x s q, s ∈ M.features (cls x) → M.isContainer s = false → (K' x s q ↔ K x s q)) : Inv M cls w K' := by
  refine ⟨h.cls_eq, h.shape, ?_, h.code, ?_, ?_⟩
  · intro x s q hs hc
    rw [hk x s q hs (wf.contNot hc)]
    exact h.own x s q hs hc
  · intro x s y s' hs ho hn hc hK
    exact h.fits x s y s' hs ho hn hc ((hk x s y hs hn).1 hK)
  · intro x s y s' hs hs' ho hn hc
    have hn' : M.isContainer s' = false := by rw [isContainer_opp (wf.opp s s' ho).1]; exact hc
    rw [hk x s y hs hn, hk y s' x hs' hn']
    exact h.bi x s y s' hs hs' ho hn hc

/-- consistent: no slot is left out -/
def Good (M : Meta) (cls : Nat → Nat) (w : World) : Prop := Inv M cls w (Holds M w)

theorem Inv.good (wf : WellFormed M) (h : Inv M cls w K) {a r : Nat} (off : Off M cls w K fun x s => x = a ∧ s = r)
    (hk : ∀ q, K a r q ↔ Holds M w a r q) : Good M cls w := by
  refine h.congr wf ?_
  intro x s q hs hn
  by_cases hB : x = a ∧ s = r
  · obtain ⟨rfl, rfl⟩ := hB; exact (hk q).symm
  · exact (off x s q hs hn hB).symm

theorem good_init (M : Meta) (cls : Nat → Nat) : Good M cls (init cls) := by
  refine ⟨fun x => rfl, ?_, ?_, ?_, ?_, ?_⟩
  · intro x s _ _
    simp [Shape, init]
  · intro x s q _ _
    refine ⟨fun h => by simp [Holds, init, Slot.vals] at h, fun h => ?_⟩
    have := h.container
    simp [init] at this
  · intro q x hq; simp [init] at hq
  · intro x s y s' _ _ _ _ h; simp [Holds, init, Slot.vals] at h
  · intro x s y s' _ _ _ _ _; simp [Holds, init, Slot.vals]

/-- the change of one slot: the other objects still see the old values -/
theorem Inv.put (wf : WellFormed M) (h : Inv M cls w K) {a r : Nat} (hr : r ∈ M.features (cls a)) (off : Off M cls w K fun x s => x = a ∧ s = r)
    {v : Slot} (hv : Shape M r v) : Inv M cls (setSlot w a (M.refs r).declId v) K ∧ Off M cls (setSlot w a (M.refs r).declId v) K fun x s => x = a ∧ s = r := by
  refine ⟨⟨by simp [h.cls_eq], fun x s hs hn => shape_setSlot wf h.shape hr hv hs hn, ?_, ?_, h.fits, h.bi⟩, ?_⟩
  · intro x s q hs hc
    rw [points_congr (w := w) (by simp) (by simp)]
    exact h.own x s q hs hc
  · intro q x hq
    simp only [setSlot_container] at hq
    obtain ⟨s, hs⟩ := h.code q x hq
    exact ⟨s, (points_congr (by simp) (by simp)).2 hs⟩
  · intro x s q hs hn hB
    rw [holds_setSlot wf hr _ hs, if_neg hB]
    exact off x s q hs hn hB

theorem Good.off (B : Nat → Nat → Prop) : Off M cls w (Holds M w) B := fun _ _ _ _ _ _ => Iff.rfl

/-- values fit -/
theorem Inv.fitsK (h : Inv M cls w K) {a r e : Nat} (hr : r ∈ M.features (cls a)) (hn : M.isContainer r = false) (hK : K a r e) : Fits M cls r e := by
  by_cases hc : (M.refs r).containment = true
  · exact ((h.own a r e hr hc).1 hK).fits
  · intro r' ho
    exact h.fits a r e r' hr ho hn (by simpa using hc) hK

/-- a reference without inverse -/
theorem Inv.free (h : Inv M cls w K) (wf : WellFormed M) {a r : Nat} (hc : (M.refs r).containment = false) (ho : (M.refs r).opposite = none) (P : Nat → Prop)
    {B : Nat → Nat → Prop} (off : Off M cls w K B) (hB : B a r) :
    Inv M cls w (fun x s q => if x = a ∧ s = r then P q else K x s q) ∧ Off M cls w (fun x s q => if x = a ∧ s = r then P q else K x s q) B := by
  constructor
  · refine ⟨h.cls_eq, h.shape, ?_, h.code, ?_, ?_⟩
    · intro x s q hs hcs
      have : s ≠ r := by rintro rfl; simp [hc] at hcs
      simp only [this, and_false, ↓reduceIte]
      exact h.own x s q hs hcs
    · intro x s y s' hs hos hn hcs hK
      have : s ≠ r := by rintro rfl; simp [ho] at hos
      simp only [this, and_false, ↓reduceIte] at hK
      exact h.fits x s y s' hs hos hn hcs hK
    · intro x s y s' hs hs' hos hn hcs
      have h1 : s ≠ r := by rintro rfl; simp [ho] at hos
      have h2 : s' ≠ r := by
        rintro rfl
        have := (wf.opp s s' hos).1
        simp [ho] at this
      simp only [h1, h2, and_false, ↓reduceIte]
      exact h.bi x s y s' hs hs' hos hn hcs
  · intro x s q hs hn hBx
    have : ¬ (x = a ∧ s = r) := by rintro ⟨rfl, rfl⟩; exact hBx hB
    simp only [this, ↓reduceIte]
    exact off x s q hs hn hBx

theorem listInverseAdd_spec (wf : WellFormed M) {a r e : Nat} (hr : r ∈ M.features (cls a)) (hn : M.isContainer r = false) (hf : Fits M cls r e)
    (h : Inv M cls w K) (off : Off M cls w K fun x s => x = a ∧ s = r) (hK : ¬ K a r e) :
    ∃ w' K', listInverseAdd M w a r e = some w' ∧ Inv M cls w' K' ∧ Off M cls w' K' (fun x s => x = a ∧ s = r) ∧
      (w' a).slots (M.refs r).declId = (w a).slots (M.refs r).declId ∧ ∀ q, K' a r q ↔ K a r q ∨ q = e := by
  by_cases hl : (M.refs r).containment = true ∨ (M.refs r).opposite ≠ none
  · obtain ⟨w', K', h1, h2⟩ := inverseAdd_link wf hr hn hl hf h off hK
    refine ⟨w', K', ?_, h2⟩
    rw [← h1]
    simp only [listInverseAdd, code]
    cases ho : (M.refs r).opposite with
    | none => simp only []; rw [if_pos (by simpa [ho] using hl)]
    | some r' => rfl
  · simp only [not_or, Bool.not_eq_true, ne_eq, Decidable.not_not] at hl
    obtain ⟨f1, f2⟩ := h.free wf hl.1 hl.2 (fun q => K a r q ∨ q = e) off ⟨rfl, rfl⟩
    exact ⟨w, _, by simp [listInverseAdd, hl.1, hl.2], f1, f2, rfl, by simp⟩

theorem listInverseRemove_spec (wf : WellFormed M) {a r e : Nat} (hr : r ∈ M.features (cls a)) (hn : M.isContainer r = false)
    (h : Inv M cls w K) (off : Off M cls w K fun x s => x = a ∧ s = r) (hK : K a r e) :
    ∃ w' K', listInverseRemove M w a r e = some w' ∧ Inv M cls w' K' ∧ Off M cls w' K' (fun x s => x = a ∧ s = r) ∧
      (w' a).slots (M.refs r).declId = (w a).slots (M.refs r).declId ∧ ∀ q, K' a r q ↔ K a r q ∧ q ≠ e := by
  by_cases hl : (M.refs r).containment = true ∨ (M.refs r).opposite ≠ none
  · obtain ⟨w', K', h1, h2⟩ := inverseRemove_link wf hr hn hl h off hK
    refine ⟨w', K', ?_, h2⟩
    rw [← h1]
    simp only [listInverseRemove, code]
    cases ho : (M.refs r).opposite with
    | none => simp only []; rw [if_pos (by simpa [ho] using hl)]
    | some r' => rfl
  · simp only [not_or, Bool.not_eq_true, ne_eq, Decidable.not_not] at hl
    obtain ⟨f1, f2⟩ := h.free wf hl.1 hl.2 (fun q => K a r q ∧ q ≠ e) off ⟨rfl, rfl⟩
    exact ⟨w, _, by simp [listInverseRemove, hl.1, hl.2], f1, f2, rfl, by simp⟩

theorem listInverseAdds_spec (wf : WellFormed M) {a r : Nat} (hr : r ∈ M.features (cls a)) (hn : M.isContainer r = false) (es : List Nat) :
    ∀ (w : World) (K : Nat → Nat → Nat → Prop), (∀ e ∈ es, Fits M cls r e) → Inv M cls w K → Off M cls w K (fun x s => x = a ∧ s = r) →
      es.Nodup → (∀ e ∈ es, ¬ K a r e) →
    ∃ w' K', listInverseAdds M a r w es = some w' ∧ Inv M cls w' K' ∧ Off M cls w' K' (fun x s => x = a ∧ s = r) ∧
      (w' a).slots (M.refs r).declId = (w a).slots (M.refs r).declId ∧ ∀ q, K' a r q ↔ K a r q ∨ q ∈ es := by
  induction es with
  | nil => intro w K _ h off _ _; exact ⟨w, K, rfl, h, off, rfl, by simp⟩
  | cons e es ih =>
    intro w K hf h off hnd hk
    obtain ⟨w1, K1, a1, a2, a3, a4, a5⟩ := listInverseAdd_spec wf hr hn (hf e (by simp)) h off (hk e (by simp))
    rw [List.nodup_cons] at hnd
    obtain ⟨w2, K2, b1, b2, b3, b4, b5⟩ := ih w1 K1 (fun x hx => hf x (by simp [hx])) a2 a3 hnd.2 (by
      intro x hx hk1
      rcases (a5 x).1 hk1 with hh | rfl
      · exact hk x (by simp [hx]) hh
      · exact hnd.1 hx)
    refine ⟨w2, K2, by simp [listInverseAdds, a1, b1], b2, b3, by rw [b4, a4], ?_⟩
    intro q
    rw [b5, a5]
    simp [or_assoc]

theorem listInverseRemoves_spec (wf : WellFormed M) {a r : Nat} (hr : r ∈ M.features (cls a)) (hn : M.isContainer r = false) (es : List Nat) :
    ∀ (w : World) (K : Nat → Nat → Nat → Prop), Inv M cls w K → Off M cls w K (fun x s => x = a ∧ s = r) →
      es.Nodup → (∀ e ∈ es, K a r e) →
    ∃ w' K', listInverseRemoves M a r w es = some w' ∧ Inv M cls w' K' ∧ Off M cls w' K' (fun x s => x = a ∧ s = r) ∧
      (w' a).slots (M.refs r).declId = (w a).slots (M.refs r).declId ∧ ∀ q, K' a r q ↔ K a r q ∧ q ∉ es := by
  induction es with
  | nil => intro w K h off _ _; exact ⟨w, K, rfl, h, off, rfl, by simp⟩
  | cons e es ih =>
    intro w K h off hnd hk
    obtain ⟨w1, K1, a1, a2, a3, a4, a5⟩ := listInverseRemove_spec wf hr hn h off (hk e (by simp))
    rw [List.nodup_cons] at hnd
    obtain ⟨w2, K2, b1, b2, b3, b4, b5⟩ := ih w1 K1 a2 a3 hnd.2 (by
      intro x hx
      rw [a5]
      exact ⟨hk x (by simp [hx]), by rintro rfl; exact hnd.1 hx⟩)
    refine ⟨w2, K2, by simp [listInverseRemoves, a1, b1], b2, b3, by rw [b4, a4], ?_⟩
    intro q
    rw [b5, a5]
    simp [and_assoc]

/-- the contents of a list -/
def dataOf (M : Meta) (w : World) (a r : Nat) : List Nat := ((w a).slots (M.refs r).declId).data

theorem Good.data (h : Good M cls w) {a r : Nat} (hr : r ∈ M.features (cls a)) (hm : (M.refs r).many = true) (hn : M.isContainer r = false) :
    (dataOf M w a r).Nodup ∧ ∀ q, q ∈ dataOf M w a r ↔ Holds M w a r q := by
  have := h.shape a r hr hn
  simp only [Shape, hm, ↓reduceIte] at this
  simp only [dataOf, Holds]
  rcases this with he | ⟨l, hl, he⟩
  · rw [he]; simp [Slot.data, Slot.vals]
  · rw [he]; simp [Slot.data, Slot.vals, hl]

/-- new contents of a list, then the other ends of the removed objects, then those of the added objects -/
theorem Good.change (wf : WellFormed M) (h : Good M cls w) {a r : Nat} (hr : r ∈ M.features (cls a)) (hm : (M.refs r).many = true)
    (hn : M.isContainer r = false) (l old new : List Nat) (hl : l.Nodup) (ho : old.Nodup) (hnew : new.Nodup) (hf : ∀ e ∈ new, Fits M cls r e)
    (h1 : ∀ q ∈ old, q ∈ dataOf M w a r) (h2 : ∀ q ∈ new, q ∉ dataOf M w a r) (h3 : ∀ q, q ∈ l ↔ (q ∈ dataOf M w a r ∧ q ∉ old) ∨ q ∈ new) :
    ∃ w1 w', listInverseRemoves M a r (setSlot w a (M.refs r).declId (.list l)) old = some w1 ∧
      listInverseAdds M a r w1 new = some w' ∧ Good M cls w' ∧ (w' a).slots (M.refs r).declId = .list l := by
  have hd := (h.data hr hm hn).2
  obtain ⟨p1, p2⟩ := Inv.put wf h hr (Good.off _) (v := .list l) (by simp [Shape, hm, hl])
  obtain ⟨w1, K1, a1, a2, a3, a4, a5⟩ := listInverseRemoves_spec wf hr hn old _ _ p1 p2 ho (fun e he => (hd e).1 (h1 e he))
  obtain ⟨w2, K2, b1, b2, b3, b4, b5⟩ := listInverseAdds_spec wf hr hn new w1 K1 hf a2 a3 hnew (by
    intro e he hk
    exact h2 e he ((hd e).2 ((a5 e).1 hk).1))
  refine ⟨w1, w2, a1, b1, b2.good wf b3 ?_, by simp [b4, a4, setSlot_slots]⟩
  intro q
  rw [b5, a5, ← hd]
  simp only [Holds, b4, a4, setSlot_slots, and_self, ↓reduceIte, Slot.vals]
  exact (h3 q).symm

theorem fresh_spec (data c : List Nat) : (EList.getNonDuplicates .snapshot data c).Nodup ∧
    ∀ q, q ∈ EList.getNonDuplicates .snapshot data c ↔ q ∈ c ∧ q ∉ data := by
  rw [EList.getNonDuplicates_snapshot]
  exact ⟨EList.nodup_fresh _ _, fun q => EList.mem_fresh _ _ _⟩

/-- What a call does: the new contents, the removed and the added objects. -/
def plan (data : List Nat) : LOp → Option (List Nat × List Nat × List Nat)
  | .add e => some (if e ∈ data then (data, [], []) else (data ++ [e], [], [e]))
  | .addAll c => some (data ++ EList.getNonDuplicates .snapshot data c, [], EList.getNonDuplicates .snapshot data c)
  | .insert i e =>
    if i > data.length then none else some (if e ∈ data then (data, [], []) else (data.take i ++ [e] ++ data.drop i, [], [e]))
  | .insertAll i c =>
    if i > data.length then none
    else some (data.take i ++ EList.getNonDuplicates .snapshot data c ++ data.drop i, [], EList.getNonDuplicates .snapshot data c)
  | .set i e =>
    match data[i]? with
    | none => none
    | some old => if e ∈ data ∧ data.idxOf e ≠ i then none else some (if e = old then (data, [], []) else (data.set i e, [old], [e]))
  | .removeAt i =>
    match data[i]? with
    | none => none
    | some old => some (data.eraseIdx i, [old], [])
  | .remove e => some (if e ∈ data then (data.erase e, [e], []) else (data, [], []))
  | .removeRange i j =>
    if i ≥ data.length ∨ j > data.length ∨ i > j then none else some (data.take i ++ data.drop j, (data.take j).drop i, [])
  | .removeAll c => some (data.filter (· ∉ c), data.filter (· ∈ c), [])
  | .clear => some ([], data, [])
  | .move i j =>
    match data[i]? with
    | none => none
    | some e => if j < data.length then some ((data.eraseIdx i).insertIdx j e, [], []) else none

theorem listOp_plan (wf : WellFormed M) (h : ∀ x, (w x).cls = cls x) {a r : Nat} (hr : r ∈ M.features (cls a)) (op : LOp) :
    listOp M w a r op = (plan (dataOf M w a r) op).bind fun p =>
      (listInverseRemoves M a r (setSlot w a (M.refs r).declId (.list p.1)) p.2.1).bind (listInverseAdds M a r · p.2.2) := by
  simp only [listOp, h a, wf.featureID hr, Int.toNat_natCast]
  rw [if_neg (by omega)]
  rw [show ((w a).slots (M.refs r).declId).data = dataOf M w a r from rfl]
  generalize dataOf M w a r = data
  cases op <;> simp only [plan] <;> (repeat' split) <;>
    simp_all [listInverseAdds, listInverseRemoves, Option.bind_assoc]

structure PlanOk (data l old new : List Nat) : Prop where
  nodup : l.Nodup
  old_nodup : old.Nodup
  new_nodup : new.Nodup
  old_mem : ∀ q ∈ old, q ∈ data
  new_mem : ∀ q ∈ new, q ∉ data
  mem : ∀ q, q ∈ l ↔ (q ∈ data ∧ q ∉ old) ∨ q ∈ new

theorem plan_ok {data l old new : List Nat} (hnd : data.Nodup) (op : LOp) (hs : plan data op = some (l, old, new)) :
    PlanOk data l old new ∧ ∀ q ∈ new, q ∈ op.added := by
  have same : ∀ l', some (l', ([] : List Nat), ([] : List Nat)) = some (l, old, new) → l'.Nodup → (∀ q, q ∈ l' ↔ q ∈ data) →
      PlanOk data l old new ∧ ∀ q ∈ new, q ∈ op.added := by
    intro l' h0 h1 h2
    simp only [Option.some.injEq, Prod.mk.injEq] at h0
    obtain ⟨rfl, rfl, rfl⟩ := h0
    exact ⟨⟨h1, by simp, by simp, by simp, by simp, by simpa using h2⟩, by simp⟩
  have adds : ∀ l' new', some (l', ([] : List Nat), new') = some (l, old, new) → l'.Nodup → new'.Nodup → (∀ e ∈ new', e ∈ op.added) →
      (∀ q ∈ new', q ∉ data) → (∀ q, q ∈ l' ↔ q ∈ data ∨ q ∈ new') → PlanOk data l old new ∧ ∀ q ∈ new, q ∈ op.added := by
    intro l' new' h0 h1 h2 h3 h4 h5
    simp only [Option.some.injEq, Prod.mk.injEq] at h0
    obtain ⟨rfl, rfl, rfl⟩ := h0
    exact ⟨⟨h1, by simp, h2, by simp, h4, by simpa using h5⟩, h3⟩
  have removes : ∀ l' old', some (l', old', ([] : List Nat)) = some (l, old, new) → l'.Nodup → old'.Nodup →
      (∀ q ∈ old', q ∈ data) → (∀ q, q ∈ l' ↔ q ∈ data ∧ q ∉ old') → PlanOk data l old new ∧ ∀ q ∈ new, q ∈ op.added := by
    intro l' old' h0 h1 h2 h3 h4
    simp only [Option.some.injEq, Prod.mk.injEq] at h0
    obtain ⟨rfl, rfl, rfl⟩ := h0
    exact ⟨⟨h1, h2, by simp, h3, by simp, by simpa using h4⟩, by simp⟩
  cases op with
  | add e =>
    simp only [plan] at hs
    split at hs
    · exact same _ hs hnd (fun q => Iff.rfl)
    · rename_i he
      exact adds _ _ hs (by simp [List.nodup_append, hnd]; exact fun x hx hxe => he (hxe ▸ hx)) (by simp) (by simp [LOp.added]) (by simpa using he) (by simp)
  | addAll c =>
    simp only [plan] at hs
    obtain ⟨f1, f2⟩ := fresh_spec data c
    refine adds _ _ hs ?_ f1 (fun e he => ((f2 e).1 he).1) (fun q hq => ((f2 q).1 hq).2) (by simp)
    simp only [List.nodup_append, hnd, f1, true_and]
    rintro x hx y hy rfl
    exact ((f2 x).1 hy).2 hx
  | insert i e =>
    simp only [plan] at hs
    split at hs
    · simp at hs
    · split at hs
      · exact same _ hs hnd (fun q => Iff.rfl)
      · rename_i he
        have hp : (data.take i ++ [e] ++ data.drop i).Perm (e :: data) := by
          refine (List.perm_append_comm.append_right _).trans ?_
          rw [List.append_assoc, List.take_append_drop]
          exact List.Perm.refl _
        refine adds _ _ hs (hp.nodup_iff.2 (by simp [he, hnd])) (by simp) (by simp [LOp.added]) (by simpa using he) ?_
        intro q
        rw [hp.mem_iff]
        simp [or_comm]
  | insertAll i c =>
    simp only [plan] at hs
    split at hs
    · simp at hs
    · obtain ⟨f1, f2⟩ := fresh_spec data c
      have hp : (data.take i ++ EList.getNonDuplicates .snapshot data c ++ data.drop i).Perm (EList.getNonDuplicates .snapshot data c ++ data) := by
        refine (List.perm_append_comm.append_right _).trans ?_
        rw [List.append_assoc, List.take_append_drop]
      refine adds _ _ hs (hp.nodup_iff.2 ?_) f1 (fun e he => ((f2 e).1 he).1) (fun q hq => ((f2 q).1 hq).2) ?_
      · simp only [List.nodup_append, hnd, f1, true_and]
        rintro x hx y hy rfl
        exact ((f2 x).1 hx).2 hy
      · intro q
        rw [hp.mem_iff]
        simp [or_comm]
  | set i e =>
    simp only [plan] at hs
    cases hi : data[i]? with
    | none => simp [hi] at hs
    | some old =>
      simp only [hi] at hs
      obtain ⟨hil, hie⟩ := List.getElem?_eq_some_iff.mp hi
      have hidx : data.idxOf old = i := by rw [← hie]; exact hnd.idxOf_getElem i hil
      split at hs
      · simp at hs
      · rename_i hne
        split at hs
        · exact same _ hs hnd (fun q => Iff.rfl)
        · rename_i heo
          have hed : e ∉ data := by
            intro hed
            have : data.idxOf e = i := by by_cases hh : data.idxOf e = i; exact hh; exact absurd ⟨hed, hh⟩ hne
            have h2 := List.getElem_idxOf (List.idxOf_lt_length_of_mem hed)
            simp only [this] at h2
            exact heo (h2.symm.trans hie)
          have hdata : data = data.take i ++ old :: data.drop (i + 1) := by
            rw [← hie, List.getElem_cons_drop hil, List.take_append_drop]
          have hset : data.set i e = data.take i ++ e :: data.drop (i + 1) := by
            rw [List.set_eq_take_append_cons_drop, if_pos hil]
          have hmem : ∀ q, q ∈ data.set i e ↔ (q ∈ data ∧ q ∉ [old]) ∨ q ∈ [e] := by
            intro q
            rw [hset]
            have hnd' := hnd
            rw [hdata, List.nodup_append] at hnd'
            obtain ⟨n1, n2, n3⟩ := hnd'
            rw [List.nodup_cons] at n2
            constructor
            · simp only [List.mem_append, List.mem_cons, List.mem_singleton, List.not_mem_nil, or_false]
              rintro (hq | rfl | hq)
              · left
                refine ⟨by rw [hdata]; simp [hq], ?_⟩
                rintro rfl
                exact n3 q hq q (by simp) rfl
              · right; rfl
              · left
                refine ⟨by rw [hdata]; simp [hq], ?_⟩
                rintro rfl
                exact n2.1 hq
            · simp only [List.mem_append, List.mem_cons, List.not_mem_nil, or_false]
              rintro (⟨hq, hqo⟩ | rfl)
              · rw [hdata] at hq
                simp only [List.mem_append, List.mem_cons] at hq
                grind
              · simp
          have hndl : (data.set i e).Nodup := by
            rw [hset]
            have hp : (data.take i ++ e :: data.drop (i + 1)).Perm (e :: (data.take i ++ data.drop (i + 1))) := List.perm_middle
            refine hp.nodup_iff.2 ?_
            rw [List.nodup_cons]
            have hsub : (data.take i ++ data.drop (i + 1)).Sublist data := by
              conv => rhs; rw [hdata]
              exact List.Sublist.append (List.Sublist.refl _) (List.sublist_cons_self _ _)
            exact ⟨fun hh => hed (hsub.subset hh), hnd.sublist hsub⟩
          simp only [Option.some.injEq, Prod.mk.injEq] at hs
          obtain ⟨rfl, rfl, rfl⟩ := hs
          exact ⟨⟨hndl, by simp, by simp, by simpa using List.mem_of_getElem? hi, by simpa using hed, hmem⟩, by simp [LOp.added]⟩
  | removeAt i =>
    simp only [plan] at hs
    cases hi : data[i]? with
    | none => simp [hi] at hs
    | some old =>
      simp only [hi] at hs
      obtain ⟨hil, hie⟩ := List.getElem?_eq_some_iff.mp hi
      have her : data.eraseIdx i = data.erase old := by
        rw [List.erase_eq_eraseIdx_of_idxOf]
        rw [← hie]
        exact hnd.idxOf_getElem i hil
      rw [her] at hs
      refine removes _ _ hs (hnd.erase _) (by simp) (by simpa using List.mem_of_getElem? hi) ?_
      intro q
      rw [hnd.mem_erase_iff]
      simp [and_comm]
  | remove e =>
    simp only [plan] at hs
    split at hs
    · rename_i he
      refine removes _ _ hs (hnd.erase _) (by simp) (by simpa using he) ?_
      intro q
      rw [hnd.mem_erase_iff]
      simp [and_comm]
    · exact same _ hs hnd (fun q => Iff.rfl)
  | removeRange i j =>
    simp only [plan] at hs
    split at hs
    · simp at hs
    · rename_i hij
      have hij' : i ≤ j := by omega
      have hdata : data = data.take i ++ ((data.take j).drop i ++ data.drop j) := by
        have h1 : (data.take j).take i = data.take i := by rw [List.take_take, Nat.min_eq_left hij']
        rw [← List.append_assoc, ← h1, List.take_append_drop, List.take_append_drop]
      have hnd' := hnd
      rw [hdata] at hnd'
      simp only [List.nodup_append, List.mem_append] at hnd'
      obtain ⟨n1, ⟨n2, n3, n4⟩, n5⟩ := hnd'
      refine removes _ _ hs ?_ n2 ?_ ?_
      · simp only [List.nodup_append]
        exact ⟨n1, n3, fun x hx y hy => n5 x hx y (Or.inr hy)⟩
      · intro q hq; rw [hdata]; simp only [List.mem_append]; exact Or.inr (Or.inl hq)
      · intro q
        conv => rhs; lhs; rw [hdata]
        simp only [List.mem_append]
        constructor
        · rintro (hq | hq)
          · exact ⟨Or.inl hq, fun hh => n5 q hq q (Or.inl hh) rfl⟩
          · exact ⟨Or.inr (Or.inr hq), fun hh => n4 q hh q hq rfl⟩
        · rintro ⟨hq | hq | hq, hh⟩
          · exact Or.inl hq
          · exact absurd hq hh
          · exact Or.inr hq
  | removeAll c =>
    simp only [plan] at hs
    refine removes _ _ hs (hnd.filter _) (hnd.filter _) (fun q hq => (List.mem_filter.mp hq).1) ?_
    intro q
    simp only [List.mem_filter, decide_eq_true_eq]
    grind
  | clear =>
    simp only [plan] at hs
    exact removes _ _ hs (by simp) hnd (fun q hq => hq) (by simp)
  | move i j =>
    simp only [plan] at hs
    cases hi : data[i]? with
    | none => simp [hi] at hs
    | some e =>
      simp only [hi] at hs
      split at hs
      · rename_i hj
        obtain ⟨hil, hie⟩ := List.getElem?_eq_some_iff.mp hi
        have hp : ((data.eraseIdx i).insertIdx j e).Perm data := by
          have h1 : ((data.eraseIdx i).insertIdx j e).Perm (e :: data.eraseIdx i) :=
            List.perm_insertIdx e _ (by rw [List.length_eraseIdx_of_lt hil]; omega)
          refine h1.trans ?_
          have h2 : data.eraseIdx i = data.erase e := by
            rw [List.erase_eq_eraseIdx_of_idxOf]
            rw [← hie]
            exact hnd.idxOf_getElem i hil
          rw [h2]
          exact (List.perm_cons_erase (List.mem_of_getElem? hi)).symm
        exact same _ hs (hp.nodup_iff.2 hnd) (fun q => hp.mem_iff)
      · simp at hs

theorem validGap_iff (data : List Nat) (i : Nat) : Spec.Seq.validGap data i ↔ i ≤ data.length := by
  simp [Spec.Seq.validGap]

theorem validPos_iff (data : List Nat) (i : Nat) : Spec.Seq.validPos data i ↔ i < data.length := by
  simp [Spec.Seq.validPos]

theorem plan_after (data : List Nat) (hnd : data.Nodup) (op : LOp) : (plan data op).map (·.1) = op.after data := by
  cases op with
  | add e => simp only [plan, LOp.after, LOp.toOp, Spec.Seq.step]; split <;> simp_all
  | addAll c => simp [plan, LOp.after, LOp.toOp, Spec.Seq.step, EList.getNonDuplicates_snapshot]
  | insert i e =>
    simp only [plan, LOp.after, LOp.toOp, Spec.Seq.step, validGap_iff]
    by_cases hi : i > data.length
    · rw [if_pos hi, if_pos (by omega)]; rfl
    · have : data.insertIdx i e = data.take i ++ [e] ++ data.drop i := by
        apply List.ext_getElem?
        intro n
        rw [List.getElem?_insertIdx]
        grind
      rw [if_neg hi]
      by_cases he : e ∈ data <;> simp [he, this, Nat.le_of_not_gt hi]
  | insertAll i c =>
    simp only [plan, LOp.after, LOp.toOp, Spec.Seq.step]
    by_cases hi : i > data.length
    · rw [if_pos hi, if_pos (by simp only [validGap_iff, validPos_iff]; omega)]; rfl
    · rw [if_neg hi, if_neg (by simp only [validGap_iff, validPos_iff]; omega)]
      simp [Spec.Seq.insertAllAt, EList.getNonDuplicates_snapshot]
  | set i e =>
    simp only [plan, LOp.after, LOp.toOp, Spec.Seq.step, Int.toNat_natCast]
    cases hi : data[i]? with
    | none =>
      have := List.getElem?_eq_none_iff.mp hi
      rw [if_pos (by simp only [validGap_iff, validPos_iff]; omega)]; rfl
    | some old =>
      obtain ⟨hil, hie⟩ := List.getElem?_eq_some_iff.mp hi
      rw [if_neg (by simp only [validGap_iff, validPos_iff]; omega)]
      have hidx : data.idxOf old = i := by rw [← hie]; exact hnd.idxOf_getElem i hil
      by_cases he : e = old
      · subst he
        simp [hidx, hi]
        rw [← hie, List.set_getElem_self]
      · have h2 : e ∈ data → data.idxOf e ≠ i := by
          intro hed hh
          have h2 := List.getElem_idxOf (List.idxOf_lt_length_of_mem hed)
          simp only [hh] at h2
          exact he (h2.symm.trans hie)
        by_cases hed : e ∈ data
        · simp [hed, h2 hed, Ne.symm he]
        · simp [hed, he]
  | removeAt i =>
    simp only [plan, LOp.after, LOp.toOp, Spec.Seq.step, Int.toNat_natCast]
    cases hi : data[i]? with
    | none =>
      have := List.getElem?_eq_none_iff.mp hi
      rw [if_neg (by simp only [validGap_iff, validPos_iff]; omega)]; rfl
    | some old =>
      obtain ⟨hil, hie⟩ := List.getElem?_eq_some_iff.mp hi
      rw [if_pos (by simp only [validGap_iff, validPos_iff]; omega)]; rfl
  | remove e =>
    simp only [plan, LOp.after, LOp.toOp, Spec.Seq.step]
    split
    · rfl
    · rename_i he; simp [List.erase_of_not_mem he]
  | removeRange i j =>
    simp only [plan, LOp.after, LOp.toOp, Spec.Seq.step, Int.toNat_natCast]
    split
    · rw [if_neg (by simp only [validGap_iff, validPos_iff]; omega)]; rfl
    · rw [if_pos (by simp only [validGap_iff, validPos_iff]; omega)]; rfl
  | removeAll c => simp [plan, LOp.after, LOp.toOp, Spec.Seq.step]
  | clear => simp [plan, LOp.after, LOp.toOp, Spec.Seq.step]
  | move i j =>
    simp only [plan, LOp.after, LOp.toOp, Spec.Seq.step, Int.toNat_natCast, Spec.Seq.moved]
    cases hi : data[i]? with
    | none =>
      have := List.getElem?_eq_none_iff.mp hi
      rw [if_neg (by simp only [validGap_iff, validPos_iff]; omega)]; rfl
    | some old =>
      obtain ⟨hil, hie⟩ := List.getElem?_eq_some_iff.mp hi
      simp only
      split
      · rw [if_pos (by simp only [validGap_iff, validPos_iff]; omega)]; rfl
      · rw [if_neg (by simp only [validGap_iff, validPos_iff]; omega)]; rfl

/-- a call on a list: its contents change as a sequence does, and the other ends follow -/
theorem listOp_spec (wf : WellFormed M) (h : Good M cls w) {a r : Nat} (hr : r ∈ M.features (cls a)) (hm : (M.refs r).many = true)
    (hn : M.isContainer r = false) (op : LOp) (hf : ∀ e ∈ op.added, Fits M cls r e) :
    (op.after (dataOf M w a r) = none → listOp M w a r op = none) ∧
    ∀ l, op.after (dataOf M w a r) = some l → ∃ w', listOp M w a r op = some w' ∧ Good M cls w' ∧ (w' a).slots (M.refs r).declId = .list l := by
  obtain ⟨hnd, -⟩ := h.data hr hm hn
  rw [listOp_plan wf h.cls_eq hr]
  rw [← plan_after _ hnd]
  cases hp : plan (dataOf M w a r) op with
  | none => simp
  | some p =>
    obtain ⟨l, old, new⟩ := p
    obtain ⟨ok, ha⟩ := plan_ok hnd op hp
    obtain ⟨w1, w2, c1, c2, c3, c4⟩ := Good.change wf h hr hm hn l old new ok.nodup ok.old_nodup ok.new_nodup
      (fun e he => hf e (ha e he)) ok.old_mem ok.new_mem ok.mem
    simp [c1, c2, c3, c4]

theorem good_listOp (wf : WellFormed M) (h : Good M cls w) {a r : Nat} (hr : r ∈ M.features (cls a)) (hm : (M.refs r).many = true)
    (hn : M.isContainer r = false) (op : LOp) (hf : ∀ e ∈ op.added, Fits M cls r e) {w' : World} (hs : listOp M w a r op = some w') : Good M cls w' := by
  obtain ⟨h1, h2⟩ := listOp_spec wf h hr hm hn op hf
  cases ho : op.after (dataOf M w a r) with
  | none => rw [h1 ho] at hs; simp at hs
  | some l =>
    obtain ⟨w1, a1, a2, -⟩ := h2 l ho
    rw [hs] at a1
    injection a1 with a1
    exact a1 ▸ a2

theorem removeFromContainer_if (M : Meta) (w : World) (o : Nat) :
    (if (w o).container ≠ none then removeFromContainer M w o else some w) = removeFromContainer M w o := by
  split
  · rfl
  · rename_i h
    have h : (w o).container = none := by simpa using h
    simp only [removeFromContainer, h]
    split
    · split <;> rfl
    · rfl

/-- `ESet` of a single valued reference that is not a container -/
theorem good_single (wf : WellFormed M) (h : Good M cls w) {o f : Nat} (hf : f ∈ M.features (cls o)) (hm : (M.refs f).many = false)
    (hn : M.isContainer f = false) (hl : (M.refs f).containment = true ∨ (M.refs f).opposite ≠ none) (v : Option Nat)
    (hv : ∀ x, v = some x → Fits M cls f x) (hne : ((w o).slots (M.refs f).declId) ≠ Slot.of v) :
    ∃ w1 w2, removeOld M w o f ((w o).slots (M.refs f).declId).object = some w1 ∧ addNew M w1 o f v = some w2 ∧
      Good M cls (setSlot w2 o (M.refs f).declId (.of v)) := by
  have hsh := h.shape o f hf hn
  simp only [Shape, hm, Bool.false_eq_true, ↓reduceIte] at hsh
  -- the old value
  obtain ⟨w1, K1, a1, a2, a3, a4⟩ : ∃ w1 K1, removeOld M w o f ((w o).slots (M.refs f).declId).object = some w1 ∧ Inv M cls w1 K1 ∧
      Off M cls w1 K1 (fun x s => x = o ∧ s = f) ∧ ∀ q, ¬ K1 o f q := by
    rcases hsh with he | ⟨p, he⟩
    · refine ⟨w, Holds M w, by rw [he]; rfl, h, Good.off _, ?_⟩
      intro q; simp [Holds, he, Slot.vals]
    · have hK : Holds M w o f p := by simp [Holds, he, Slot.vals]
      obtain ⟨w1, K1, b1, b2, b3, -, b5⟩ := inverseRemove_link wf hf hn hl h (Good.off _) hK
      refine ⟨w1, K1, ?_, b2, b3, ?_⟩
      · rw [← b1, he]
        simp only [Slot.object, removeOld, code]
        cases ho : (M.refs f).opposite with
        | none => simp only [h.cls_eq o, wf.featureID hf]
        | some f' => simp only [h.cls_eq p, wf.featureID (h.fitsK hf hn hK f' ho)]
      · intro q
        rw [b5]
        simp [Holds, he, Slot.vals]
  obtain ⟨w2, K2, c1, c2, c3, c4⟩ : ∃ w2 K2, addNew M w1 o f v = some w2 ∧ Inv M cls w2 K2 ∧
      Off M cls w2 K2 (fun x s => x = o ∧ s = f) ∧ ∀ q, K2 o f q ↔ v = some q := by
    cases v with
    | none => exact ⟨w1, K1, rfl, a2, a3, by simp [a4]⟩
    | some x =>
      have hfx := hv x rfl
      obtain ⟨w2, K2, b1, b2, b3, -, b5⟩ := inverseAdd_link wf hf hn hl hfx a2 a3 (a4 x)
      refine ⟨w2, K2, ?_, b2, b3, ?_⟩
      · rw [← b1]
        simp only [addNew, code]
        cases ho : (M.refs f).opposite with
        | none => simp only [a2.cls_eq o, wf.featureID hf]
        | some f' => simp only [a2.cls_eq x, wf.featureID (hfx f' ho)]
      · intro q
        rw [b5]
        simp [a4, eq_comm]
  refine ⟨w1, w2, a1, c1, ?_⟩
  obtain ⟨p1, p2⟩ := Inv.put wf c2 hf c3 (v := .of v) (by cases v <;> simp [Shape, hm, Slot.of])
  refine p1.good wf p2 ?_
  intro q
  rw [c4, holds_setSlot wf hf _ hf, if_pos ⟨rfl, rfl⟩]
  cases v <;> simp [Slot.of, Slot.vals, eq_comm]

/-- changing a container -/
theorem good_container (wf : WellFormed M) (h : Good M cls w) {o f f' : Nat} (hf : f ∈ M.features (cls o)) (ho : (M.refs f).opposite = some f')
    (hc : (M.refs f').containment = true) (v : Option Nat) (hv : ∀ x, v = some x → f' ∈ M.features (cls x)) :
    ∃ w1 w2, removeFromContainer M w o = some w1 ∧
      (match v with
        | some c => inverseAdd M w1 c o (M.refs f').declId
        | none => some w1) = some w2 ∧ (∀ x, (w1 x).cls = cls x) ∧ Good M cls (setContainer w2 o v (M.refs f).declId) := by
  obtain ⟨w1, r1, r2, r3, -, r5⟩ := removeFromContainer_spec wf h (Good.off fun _ _ => False) o (fun _ _ _ hh => hh)
  have ho' := (wf.opp f f' ho).1
  have hn' : M.isContainer f' = false := wf.contNot hc
  let D : Nat → Prop := fun q => (M.refs f').many = false ∧ q ≠ o ∧ ∃ c, v = some c ∧ Points M cls w q c f'
  -- the new container
  obtain ⟨w2, s1, s2, s3, s4, s5, s6⟩ : ∃ w2, (match v with
        | some c => inverseAdd M w1 c o (M.refs f').declId
        | none => some w1) = some w2 ∧ (∀ x, (w2 x).cls = cls x) ∧
      (∀ x s, s ∈ M.features (cls x) → M.isContainer s = false → Shape M s ((w2 x).slots (M.refs s).declId)) ∧
      (∀ q, D q → (w2 q).container = none) ∧ (∀ q, ¬ D q → (w2 q).container = (w q).container ∧ (w2 q).cfid = (w q).cfid) ∧
        ∀ x s q, s ∈ M.features (cls x) → M.isContainer s = false → (Holds M w2 x s q ↔
          (v = some x ∧ s = f' ∧ q = o) ∨ (Holds M w x s q ∧ ¬ (q = o ∧ Points M cls w o x s) ∧ ¬ (D q ∧ s = f' ∧ v = some x))) := by
    cases v with
    | none =>
      refine ⟨w1, rfl, fun x => (r2 x).1.trans (h.cls_eq x), r3, ?_, fun q _ => ⟨(r2 q).2.1, (r2 q).2.2⟩, ?_⟩
      · rintro q ⟨-, -, c, hc', -⟩; simp at hc'
      · intro x s q hs _
        rw [r5 x s q hs]
        simp
    | some c =>
      have hfc := hv c rfl
      have hsh := r3 c f' hfc hn'
      have hcls : (w1 c).cls = cls c := (r2 c).1.trans (h.cls_eq c)
      have hnot : ¬ Holds M w1 c f' o := by
        rw [r5 c f' o hfc]
        rintro ⟨k1, k2⟩
        exact k2 ⟨rfl, (h.own c f' o hfc hc).1 k1⟩
      by_cases hm : (M.refs f').many = true
      · have hD : ∀ q, ¬ D q := by rintro q ⟨hm', -⟩; simp [hm] at hm'
        simp only [Shape, hm, ↓reduceIte] at hsh
        obtain ⟨l, hlv, hnd, hadd⟩ : ∃ l : List Nat, (∀ q, q ∈ l ↔ Holds M w1 c f' q) ∧ l.Nodup ∧
            inverseAdd M w1 c o (M.refs f').declId = some (setSlot w1 c (M.refs f').declId (.list (l ++ [o]))) := by
          simp only [inverseAdd]
          rw [if_pos (by omega), hcls, wf.feature hfc]
          simp only [hm, ↓reduceIte, Int.toNat_natCast]
          rcases hsh with he | ⟨l, hnd, he⟩
          · exact ⟨[], by intro q; simp [Holds, he, Slot.vals], by simp, by rw [he]; rfl⟩
          · exact ⟨l, by intro q; simp [Holds, he, Slot.vals], hnd, by rw [he]⟩
        have hol : o ∉ l := fun hh => hnot ((hlv o).1 hh)
        refine ⟨_, hadd, by simp [r2, h.cls_eq], fun x s hs hns => shape_setSlot wf r3 hfc ?_ hs hns, fun q hq => absurd hq (hD q),
          fun q _ => by simp [r2], ?_⟩
        · simp only [Shape, hm, ↓reduceIte]
          exact Or.inr ⟨_, by simp [List.nodup_append, hnd]; exact fun b hb hbo => hol (hbo ▸ hb), rfl⟩
        · intro x s q hs hns
          rw [holds_setSlot wf hfc _ hs]
          by_cases hx : x = c ∧ s = f'
          · obtain ⟨rfl, rfl⟩ := hx
            rw [if_pos ⟨rfl, rfl⟩]
            simp only [Slot.vals, List.mem_append, List.mem_singleton, hlv, r5 x s q hs, hD]
            simp
            exact or_comm
          · rw [if_neg hx, r5 x s q hs]
            simp only [hD]
            have : ¬ (some c = some x ∧ s = f' ∧ q = o) := by
              rintro ⟨h1, h2, -⟩
              injection h1 with h1
              exact hx ⟨h1.symm, h2⟩
            simp only [this, false_and, not_false_eq_true, and_true, false_or]
      · have hmf : (M.refs f').many = false := by simpa using hm
        simp only [Shape, hmf, Bool.false_eq_true, ↓reduceIte] at hsh
        have hDiff : ∀ q, D q ↔ Holds M w1 c f' q := by
          intro q
          rw [r5 c f' q hfc]
          constructor
          · rintro ⟨-, hqo, c', hc', hp⟩
            injection hc' with hc'
            subst hc'
            exact ⟨(h.own c f' q hfc hc).2 hp, fun hh => hqo hh.1⟩
          · rintro ⟨k1, k2⟩
            have hp := (h.own c f' q hfc hc).1 k1
            refine ⟨hmf, ?_, c, rfl, hp⟩
            rintro rfl
            exact k2 ⟨rfl, hp⟩
        -- the displaced object
        obtain ⟨w1', d1, d2, d3, d4⟩ : ∃ w1', inverseAdd M w1 c o (M.refs f').declId = some (setSlot w1' c (M.refs f').declId (.obj o)) ∧
            (∀ x, (w1' x).cls = cls x ∧ (w1' x).slots = (w1 x).slots) ∧ (∀ q, D q → (w1' q).container = none) ∧
            (∀ q, ¬ D q → (w1' q).container = (w q).container ∧ (w1' q).cfid = (w q).cfid) := by
          simp only [inverseAdd]
          rw [if_pos (by omega), hcls, wf.feature hfc]
          simp only [hmf, hn', hc, Bool.false_eq_true, ↓reduceIte, Int.toNat_natCast]
          rcases hsh with he | ⟨p, he⟩
          · refine ⟨w1, by rw [he]; rfl, fun x => ⟨(r2 x).1.trans (h.cls_eq x), rfl⟩, ?_, fun q _ => ⟨(r2 q).2.1, (r2 q).2.2⟩⟩
            intro q hq
            rw [hDiff] at hq
            simp [Holds, he, Slot.vals] at hq
          · have hDp : ∀ q, D q ↔ q = p := by intro q; rw [hDiff]; simp [Holds, he, Slot.vals]
            rw [he]
            simp only [inverseRemove, wf.featureID hfc]
            rw [if_neg (by omega)]
            refine ⟨_, rfl, by simp [r2, h.cls_eq], ?_, ?_⟩
            · intro q hq
              rw [hDp] at hq
              simp [setContainer_container, hq]
            · intro q hq
              rw [hDp] at hq
              simp [setContainer_container, setContainer_cfid, hq, r2]
        have hH : ∀ x s q, Holds M w1' x s q ↔ Holds M w1 x s q := by intro x s q; simp [Holds, d2]
        refine ⟨_, d1, by simp [d2], fun x s hs hns => shape_setSlot wf ?_ hfc ?_ hs hns, ?_, ?_, ?_⟩
        · intro y t ht hnt; rw [(d2 y).2]; exact r3 y t ht hnt
        · simp [Shape, hmf]
        · intro q hq; simpa using d3 q hq
        · intro q hq; simpa using d4 q hq
        · intro x s q hs hns
          rw [holds_setSlot wf hfc _ hs, hH]
          by_cases hx : x = c ∧ s = f'
          · obtain ⟨rfl, rfl⟩ := hx
            rw [if_pos ⟨rfl, rfl⟩]
            simp only [Slot.vals, List.mem_singleton, true_and, and_true, hDiff, r5 x s q hs]
            grind
          · rw [if_neg hx, r5 x s q hs]
            have h1 : ∀ P : Prop, ¬ (some c = some x ∧ s = f' ∧ P) := by
              rintro P ⟨h1, h2, -⟩
              injection h1 with h1
              exact hx ⟨h1.symm, h2⟩
            have h2 : ¬ (D q ∧ s = f' ∧ some c = some x) := by
              rintro ⟨-, h2, h1⟩
              injection h1 with h1
              exact hx ⟨h1.symm, h2⟩
            simp only [h1, h2, not_false_eq_true, and_true, false_or]
  refine ⟨w1, w2, r1, s1, fun x => (r2 x).1.trans (h.cls_eq x), ?_⟩
  have hcode : code M f' = (M.refs f).declId := by simp [code, ho']
  have hH : ∀ x s q, Holds M (setContainer w2 o v (M.refs f).declId) x s q ↔ Holds M w2 x s q := by intro x s q; simp [Holds]
  have hDo : ¬ D o := fun hh => hh.2.1 rfl
  have hpq : ∀ q x s, q ≠ o → (Points M cls (setContainer w2 o v (M.refs f).declId) q x s ↔ ¬ D q ∧ Points M cls w q x s) := by
    intro q x s hq
    by_cases hDq : D q
    · simp only [hDq, not_true_eq_false, false_and, iff_false]
      intro hp
      have := hp.container
      rw [setContainer_container, if_neg hq, s4 q hDq] at this
      simp at this
    · rw [points_congr (w := w) (by rw [setContainer_container, if_neg hq, (s5 q hDq).1]) (by rw [setContainer_cfid, if_neg hq, (s5 q hDq).2])]
      simp [hDq]
  have hpo : ∀ x s, Points M cls (setContainer w2 o v (M.refs f).declId) o x s ↔ v = some x ∧ s = f' := by
    intro x s
    have mk : ∀ y, v = some y → Points M cls (setContainer w2 o v (M.refs f).declId) o y f' := by
      intro y hy
      refine ⟨by simp [setContainer_container, hy], by simp [setContainer_cfid, hcode], hv y hy, hc, ?_⟩
      intro t ht
      rw [ho'] at ht
      injection ht with ht
      subst ht
      exact hf
    constructor
    · intro hp
      have h1 := hp.container
      rw [setContainer_container, if_pos rfl] at h1
      exact ⟨h1, ((mk x h1).unique wf hp).2.symm⟩
    · rintro ⟨h1, rfl⟩; exact mk x h1
  refine ⟨by simp [s2], by simpa using s3, ?_, ?_, ?_, ?_⟩
  · intro x s q hs hcs
    rw [hH, s6 x s q hs (wf.contNot hcs)]
    by_cases hq : q = o
    · subst hq
      rw [hpo]
      have hown := h.own x s q hs hcs
      simp only [and_true, true_and, hDo, false_and, not_false_eq_true, hown]
      grind
    · rw [hpq q x s hq, h.own x s q hs hcs]
      simp only [hq, and_false, false_and, not_false_eq_true, true_and, false_or]
      constructor
      · rintro ⟨k1, k2⟩
        refine ⟨?_, k1⟩
        intro hDq
        obtain ⟨hmf, -, c, hc', hp⟩ := hDq
        obtain ⟨rfl, rfl⟩ := hp.unique wf k1
        exact k2 ⟨⟨hmf, hq, _, hc', hp⟩, rfl, hc'⟩
      · rintro ⟨k1, k2⟩
        exact ⟨k2, fun hh => k1 hh.1⟩
  · intro q x hq
    by_cases hqo : q = o
    · subst hqo
      rw [setContainer_container, if_pos rfl] at hq
      exact ⟨f', (hpo x f').2 ⟨hq, rfl⟩⟩
    · rw [setContainer_container, if_neg hqo] at hq
      by_cases hDq : D q
      · rw [s4 q hDq] at hq; simp at hq
      · rw [(s5 q hDq).1] at hq
        obtain ⟨s, hs⟩ := h.code q x hq
        exact ⟨s, (hpq q x s hqo).2 ⟨hDq, hs⟩⟩
  · intro x s y s' hs hos hns hcs hk
    rw [hH, s6 x s y hs hns] at hk
    rcases hk with ⟨-, rfl, -⟩ | ⟨hk, -⟩
    · simp [hc] at hcs
    · exact h.fits x s y s' hs hos hns hcs hk
  · intro x s y s' hs hs' hos hns hcs
    have hcs' : (M.refs s').containment = false := by rw [← isContainer_opp hos]; exact hns
    have hns' : M.isContainer s' = false := by rw [isContainer_opp (wf.opp s s' hos).1]; exact hcs
    have plain : ∀ a b t, t ∈ M.features (cls a) → (M.refs t).containment = false → M.isContainer t = false → 
        (Holds M (setContainer w2 o v (M.refs f).declId) a t b ↔ Holds M w a t b) := by
      intro a b t ht hct hnt
      rw [hH, s6 a t b ht hnt]
      have h1 : t ≠ f' := by rintro rfl; simp [hc] at hct
      have h2 : ¬ Points M cls w o a t := fun hp => by have := hp.cont; simp [hct] at this
      simp [h1, h2]
    rw [plain x y s hs hcs hns, plain y x s' hs' hcs' hns']
    exact h.bi x s y s' hs hs' hos hns hcs

theorem good_eSet (wf : WellFormed M) (h : Good M cls w) {o f : Nat} (hf : f ∈ M.features (cls o)) (hm : (M.refs f).many = false) (v : Option Nat)
    (hv : ∀ x, v = some x → Fits M cls f x) : ∃ w', eSet M w o f v = some w' ∧ Good M cls w' := by
  simp only [eSet, h.cls_eq o, wf.featureID hf, Int.toNat_natCast, removeFromContainer_if]
  rw [if_neg (by omega)]
  by_cases hn : M.isContainer f = true
  · rw [if_pos hn]
    split
    · obtain ⟨f', ho⟩ : ∃ f', (M.refs f).opposite = some f' := by
        cases ho : (M.refs f).opposite with
        | none => simp [Meta.isContainer, ho] at hn
        | some f' => exact ⟨f', rfl⟩
      have hc : (M.refs f').containment = true := by rw [← isContainer_opp ho]; exact hn
      obtain ⟨w1, w2, r1, r2, r3, r4⟩ := good_container wf h hf ho hc v (fun x hx => hv x hx f' ho)
      have r1' := (removeFromContainer_if M w o).trans r1
      refine ⟨_, ?_, r4⟩
      by_cases hcn : (w o).container ≠ none
      · rw [if_pos hcn, r1]
        cases v with
        | none =>
          simp only [Option.some.injEq] at r2
          subst r2
          rfl
        | some c =>
          simp only at r2
          simp only [ho, Option.bind_eq_bind, Option.bind_some]
          rw [r3 c, wf.featureID (hv c rfl f' ho), r2]
          rfl
      · rw [if_neg hcn] at r1' ⊢
        simp only [Option.some.injEq] at r1'
        subst r1'
        cases v with
        | none =>
          simp only [Option.some.injEq] at r2
          subst r2
          rfl
        | some c =>
          simp only at r2
          simp only [ho, Option.bind_eq_bind, Option.bind_some]
          rw [r3 c, wf.featureID (hv c rfl f' ho), r2]
          rfl
    · exact ⟨w, rfl, h⟩
  · have hn : M.isContainer f = false := by simpa using hn
    simp only [hn, Bool.false_eq_true, ↓reduceIte]
    by_cases hl : (M.refs f).opposite ≠ none ∨ (M.refs f).containment = true
    · rw [if_pos hl]
      split
      · rename_i hne
        obtain ⟨w1, w2, a1, a2, a3⟩ := good_single wf h hf hm hn hl.symm v hv hne
        rw [a1]
        simp only [Option.bind_eq_bind, Option.bind_some, a2]
        exact ⟨_, rfl, a3⟩
      · exact ⟨w, rfl, h⟩
    · rw [if_neg hl]
      refine ⟨_, rfl, ?_⟩
      simp only [ne_eq, not_or, Decidable.not_not, Bool.not_eq_true] at hl
      obtain ⟨p1, p2⟩ := Inv.put wf h hf (Good.off _) (v := .of v) (by cases v <;> simp [Shape, hm, Slot.of])
      obtain ⟨f1, f2⟩ := p1.free wf hl.2 hl.1 (fun q => Holds M (setSlot w o (M.refs f).declId (.of v)) o f q) p2 ⟨rfl, rfl⟩
      exact f1.good wf f2 (by simp)

theorem good_eUnset (wf : WellFormed M) (h : Good M cls w) {o f : Nat} (hf : f ∈ M.features (cls o)) (hm : (M.refs f).many = false) :
    ∃ w', eUnset M w o f = some w' ∧ Good M cls w' := by
  simp only [eUnset, h.cls_eq o, wf.featureID hf, Int.toNat_natCast]
  rw [if_neg (by omega)]
  by_cases hn : M.isContainer f = true
  · rw [if_pos hn]
    split
    · obtain ⟨f', ho⟩ : ∃ f', (M.refs f).opposite = some f' := by
        cases ho : (M.refs f).opposite with
        | none => simp [Meta.isContainer, ho] at hn
        | some f' => exact ⟨f', rfl⟩
      have hc : (M.refs f').containment = true := by rw [← isContainer_opp ho]; exact hn
      obtain ⟨w1, w2, r1, r2, r3, r4⟩ := good_container wf h hf ho hc none (by simp)
      simp only [Option.some.injEq] at r2
      subst r2
      exact ⟨_, by rw [r1]; rfl, r4⟩
    · exact ⟨w, rfl, h⟩
  · have hn : M.isContainer f = false := by simpa using hn
    simp only [hn, Bool.false_eq_true, ↓reduceIte]
    by_cases hl : (M.refs f).opposite ≠ none ∨ (M.refs f).containment = true
    · rw [if_pos hl]
      split
      · rename_i hne
        obtain ⟨w1, w2, a1, a2, a3⟩ := good_single wf h hf hm hn hl.symm none (by simp) hne
        simp only [addNew, Option.some.injEq] at a2
        subst a2
        exact ⟨_, by rw [a1]; rfl, a3⟩
      · exact ⟨w, rfl, h⟩
    · rw [if_neg hl]
      refine ⟨_, rfl, ?_⟩
      simp only [ne_eq, not_or, Decidable.not_not, Bool.not_eq_true] at hl
      obtain ⟨p1, p2⟩ := Inv.put wf h hf (Good.off _) (v := .none) (by simp [Shape, hm])
      obtain ⟨f1, f2⟩ := p1.free wf hl.2 hl.1 (fun q => Holds M (setSlot w o (M.refs f).declId .none) o f q) p2 ⟨rfl, rfl⟩
      exact f1.good wf f2 (by simp)

theorem good_step (wf : WellFormed M) (h : Good M cls w) (op : Op) (ht : Typed M cls op) {w' : World} (hs : step M w op = some w') : Good M cls w' := by
  cases op with
  | set o f v =>
    obtain ⟨w1, h1, h2⟩ := good_eSet wf h ht.1 ht.2.1 v ht.2.2
    simp only [step, h1, Option.some.injEq] at hs
    exact hs ▸ h2
  | unset o f =>
    obtain ⟨w1, h1, h2⟩ := good_eUnset wf h ht.1 ht.2
    simp only [step, h1, Option.some.injEq] at hs
    exact hs ▸ h2
  | list o f op => exact good_listOp wf h ht.1 ht.2.1 ht.2.2.1 op ht.2.2.2 hs

theorem good_run (wf : WellFormed M) (ops : List Op) : ∀ w : World, Good M cls w → (∀ op ∈ ops, Typed M cls op) → ∀ w', run M w ops = some w' → Good M cls w' := by
  induction ops with
  | nil => intro w h _ w' hr; simp only [run, Option.some.injEq] at hr; exact hr ▸ h
  | cons op ops ih =>
    intro w h ht w' hr
    simp only [run] at hr
    cases hs : step M w op with
    | none => simp [hs] at hr
    | some w1 =>
      rw [hs] at hr
      exact ih w1 (good_step wf h op (ht op (by simp)) hs) (fun x hx => ht x (by simp [hx])) w' hr

/-! ### Reading -/

theorem Good.eGet (wf : WellFormed M) (h : Good M cls w) {a r : Nat} (hr : r ∈ M.features (cls a)) (hn : M.isContainer r = false) (q : Nat) :
    q ∈ eGet M w a r ↔ Holds M w a r q := by
  simp only [Graph.eGet, hn, Bool.false_eq_true, ↓reduceIte, h.cls_eq a, wf.featureID hr, Int.toNat_natCast, Holds]
  cases (w a).slots (M.refs r).declId <;> simp [Slot.vals]

theorem Points.feature (wf : WellFormed M) (h : Good M cls w) {q x s : Nat} (hp : Points M cls w q x s) : eContainingFeature M w q = some s := by
  simp only [eContainingFeature, hp.container, hp.cfid, h.cls_eq, code]
  cases ho : (M.refs s).opposite with
  | none =>
    simp only []
    rw [if_pos (by omega), show (-1 - (-1 - ((M.refs s).declId : Int))) = (M.refs s).declId by omega, wf.feature hp.mem]
  | some s' =>
    simp only []
    rw [if_neg (by omega), wf.feature (hp.fits s' ho)]
    exact (wf.opp s s' ho).1

theorem Good.contained (wf : WellFormed M) (h : Good M cls w) : Contained M cls w := by
  have main : ∀ a r o, r ∈ M.features (cls a) → (M.refs r).containment = true →
      (o ∈ Graph.eGet M w a r ↔ eContainer w o = some a ∧ eContainingFeature M w o = some r) := by
    intro a r o hr hc
    rw [h.eGet wf hr (wf.contNot hc), h.own a r o hr hc]
    constructor
    · exact fun hp => ⟨hp.container, hp.feature wf h⟩
    · rintro ⟨h1, h2⟩
      obtain ⟨s, hs⟩ := h.code o a h1
      rw [hs.feature wf h] at h2
      injection h2 with h2
      exact h2 ▸ hs
  refine ⟨main, ?_⟩
  intro o a ha
  obtain ⟨s, hs⟩ := h.code o a ha
  exact ⟨s, hs.mem, hs.cont, (main a s o hs.mem hs.cont).2 ⟨ha, hs.feature wf h⟩⟩

theorem Good.symm_cont (wf : WellFormed M) (h : Good M cls w) {a r b r' : Nat} (hr : r ∈ M.features (cls a)) (hr' : r' ∈ M.features (cls b))
    (ho : (M.refs r).opposite = some r') (hc : (M.refs r).containment = true) : b ∈ Graph.eGet M w a r ↔ a ∈ Graph.eGet M w b r' := by
  have ho' := (wf.opp r r' ho).1
  have hn' : M.isContainer r' = true := by rw [isContainer_opp ho']; exact hc
  rw [h.eGet wf hr (wf.contNot hc), h.own a r b hr hc]
  simp only [Graph.eGet, hn', ↓reduceIte, h.cls_eq b, wf.featureID hr']
  constructor
  · intro hp
    rw [hp.cfid]
    simp [code, ho, hp.container]
  · intro hh
    split at hh
    · rename_i hcf
      simp only [Option.mem_toList, Option.mem_def] at hh
      obtain ⟨s, hs⟩ := h.code b a hh
      have h1 := hs.cfid
      rw [hcf] at h1
      simp only [code] at h1
      split at h1
      · rename_i s' hos
        have : r' = s' := wf.inj hr' (hs.fits s' hos) (by omega)
        subst this
        have h2 := (wf.opp s r' hos).1
        rw [ho'] at h2
        injection h2 with h2
        subst h2
        exact hs
      · omega
    · simp at hh

theorem Good.symmetric (wf : WellFormed M) (h : Good M cls w) : Symmetric M cls w := by
  intro a r b r' hr hr' ho
  have ho' := (wf.opp r r' ho).1
  by_cases hc : (M.refs r).containment = true
  · exact h.symm_cont wf hr hr' ho hc
  · by_cases hc' : (M.refs r').containment = true
    · exact (h.symm_cont wf hr' hr ho' hc').symm
    · have hn : M.isContainer r = false := by rw [isContainer_opp ho]; simpa using hc'
      have hn' : M.isContainer r' = false := by rw [isContainer_opp ho']; simpa using hc
      rw [h.eGet wf hr hn, h.eGet wf hr' hn']
      exact h.bi a r b r' hr hr' ho hn (by simpa using hc)

theorem Good.eGet_data (wf : WellFormed M) (h : Good M cls w) {a r : Nat} (hr : r ∈ M.features (cls a)) (hm : (M.refs r).many = true)
    (hn : M.isContainer r = false) : Graph.eGet M w a r = dataOf M w a r := by
  have hs := h.shape a r hr hn
  simp only [Graph.eGet, hn, Bool.false_eq_true, ↓reduceIte, h.cls_eq a, wf.featureID hr, Int.toNat_natCast, dataOf]
  simp only [Shape, hm, ↓reduceIte] at hs
  rcases hs with hs | ⟨l, -, hs⟩ <;> simp [hs, Slot.data]

theorem eSet_get (wf : WellFormed M) (h : Good M cls w) {o f : Nat} (hf : f ∈ M.features (cls o)) (hm : (M.refs f).many = false) (v : Option Nat)
    (hv : ∀ x, v = some x → Fits M cls f x) {w' : World} (hs : eSet M w o f v = some w') : Graph.eGet M w' o f = v.toList ∧ Good M cls w' := by
  obtain ⟨w1, h1, h2⟩ := good_eSet wf h hf hm v hv
  rw [hs] at h1
  injection h1 with h1
  subst h1
  refine ⟨?_, h2⟩
  simp only [Graph.eGet, h2.cls_eq o, wf.featureID hf, Int.toNat_natCast]
  simp only [eSet, h.cls_eq o, wf.featureID hf, Int.toNat_natCast] at hs
  rw [if_neg (by omega)] at hs
  by_cases hn : M.isContainer f = true
  · rw [if_pos hn] at hs ⊢
    have fin : ∀ w2 : World, setContainer w2 o v (M.refs f).declId = w' → (if (w' o).cfid = (M.refs f).declId then (w' o).container.toList else []) = v.toList := by
      rintro w2 rfl
      simp [setContainer_container, setContainer_cfid]
    split at hs
    · split at hs <;> simp only [Option.bind_eq_bind, Option.bind_eq_some_iff] at hs
      · obtain ⟨w1, -, hs⟩ := hs
        split at hs <;> simp only [Option.bind_eq_some_iff, Option.some.injEq] at hs <;>
          (obtain ⟨w2, -, hs⟩ := hs; exact fin w2 hs)
      · obtain ⟨w1, -, hs⟩ := hs
        split at hs <;> simp only [Option.bind_eq_some_iff, Option.some.injEq] at hs <;>
          (obtain ⟨w2, -, hs⟩ := hs; exact fin w2 hs)
    · rename_i hne
      simp only [Option.some.injEq] at hs
      subst hs
      simp only [not_or, Decidable.not_not, not_and] at hne
      rw [← hne.1]
      cases v with
      | none => simp
      | some c => simp [hne.2 (by simp)]
  · rw [if_neg hn] at hs ⊢
    have fin : ∀ w2 : World, setSlot w2 o (M.refs f).declId (.of v) = w' → (match (w' o).slots (M.refs f).declId with
        | .none => []
        | .obj x => [x]
        | .list l => l) = v.toList := by
      rintro w2 rfl
      cases v <;> simp [setSlot_slots, Slot.of]
    split at hs
    · split at hs
      · simp only [Option.bind_eq_bind, Option.bind_eq_some_iff, Option.some.injEq] at hs
        obtain ⟨w1, -, w2, -, hs⟩ := hs
        exact fin w2 hs
      · rename_i hne
        simp only [Option.some.injEq] at hs
        subst hs
        simp only [Decidable.not_not] at hne
        rw [hne]
        cases v <;> simp [Slot.of]
    · simp only [Option.some.injEq] at hs
      exact fin w hs

theorem eUnset_get (wf : WellFormed M) (h : Good M cls w) {o f : Nat} (hf : f ∈ M.features (cls o)) (hm : (M.refs f).many = false)
    {w' : World} (hs : eUnset M w o f = some w') : Graph.eGet M w' o f = [] := by
  obtain ⟨w1, h1, h2⟩ := good_eUnset wf h hf hm
  rw [hs] at h1
  injection h1 with h1
  subst h1
  simp only [Graph.eGet, h2.cls_eq o, wf.featureID hf, Int.toNat_natCast]
  simp only [eUnset, h.cls_eq o, wf.featureID hf, Int.toNat_natCast] at hs
  rw [if_neg (by omega)] at hs
  by_cases hn : M.isContainer f = true
  · rw [if_pos hn] at hs ⊢
    split at hs
    · simp only [Option.map_eq_some_iff] at hs
      obtain ⟨w1, -, rfl⟩ := hs
      simp [setContainer_container]
    · rename_i hne
      simp only [Option.some.injEq] at hs
      subst hs
      simp only [Decidable.not_not] at hne
      simp [hne]
  · rw [if_neg hn] at hs ⊢
    split at hs
    · split at hs
      · simp only [Option.map_eq_some_iff] at hs
        obtain ⟨w1, -, rfl⟩ := hs
        simp [setSlot_slots]
      · rename_i hne
        simp only [Option.some.injEq] at hs
        subst hs
        simp only [Decidable.not_not] at hne
        simp [hne]
    · simp only [Option.some.injEq] at hs
      subst hs
      simp [setSlot_slots]

end Verif.Graph
