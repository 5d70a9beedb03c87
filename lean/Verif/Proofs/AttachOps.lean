import Verif.Proofs.Attach
import Verif.Proofs.Graph

/-! The calls of a program, for C79. -/

namespace Verif.Attach
open Verif.Graph (LOp)

theorem In.congr {t t' : Tree} (ho : t'.own = t.own) (hb : t'.box = t.box) {r x : Nat} (h : In t r x) : In t' r x := by
  induction h with
  | own h => exact .own (by rw [ho]; exact h)
  | box h1 h2 _ ih => exact .box (by rw [ho]; exact h1) (by rw [hb]; exact h2) ih

theorem In.congr_iff {t t' : Tree} (ho : t'.own = t.own) (hb : t'.box = t.box) {r x : Nat} : In t' r x ↔ In t r x :=
  ⟨In.congr ho.symm hb.symm, In.congr ho hb⟩

theorem setKids_kids (t : Tree) (p k : Nat) (l : List Nat) (y j : Nat) :
    (t.setKids p k l).kids y j = if y = p ∧ j = k then l else t.kids y j := by
  simp only [Tree.setKids, put]
  by_cases h : y = p
  · subst h; by_cases h2 : j = k <;> simp [put, h2]
  · simp [h]

theorem flag_eq {M : List Ref} {k : Nat} (h : k < M.length) : flag M k = true ↔ crosses M k := by
  unfold flag crosses
  rw [List.getElem?_eq_getElem h]
  simp only [Ref.flag, Option.some.injEq, exists_eq_left']
  cases (M[k]).opposite <;> simp

theorem flag_false {M : List Ref} {k : Nat} (h : k < M.length) : flag M k = false ↔ ¬ crosses M k := by
  rw [← flag_eq h]; simp

/-- a tree in the middle of a call on the reference `k` of `p`, which has the objects `cur` -/
structure Mid (M : List Ref) (t : Tree) (p k : Nat) (cur : Nat → Prop) : Prop where
  core : Core M t
  kids : ∀ y j, ¬ (y = p ∧ j = k) → ∀ x, x ∈ t.kids y j ↔ t.box x = some (y, j)
  cur : ∀ x, t.box x = some (p, k) ↔ cur x
  roots : ∀ r x, x ∈ t.roots r ↔ t.own x = some r

/-- a tree between two calls -/
structure Full (M : List Ref) (t : Tree) : Prop where
  core : Core M t
  kids : ∀ y j x, x ∈ t.kids y j ↔ t.box x = some (y, j)
  roots : ∀ r x, x ∈ t.roots r ↔ t.own x = some r

theorem Full.sound {M : List Ref} {t : Tree} (h : Full M t) (o : Nat) : Sound t o := fun y _ k x => h.kids y k x

theorem Core.setKids {M : List Ref} {t : Tree} (h : Core M t) {p k : Nat} {l : List Nat} (hl : l.Nodup)
    (h1 : ∀ f, M[k]? = some f → f.many = false → l.length ≤ 1) : Core M (t.setKids p k l) := by
  refine ⟨fun y j => ?_, h.rnodup, h.sep, h.rank, h.lt, fun y j f hf hm => ?_⟩
  · rw [setKids_kids]; split
    · exact hl
    · exact h.knodup y j
  · rw [setKids_kids]; split
    · next e => rw [e.2] at hf; exact h1 f hf hm
    · exact h.one y j f hf hm

theorem Full.mid {M : List Ref} {t : Tree} (h : Full M t) (p k : Nat) {l : List Nat} (hl : l.Nodup)
    (h1 : ∀ f, M[k]? = some f → f.many = false → l.length ≤ 1) : Mid M (t.setKids p k l) p k (· ∈ t.kids p k) := by
  refine ⟨h.core.setKids hl h1, fun y j hne x => ?_, fun x => (h.kids p k x).symm, h.roots⟩
  rw [setKids_kids, if_neg hne]; exact h.kids y j x

theorem Mid.full {M : List Ref} {t : Tree} {p k : Nat} {cur : Nat → Prop} (h : Mid M t p k cur) {l : List Nat} (hl : l.Nodup)
    (h1 : ∀ f, M[k]? = some f → f.many = false → l.length ≤ 1) (hc : ∀ x, x ∈ l ↔ cur x) : Full M (t.setKids p k l) := by
  refine ⟨h.core.setKids hl h1, fun y j x => ?_, h.roots⟩
  rw [setKids_kids]
  split
  · next e => rw [e.1, e.2, hc, ← h.cur]; rfl
  · next e => exact h.kids y j e x

theorem setKids_self (t : Tree) (p k : Nat) : t.setKids p k (t.kids p k) = t := by
  have : (t.setKids p k (t.kids p k)).kids = t.kids := by
    funext y j; rw [setKids_kids]; split
    · next e => rw [e.1, e.2]
    · rfl
  cases t; simp only [Tree.setKids] at this ⊢; rw [this]

section
variable {ID G : Type} [DecidableEq ID]

theorem kidRemove_mid {c : IDManager.Cfg ID G} {good : G → Prop} (hw : Works c good) {M : List Ref} {n : Nat}
    {w w' : World ID G} {p k e : Nat} {cur : Nat → Prop} (h : kidRemove c M n w e = some w') (hm : Mid M w.tree p k cur)
    (hc : cur e) (hS : Has c good w (In w.tree)) :
    Mid M w'.tree p k (fun x => cur x ∧ x ≠ e) ∧ Has c good w' (In w'.tree) ∧ w'.tree = w.tree.setBox e none := by
  have hbe := (hm.cur e).2 hc
  have hp : ¬ Inside w.tree.box e p := hm.core.rank.acyclic hbe
  have hown : w.tree.own e = none := (hm.core.sep e).resolve_right (by simp [hbe])
  have hs : Sound w.tree e := fun y hy j x => hm.kids y j (by rintro ⟨rfl, _⟩; exact hp hy) x
  obtain ⟨ht, hS'⟩ := basicSetContainer_has hw h hm.core hs hS (by simp)
  have hco := moved_core hm.core (o := e) (b := none) (by simp)
  have hmv : moved w.tree e none = w.tree.setBox e none := by unfold moved; rw [hown]
  rw [hmv] at ht hco
  rw [ht] at hS'
  rw [ht]
  refine ⟨⟨hco, fun y j hne x => ?_, fun x => ?_, hm.roots⟩, hS', rfl⟩
  · simp only [Tree.setBox, put]
    rw [hm.kids y j hne]
    split
    · next e => subst e; rw [hbe]; simp; intro h1 h2; exact hne ⟨h1.symm, h2.symm⟩
    · rfl
  · simp only [Tree.setBox, put]
    split
    · next e => simp [e]
    · next ne => rw [hm.cur]; simp [ne]

theorem takeOut_kids {M : List Ref} {t : Tree} {p k e : Nat} {cur : Nat → Prop} (hm : Mid M t p k cur) (hc : ¬ cur e) (y j x : Nat) :
    x ∈ (takeOut M t e).kids y j ↔ x ∈ t.kids y j ∧ ¬ (x = e ∧ t.box e = some (y, j)) := by
  unfold takeOut
  cases hb : t.box e with
  | none => simp
  | some cj =>
    obtain ⟨c, j0⟩ := cj
    have hne : ¬ (c = p ∧ j0 = k) := by rintro ⟨rfl, rfl⟩; exact hc ((hm.cur e).1 hb)
    have hlt := hm.core.lt _ _ _ hb
    have hin : e ∈ t.kids c j0 := (hm.kids c j0 hne e).2 hb
    cases hf : M[j0]? with
    | none => rw [List.getElem?_eq_getElem hlt] at hf; simp at hf
    | some f =>
      simp only [hf]
      rw [setKids_kids]
      by_cases hy : y = c ∧ j = j0
      · obtain ⟨rfl, rfl⟩ := hy
        rw [if_pos ⟨rfl, rfl⟩]
        cases hmany : f.many with
        | true =>
          rw [if_pos rfl, (hm.core.knodup y j).mem_erase_iff]
          simp [and_comm]
        | false =>
          have := hm.core.one y j f hf hmany
          match hk : t.kids y j, this, hin with
          | [a], _, hin => simp at hin; subst hin; simp
      · rw [if_neg hy]
        simp only [Option.some.injEq, Prod.mk.injEq]
        constructor
        · exact fun h => ⟨h, fun hc => hy ⟨hc.2.1.symm, hc.2.2.symm⟩⟩
        · exact fun h => h.1

theorem takeOut_same {M : List Ref} {t : Tree} {p k e : Nat} (h : t.box e ≠ some (p, k)) :
    (takeOut M t e).kids p k = t.kids p k := by
  unfold takeOut
  cases hb : t.box e with
  | none => rfl
  | some cj =>
    obtain ⟨c, j0⟩ := cj
    rw [hb] at h
    simp only []
    split
    · rw [setKids_kids, if_neg]; rintro ⟨rfl, rfl⟩; exact h rfl
    · rfl

theorem takeOut_box (M : List Ref) (t : Tree) (e : Nat) : (takeOut M t e).box = t.box := by
  unfold takeOut; split
  · rfl
  · split <;> rfl

theorem takeOut_own (M : List Ref) (t : Tree) (e : Nat) : (takeOut M t e).own = t.own := by
  unfold takeOut; split
  · rfl
  · split <;> rfl

theorem takeOut_roots (M : List Ref) (t : Tree) (e : Nat) : (takeOut M t e).roots = t.roots := by
  unfold takeOut; split
  · rfl
  · split <;> rfl

theorem takeOut_core {M : List Ref} {t : Tree} (h : Core M t) (e : Nat) : Core M (takeOut M t e) := by
  unfold takeOut; split
  · exact h
  · split
    · next f hf =>
      refine h.setKids ?_ ?_
      · split
        · exact (h.knodup _ _).erase _
        · exact List.nodup_nil
      · intro f' hf' hm; rw [hf] at hf'; injection hf' with e; subst e; simp [hm]
    · exact h

/-- the object that is put in the reference is in no list in the meantime -/
theorem put_mid {c : IDManager.Cfg ID G} {good : G → Prop} (hw : Works c good) {M : List Ref} {n : Nat}
    {w w' : World ID G} {t : Tree} {p k e : Nat} {cur : Nat → Prop} (h : basicSetContainer c M n w e (some (p, k)) = some w')
    (hwt : w.tree = takeOut M t e) (hm : Mid M t p k cur) (hc : ¬ cur e) (hp : ¬ Inside t.box e p) (hk : k < M.length)
    (hf : t.own e ≠ none → flag M k = false) (hS : Has c good w (In t)) :
    Mid M w'.tree p k (fun x => cur x ∨ x = e) ∧ Has c good w' (In w'.tree) ∧ w'.tree.kids p k = t.kids p k ∧
      w'.tree.box = put t.box e (some (p, k)) ∧ w'.tree.own = put t.own e none := by
  have hbk : t.box e ≠ some (p, k) := fun h => hc ((hm.cur e).1 h)
  have hco : Core M w.tree := hwt ▸ takeOut_core hm.core e
  have hbox : w.tree.box = t.box := by rw [hwt, takeOut_box]
  have hown : w.tree.own = t.own := by rw [hwt, takeOut_own]
  have hroots : w.tree.roots = t.roots := by rw [hwt, takeOut_roots]
  have hkids : ∀ y j x, x ∈ w.tree.kids y j ↔ x ∈ t.kids y j ∧ ¬ (x = e ∧ t.box e = some (y, j)) := by
    intro y j x; rw [hwt]; exact takeOut_kids hm hc y j x
  have hs : Sound w.tree e := by
    intro y hy j x
    rw [hbox] at hy
    rw [hkids, hbox, hm.kids y j (by rintro ⟨rfl, _⟩; exact hp hy)]
    constructor
    · exact fun h => h.1
    · refine fun h => ⟨h, ?_⟩
      rintro ⟨rfl, hb⟩
      exact hm.core.rank.acyclic hb hy
  obtain ⟨ht, hS'⟩ := basicSetContainer_has hw h hco hs (hS.iff rfl rfl fun r x => In.congr_iff hown hbox) (by
    intro p' k' e'
    injection e' with e'; injection e' with e1 e2; subst e1; subst e2
    exact ⟨by rw [hbox]; exact hp, by rw [hown]; exact hf⟩)
  have hco' := moved_core hco (o := e) (b := some (p, k)) (by
    intro p' k' e'
    injection e' with e'; injection e' with e1 e2; subst e1; subst e2
    exact ⟨by rw [hbox]; exact hp, hk⟩)
  have mkids : (moved w.tree e (some (p, k))).kids = w.tree.kids := by unfold moved; split <;> rfl
  have mbox : (moved w.tree e (some (p, k))).box = put t.box e (some (p, k)) := by
    unfold moved; split <;> simp [Tree.setBox, Tree.setOwn, Tree.setRoots, hbox]
  have mown : (moved w.tree e (some (p, k))).own = put t.own e none := by
    unfold moved
    split
    · simp [Tree.setBox, Tree.setOwn, Tree.setRoots, hown]
    · next hno =>
      have : w.tree.own e = none := by
        cases ho : w.tree.own e with
        | none => rfl
        | some r => exact absurd rfl (hno r (p, k) ho)
      funext y; simp only [Tree.setBox, put]; rw [hown]; split
      · next e' => rw [e', ← hown, this]
      · rfl
  have mroots : ∀ r x, x ∈ (moved w.tree e (some (p, k))).roots r ↔ (x ∈ t.roots r ∧ x ≠ e) := by
    intro r x
    unfold moved
    split
    · next r0 _ ho _ =>
      simp only [Tree.setBox, Tree.setOwn, Tree.setRoots, put]
      rw [hown] at ho
      split
      · next e' => subst e'; rw [(hco.rnodup r).mem_erase_iff, hroots]; exact and_comm
      · next ne =>
        rw [hroots]
        refine ⟨fun hx => ⟨hx, ?_⟩, fun h => h.1⟩
        rintro rfl
        have := (hm.roots r x).1 hx
        rw [ho] at this; injection this with this; exact ne this.symm
    · next hno =>
      have : w.tree.own e = none := by
        cases ho : w.tree.own e with
        | none => rfl
        | some r => exact absurd rfl (hno r (p, k) ho)
      simp only [Tree.setBox]
      rw [hroots]
      refine ⟨fun hx => ⟨hx, ?_⟩, fun h => h.1⟩
      rintro rfl
      have h2 := (hm.roots r x).1 hx
      rw [← hown, this] at h2; simp at h2
  rw [ht] at hS' ⊢
  refine ⟨⟨hco', fun y j hne x => ?_, fun x => ?_, fun r x => ?_⟩, hS', ?_, mbox, mown⟩
  · rw [mkids, mbox, hkids, hm.kids y j hne]
    simp only [put]
    split
    · next e' =>
      subst e'
      simp only [true_and, and_not_self, Option.some.injEq, Prod.mk.injEq, false_iff]
      rintro ⟨rfl, rfl⟩; exact hne ⟨rfl, rfl⟩
    · next ne => simp [ne]
  · rw [mbox]; simp only [put]
    split
    · next e' => simp [e']
    · next ne => rw [hm.cur]; simp [ne]
  · rw [mroots, mown, hm.roots]; simp only [put]
    split
    · next e' => simp [e']
    · next ne => simp [ne]
  · rw [mkids, hwt, takeOut_same hbk]

theorem kidAdd_mid {c : IDManager.Cfg ID G} {good : G → Prop} (hw : Works c good) {M : List Ref} {n : Nat}
    {w w' : World ID G} {p k e : Nat} {cur : Nat → Prop} (h : kidAdd c M n p k w e = some w') (hm : Mid M w.tree p k cur)
    (hc : ¬ cur e) (hp : ¬ Inside w.tree.box e p) (hk : k < M.length) (hf : w.tree.own e ≠ none → flag M k = false)
    (hS : Has c good w (In w.tree)) :
    Mid M w'.tree p k (fun x => cur x ∨ x = e) ∧ Has c good w' (In w'.tree) ∧ w'.tree.kids p k = w.tree.kids p k ∧
      w'.tree.box = put w.tree.box e (some (p, k)) ∧ w'.tree.own = put w.tree.own e none :=
  put_mid hw h rfl hm hc hp hk hf (hS.iff rfl rfl fun _ _ => Iff.rfl)

/-- what stays during a call on the reference of `p` -/
structure Same (t t' : Tree) (p k : Nat) : Prop where
  kids : t'.kids p k = t.kids p k
  up : ∀ e, Inside t'.box e p ↔ Inside t.box e p
  own : ∀ x, t'.own x ≠ none → t.own x ≠ none

theorem Same.refl (t : Tree) (p k : Nat) : Same t t p k := ⟨rfl, fun _ => Iff.rfl, fun _ h => h⟩
theorem Same.trans {t1 t2 t3 : Tree} {p k : Nat} (h : Same t1 t2 p k) (h' : Same t2 t3 p k) : Same t1 t3 p k :=
  ⟨h'.kids.trans h.kids, fun e => (h'.up e).trans (h.up e), fun x hx => h.own x (h'.own x hx)⟩

theorem kidRemoves_mid {c : IDManager.Cfg ID G} {good : G → Prop} (hw : Works c good) {M : List Ref} {n p k : Nat} :
    ∀ (l : List Nat) (w w' : World ID G) (cur : Nat → Prop), each (kidRemove c M n) w l = some w' → Mid M w.tree p k cur →
      (∀ e ∈ l, cur e) → l.Nodup → Has c good w (In w.tree) →
      Mid M w'.tree p k (fun x => cur x ∧ x ∉ l) ∧ Has c good w' (In w'.tree) ∧ Same w.tree w'.tree p k := by
  intro l
  induction l with
  | nil =>
    intro w w' cur h hm _ _ hS
    simp [each] at h; subst h
    exact ⟨⟨hm.core, hm.kids, by simpa using hm.cur, hm.roots⟩, hS, .refl _ _ _⟩
  | cons e l ih =>
    intro w w' cur h hm hc hd hS
    obtain ⟨d1, d2⟩ := List.nodup_cons.1 hd
    simp only [each] at h
    obtain ⟨w1, h1, h2⟩ := Option.bind_eq_some_iff.1 h
    have hce := hc e (by simp)
    obtain ⟨m1, s1, t1⟩ := kidRemove_mid hw h1 hm hce hS
    have hp : ¬ Inside w.tree.box e p := hm.core.rank.acyclic ((hm.cur e).2 hce)
    have sm : Same w.tree w1.tree p k := by
      rw [t1]
      exact ⟨rfl, fun z => Inside.other_iff (o := e) (fun y hy => by simp [Tree.setBox, put, hy]) hp, fun x hx => hx⟩
    obtain ⟨m2, s2, sm2⟩ := ih w1 w' _ h2 m1 (fun x hx => ⟨hc x (by simp [hx]), by rintro rfl; exact d1 hx⟩) d2 s1
    refine ⟨⟨m2.core, m2.kids, fun x => (m2.cur x).trans ?_, m2.roots⟩, s2, sm.trans sm2⟩
    simp [and_assoc]

theorem kidAdds_mid {c : IDManager.Cfg ID G} {good : G → Prop} (hw : Works c good) {M : List Ref} {n p k : Nat} (hk : k < M.length) :
    ∀ (l : List Nat) (w w' : World ID G) (cur : Nat → Prop), each (kidAdd c M n p k) w l = some w' → Mid M w.tree p k cur →
      (∀ e ∈ l, ¬ cur e) → l.Nodup → (∀ e ∈ l, ¬ Inside w.tree.box e p ∧ (w.tree.own e ≠ none → flag M k = false)) →
      Has c good w (In w.tree) →
      Mid M w'.tree p k (fun x => cur x ∨ x ∈ l) ∧ Has c good w' (In w'.tree) ∧ Same w.tree w'.tree p k := by
  intro l
  induction l with
  | nil =>
    intro w w' cur h hm _ _ _ hS
    simp [each] at h; subst h
    exact ⟨⟨hm.core, hm.kids, by simpa using hm.cur, hm.roots⟩, hS, .refl _ _ _⟩
  | cons e l ih =>
    intro w w' cur h hm hc hd hf hS
    obtain ⟨d1, d2⟩ := List.nodup_cons.1 hd
    simp only [each] at h
    obtain ⟨w1, h1, h2⟩ := Option.bind_eq_some_iff.1 h
    have hce := hc e (by simp)
    obtain ⟨hp, hfe⟩ := hf e (by simp)
    obtain ⟨m1, s1, k1, b1, o1⟩ := kidAdd_mid hw h1 hm hce hp hk hfe hS
    have sm : Same w.tree w1.tree p k := by
      refine ⟨k1, fun z => Inside.other_iff (o := e) (fun y hy => by simp [b1, put, hy]) hp, fun x hx => ?_⟩
      rw [o1] at hx; simp only [put] at hx; split at hx
      · exact absurd rfl hx
      · exact hx
    obtain ⟨m2, s2, sm2⟩ := ih w1 w' _ h2 m1 (fun x hx => by
      rintro (h | rfl)
      · exact hc x (by simp [hx]) h
      · exact d1 hx) d2 (fun x hx => ⟨fun h => (hf x (by simp [hx])).1 ((sm.up x).1 h), fun h => (hf x (by simp [hx])).2 (sm.own x h)⟩) s1
    refine ⟨⟨m2.core, m2.kids, fun x => (m2.cur x).trans ?_, m2.roots⟩, s2, sm.trans sm2⟩
    simp [or_assoc]

theorem plan_eq (l : List Nat) (op : LOp) : plan l op = Graph.plan l op := by cases op <;> rfl

theorem plan_spec {data l old new : List Nat} (hnd : data.Nodup) (op : LOp) (hs : plan data op = some (l, old, new)) :
    Graph.PlanOk data l old new ∧ ∀ q ∈ new, q ∈ given op := by
  rw [plan_eq] at hs
  obtain ⟨h1, h2⟩ := Graph.plan_ok hnd op hs
  exact ⟨h1, fun q hq => by have := h2 q hq; cases op <;> exact this⟩

/-- the state between two calls -/
structure Inv (c : IDManager.Cfg ID G) (good : G → Prop) (M : List Ref) (w : World ID G) : Prop where
  full : Full M w.tree
  has : Has c good w (In w.tree)

theorem Fits.use {M : List Ref} {t : Tree} (h : Full M t) {p k e : Nat} (hf : Fits M t p k e) (hk : k < M.length) :
    ¬ Inside t.box e p ∧ (t.own e ≠ none → flag M k = false) := by
  refine ⟨hf.1, fun ho => ?_⟩
  rw [flag_false hk]
  intro hc
  cases hr : t.own e with
  | none => exact ho hr
  | some r => exact hf.2 hc r ((h.roots r e).2 hr)

theorem listOp_inv {c : IDManager.Cfg ID G} {good : G → Prop} (hw : Works c good) {M : List Ref} {n : Nat}
    {w w' : World ID G} {p k : Nat} {op : LOp} (h : listOp c M n w p k op = some w') (hi : Inv c good M w)
    (hf : ∀ e ∈ given op, Fits M w.tree p k e) : Inv c good M w' := by
  unfold listOp at h
  split at h
  · next res opp hM =>
    have hk : k < M.length := (List.getElem?_eq_some_iff.1 hM).1
    cases hp : plan (w.tree.kids p k) op with
    | none => simp [hp] at h
    | some q =>
      obtain ⟨l, out, inn⟩ := q
      simp only [hp, Option.bind_eq_bind, Option.bind_some] at h
      obtain ⟨w1, h1, h2⟩ := Option.bind_eq_some_iff.1 h
      obtain ⟨ok, hg⟩ := plan_spec (hi.full.core.knodup p k) op hp
      have single : ∀ f : Ref, M[k]? = some f → f.many = false → l.length ≤ 1 := by
        intro f hf hm; rw [hM] at hf; injection hf with hf; subst hf; simp at hm
      have m0 : Mid M (w.tree.setKids p k l) p k (· ∈ w.tree.kids p k) := hi.full.mid p k ok.nodup single
      obtain ⟨m1, s1, sm1⟩ := kidRemoves_mid hw out { w with tree := w.tree.setKids p k l } w1 _ h1 m0 ok.old_mem ok.old_nodup
        (hi.has.iff rfl rfl fun r x => In.congr_iff (t := w.tree) (t' := w.tree.setKids p k l) rfl rfl)
      obtain ⟨m2, s2, sm2⟩ := kidAdds_mid hw hk inn w1 w' _ h2 m1 (fun e he hc => ok.new_mem e he hc.1) ok.new_nodup (fun e he => by
        have := (hf e (hg e he)).use hi.full hk
        exact ⟨fun h => this.1 ((sm1.up e).1 h), fun h => this.2 (sm1.own e h)⟩) s1
      have sm := sm1.trans sm2
      have hkids : w'.tree.kids p k = l := by rw [sm.kids]; simp [setKids_kids]
      refine ⟨?_, s2⟩
      have := m2.full (l := l) ok.nodup single (fun x => ok.mem x)
      rw [← hkids, setKids_self] at this
      exact this
  · simp at h

theorem setKid_inv {c : IDManager.Cfg ID G} {good : G → Prop} (hw : Works c good) {M : List Ref} {n : Nat}
    {w w' : World ID G} {p k : Nat} {v : Option Nat} (h : setKid c M n w p k v = some w') (hi : Inv c good M w)
    (hf : ∀ e ∈ v, Fits M w.tree p k e) : Inv c good M w' := by
  unfold setKid at h
  split at h
  · next res opp hM =>
    have hk : k < M.length := (List.getElem?_eq_some_iff.1 hM).1
    have hone := hi.full.core.one p k _ hM rfl
    dsimp only at h
    split at h
    · injection h with h; subst h; exact hi
    · next hne =>
      simp only [Option.bind_eq_bind] at h
      obtain ⟨w1, h1, h⟩ := Option.bind_eq_some_iff.1 h
      obtain ⟨w2, h2, h⟩ := Option.bind_eq_some_iff.1 h
      injection h with h; subst h
      have hL : (w.tree.kids p k).head?.toList = w.tree.kids p k := by
        match w.tree.kids p k, hone with
        | [], _ => rfl
        | [a], _ => rfl
      have m0 : Mid M w.tree p k (· ∈ w.tree.kids p k) := by
        have := hi.full.mid p k (l := w.tree.kids p k) (hi.full.core.knodup p k) (fun _ _ _ => hone)
        rwa [setKids_self] at this
      obtain ⟨m1, s1, sm1⟩ := kidRemoves_mid hw _ w w1 _ h1 m0 (by rw [hL]; exact fun _ h => h) (by rw [hL]; exact hi.full.core.knodup p k) hi.has
      obtain ⟨m2, s2, sm2⟩ := kidAdds_mid hw hk _ w1 w2 _ h2 m1 (fun e _ hc => by rw [hL] at hc; exact hc.2 hc.1)
        (by cases v <;> simp) (fun e he => by
          have := (hf e (by simpa using he)).use hi.full hk
          exact ⟨fun h => this.1 ((sm1.up e).1 h), fun h => this.2 (sm1.own e h)⟩) s1
      refine ⟨m2.full (by cases v <;> simp) (by cases v <;> simp) (fun x => ?_), s2.iff rfl rfl fun r x => In.congr_iff (t := w2.tree) (t' := w2.tree.setKids p k v.toList) rfl rfl⟩
      rw [hL]; simp
  · simp at h

theorem takeOut_setKids {M : List Ref} {t : Tree} {o p k : Nat} {l : List Nat} (h : t.box o ≠ some (p, k)) :
    takeOut M (t.setKids p k l) o = (takeOut M t o).setKids p k l := by
  unfold takeOut
  rw [show (t.setKids p k l).box = t.box from rfl]
  cases hb : t.box o with
  | none => rfl
  | some cj =>
    obtain ⟨c, j⟩ := cj
    have hne : ¬ (c = p ∧ j = k) := by rintro ⟨rfl, rfl⟩; exact h hb
    simp only []
    split
    · next f _ =>
      rw [setKids_kids, if_neg hne]
      have : ∀ L, ((t.setKids p k l).setKids c j L).kids = ((t.setKids c j L).setKids p k l).kids := by
        intro L; funext y i
        simp only [setKids_kids]
        by_cases h1 : y = c ∧ i = j
        · have : ¬ (y = p ∧ i = k) := by rintro ⟨rfl, rfl⟩; exact hne ⟨h1.1.symm, h1.2.symm⟩
          simp [h1, hne]
        · simp [h1]
      have := this (if f.many = true then (t.kids c j).erase o else [])
      cases t; simp only [Tree.setKids] at this ⊢; rw [this]
    · rfl

theorem setContainer_inv {c : IDManager.Cfg ID G} {good : G → Prop} (hw : Works c good) {M : List Ref} {n : Nat}
    {w w' : World ID G} {o k : Nat} {v : Option Nat} (h : setContainer c M n w o k v = some w') (hi : Inv c good M w)
    (hf : ∀ p ∈ v, Fits M w.tree p k o ∧
      ((∃ f, M[k]? = some f ∧ f.many = false) → ∀ q ∈ w.tree.kids p k, ¬ Inside w.tree.box q o)) : Inv c good M w' := by
  unfold setContainer at h
  split at h
  · next many res opp hM =>
    have hk : k < M.length := (List.getElem?_eq_some_iff.1 hM).1
    split at h
    · next hcond =>
      cases v with
      | none =>
        simp only [Option.bind_eq_bind, Option.bind_some, Option.map_none] at h
        cases hb : w.tree.box o with
        | none => simp [hb] at hcond
        | some cj =>
          obtain ⟨b, j⟩ := cj
          have hj := hi.full.core.lt _ _ _ hb
          obtain ⟨f, hMj⟩ : ∃ f, M[j]? = some f := ⟨_, List.getElem?_eq_getElem hj⟩
          have hin : o ∈ w.tree.kids b j := (hi.full.kids b j o).2 hb
          let L := if f.many then (w.tree.kids b j).erase o else []
          have ht : takeOut M w.tree o = w.tree.setKids b j L := by
            unfold takeOut; rw [hb]; simp only [hMj]; rfl
          have hL : L.Nodup := by
            simp only [L]; split
            · exact (hi.full.core.knodup b j).erase _
            · exact List.nodup_nil
          have single : ∀ g : Ref, M[j]? = some g → g.many = false → L.length ≤ 1 := by
            intro g hg hm; rw [hMj] at hg; injection hg with hg; subst hg; simp [L, hm]
          have m0 := hi.full.mid b j hL single
          have h' : kidRemove c M n { w with tree := w.tree.setKids b j L } o = some w' := by
            unfold kidRemove; rw [← ht]; exact h
          obtain ⟨m1, s1, t1⟩ := kidRemove_mid hw h' m0 hin
            (hi.has.iff rfl rfl fun r x => In.congr_iff (t := w.tree) (t' := w.tree.setKids b j L) rfl rfl)
          refine ⟨?_, s1⟩
          have hkids : w'.tree.kids b j = L := by rw [t1]; simp [Tree.setBox, setKids_kids]
          have := m1.full (l := L) hL single (fun x => by
            simp only [L]
            cases hm : f.many with
            | true => rw [if_pos rfl, (hi.full.core.knodup b j).mem_erase_iff]; exact and_comm
            | false =>
              have := hi.full.core.one b j f hMj hm
              match hk : w.tree.kids b j, this, hin with
              | [a], _, hin => simp at hin; subst hin; simp)
          rw [← hkids, setKids_self] at this
          exact this
      | some p =>
        obtain ⟨hfit, hrep⟩ := hf p rfl
        obtain ⟨hp, hfl⟩ := hfit.use hi.full hk
        have hbk : w.tree.box o ≠ some (p, k) := by intro hb; simp [hb] at hcond
        have hin : o ∉ w.tree.kids p k := fun h => hbk ((hi.full.kids p k o).1 h)
        cases many with
        | true =>
          simp only [Option.bind_eq_bind, Option.bind_some, if_true, Option.map_some] at h
          let L := w.tree.kids p k ++ [o]
          have hL : L.Nodup := by
            simp only [L, List.nodup_append, hi.full.core.knodup p k]; simp
            exact fun a ha => by rintro rfl; exact hin ha
          have single : ∀ g : Ref, M[k]? = some g → g.many = false → L.length ≤ 1 := by
            intro g hg hm; rw [hM] at hg; injection hg with hg; subst hg; simp at hm
          have m0 := hi.full.mid p k hL single
          obtain ⟨m1, s1, k1, b1, o1⟩ := put_mid hw h (t := w.tree.setKids p k L)
            (by rw [takeOut_setKids hbk]; simp only [L]; rw [takeOut_same hbk]) m0 hin hp hk hfl
            (hi.has.iff rfl rfl fun r x => In.congr_iff (t := w.tree) (t' := w.tree.setKids p k L) rfl rfl)
          refine ⟨?_, s1⟩
          have hkids : w'.tree.kids p k = L := by rw [k1]; simp [setKids_kids]
          have := m1.full (l := L) hL single (fun x => by simp [L])
          rw [← hkids, setKids_self] at this
          exact this
        | false =>
          simp only [Option.bind_eq_bind, Option.bind_some, Option.map_some] at h
          have hone := hi.full.core.one p k _ hM rfl
          have hrep := hrep ⟨_, hM, rfl⟩
          rw [if_neg (by simp)] at h
          obtain ⟨w1, h1, h2⟩ := Option.bind_eq_some_iff.1 h
          rw [takeOut_same hbk] at h1
          -- the object that was there leaves
          have key : ∃ t1, Mid M t1 p k (fun _ => False) ∧ w1.tree = takeOut M t1 o ∧ Has c good w1 (In t1) ∧
              ¬ Inside t1.box o p ∧ (t1.own o ≠ none → flag M k = false) ∧ t1.box o ≠ some (p, k) := by
            match hq : w.tree.kids p k, hone with
            | [], _ =>
              rw [hq] at h1; simp [each] at h1; subst h1
              refine ⟨w.tree, ?_, rfl, hi.has.iff rfl rfl fun _ _ => Iff.rfl, hp, hfl, hbk⟩
              have := hi.full.mid p k (l := w.tree.kids p k) (hi.full.core.knodup p k) (fun _ _ _ => hone)
              rw [setKids_self] at this
              exact ⟨this.core, this.kids, fun x => (this.cur x).trans (by simp [hq]), this.roots⟩
            | [q], _ =>
              rw [hq] at h1; simp only [List.head?_cons, Option.toList_some, each, Option.bind_some] at h1
              have hqk : q ∈ w.tree.kids p k := by simp [hq]
              have hqb := (hi.full.kids p k q).1 hqk
              have hqo := hrep q hqk
              have hne : o ≠ q := by rintro rfl; exact hqo .refl
              have h1 : kidRemove c M n { w with tree := takeOut M w.tree o } q = some w1 := by
                cases hh : kidRemove c M n { w with tree := takeOut M w.tree o } q with
                | none => rw [hh] at h1; simp at h1
                | some w2 => rw [hh] at h1; simp only [Option.bind_some, Option.some.injEq] at h1; rw [h1]
              have m0 : Mid M w.tree p k (· ∈ w.tree.kids p k) := by
                have := hi.full.mid p k (l := w.tree.kids p k) (hi.full.core.knodup p k) (fun _ _ _ => hone)
                rwa [setKids_self] at this
              have hs : Sound (takeOut M w.tree o) q := by
                intro y hy j x
                rw [takeOut_box] at hy
                rw [takeOut_kids m0 hin, takeOut_box, hi.full.kids]
                constructor
                · exact fun h => h.1
                · refine fun h => ⟨h, ?_⟩
                  rintro ⟨rfl, hb⟩
                  exact hqo (.step hb hy)
              obtain ⟨ht, hS'⟩ := basicSetContainer_has hw h1 (takeOut_core hi.full.core o) hs (hi.has.iff rfl rfl fun r x =>
                In.congr_iff (t := w.tree) (t' := takeOut M w.tree o) (takeOut_own ..) (takeOut_box ..)) (by simp)
              have hown : (takeOut M w.tree o).own q = none := by
                rw [takeOut_own]; exact (hi.full.core.sep q).resolve_right (by simp [hqb])
              have hmv : moved (takeOut M w.tree o) q none = (takeOut M w.tree o).setBox q none := by unfold moved; rw [hown]
              simp only [] at ht
              rw [hmv] at ht
              rw [ht] at hS'
              have hco := moved_core hi.full.core (o := q) (b := none) (by simp)
              have hmv' : moved w.tree q none = w.tree.setBox q none := by
                rw [takeOut_own] at hown; unfold moved; rw [hown]
              rw [hmv'] at hco
              have hpq : ¬ Inside w.tree.box q p := hi.full.core.rank.acyclic hqb
              have hbo : (w.tree.setBox q none).box o = w.tree.box o := by simp [Tree.setBox, put, hne]
              have hcomm : takeOut M (w.tree.setBox q none) o = (takeOut M w.tree o).setBox q none := by
                unfold takeOut; rw [hbo]
                cases w.tree.box o with
                | none => rfl
                | some cj => simp only []; split <;> rfl
              refine ⟨w.tree.setBox q none, ⟨hco, fun y j hne' x => ?_, fun x => ?_, hi.full.roots⟩, by rw [ht, hcomm],
                hS'.iff rfl rfl fun r x => In.congr_iff (by simp [Tree.setBox, takeOut_own]) (by simp [Tree.setBox, takeOut_box]), ?_, hfl,
                by rw [hbo]; exact hbk⟩
              · simp only [Tree.setBox, put]
                rw [hi.full.kids]
                split
                · next e => subst e; rw [hqb]; simp; intro h1 h2; exact hne' ⟨h1.symm, h2.symm⟩
                · rfl
              · simp only [Tree.setBox, put]
                split
                · simp
                · next ne => rw [← hi.full.kids, hq]; simp [ne]
              · intro hc
                rw [Inside.other_iff (b := w.tree.box) (o := q) (fun y hy => by simp [Tree.setBox, put, hy]) hpq] at hc
                exact hp hc
          obtain ⟨t1, m1, e1, s1, hp1, hf1, hb1⟩ := key
          have single : ∀ g : Ref, M[k]? = some g → g.many = false → [o].length ≤ 1 := by simp
          have m2 : Mid M (t1.setKids p k [o]) p k (fun _ => False) := by
            refine ⟨m1.core.setKids (by simp) single, fun y j hne x => ?_, m1.cur, m1.roots⟩
            rw [setKids_kids, if_neg hne]; exact m1.kids y j hne x
          obtain ⟨m3, s3, k3, b3, o3⟩ := put_mid hw h2 (t := t1.setKids p k [o])
            (by rw [takeOut_setKids hb1, e1]) m2 (by simp) hp1 hk hf1
            (s1.iff rfl rfl fun r x => In.congr_iff (t := t1) (t' := t1.setKids p k [o]) rfl rfl)
          refine ⟨?_, s3⟩
          have hkids : w'.tree.kids p k = [o] := by rw [k3]; simp [setKids_kids]
          have := m3.full (l := [o]) (by simp) single (fun x => by simp)
          rw [← hkids, setKids_self] at this
          exact this
    · injection h with h; subst h; exact hi
  · simp at h

/-! ### The contents of a resource -/

/-- a tree in the middle of a call on the contents of `r` -/
structure MidR (M : List Ref) (t : Tree) (r : Nat) (cur : Nat → Prop) : Prop where
  core : Core M t
  kids : ∀ y j x, x ∈ t.kids y j ↔ t.box x = some (y, j)
  roots : ∀ r', r' ≠ r → ∀ x, x ∈ t.roots r' ↔ t.own x = some r'
  cur : ∀ x, t.own x = some r ↔ cur x

theorem Core.setRoots {M : List Ref} {t : Tree} (h : Core M t) {r : Nat} {l : List Nat} (hl : l.Nodup) : Core M (t.setRoots r l) := by
  refine ⟨h.knodup, fun r' => ?_, h.sep, h.rank, h.lt, h.one⟩
  simp only [Tree.setRoots, put]; split
  · exact hl
  · exact h.rnodup r'

theorem setRoots_self (t : Tree) (r : Nat) : t.setRoots r (t.roots r) = t := by
  have : (t.setRoots r (t.roots r)).roots = t.roots := by
    funext y; simp only [Tree.setRoots, put]; split
    · next e => rw [e]
    · rfl
  cases t; simp only [Tree.setRoots] at this ⊢; rw [this]

theorem Full.midR {M : List Ref} {t : Tree} (h : Full M t) (r : Nat) {l : List Nat} (hl : l.Nodup) :
    MidR M (t.setRoots r l) r (· ∈ t.roots r) :=
  ⟨h.core.setRoots hl, h.kids, fun r' hne x => by simp only [Tree.setRoots, put, if_neg hne]; exact h.roots r' x,
    fun x => (h.roots r x).symm⟩

theorem MidR.full {M : List Ref} {t : Tree} {r : Nat} {cur : Nat → Prop} (h : MidR M t r cur) {l : List Nat} (hl : t.roots r = l)
    (hc : ∀ x, x ∈ l ↔ cur x) : Full M t := by
  refine ⟨h.core, h.kids, fun r' x => ?_⟩
  by_cases e : r' = r
  · subst e; rw [hl, hc, h.cur]
  · exact h.roots r' e x

theorem setOwn_core {M : List Ref} {t : Tree} (h : Core M t) {o : Nat} {v : Option Nat} (hv : v = none ∨ t.box o = none) :
    Core M (t.setOwn o v) := by
  refine ⟨h.knodup, h.rnodup, fun x => ?_, h.rank, h.lt, h.one⟩
  simp only [Tree.setOwn, put]; split
  · next e => subst e; exact hv
  · exact h.sep x

theorem rootRemove_mid {c : IDManager.Cfg ID G} {good : G → Prop} {M : List Ref} {n : Nat} {w w' : World ID G} {r e : Nat}
    {cur : Nat → Prop} (h : rootRemove c M n r w e = some w') (hm : MidR M w.tree r cur) (hc : cur e) (hS : Has c good w (In w.tree)) :
    MidR M w'.tree r (fun x => cur x ∧ x ≠ e) ∧ Has c good w' (In w'.tree) ∧ w'.tree = w.tree.setOwn e none := by
  have hown := (hm.cur e).2 hc
  have hbox : w.tree.box e = none := (hm.core.sep e).resolve_left (by simp [hown])
  unfold rootRemove at h
  simp only [Option.bind_eq_bind] at h
  obtain ⟨w1, h1, h2⟩ := Option.bind_eq_some_iff.1 h
  obtain ⟨t1, s1⟩ := detached_has h1 (hm.core.walk fun y _ k x => hm.kids y k x) hS
    (fun x hx => by rw [In.inside hm.core.sep hx, In.of_own hown])
    (S' := fun r' x => In w.tree r' x ∧ ¬ (r' = r ∧ Inside w.tree.box e x)) (fun _ _ => Iff.rfl)
  have : w' = { w1 with tree := w1.tree.setOwn e none } := by
    have b1 : w1.tree.box e = none := by rw [t1]; exact hbox
    have o1 : w1.tree.own e = some r := by rw [t1]; exact hown
    unfold setResource leaveOwn leaveBox at h2
    simp only [o1, b1, Option.bind_eq_bind, Option.bind_some, Option.some.injEq] at h2
    exact h2.symm
  subst this
  simp only [t1]
  have hsep' : ∀ x, (w.tree.setOwn e none).own x = none ∨ (w.tree.setOwn e none).box x = none :=
    (setOwn_core hm.core (o := e) (.inl rfl)).sep
  refine ⟨⟨setOwn_core hm.core (.inl rfl), hm.kids, fun r' hne x => ?_, fun x => ?_⟩, s1.iff rfl rfl fun r' x => ?_, trivial⟩
  · rw [show (w.tree.setOwn e none).roots r' = w.tree.roots r' from rfl, hm.roots r' hne]; simp only [Tree.setOwn, put]
    split
    · next e' => subst e'; rw [hown]; simp; exact fun h => hne h.symm
    · rfl
  · simp only [Tree.setOwn, put]
    split
    · next e' => simp [e']
    · next ne => rw [hm.cur]; simp [ne]
  · by_cases hx : Inside w.tree.box e x
    · rw [In.inside (t := w.tree.setOwn e none) hsep' hx, In.inside hm.core.sep hx, In.of_own hown]
      have : ¬ In (w.tree.setOwn e none) r' e := In.of_none (by simp [Tree.setOwn, put]) hbox
      simp [this, hx]
    · rw [In.other_iff (t := w.tree) (t' := w.tree.setOwn e none) (fun _ _ => rfl)
        (fun y hy => by simp [Tree.setOwn, put, hy]) hx]
      simp [hx]

/-- an object, which is in no resource, becomes a root -/
theorem finish_has {c : IDManager.Cfg ID G} {good : G → Prop} (hw : Works c good) {M : List Ref} {n : Nat} {w w' : World ID G}
    {r e : Nat} {S : Nat → Nat → Prop} (h : attached c M n { w with tree := w.tree.setOwn e (some r) } r e = some w')
    (hc : Core M w.tree) (hs : Sound w.tree e) (hb : w.tree.box e = none) (hS : Has c good w S)
    (h1 : ∀ r' x, Inside w.tree.box e x → ¬ S r' x) (h2 : ∀ r' x, ¬ Inside w.tree.box e x → (S r' x ↔ In w.tree r' x)) :
    w'.tree = w.tree.setOwn e (some r) ∧ Has c good w' (In w'.tree) := by
  have hco := setOwn_core hc (o := e) (v := some r) (.inr hb)
  have := attached_has hw (w := { w with tree := w.tree.setOwn e (some r) }) (S := S) (S' := In (w.tree.setOwn e (some r))) h
    ((hc.walk hs).congr rfl fun _ _ => rfl) (hS.iff rfl rfl fun _ _ => Iff.rfl) (fun x hx => h1 r x hx) (fun r' x => by
      by_cases hx : Inside w.tree.box e x
      · rw [In.inside hco.sep hx, In.of_own (r := r) (by simp [Tree.setOwn, put])]
        have : Inside (w.tree.setOwn e (some r)).box e x := hx
        simp [h1 r' x hx, this]
      · rw [In.other_iff (t := w.tree) (t' := w.tree.setOwn e (some r)) (fun _ _ => rfl)
          (fun y hy => by simp [Tree.setOwn, put, hy]) hx, h2 r' x hx]
        have : ¬ Inside (w.tree.setOwn e (some r)).box e x := hx
        simp [this])
  exact ⟨this.1, this.1 ▸ this.2⟩

theorem rootAdd_mid {c : IDManager.Cfg ID G} {good : G → Prop} (hw : Works c good) {M : List Ref} {n : Nat} {w w' : World ID G}
    {r e : Nat} {cur : Nat → Prop} (h : rootAdd c M n r w e = some w') (hm : MidR M w.tree r cur) (hc : ¬ cur e)
    (hf : ∀ p k, w.tree.box e = some (p, k) → flag M k = false) (hS : Has c good w (In w.tree)) :
    MidR M w'.tree r (fun x => cur x ∨ x = e) ∧ Has c good w' (In w'.tree) ∧ w'.tree.roots r = w.tree.roots r ∧
      ∀ x p k, w'.tree.box x = some (p, k) → w.tree.box x = some (p, k) := by
  have hs : Sound w.tree e := fun y _ k x => hm.kids y k x
  unfold rootAdd at h
  simp only [Option.bind_eq_bind] at h
  obtain ⟨w1, h1, h2⟩ := Option.bind_eq_some_iff.1 h
  unfold setResource leaveOwn leaveBox at h1
  -- the end, for a tree in which nothing but the old place of the object changed
  have done : ∀ (w0 : World ID G) (S : Nat → Nat → Prop), w1 = { w0 with tree := w0.tree.setOwn e (some r) } → Core M w0.tree →
      (∀ y j x, x ∈ w0.tree.kids y j ↔ w0.tree.box x = some (y, j)) → w0.tree.box e = none → Has c good w0 S →
      (∀ r' x, Inside w0.tree.box e x → ¬ S r' x) → (∀ r' x, ¬ Inside w0.tree.box e x → (S r' x ↔ In w0.tree r' x)) →
      (∀ y, y ≠ e → w0.tree.own y = w.tree.own y) → (∀ r', r' ≠ r → ∀ x, x ∈ w0.tree.roots r' ↔ x ∈ w.tree.roots r' ∧ x ≠ e) →
      w0.tree.roots r = w.tree.roots r → (∀ x p k, w0.tree.box x = some (p, k) → w.tree.box x = some (p, k)) →
      MidR M w'.tree r (fun x => cur x ∨ x = e) ∧ Has c good w' (In w'.tree) ∧ w'.tree.roots r = w.tree.roots r ∧
        ∀ x p k, w'.tree.box x = some (p, k) → w.tree.box x = some (p, k) := by
    intro w0 S e1 hco hk hb hS0 a1 a2 ho hr hrr hbx
    subst e1
    obtain ⟨ht, hS'⟩ := finish_has hw h2 hco (fun y _ k x => hk y k x) hb hS0 a1 a2
    rw [ht] at hS' ⊢
    refine ⟨⟨setOwn_core hco (.inr hb), hk, fun r' hne x => ?_, fun x => ?_⟩, hS', hrr, hbx⟩
    · rw [show ((w0.tree.setOwn e (some r)).roots r') = w0.tree.roots r' from rfl, hr r' hne, hm.roots r' hne]
      simp only [Tree.setOwn, put]
      split
      · next e' => subst e'; simp; exact fun h => hne h.symm
      · next ne => rw [ho x ne]; simp [ne]
    · simp only [Tree.setOwn, put]
      split
      · next e' => simp [e']
      · next ne => rw [ho x ne, hm.cur]; simp [ne]
  cases hown : w.tree.own e with
  | some r0 =>
    have hne0 : r0 ≠ r := by rintro rfl; exact hc ((hm.cur e).1 hown)
    have hbox : w.tree.box e = none := (hm.core.sep e).resolve_left (by simp [hown])
    simp only [hown, Option.bind_eq_bind] at h1
    obtain ⟨w2, h3, h4⟩ := Option.bind_eq_some_iff.1 h1
    have hc2 : Core M (w.tree.setRoots r0 ((w.tree.roots r0).erase e)) := hm.core.setRoots ((hm.core.rnodup r0).erase e)
    obtain ⟨t2, s2⟩ := detached_has h3 (hc2.walk fun y _ k x => hm.kids y k x) (S := In w.tree) (hS.iff rfl rfl fun _ _ => Iff.rfl)
      (fun x hx => by rw [In.inside hm.core.sep hx, In.of_own hown])
      (S' := fun r' x => In w.tree r' x ∧ ¬ (r' = r0 ∧ Inside w.tree.box e x)) (fun _ _ => Iff.rfl)
    have hb2 : w2.tree.box e = none := by rw [t2]; exact hbox
    have h5 : w1 = { w2 with tree := w2.tree.setOwn e (some r) } := by
      simp only [hb2, Option.bind_some, Option.some.injEq] at h4
      exact h4.symm
    refine done w2 _ h5 (by rw [t2]; exact hc2) (by rw [t2]; exact hm.kids) hb2 s2 (fun r' x hx => ?_) (fun r' x hx => ?_)
      (by rw [t2]; intro y _; rfl) (fun r' hne x => ?_) (by rw [t2]; simp only [Tree.setRoots, put]; rw [if_neg (fun h => hne0 h.symm)])
      (by rw [t2]; exact fun _ _ _ h => h)
    · rw [t2] at hx
      rw [In.inside hm.core.sep hx, In.of_own hown]
      exact fun hcc => hcc.2 ⟨hcc.1, hx⟩
    · rw [t2] at hx ⊢
      rw [In.congr_iff (t := w.tree) (t' := w.tree.setRoots r0 ((w.tree.roots r0).erase e)) rfl rfl]
      have : ¬ Inside w.tree.box e x := hx
      simp [this]
    · rw [t2]; simp only [Tree.setRoots, put]
      split
      · next e' => subst e'; rw [(hm.core.rnodup r').mem_erase_iff]; exact and_comm
      · next ne =>
        refine ⟨fun hx => ⟨hx, ?_⟩, fun h => h.1⟩
        rintro rfl
        have := (hm.roots r' hne x).1 hx
        rw [hown] at this; injection this with this; exact ne this.symm
  | none =>
    simp only [hown, Option.bind_eq_bind, Option.bind_some] at h1
    have hnr : ∀ r', r' ≠ r → ∀ x, x ∈ w.tree.roots r' ↔ x ∈ w.tree.roots r' ∧ x ≠ e := by
      intro r' hne x
      refine ⟨fun hx => ⟨hx, ?_⟩, fun h => h.1⟩
      rintro rfl
      have := (hm.roots r' hne x).1 hx
      rw [hown] at this; simp at this
    cases hbox : w.tree.box e with
    | none =>
      simp only [hbox, Option.bind_some, Option.some.injEq] at h1
      refine done w (In w.tree) h1.symm hm.core hm.kids hbox hS (fun r' x hx => ?_) (fun _ _ _ => Iff.rfl) (fun _ _ => rfl) hnr rfl
        (fun _ _ _ h => h)
      rw [In.inside hm.core.sep hx]; exact In.of_none hown hbox
    | some pk =>
      obtain ⟨p, k⟩ := pk
      simp only [hbox, hf p k hbox] at h1
      rw [if_neg (by simp)] at h1
      obtain ⟨w2, h3, h4⟩ := Option.bind_eq_some_iff.1 h1
      have hm0 : Mid M w.tree p k (fun x => w.tree.box x = some (p, k)) → True := fun _ => trivial
      have hacy := hm.core.rank.acyclic hbox
      -- out of the list of the container
      have tk : ∀ y j x, x ∈ (takeOut M w.tree e).kids y j ↔ x ∈ w.tree.kids y j ∧ ¬ (x = e ∧ w.tree.box e = some (y, j)) := by
        intro y j x
        have hk := hm.core.lt _ _ _ hbox
        have hin : e ∈ w.tree.kids p k := (hm.kids p k e).2 hbox
        unfold takeOut
        rw [hbox]
        simp only [List.getElem?_eq_getElem hk]
        rw [setKids_kids]
        by_cases hy : y = p ∧ j = k
        · obtain ⟨rfl, rfl⟩ := hy
          rw [if_pos ⟨rfl, rfl⟩]
          cases hmany : M[j].many with
          | true =>
            rw [if_pos rfl, (hm.core.knodup y j).mem_erase_iff]
            simp [and_comm]
          | false =>
            have := hm.core.one y j _ (List.getElem?_eq_getElem hk) hmany
            match hkk : w.tree.kids y j, this, hin with
            | [a], _, hin => simp at hin; subst hin; simp
        · rw [if_neg hy]
          simp only [Option.some.injEq, Prod.mk.injEq]
          exact ⟨fun h => ⟨h, fun hc => hy ⟨hc.2.1.symm, hc.2.2.symm⟩⟩, fun h => h.1⟩
      have hs2 : Sound (takeOut M w.tree e) e := by
        intro y hy j x
        rw [takeOut_box] at hy ⊢
        rw [tk, hm.kids]
        refine ⟨fun h => h.1, fun h => ⟨h, ?_⟩⟩
        rintro ⟨rfl, hb⟩
        exact hm.core.rank.acyclic hb hy
      have hct := takeOut_core hm.core e
      obtain ⟨t2, s2⟩ := basicSetContainer_has hw h3 hct hs2
        (hS.iff rfl rfl fun _ _ => In.congr_iff (takeOut_own ..) (takeOut_box ..)) (by simp)
      have hmv : moved (takeOut M w.tree e) e none = (takeOut M w.tree e).setBox e none := by
        unfold moved; rw [takeOut_own, hown]
      have hc3 := moved_core hct (o := e) (b := none) (by simp)
      simp only [] at t2
      rw [hmv] at t2 hc3
      simp only [Option.some.injEq] at h4
      have hb3 : w2.tree.box e = none := by rw [t2]; simp [Tree.setBox, put]
      have ho3 : w2.tree.own e = none := by rw [t2]; simp [Tree.setBox, takeOut_own, hown]
      have hc3' : Core M w2.tree := by rw [t2]; exact hc3
      refine done w2 (In w2.tree) h4.symm hc3' (fun y j x => ?_) hb3 s2 (fun r' x hx => ?_) (fun _ _ _ => Iff.rfl)
        (by rw [t2]; intro y _; simp [Tree.setBox, takeOut_own]) (by rw [t2]; simpa [Tree.setBox, takeOut_roots] using hnr)
        (by rw [t2]; simp [Tree.setBox, takeOut_roots]) (fun x p' k' hx => ?_)
      · rw [t2, show ((takeOut M w.tree e).setBox e none).kids = (takeOut M w.tree e).kids from rfl, tk, hm.kids]
        simp only [Tree.setBox, put, takeOut_box]
        split
        · next e' => subst e'; simp
        · next ne => simp [ne]
      · rw [In.inside hc3'.sep hx]; exact In.of_none ho3 hb3
      · rw [t2] at hx
        simp only [Tree.setBox, put, takeOut_box] at hx
        split at hx
        · simp at hx
        · exact hx

theorem rootRemoves_mid {c : IDManager.Cfg ID G} {good : G → Prop} {M : List Ref} {n r : Nat} :
    ∀ (l : List Nat) (w w' : World ID G) (cur : Nat → Prop), each (rootRemove c M n r) w l = some w' → MidR M w.tree r cur →
      (∀ e ∈ l, cur e) → l.Nodup → Has c good w (In w.tree) →
      MidR M w'.tree r (fun x => cur x ∧ x ∉ l) ∧ Has c good w' (In w'.tree) ∧ w'.tree.roots r = w.tree.roots r ∧
        w'.tree.box = w.tree.box := by
  intro l
  induction l with
  | nil =>
    intro w w' cur h hm _ _ hS
    simp [each] at h; subst h
    exact ⟨⟨hm.core, hm.kids, hm.roots, by simpa using hm.cur⟩, hS, rfl, rfl⟩
  | cons e l ih =>
    intro w w' cur h hm hc hd hS
    obtain ⟨d1, d2⟩ := List.nodup_cons.1 hd
    simp only [each] at h
    obtain ⟨w1, h1, h2⟩ := Option.bind_eq_some_iff.1 h
    obtain ⟨m1, s1, t1⟩ := rootRemove_mid h1 hm (hc e (by simp)) hS
    obtain ⟨m2, s2, r2, b2⟩ := ih w1 w' _ h2 m1 (fun x hx => ⟨hc x (by simp [hx]), by rintro rfl; exact d1 hx⟩) d2 s1
    refine ⟨⟨m2.core, m2.kids, m2.roots, fun x => (m2.cur x).trans ?_⟩, s2, by rw [r2, t1]; rfl, by rw [b2, t1]; rfl⟩
    simp [and_assoc]

theorem rootAdds_mid {c : IDManager.Cfg ID G} {good : G → Prop} (hw : Works c good) {M : List Ref} {n r : Nat} :
    ∀ (l : List Nat) (w w' : World ID G) (cur : Nat → Prop), each (rootAdd c M n r) w l = some w' → MidR M w.tree r cur →
      (∀ e ∈ l, ¬ cur e) → l.Nodup → (∀ e ∈ l, ∀ p k, w.tree.box e = some (p, k) → flag M k = false) → Has c good w (In w.tree) →
      MidR M w'.tree r (fun x => cur x ∨ x ∈ l) ∧ Has c good w' (In w'.tree) ∧ w'.tree.roots r = w.tree.roots r := by
  intro l
  induction l with
  | nil =>
    intro w w' cur h hm _ _ _ hS
    simp [each] at h; subst h
    exact ⟨⟨hm.core, hm.kids, hm.roots, by simpa using hm.cur⟩, hS, rfl⟩
  | cons e l ih =>
    intro w w' cur h hm hc hd hf hS
    obtain ⟨d1, d2⟩ := List.nodup_cons.1 hd
    simp only [each] at h
    obtain ⟨w1, h1, h2⟩ := Option.bind_eq_some_iff.1 h
    obtain ⟨m1, s1, r1, b1⟩ := rootAdd_mid hw h1 hm (hc e (by simp)) (hf e (by simp)) hS
    obtain ⟨m2, s2, r2⟩ := ih w1 w' _ h2 m1 (fun x hx => by
      rintro (h | rfl)
      · exact hc x (by simp [hx]) h
      · exact d1 hx) d2 (fun x hx p k hb => hf x (by simp [hx]) p k (b1 x p k hb)) s1
    refine ⟨⟨m2.core, m2.kids, m2.roots, fun x => (m2.cur x).trans ?_⟩, s2, by rw [r2, r1]⟩
    simp [or_assoc]

theorem contentsOp_inv {c : IDManager.Cfg ID G} {good : G → Prop} (hw : Works c good) {M : List Ref} {n : Nat}
    {w w' : World ID G} {r : Nat} {op : LOp} (h : contentsOp c M n w r op = some w') (hi : Inv c good M w)
    (hf : ∀ e ∈ given op, FitsRoot M w.tree e) : Inv c good M w' := by
  unfold contentsOp at h
  cases hp : plan (w.tree.roots r) op with
  | none => simp [hp] at h
  | some q =>
    obtain ⟨l, out, inn⟩ := q
    simp only [hp, Option.bind_eq_bind, Option.bind_some] at h
    obtain ⟨w1, h1, h2⟩ := Option.bind_eq_some_iff.1 h
    obtain ⟨ok, hg⟩ := plan_spec (hi.full.core.rnodup r) op hp
    obtain ⟨m1, s1, r1, b1⟩ := rootRemoves_mid out { w with tree := w.tree.setRoots r l } w1 _ h1 (hi.full.midR r ok.nodup)
      ok.old_mem ok.old_nodup (hi.has.iff rfl rfl fun r' x => In.congr_iff (t := w.tree) (t' := w.tree.setRoots r l) rfl rfl)
    obtain ⟨m2, s2, r2⟩ := rootAdds_mid hw inn w1 w' _ h2 m1 (fun e he hc => ok.new_mem e he hc.1) ok.new_nodup (fun e he p k hb => by
      rw [b1] at hb
      have hb : w.tree.box e = some (p, k) := hb
      rw [flag_false (hi.full.core.lt e p k hb)]
      exact hf e (hg e he) p k ((hi.full.kids p k e).2 hb)) s1
    refine ⟨m2.full (l := l) (by rw [r2, r1]; simp [Tree.setRoots, put]) fun x => ok.mem x, s2⟩

theorem step_inv {c : IDManager.Cfg ID G} {good : G → Prop} (hw : Works c good) {M : List Ref} {n : Nat}
    {w w' : World ID G} {op : Op} (h : step c M n w op = some w') (hi : Inv c good M w) (hp : Plain M w.tree op) : Inv c good M w' := by
  cases op with
  | contents r op => exact contentsOp_inv hw h hi hp
  | list p k op => exact listOp_inv hw h hi hp
  | set p k v => exact setKid_inv hw h hi hp
  | container o k v => exact setContainer_inv hw h hi hp
  | unload r => exact hp.elim

theorem run_inv {c : IDManager.Cfg ID G} {good : G → Prop} (hw : Works c good) {M : List Ref} {n : Nat} : ∀ (ops : List Op)
    (w w' : World ID G), run c M n w ops = some w' → Inv c good M w → PlainRun c M n w ops → Inv c good M w' := by
  intro ops
  induction ops with
  | nil => intro w w' h hi _; simp [run] at h; subst h; exact hi
  | cons op ops ih =>
    intro w w' h hi hp
    simp only [run] at h
    obtain ⟨w1, h1, h2⟩ := Option.bind_eq_some_iff.1 h
    exact ih w1 w' h2 (step_inv hw h1 hi hp.1) (hp.2 w1 h1)

theorem init_inv {c : IDManager.Cfg ID G} {good : G → Prop} (M : List Ref) {gen : Nat → Option G} (hg : ∀ r g, gen r = some g → good g)
    (listens : Nat → Bool) : Inv c good M (init gen listens : World ID G) := by
  have no : ∀ r x, ¬ In (init gen listens : World ID G).tree r x := by
    intro r x h
    cases h with
    | own h => simp [init] at h
    | box _ h _ => simp [init] at h
  refine ⟨⟨⟨by simp [init], by simp [init], by simp [init], ⟨fun _ => 0, 0, by simp, by simp [init]⟩, by simp [init], by simp [init]⟩,
    by simp [init], by simp [init]⟩, ⟨fun r m hm => ?_, fun r l hl x => ?_⟩⟩
  · simp only [init, Option.map_eq_some_iff] at hm
    obtain ⟨g, h1, rfl⟩ := hm
    exact ⟨mok_init (hg r g h1), by simp [IDManager.init], fun x => by simp [IDManager.init, no]⟩
  · simp only [init] at hl
    split at hl
    · injection hl with hl; subst hl
      exact ⟨false, rfl, by simp [no]⟩
    · simp at hl

theorem member_iff {M : List Ref} {t : Tree} (h : Full M t) {r x : Nat} : Member t r x ↔ In t r x := by
  constructor
  · rintro ⟨root, h1, h2⟩
    rw [In.inside h.core.sep h2]
    exact .own ((h.roots r root).1 h1)
  · intro hi
    induction hi with
    | own h1 => exact ⟨_, (h.roots r _).2 h1, .refl⟩
    | box _ h2 _ ih =>
      obtain ⟨root, h3, h4⟩ := ih
      exact ⟨root, h3, .step h2 h4⟩

end
end Verif.Attach
